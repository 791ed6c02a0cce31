"""Write AXIOMS.md: the axioms of every theorem of the manifest, as Lean reports them. Needs a built /verif/lean."""
import collections, json, re, subprocess, tempfile
names = sorted({t for c in json.load(open('/verif/MANIFEST.json'))['claims'] for t in c['theorems']})
with tempfile.NamedTemporaryFile('w', suffix='.lean', delete=False) as f:
    f.write('import Verif\n' + ''.join('#print axioms %s\n' % n for n in names))
out = subprocess.run(['lake', 'env', 'lean', f.name], cwd='/verif/lean', capture_output=True, text=True).stdout
groups = collections.defaultdict(list)
for n, ax in re.findall(r"'([^']+)' depends on axioms: \[([^\]]*)\]", out):
    groups[', '.join(sorted(a.strip() for a in ax.split(',')))].append(n)
for n in re.findall(r"'([^']+)' does not depend on any axioms", out):
    groups['none'].append(n)
assert sorted(n for g in groups.values() for n in g) == names, 'not all theorems were reported'
with open('/verif/AXIOMS.md', 'w') as f:
    f.write('# Axioms of the theorems in MANIFEST.json\n\nGenerated by `tools/gen_axioms.py` from `#print axioms`.\n')
    for ax in sorted(groups):
        f.write('\n## %s\n\n' % ax + ''.join('* `%s`\n' % n for n in sorted(groups[ax])))
print({a: len(g) for a, g in groups.items()})
