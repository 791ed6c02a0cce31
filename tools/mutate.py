"""Try wrong programs: edit one definition of the model in a scratch copy, build, and record which theorems fail.

usage: mutate.py MUTANTS.json LOG.jsonl   (the scratch copy is /tmp/mut, a copy of /verif/lean with its build)

MUTANTS.json is a list of {"id", "file", "definition", "old", "new", "claim"}. `old` must occur exactly once in the file.
/tmp/mutwork/deps.tsv lists for every constant the constants it uses; it gives the claims whose theorems rest on a
lemma that failed.
"""
import collections, json, os, re, subprocess, sys, time

ROOT = '/tmp/mut'
manifest = json.load(open('/verif/MANIFEST.json'))
prop_of = collections.defaultdict(set)
for c in manifest['claims']:
    for t in c['theorems']:
        prop_of[t].add(c['property'])

users = collections.defaultdict(set)
for line in open('/tmp/mutwork/deps.tsv'):
    n, _, us = line.rstrip('\n').partition('\t')
    for u in us.split():
        users[u].add(n)

DECL = re.compile(r'^(?:@\[[^\]]*\]\s*)?(?:(?:private|protected|noncomputable)\s+)*(theorem|lemma|def|instance|example|abbrev|structure|inductive)\b\s*([^\s:({\[]*)')

def decl_at(path, line):
    """The declaration that contains a line, with its namespace."""
    ns, found = [], None
    for n, text in enumerate(open(path), 1):
        if n > line:
            break
        m = re.match(r'^namespace\s+(\S+)', text)
        if m:
            ns.append(m.group(1))
        m = re.match(r'^end\s+(\S+)', text)
        if m and ns and ns[-1] == m.group(1):
            ns.pop()
        m = DECL.match(text)
        if m:
            name = m.group(2)
            if name.startswith('_root_.'):
                full = name[len('_root_.'):]
            else:
                full = '.'.join(ns + [name]) if name else '.'.join(ns)
            found = (m.group(1), full if name else '%s:%d' % (os.path.relpath(path, ROOT), n))
    return found

def resting(names):
    """Theorems of the manifest that use one of the names, directly or not."""
    seen, todo = set(names), list(names)
    while todo:
        x = todo.pop()
        for u in users.get(x, ()):
            if u not in seen:
                seen.add(u)
                todo.append(u)
    return sorted(t for t in prop_of if t in seen)

def build():
    r = subprocess.run(['lake', 'build'], cwd=ROOT, capture_output=True, text=True)
    return r.returncode, r.stdout + r.stderr

def main():
    mutants = json.load(open(sys.argv[1]))
    log = sys.argv[2]
    done = set()
    if os.path.exists(log):
        for l in open(log):
            done.add(json.loads(l)['id'])
    for m in mutants:
        if m['id'] in done:
            continue
        path = os.path.join(ROOT, m['file'])
        src = open(path).read()
        if src.count(m['old']) != 1:
            print(m['id'], 'old text occurs', src.count(m['old']), 'times')
            continue
        t0 = time.time()
        open(path, 'w').write(src.replace(m['old'], m['new']))
        try:
            code, out = build()
            errs = collections.OrderedDict()
            for f, l in re.findall(r'error: (?:\./)?(Verif[^\s:]*\.lean):(\d+):\d+', out):
                d = decl_at(os.path.join(ROOT, f), int(l))
                if d:
                    errs[d[1]] = (d[0], f)
            note = None
            if code != 0 and not errs:
                # a killed process leaves its messages cut off, without positions: run its module alone and read plain messages
                for mod in re.findall(r'^- (Verif\S*)$', out, re.M):
                    f = mod.replace('.', '/') + '.lean'
                    r = subprocess.run(['timeout', '900', 'lake', 'env', 'lean', f], cwd=ROOT, capture_output=True, text=True)
                    out += r.stdout + r.stderr
                    note = '%s run alone: lean ended with code %d; only declarations with a reported error are listed' % (mod, r.returncode)
                    for g, l in re.findall(r'^(Verif[^\s:]*\.lean):(\d+):\d+: error', r.stdout, re.M):
                        d = decl_at(os.path.join(ROOT, g), int(l))
                        if d:
                            errs[d[1]] = (d[0], g)
        finally:
            open(path, 'w').write(src)
        if any(f == m['file'] for _, f in errs.values()):
            print(m['id'], 'does not compile:', out[:600])
            continue
        failed = [n for n, (k, f) in errs.items() if k in ('theorem', 'lemma')]
        examples = [n for n, (k, f) in errs.items() if k == 'example']
        others = [n for n, (k, f) in errs.items() if k not in ('theorem', 'lemma', 'example')]
        if code != 0 and not errs:
            # the build failed but no declaration is to blame (killed, out of memory, ...): this says nothing about the theorems
            print(m['id'], 'unclear, not logged:', out[-3000:], flush=True)
            continue
        if examples and not failed + others:
            note = 'only an example failed, which is a test and no theorem'
        props = resting(failed + others)
        rec = {'id': m['id'], 'file': m['file'], 'definition': m['definition'], 'edit': {'from': m['old'], 'to': m['new']}, 'breaks': m['claim'],
               'outcome': 'caught' if failed + others else 'survived', 'theorems_failed': failed + others, 'examples_failed': examples,
               'claims_resting_on_them': sorted({p for t in props for p in prop_of[t]}), 'property_theorems': props,
               'theorems_tightened': m.get('tightened', []), 'seconds': round(time.time() - t0)}
        if note:
            rec['note'] = note
        with open(log, 'a') as f:
            f.write(json.dumps(rec) + '\n')
        print(m['id'], rec['outcome'], rec['seconds'], failed[:4], rec['claims_resting_on_them'], flush=True)
    print(build()[0], 'clean build')

main()
