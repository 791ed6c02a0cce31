"""Compare the model with the expectations recorded in the project's own tests.

Reads the tests in /repo/python/tests as text and writes a Lean file with their syntax trees and an interpreter for them on top of the model
(conformance_prelude.txt). Usage: conformance.py OUT.lean; then `lake env lean OUT.lean` in /verif/lean prints how many tests of each file pass, and why
the others do not. Nothing of the project is run. These are tests of the model, not proofs.

The snapshots of tests/analyzer (which match_object_snapshot of tests/util.py does not really compare) are compared without `parent`; the types of
the lines of multiline fields, which the model has only implicitly, are filled in.

Left out: tests/test_messages.py (it only checks that the messages of the other languages are strings) and the property-based test in tests/test_parse.py.
"""
import ast, glob, json, os, re, sys

TESTS = '/repo/python/tests'

def lit(s):
    out = '"'
    for c in s:
        out += {'"': '\\"', '\\': '\\\\', '\n': '\\n', '\t': '\\t', '\r': '\\r'}.get(c) or (c if c >= ' ' else '\\x%02x' % ord(c))
    return out + '"'

def lst(xs):
    return '[' + ', '.join(xs) + ']'

class Skip(Exception):
    pass

def data(x):
    if x is None: return '.none'
    if isinstance(x, bool): return f'.bool {str(x).lower()}'
    if isinstance(x, int): return f'.int {x}'
    if isinstance(x, str): return f'.str {lit(x)}'
    if isinstance(x, list): return '.list ' + lst(map(data, x))
    return '.dict ' + lst(f'({lit(k)}, {data(v)})' for k, v in x.items())

def constant(e):
    """Texts that are written with .strip() and so on."""
    if isinstance(e, ast.Call) and isinstance(e.func, ast.Attribute) and isinstance(e.func.value, ast.Constant) and e.func.attr in ('strip', 'lstrip', 'rstrip'):
        return getattr(e.func.value.value, e.func.attr)()

def ex(e):
    c = constant(e)
    if c is not None: return data(c)
    if isinstance(e, ast.Constant): return data(e.value)
    if isinstance(e, ast.List): return '.list ' + lst(map(ex, e.elts))
    if isinstance(e, ast.Dict): return '.dict ' + lst(f'({lit(k.value)}, {ex(v)})' for k, v in zip(e.keys, e.values))
    if isinstance(e, ast.Name): return f'.var {lit(e.id)}'
    if isinstance(e, ast.Lambda): return f'.lam {lst(lit(a.arg) for a in e.args.args)} ({ex(e.body)})'
    if isinstance(e, ast.JoinedStr):
        return '.fstr ' + lst(ex(v.value) if isinstance(v, ast.FormattedValue) else ex(v) for v in e.values)
    if isinstance(e, ast.ListComp) and len(e.generators) == 1 and not e.generators[0].ifs:
        g = e.generators[0]
        return f'.comp ({ex(e.elt)}) {lit(g.target.id)} ({ex(g.iter)})'
    if isinstance(e, ast.Compare) and len(e.ops) == 1 and isinstance(e.ops[0], (ast.Eq, ast.Is)):
        return f'.eq ({ex(e.left)}) ({ex(e.comparators[0])})'
    if isinstance(e, ast.UnaryOp) and isinstance(e.op, ast.Not): return f'.not ({ex(e.operand)})'
    if isinstance(e, ast.Subscript): return f'.sub ({ex(e.value)}) ({ex(e.slice)})'
    if isinstance(e, ast.Call):
        f = e.func
        if ast.unparse(e).endswith("._context).report_element(document._context.document['elements'][0]).snippet()"):
            return '.fn "report first element" [.var "document"]'
        args = lst(map(ex, e.args))
        if isinstance(f, ast.Name):
            if f.id == 'snapshot':
                path = os.path.join('/repo/python', e.args[1].value)
                text = open(path).read()
                return data(json.loads(text) if path.endswith('.json') else text)
            if f.id == 'parse' or not e.keywords: return f'.fn {lit(f.id)} {args}'
        elif isinstance(f.value, ast.Name) and f.value.id == 'enolib':
            names = [k.arg for k in e.keywords]
            extra = [ex(k.value) for k in e.keywords]
            if f.attr == 'register' and not e.args: return f'.fn "register" [.str {lit(names[0])}, {extra[0]}]'
            name = f.attr if f.attr != 'lookup' else 'lookup ' + names[0]
            return f'.fn {lit(name)} ' + lst(list(map(ex, e.args)) + extra)
        elif not e.keywords:
            return f'.method ({ex(f.value)}) {lit(f.attr)} {args}'
    if isinstance(e, ast.Attribute): return f'.attr ({ex(e.value)}) {lit(e.attr)}'
    raise Skip(ast.unparse(e))

def name_of(e):
    return e.attr if isinstance(e, ast.Attribute) else e.id

def stm(s):
    if isinstance(s, ast.Assign) and isinstance(s.targets[0], ast.Name): return f'.assign {lit(s.targets[0].id)} ({ex(s.value)})'
    if isinstance(s, ast.Expr): return f'.expr ({ex(s.value)})'
    if isinstance(s, ast.Raise): return f'.raise ({ex(s.exc)})'
    if isinstance(s, ast.Assert): return f'.assert ({ex(s.test)})'
    if isinstance(s, ast.Try) and len(s.handlers) == 1:
        h = s.handlers[0]
        return f'.attempt {block(s.body)} {lit(name_of(h.type))} {lit(h.name)} {block(h.body)}'
    if isinstance(s, ast.With):
        i = s.items[0]
        return f'.expect {lit(name_of(i.context_expr.args[0]))} {lit(i.optional_vars.id)} {block(s.body)}'
    if isinstance(s, ast.For): return f'.each {lit(s.target.id)} ({ex(s.iter)}) {block(s.body)}'
    if isinstance(s, ast.FunctionDef): return f'.define {lit(s.name)} {lst(lit(a.arg) for a in s.args.args)} {block(s.body)}'
    if isinstance(s, ast.If): return f'.branch ({ex(s.test)}) {block(s.body)} {block(s.orelse)}'
    raise Skip(ast.unparse(s))

def block(ss):
    return lst(map(stm, ss))

def space(*tokens):
    """tests/patterns/util.py"""
    out = ['']
    for t in reversed(list(tokens) + ['']):
        out = [p + t + v for v in out for p in ('', '   ')]
    return out

def scenarios():
    index = {m.group(1): int(m.group(2)) for m in re.finditer(r'^\s*(\w+_INDEX) = (\d+)', open('/repo/python/enolib/grammar_regex.py').read(), re.M)}
    tree = ast.parse(open(TESTS + '/patterns/scenarios.py').read())
    for d in next(s for s in tree.body if isinstance(s, ast.Assign)).value.elts:
        x = {k.value: v for k, v in zip(d.keys, d.values)}
        v = x['variants']
        variants = [c.value for c in v.elts] if isinstance(v, ast.List) else space(*[c.value for c in v.args])
        if 'captures' in x:
            caps = sorted((index[k.attr], c.value) for k, c in zip(x['captures'].keys, x['captures'].values))
            captures = 'some ' + lst(f'({n}, {lit(c)})' for n, c in caps)
        else:
            captures = 'none'
        yield x['syntax'].value, variants, captures

def scalar(t):
    if t in ('true', 'false'): return t == 'true'
    if t == '[]': return []
    if t in ('null', ''): return None
    if re.fullmatch(r'-?[0-9]+', t): return int(t)
    if t[0] == "'": return t[1:-1].replace("''", "'")
    if t[0] == '"': return json.loads(t)
    return t

def yaml(lines, at, indent):
    """The part of YAML that the snapshots of tests/analyzer use. `lines` are pairs of indentation and text."""
    if lines[at][1].startswith('- ') or lines[at][1] == '-':
        out = []
        while at < len(lines) and lines[at][0] == indent and lines[at][1][:1] == '-':
            rest = re.sub(r'^&\w+ ?', '', lines[at][1][2:])
            if rest == '':
                v, at = yaml(lines, at + 1, lines[at + 1][0])
            elif re.match(r'[\w ]+:( |$)', rest):
                lines[at] = (indent + 2, rest)
                v, at = yaml(lines, at, indent + 2)
            else:
                v, at = scalar(rest), at + 1
            out.append(v)
        return out, at
    out = {}
    while at < len(lines) and lines[at][0] == indent and lines[at][1][:1] != '-':
        k, rest = lines[at][1].split(':', 1)
        rest = re.sub(r'^(&\w+|!!python/tuple) ?', '', rest.strip())
        if rest.startswith('*'):
            at += 1
        elif rest:
            out[k], at = scalar(rest), at + 1
        else:
            out[k], at = yaml(lines, at + 1, lines[at + 1][0])
    return out, at

def analyses():
    for path in sorted(glob.glob(TESTS + '/analyzer/test_*.py')):
        tree = ast.parse(open(path).read())
        input = next(s.value.value if isinstance(s.value, ast.Constant) else constant(s.value) for s in tree.body if isinstance(s, ast.Assign))
        snap = next(n.args[1].value for n in ast.walk(tree) if isinstance(n, ast.Call) and isinstance(n.func, ast.Name) and n.func.id == 'match_object_snapshot')
        lines = [(len(l) - len(l.lstrip(' ')), l.lstrip(' ')) for l in open(os.path.join('/repo/python', snap)).read().split('\n') if l]
        x, at = yaml(lines, 0, 0)
        assert at == len(lines), path
        yield os.path.relpath(path, TESTS), input, x

out = [open(os.path.join(os.path.dirname(os.path.abspath(__file__)), 'conformance_prelude.txt')).read()]
count = variants_count = 0
for path in sorted(glob.glob(TESTS + '/**/test_*.py', recursive=True)):
    short = os.path.relpath(path, TESTS)
    if short.startswith(('analyzer/', 'patterns/')) or short == 'test_messages.py':
        continue
    tree = ast.parse(open(path).read())
    try:
        module = block([s for s in tree.body if isinstance(s, (ast.Assign, ast.Expr))])
    except Skip as x:
        print(short, 'left out:', x)
        continue
    tests = []
    for s in tree.body:
        if isinstance(s, ast.FunctionDef) and s.name.startswith('test'):
            try:
                if s.args.args: raise Skip('arguments')
                tests.append(f'({lit(s.name)}, {block(s.body)})')
            except Skip as x:
                print(short, s.name, 'left out:', x)
    count += len(tests)
    out.append(f'#eval runFile {lit(short)} {module}\n  [' + ',\n   '.join(tests) + ']\n')
for name, variants, captures in scenarios():
    variants_count += len(variants)
    out.append(f'#eval scenario {lit(name)} {lst(map(lit, variants))} ({captures})')
for name, input, x in analyses():
    out.append(f'#eval analysis {lit(name)} {lit(input)} ({data(x)})')
open(sys.argv[1], 'w').write('\n'.join(out))
print(count, 'tests,', variants_count, 'variants of patterns,', len(list(analyses())), 'analyses')
