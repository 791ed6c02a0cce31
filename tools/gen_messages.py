"""Writes lean/Verif/MessageTexts.lean from /repo/python/enolib/messages/{en,de,es}.py (which are read as text)."""
import ast, os, re
SRC = '/repo/python/enolib/messages/'
NAMED = ['missing_element', 'missing_empty', 'missing_field', 'missing_fieldset', 'missing_fieldset_entry', 'missing_list', 'missing_section',
  'expected_empty', 'expected_field', 'expected_fields', 'expected_fieldset', 'expected_fieldsets', 'expected_list', 'expected_lists', 'expected_section', 'expected_sections',
  'expected_fieldset_entry', 'expected_list_item',
  'expected_single_element', 'expected_single_empty', 'expected_single_field', 'expected_single_fieldset', 'expected_single_fieldset_entry', 'expected_single_list',
  'expected_single_section']
PLAIN = [('cyclic_dependency', 'line key'), ('invalid_line', 'line'), ('missing_element_for_continuation', 'line'), ('missing_fieldset_for_fieldset_entry', 'line'),
  ('missing_list_for_list_item', 'line'), ('non_section_element_not_found', 'line key'), ('section_hierarchy_layer_skip', 'line'), ('section_not_found', 'line key'),
  ('unterminated_escaped_key', 'line'), ('two_or_more_templates_found', 'key'), ('unterminated_multiline_field', 'key line'), ('comment_error', 'message'),
  ('key_error', 'message'), ('value_error', 'message'), ('missing_comment', ''), ('missing_field_value', 'key'), ('missing_fieldset_entry_value', 'key'),
  ('missing_list_item_value', 'key'), ('unexpected_element', '')]

def camel(s):
    a, *b = s.split('_')
    return a + ''.join(x.capitalize() for x in b)

def lit(s):
    assert '"' not in s and '\\' not in s and '\n' not in s
    return f'chars!"{s}"'

def pieces(node):
    if isinstance(node, ast.Constant):
        return [f'.lit ({lit(node.value)})']
    out = []
    for v in node.body.values:
        if isinstance(v, ast.Constant):
            out.append(f'.lit ({lit(v.value)})')
        else:
            assert v.conversion == -1 and v.format_spec is None
            out.append({'line': '.line', 'key': '.key', 'message': '.key'}[v.value.id])
    return out

def read(loc):
    text = open(SRC + loc + '.py').read()
    table = {}
    for st in ast.parse(text).body:
        params = ' '.join(a.arg for a in st.value.args.args) if isinstance(st.value, ast.Lambda) else ''
        table[st.targets[0].id] = (st.lineno, pieces(st.value), params)
    return table

L = ['import Verif.Messages', '', '/-! # The texts of `messages/{en,de,es}.py`, generated by `tools/gen_messages.py` -/', '', 'namespace Eno', '']
for loc in ['en', 'de', 'es']:
    t = read(loc)
    used = set()
    def body(name, params):
        if name not in t: return 'none'
        assert t[name][2] == params, name
        used.add(name)
        return 'some [' + ', '.join(t[name][1]) + ']'
    n = max(x[0] for x in t.values())
    L.append(f'/-- The messages of messages/{loc}.py:3-{n}; those that do not exist are `none`. -/')
    L.append(f'def Locale.{loc}.pieces : Msg → Option (List Piece)')
    L.append('  | .given _ => some [.key]')
    for name, k in PLAIN:
        L.append(f'  | .{camel(name)}{" _" * len(k.split())} => {body(name, k)}')
    for name in NAMED:
        L.append(f'  | .named .{camel(name)} none => {body(name, "")}')
        L.append(f'  | .named .{camel(name)} (some _) => {body(name + "_with_key", "key")}')
    L.append('')
    for h in ['gutter_header', 'content_header']:
        used.add(h)
        p, = t[h][1]
        L.append(f'/-- messages/{loc}.py:{t[h][0]} -/')
        L.append(f'def Locale.{loc}.{camel(h)} : Str := {p[6:-1]}')
        L.append('')
    assert used == set(t), set(t) - used
L += ['/-- The pieces of a message in a language. -/', 'def Locale.pieces : Locale → Msg → Option (List Piece)'] + [f'  | .{l} => {l}.pieces' for l in ['en', 'de', 'es']] + ['']
for h in ['gutterHeader', 'contentHeader']:
    L += ['/-- The word above the snippet. -/', f'def Locale.{h} : Locale → Str'] + [f'  | .{l} => {l}.{h}' for l in ['en', 'de', 'es']] + ['']
L += ['end Eno', '']
out = os.path.join(os.path.dirname(__file__), '..', 'lean', 'Verif', 'MessageTexts.lean')
open(out, 'w').write('\n'.join(L))
