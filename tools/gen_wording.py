"""Writes lean/Verif/Spec/MessageFiles.lean: the assignments of /repo/python/enolib/messages/{en,de,es}.py as names and texts with their placeholders, taken line by line."""
import os, re
SRC = '/repo/python/enolib/messages/'
L = ['import Verif.Messages', '', '/-!', '# The message files as they are written', '',
     'The lines of `/repo/python/enolib/messages/{en,de,es}.py` as names and quoted texts, with `{line}`, `{key}` and `{message}` left as they are. Generated by `tools/gen_wording.py`,',
     'which does not parse the files: each line is split at its quotes. (`MessageTexts.lean`, which the model uses, is made from the syntax tree.)', '-/', '', 'namespace Eno.Spec', '']
for loc in ['en', 'de', 'es']:
    L.append(f'/-- messages/{loc}.py -/')
    L.append(f'def file_{loc} : List (Str × Str) :=')
    rows = []
    for line in open(SRC + loc + '.py'):
        m = re.match(r"""(\w+) = (?:lambda [\w, ]+: f)?(['"])(.*)\2\s*$""", line)
        if not m:
            assert line.startswith('#') or not line.strip(), line
            continue
        text = m.group(3)
        assert '"' not in text and '\\' not in text, line
        rows.append(f'(chars!"{m.group(1)}", chars!"{text}")')
    L += [('  [' if k == 0 else '   ') + r + (']' if k == len(rows) - 1 else ',') for k, r in enumerate(rows)]
    L.append('')
L += ['/-- The file of a language. -/', 'def messageFile : Locale → List (Str × Str)', '  | .en => file_en', '  | .de => file_de', '  | .es => file_es', '', 'end Eno.Spec', '']
open(os.path.join(os.path.dirname(__file__), '..', 'lean', 'Verif', 'Spec', 'MessageFiles.lean'), 'w').write('\n'.join(L))
