import Lean.Elab.Term

/-!
# Basic vocabulary

Python `str` values are modelled as lists of characters (code points).
Simplification: Lean's `Char` excludes lone surrogates (U+D800–U+DFFF), which a
Python `str` could contain; they are neither white space nor operators.
-/
namespace Eno

/-- Python `str`. -/
abbrev Str := List Char

/-- `chars!"abc"` is the literal `['a','b','c']` (so that examples reduce in the kernel). -/
macro "chars!" s:str : term => do
  let cs ← s.getString.toList.toArray.mapM fun c =>
    pure (Lean.TSyntax.mk (Lean.Syntax.mkCharLit c) : Lean.TSyntax `term)
  `(([$cs,*] : List Char))

/-- Python's `\s` for `str` patterns, i.e. `str.isspace` on one character
(CPython `Objects/unicodetype_db.h`, `_PyUnicode_IsWhitespace`). Used by every `\s`, `\S`
in `/repo/python/enolib/grammar_regex.py`. -/
def isSp (c : Char) : Bool :=
  let n := c.toNat
  (9 ≤ n && n ≤ 13) || (28 ≤ n && n ≤ 32) || n == 0x85 || n == 0xA0 || n == 0x1680 ||
  (0x2000 ≤ n && n ≤ 0x200A) || n == 0x2028 || n == 0x2029 || n == 0x202F || n == 0x205F ||
  n == 0x3000

/-- `[^\S\n]`: horizontal white space (everything in `\s` except the line feed).
`/repo/python/enolib/grammar_regex.py:99` and elsewhere. -/
def isHs (c : Char) : Bool := isSp c && c != '\n'

end Eno
