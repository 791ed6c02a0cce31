import Verif.Regex

/-!
# `/repo/python/enolib/grammar_regex.py`, transcribed as syntax trees

Group numbers are the numbers the Python class assigns; they agree with the position of the opening
parentheses in the compiled pattern.
-/

namespace Eno
namespace Grammar
open Re

/-- `[^\S\n]*` -/
def HS : Re := star true (chr isHs)
/-- `\s*` -/
def SP : Re := star true (chr isSp)
/-- `[^\n]` -/
def notNl (c : Char) : Bool := c != '\n'

/-- `OPTIONAL = r'([^\n]+?)?'` — grammar_regex.py:7 -/
def OPTIONAL (n : Nat) : Re := opt (grp n (plusLazy (chr notNl)))
/-- `REQUIRED = r'(\S[^\n]*?)'` — grammar_regex.py:8 -/
def REQUIRED (n : Nat) : Re := grp n (seq (chr fun c => !isSp c) (star false (chr notNl)))

/-- `EMPTY = '()'` — grammar_regex.py:11-12 -/
def EMPTY : Re := grp 1 eps
/-- `(\|)[^\S\n]*OPTIONAL` — grammar_regex.py:16-18 -/
def DIRECT_LINE_CONTINUATION : Re := seq (grp 2 (lit '|')) (seq HS (OPTIONAL 3))
/-- `(\\)[^\S\n]*OPTIONAL` — grammar_regex.py:21-23 -/
def SPACED_LINE_CONTINUATION : Re := seq (grp 4 (lit '\\')) (seq HS (OPTIONAL 5))
/-- grammar_regex.py:25 -/
def CONTINUATION : Re := alt DIRECT_LINE_CONTINUATION SPACED_LINE_CONTINUATION
/-- `(>)[^\S\n]*OPTIONAL` — grammar_regex.py:28-30 -/
def COMMENT : Re := seq (grp 6 (lit '>')) (seq HS (OPTIONAL 7))
/-- `(-)(?!-)[^\S\n]*OPTIONAL` — grammar_regex.py:33-35 -/
def LIST_ITEM : Re := seq (grp 8 (lit '-')) (seq (nla (lit '-')) (seq HS (OPTIONAL 9)))
/-- `(-{2,})(?!-)[^\S\n]*REQUIRED` — grammar_regex.py:38-40 -/
def MULTILINE_FIELD : Re :=
  seq (grp 10 (seq (lit '-') (plus (lit '-')))) (seq (nla (lit '-')) (seq HS (REQUIRED 11)))
/-- `(#+)(?!#)` — grammar_regex.py:43-44 -/
def SECTION_OPERATOR : Re := seq (grp 12 (plus (lit '#'))) (nla (lit '#'))
/-- ``([^\s`<][^<\n]*?)`` — grammar_regex.py:47-48 -/
def SECTION_KEY_UNESCAPED : Re :=
  grp 13 (seq (chr fun c => !(isSp c || c == '`' || c == '<'))
    (star false (chr fun c => !(c == '<' || c == '\n'))))
/-- ``(`+)(?!`)[^\S\n]*(\S[^\n]*?)[^\S\n]*(\b)`` with groups `b`, `b+1`, `b+2` —
grammar_regex.py:51-54 (b = 14) and grammar_regex.py:71-74 (b = 20) -/
def ESCAPED (b : Nat) : Re :=
  seq (grp b (plus (lit '`'))) (seq (nla (lit '`')) (seq HS (seq (REQUIRED (b + 1))
    (seq HS (grp (b + 2) (bref b))))))
/-- grammar_regex.py:58 -/
def SECTION_KEY : Re := alt SECTION_KEY_UNESCAPED (ESCAPED 14)
/-- `(?:(<(?!<)|<<)[^\S\n]*REQUIRED)?` — grammar_regex.py:59, 61-62 -/
def SECTION_TEMPLATE : Re :=
  opt (seq (grp 17 (alt (seq (lit '<') (nla (lit '<'))) (seq (lit '<') (lit '<'))))
    (seq HS (REQUIRED 18)))
/-- `SECTION_OPERATOR\s*SECTION_KEY[^\S\n]*SECTION_TEMPLATE` — grammar_regex.py:60 -/
def SECTION : Re := seq SECTION_OPERATOR (seq SP (seq SECTION_KEY (seq HS SECTION_TEMPLATE)))
/-- grammar_regex.py:64 -/
def EARLY_DETERMINED : Re :=
  alt CONTINUATION (alt COMMENT (alt LIST_ITEM (alt MULTILINE_FIELD SECTION)))
/-- the class ``[^\s>#\-`\\|:=<]`` — grammar_regex.py:67 -/
def keyStart (c : Char) : Bool :=
  !(isSp c || c == '>' || c == '#' || c == '-' || c == '`' || c == '\\' || c == '|' || c == ':' ||
    c == '=' || c == '<')
/-- the class `[^\n:=<]` — grammar_regex.py:67 -/
def keyChar (c : Char) : Bool := !(c == '\n' || c == ':' || c == '=' || c == '<')
/-- ``([^\s>#\-`\\|:=<][^\n:=<]*?)`` — grammar_regex.py:67-68 -/
def KEY_UNESCAPED : Re := grp 19 (seq (chr keyStart) (star false (chr keyChar)))
/-- grammar_regex.py:76 -/
def KEY : Re := alt KEY_UNESCAPED (ESCAPED 20)
/-- `(:)[^\S\n]*OPTIONAL` — grammar_regex.py:80-82 -/
def ELEMENT_OR_FIELD : Re := seq (grp 23 (lit ':')) (seq HS (OPTIONAL 24))
/-- `(=)[^\S\n]*OPTIONAL` — grammar_regex.py:86-88 -/
def FIELDSET_ENTRY : Re := seq (grp 25 (lit '=')) (seq HS (OPTIONAL 26))
/-- `(<)\s*REQUIRED` — grammar_regex.py:91-93 -/
def COPY : Re := seq (grp 27 (lit '<')) (seq SP (REQUIRED 28))
/-- `KEY\s*(?:ELEMENT_OR_FIELD|FIELDSET_ENTRY|COPY)` — grammar_regex.py:95 -/
def LATE_DETERMINED : Re := seq KEY (seq SP (alt ELEMENT_OR_FIELD (alt FIELDSET_ENTRY COPY)))
/-- grammar_regex.py:97 -/
def NOT_EMPTY : Re := alt EARLY_DETERMINED LATE_DETERMINED
/-- `[^\S\n]*(?=\n|$)`, the tail shared by grammar_regex.py:99 and analyzer.py:336 -/
def EOL : Re := seq HS (la (alt (lit '\n') eos))
/-- `[^\S\n]*(?:EMPTY|NOT_EMPTY)[^\S\n]*(?=\n|$)` — grammar_regex.py:99 -/
def REGEX : Re := seq HS (seq (alt EMPTY NOT_EMPTY) EOL)

/-- `\n[^\S\n]*({operator})(?!-)[^\S\n]*({re.escape(key)})[^\S\n]*(?=\n|$)` —
`/repo/python/enolib/analyzer.py:336`. The operator consists of dashes only, so interpolating it unescaped is
the literal. -/
def terminator (operator key : Str) : Re :=
  seq (lit '\n') (seq HS (seq (grp 1 (str operator)) (seq (nla (lit '-')) (seq HS
    (seq (grp 2 (str key)) EOL)))))

/-- ``^\s*#*\s*(`+)(?!`)((?:(?!\1).)+)$`` — `/repo/python/enolib/errors/parsing.py:7`; used with
`match`, so `^` holds trivially. -/
def UNTERMINATED_ESCAPED_KEY : Re :=
  seq SP (seq (star true (lit '#')) (seq SP (seq (grp 1 (plus (lit '`'))) (seq (nla (lit '`'))
    (seq (grp 2 (plus (seq (nla (bref 1)) (chr notNl)))) eos)))))

end Grammar
end Eno
