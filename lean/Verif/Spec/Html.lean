import Verif.Spec.Snippet

/-!
# Specification: reading HTML

A small reader for what the reporter writes: tags are what is between `<` and `>`, text is the rest, with the entities replaced.
-/

namespace Eno.Spec

inductive HtmlTok where
  | tag (s : Str)
  | text (s : Str)
deriving DecidableEq, Repr

/-- Replace entities. -/
def decode : Str → Str
  | '&' :: 'a' :: 'm' :: 'p' :: ';' :: t => '&' :: decode t
  | '&' :: 'l' :: 't' :: ';' :: t => '<' :: decode t
  | '&' :: 'g' :: 't' :: ';' :: t => '>' :: decode t
  | '&' :: 'q' :: 'u' :: 'o' :: 't' :: ';' :: t => '"' :: decode t
  | '&' :: '#' :: 'x' :: '2' :: '7' :: ';' :: t => '\'' :: decode t
  | c :: t => c :: decode t
  | [] => []

/-- A text that is complete; no text at all is left out. -/
def textTok (raw : Str) : List HtmlTok := if raw = [] then [] else [.text (decode raw)]

/-- Read on, inside of a tag or outside, with what has been read of it. -/
def lexHtml : Bool → Str → Str → List HtmlTok
  | false, acc, [] => textTok acc
  | true, acc, [] => [.tag acc]
  | false, acc, c :: t => if c = '<' then textTok acc ++ lexHtml true [] t else lexHtml false (acc ++ [c]) t
  | true, acc, c :: t => if c = '>' then .tag acc :: lexHtml false [] t else lexHtml true (acc ++ [c]) t

/-- The tags and texts of some HTML. -/
def htmlToks (s : Str) : List HtmlTok := lexHtml false [] s

/-- Text that is there only if it is not empty. -/
def shownText (s : Str) : List HtmlTok := if s = [] then [] else [.text s]

/-- The markup of a line of a report. -/
def lineToks (cls gutter content : Str) : List HtmlTok :=
  [.tag (chars!"div class=\"eno-report-line " ++ cls ++ chars!"\""), .tag (chars!"div class=\"eno-report-gutter\""), .text (rjust 10 gutter), .tag (chars!"/div"),
    .tag (chars!"div class=\"eno-report-content\"")] ++ shownText content ++ [.tag (chars!"/div"), .tag (chars!"/div")]

/-- The class of a mark. -/
def Mark.cls : Mark → Str
  | .plain => []
  | .emphasis => chars!"eno-report-line-emphasized"
  | .indication => chars!"eno-report-line-indicated"
  | .question => chars!"eno-report-line-questioned"

/-- The markup of a row. -/
def SnipRow.toks : SnipRow → List HtmlTok
  | .omitted => lineToks [] (chars!"...") (chars!"...")
  | .line m n t => lineToks m.cls (decimal n) t

/-- The rows, with line feeds between them. -/
def rowToks : List SnipRow → List HtmlTok
  | [] => []
  | [r] => r.toks
  | r :: rs => r.toks ++ .text ['\n'] :: rowToks rs

end Eno.Spec
