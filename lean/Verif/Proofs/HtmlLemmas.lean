import Verif.Spec.Html
import Verif.Proofs.SnippetLemmas

/-! # The HTML reporter -/

namespace Eno

open Spec HtmlReporter

variable {input : Str} {index : List (Option Row)} {o : Options} {s : Snippet}

theorem decode_plain {c : Char} (t : Str) (h : c ≠ '&') : decode (c :: t) = c :: decode t := by
  rw [decode.eq_def]
  split <;> simp_all

theorem decode_append {a : Str} (h : '&' ∉ a) (b : Str) : decode (a ++ b) = a ++ decode b := by
  induction a with
  | nil => rfl
  | cons c t ih =>
    simp only [List.mem_cons, not_or] at h
    rw [List.cons_append, decode_plain _ (Ne.symm h.1), ih h.2]; rfl

theorem escapeChar_cases (c : Char) : escapeChar c = [c] ∧ c ∉ ['&', '<', '>', '"', '\''] ∨
    (c = '&' ∧ escapeChar c = chars!"&amp;") ∨ (c = '<' ∧ escapeChar c = chars!"&lt;") ∨ (c = '>' ∧ escapeChar c = chars!"&gt;") ∨
    (c = '"' ∧ escapeChar c = chars!"&quot;") ∨ (c = '\'' ∧ escapeChar c = chars!"&#x27;") := by
  unfold escapeChar
  split <;> simp_all

theorem decode_escape (s : Str) : decode (escape s) = s := by
  induction s with
  | nil => rfl
  | cons c t ih =>
    unfold escape at ih ⊢
    rw [List.flatMap_cons]
    rcases escapeChar_cases c with ⟨e, h⟩ | ⟨rfl, e⟩ | ⟨rfl, e⟩ | ⟨rfl, e⟩ | ⟨rfl, e⟩ | ⟨rfl, e⟩
    · rw [e, List.singleton_append, decode_plain _ (by intro h'; subst h'; simp at h), ih]
    all_goals (rw [e]; simp [decode, ih])

theorem escape_free (s : Str) : ∀ c ∈ escape s, c ∉ ['<', '>', '"', '\''] := by
  intro c hc
  unfold escape at hc
  obtain ⟨d, _, hd⟩ := List.mem_flatMap.1 hc
  rcases escapeChar_cases d with ⟨e, h⟩ | ⟨rfl, e⟩ | ⟨rfl, e⟩ | ⟨rfl, e⟩ | ⟨rfl, e⟩ | ⟨rfl, e⟩
  · rw [e] at hd; simp at hd; subst hd; simp at h ⊢; simp [h]
  all_goals (rw [e] at hd; clear hc e; revert hd; revert c; decide)

theorem escape_nil {s : Str} : escape s = [] ↔ s = [] := by
  constructor
  · intro h; rw [← decode_escape s, h]; rfl
  · rintro rfl; rfl

theorem textTok_escape (s : Str) : textTok (escape s) = shownText s := by
  unfold textTok shownText
  simp only [escape_nil, decode_escape]

theorem lex_text {w acc rest : Str} (h : '<' ∉ w) : lexHtml false acc (w ++ rest) = lexHtml false (acc ++ w) rest := by
  induction w generalizing acc with
  | nil => simp
  | cons c t ih =>
    simp only [List.mem_cons, not_or] at h
    rw [List.cons_append, lexHtml, if_neg (Ne.symm h.1), ih h.2]; simp

theorem lex_inside {w acc rest : Str} (h : '>' ∉ w) : lexHtml true acc (w ++ '>' :: rest) = .tag (acc ++ w) :: lexHtml false [] rest := by
  induction w generalizing acc with
  | nil => simp [lexHtml]
  | cons c t ih =>
    simp only [List.mem_cons, not_or] at h
    rw [List.cons_append, lexHtml, if_neg (Ne.symm h.1), ih h.2]; simp

/-- Some text and a tag. -/
theorem lex_tag {w acc x rest : Str} (hx : '<' ∉ x) (h : '>' ∉ w) :
    lexHtml false acc (x ++ '<' :: (w ++ '>' :: rest)) = textTok (acc ++ x) ++ .tag w :: lexHtml false [] rest := by
  rw [lex_text hx, lexHtml, if_pos rfl, lex_inside h]; simp

theorem rjust_free {w : Nat} {t : Str} {c : Char} (h : c ∉ t) (hc : c ≠ ' ') : c ∉ rjust w t := by
  unfold rjust
  simp [h, hc]

theorem rjust_ne_nil {w : Nat} {t : Str} (h : 0 < w) : rjust w t ≠ [] := by
  intro e
  have := congrArg List.length e
  simp only [rjust, List.length_append, List.length_replicate, List.length_nil] at this
  omega

theorem decode_free {t : Str} (h : '&' ∉ t) : decode t = t := by
  have := decode_append h []
  simpa [decode] using this

/-- Reading the markup of a line. -/
theorem lex_markup {gutter content cls acc rest : Str} (hg : '<' ∉ gutter ∧ '&' ∉ gutter) (hc : '>' ∉ cls) :
    lexHtml false acc (markup gutter content cls ++ rest) = textTok acc ++ lineToks cls gutter content ++ lexHtml false [] rest := by
  have e : markup gutter content cls ++ rest = [] ++ '<' :: ((chars!"div class=\"eno-report-line " ++ cls ++ chars!"\"") ++ '>' ::
      ([] ++ '<' :: (chars!"div class=\"eno-report-gutter\"" ++ '>' :: (rjust 10 gutter ++ '<' :: (chars!"/div" ++ '>' ::
      ([] ++ '<' :: (chars!"div class=\"eno-report-content\"" ++ '>' :: (escape content ++ '<' :: (chars!"/div" ++ '>' ::
      ([] ++ '<' :: (chars!"/div" ++ '>' :: rest))))))))))) := by
    simp [markup]
  rw [e, lex_tag (by simp) (by simp [hc]), lex_tag (by simp) (by decide), lex_tag (rjust_free hg.1 (by decide)) (by decide), lex_tag (by simp) (by decide),
    lex_tag (fun h => absurd (escape_free _ _ h) (by simp)) (by decide), lex_tag (by simp) (by decide)]
  have h1 : textTok ([] ++ []) = [] := rfl
  have h2 : textTok ([] ++ rjust 10 gutter) = [.text (rjust 10 gutter)] := by
    rw [List.nil_append, textTok, if_neg (rjust_ne_nil (by decide)), decode_free (rjust_free hg.2 (by decide))]
  rw [h1, h2, List.nil_append (as := escape content), textTok_escape]
  simp [lineToks]

/-! ## Snippets -/

/-- A row as the reporter writes it. -/
def SnipRow.html : SnipRow → Str
  | .omitted => markup ['.', '.', '.'] ['.', '.', '.'] []
  | .line m n t => markup (decimal n) t m.cls

theorem decimal_free (n : Nat) : '<' ∉ decimal n ∧ '&' ∉ decimal n := by
  have key : ∀ c ∈ decimal n, c.isDigit = true := fun c hc => Nat.isDigit_of_mem_toDigits (b := 10) (by decide) (by decide) hc
  exact ⟨fun h => absurd (key _ h) (by decide), fun h => absurd (key _ h) (by decide)⟩

theorem lex_row (r : SnipRow) (rest acc : Str) : lexHtml false acc (SnipRow.html r ++ rest) = textTok acc ++ r.toks ++ lexHtml false [] rest := by
  cases r with
  | omitted => exact lex_markup (by decide) (by decide)
  | line m n t => exact lex_markup (decimal_free n) (by cases m <;> decide)

theorem lex_rows (rest : Str) (hr : rest.head? = some '<') : ∀ (rows : List SnipRow) (acc : Str), lexHtml false acc (joinLines (rows.map SnipRow.html) ++ rest) =
    textTok acc ++ rowToks rows ++ lexHtml false [] rest
  | [], acc => by
    cases rest with
    | nil => cases hr
    | cons c t =>
      simp at hr; subst hr
      simp [joinLines, rowToks, lexHtml, textTok]
  | [r], acc => lex_row r rest acc
  | r :: q :: rs, acc => by
    have e : joinLines ((r :: q :: rs).map SnipRow.html) ++ rest = SnipRow.html r ++ ('\n' :: (joinLines ((q :: rs).map SnipRow.html) ++ rest)) := by
      simp [joinLines]
    rw [e, lex_row]
    have e2 : lexHtml false [] ('\n' :: (joinLines ((q :: rs).map SnipRow.html) ++ rest)) = lexHtml false ['\n'] (joinLines ((q :: rs).map SnipRow.html) ++ rest) := by
      rw [lexHtml, if_neg (by decide)]; rfl
    rw [e2, lex_rows rest hr (q :: rs)]
    have e3 : textTok ['\n'] = [.text ['\n']] := by decide
    rw [e3]
    simp [rowToks]

theorem html_line (n : Nat) (t : Tag) : HtmlReporter.line input index n t = .ok (SnipRow.html (rowOf (content input index) (n, t))) := by
  unfold HtmlReporter.line
  cases t <;> simp [rowOf, SnipRow.html, markOf, Mark.cls, content, tagClass] <;> rfl

/-- The HTML of a snippet. -/
def htmlSnippet (o : Options) (rows : List SnipRow) : Str :=
  let pre := chars!"<pre class=\"eno-report\">" ++ markup o.gutterHeader o.contentHeader [] ++ joinLines (rows.map SnipRow.html) ++ chars!"</pre>"
  match o.source with
  | some (c :: cs) => chars!"<div><div>" ++ (c :: cs) ++ chars!"</div>" ++ pre ++ chars!"</div>"
  | _ => pre

theorem html_print (s : Snippet) : HtmlReporter.print o input index s = .ok (htmlSnippet o (rowsOf (content input index) s)) := by
  unfold HtmlReporter.print printLines
  have := allOk_mapped (f := fun x : Nat × Tag => HtmlReporter.line input index x.1 x.2)
    (g := fun x => SnipRow.html (rowOf (content input index) x)) (shown s) (fun a _ => html_line a.1 a.2)
  rw [this]
  simp only [Except.map, htmlSnippet, rowsOf, List.map_map, Function.comp_def]
  congr 1

theorem lex_pre {acc rest : Str} (rows : List SnipRow) (hg : '<' ∉ o.gutterHeader ∧ '&' ∉ o.gutterHeader) :
    lexHtml false acc (chars!"<pre class=\"eno-report\">" ++ markup o.gutterHeader o.contentHeader [] ++ joinLines (rows.map SnipRow.html) ++ chars!"</pre>" ++ rest) =
    textTok acc ++ .tag (chars!"pre class=\"eno-report\"") :: lineToks [] o.gutterHeader o.contentHeader ++ rowToks rows ++ .tag (chars!"/pre") :: lexHtml false [] rest := by
  have e : chars!"<pre class=\"eno-report\">" ++ markup o.gutterHeader o.contentHeader [] ++ joinLines (rows.map SnipRow.html) ++ chars!"</pre>" ++ rest =
      [] ++ '<' :: (chars!"pre class=\"eno-report\"" ++ '>' :: (markup o.gutterHeader o.contentHeader [] ++ (joinLines (rows.map SnipRow.html) ++
        ('<' :: (chars!"/pre" ++ '>' :: rest))))) := by simp
  rw [e, lex_tag (by simp) (by decide), lex_markup hg (by simp), lex_rows _ rfl]
  have e2 : lexHtml false [] ('<' :: (chars!"/pre" ++ '>' :: rest)) = .tag (chars!"/pre") :: lexHtml false [] rest := by
    rw [lexHtml, if_pos rfl, lex_inside (by decide)]; simp [textTok]
  rw [e2]
  simp [textTok]

theorem html_toks (ho : o.source = none ∨ o.source = some []) (rows : List SnipRow) (hg : '<' ∉ o.gutterHeader ∧ '&' ∉ o.gutterHeader) :
    htmlToks (htmlSnippet o rows) = .tag (chars!"pre class=\"eno-report\"") :: lineToks [] o.gutterHeader o.contentHeader ++ rowToks rows ++ [.tag (chars!"/pre")] := by
  have e : htmlSnippet o rows = chars!"<pre class=\"eno-report\">" ++ markup o.gutterHeader o.contentHeader [] ++ joinLines (rows.map SnipRow.html) ++ chars!"</pre>" ++ [] := by
    unfold htmlSnippet
    rcases ho with ho | ho <;> simp [ho]
  unfold htmlToks
  rw [e, lex_pre rows hg]
  simp [textTok, lexHtml]

end Eno
