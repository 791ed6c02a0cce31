import Verif.Spec.Selection
import Verif.Proofs.ErrorText

/-!
# Properties of parse errors and their snippets

`parse o input` is `Context(input, reporter=…, source=…)` with the options `o`; it is an error `.parseError e` if a `ParseError` is raised, and `.py` if building
the error raises itself or the resolver does.
-/

namespace Eno

open Spec

variable {input : Str} {o : Options} {e : ErrObj}

/-- All that is known about a parse error. -/
theorem parse_error_facts (h : parse o input = .error (.parseError e)) : ∃ ctx b report, OriginOk input ctx b ∧ Emphasises ctx b report ∧ SelectionOn b e.selection ∧
    makeSnippet o ctx report = .ok e.snippet ∧ (∀ n, e.text.line? = some n → n = b.line + 1) ∧
    ((∃ x, analyze input = .error x) → NoNl input b.span.1 b.span.2) ∧ ((∃ c, analyze input = .ok c) → Complete ctx ∧ ∃ c, analyze input = .ok c ∧ c.lineCount = ctx.lineCount) := by
  rcases parse_origin h with ⟨ctx, b, r, g, hx⟩ | ⟨py, hx, _⟩
  · obtain ⟨report, text, sel, h1, h2, h3, h4, _⟩ := g.about
    have ok := g.ok
    subst h1
    cases hm : makeSnippet o ctx report with
    | error py => rw [hm] at hx; cases hx
    | ok snippet =>
      rw [hm] at hx
      simp only [Except.map, raiseParse, Raised.parseError.injEq] at hx
      subst hx
      refine ⟨ctx, b, report, ok, h2, h3, hm, h4, ?_, ?_⟩
      · rintro ⟨x, hx⟩
        generalize hr : (makeSnippet o ctx report).map _ = r at g
        cases g with
        | analysis ha => exact (analysis_context ha).2.1.oneLine
        | resolution ha => rw [ha] at hx; cases hx
      · rintro ⟨c, hc⟩
        generalize hr : (makeSnippet o ctx report).map _ = r at g
        cases g with
        | analysis ha => rw [ha] at hc; cases hc
        | resolution ha _ U => exact ⟨U.complete, _, ha, rfl⟩
  · cases hx

/-! ## C36 -/

/-- The selection of a parse error is on one line of the document: within it, with columns counted from its beginning. The line number is that of an
existing line, and the right one if nothing is spread over lines. -/
theorem C36_selection (h : parse o input = .error (.parseError e)) : ∃ lb le, IsLine input lb le ∧ Selects lb le e.selection ∧
    e.selection.start.line ≤ nlBefore input lb ∧ e.selection.start.line < (splitNl input).length ∧
    ((∃ x, analyze input = .error x) → NoNl input lb le) ∧ (Neat input → e.selection.start.line = nlBefore input lb ∧ NoNl input lb le) := by
  obtain ⟨ctx, b, report, O, _, S, _, _, hN, _⟩ := parse_error_facts h
  obtain ⟨B, C⟩ := O.report.chart
  have hB := C.all b O.mem
  have h1 := C.placed b hB O.le
  have h2 := C.most b hB O.le
  rw [O.source] at h1 h2
  have h3 : nlBefore input b.span.1 < (splitNl input).length := by
    rw [splitNl_length]
    have := nlBefore_mono (input := input) (i := b.span.1) (j := input.length) (by have := O.le; have := O.inside; omega)
    have e1 : nlBefore input input.length = countNl input := by simp [nlBefore]
    omega
  refine ⟨b.span.1, b.span.2, h1, ⟨S.start, S.order, S.stop, S.startColumn, S.stopColumn, by rw [S.startLine, S.stopLine]⟩, ?_, ?_, hN, ?_⟩
  · rw [S.startLine]; exact h2
  · rw [S.startLine]; omega
  · intro n
    rw [← O.source] at n
    have c := C.counted (C.neat n) b hB O.le
    have q := C.neat n b hB
    rw [O.source] at c q
    exact ⟨by rw [S.startLine]; exact c, q⟩

/-- Here the key is not closed: the selection begins behind the backtick. -/
example : ∃ e, parse {} (chars!"a: 1\n`b: 2\n") = .error (.parseError e) ∧ e.selection = ⟨⟨1, 6, 1⟩, ⟨5, 10, 1⟩⟩ := by
  refine ⟨_, rfl, ?_⟩; decide +kernel

/-! ## C37 -/

/-- With the text and the HTML reporter every input that is rejected by the analysis gives a `ParseError`. -/
theorem C37_analysis {x : AExc} (ho : o.reporter ≠ .terminal) (h : analyze input = .error x) : ∃ e, parse o input = .error (.parseError e) := by
  have hp : ∃ y, parse o input = .error y := by unfold parse; rw [h]; split <;> first | exact ⟨_, rfl⟩ | simp_all
  obtain ⟨y, hy⟩ := hp
  rcases parse_origin hy with ⟨ctx, b, r, g, hx⟩ | ⟨py, hx, hl⟩
  · obtain ⟨report, text, sel, h1, h2, _⟩ := g.about
    obtain ⟨rows, r1, r2, _⟩ := snippet_rows g.ok h2 o
    subst h1
    cases hr : o.reporter with
    | text => rw [r1 hr] at hx; exact ⟨_, by rw [hy, hx]; rfl⟩
    | html => rw [r2 hr] at hx; exact ⟨_, by rw [hy, hx]; rfl⟩
    | terminal => exact absurd hr ho
  · unfold load at hl; rw [h] at hl; cases hl

/-- Whatever `parse` raises with these reporters is a `ParseError`, or the failure of the resolver that `C25_refuted` is about. -/
theorem C37_parse {x : Raised} (ho : o.reporter ≠ .terminal) (h : parse o input = .error x) :
    (∃ e, x = .parseError e) ∨ ∃ py, x = .py py ∧ load input = .error (.resolution (.py py)) := by
  rcases parse_origin h with ⟨ctx, b, r, g, hx⟩ | hx
  · left
    obtain ⟨report, text, sel, h1, h2, _⟩ := g.about
    obtain ⟨rows, r1, r2, _⟩ := snippet_rows g.ok h2 o
    subst h1
    cases hr : o.reporter with
    | text => rw [r1 hr] at hx; exact ⟨_, hx⟩
    | html => rw [r2 hr] at hx; exact ⟨_, hx⟩
    | terminal => exact absurd hr ho
  · exact .inr hx

example : ∃ x, analyze (chars!"> c\n## a\n") = .error x := ⟨_, rfl⟩

/-! ## C57 -/

/-- The terminal reporter never reports an error of the analysis: the first instruction of the error context has no `type`, so that a `KeyError` is raised
whatever the input is. -/
theorem C57_terminal_fails {x : AExc} (ho : o.reporter = .terminal) (h : analyze input = .error x) : parse o input = .error (.py .keyError) := by
  rcases C07_total input with ⟨c, hc⟩ | ⟨k, c, b, hc⟩
  · rw [hc] at h; cases h
  · obtain ⟨report, text, sel, h1, h2, _, _, h5⟩ := analysis_error hc o
    have O := (Origin.analysis (o := o) hc).ok
    unfold parse
    rw [hc]
    simp only
    rw [h1, terminal_fails O h2 h5 ho]
    rfl

example : ∃ x, analyze (chars!"a: 1\nb\n") = .error x := ⟨_, rfl⟩

/-- It does report errors of the resolver that are not about deep copies. -/
theorem C57_terminal_reports : (match parse { reporter := .terminal } (chars!"a < b") with | .error (.parseError _) => true | _ => false) = true := by decide +kernel

/-- And it fails for any line with `<<` that is shown, since that operator has no style. -/
theorem C57_terminal_deep_copy :
    (match parse { reporter := .terminal } (chars!"# a << b") with | .error (.py .keyError) => true | _ => false) = true ∧
    (match parse { reporter := .terminal } (chars!"# a < b") with | .error (.parseError _) => true | _ => false) = true := by decide +kernel

/-! ## C38 -/

/-- Pending comments are not shown: the first line of the document is a comment, the snippet shows it as empty. -/
theorem C38_refuted : (match parse {} (chars!"> comment\n- item") with
    | .error (.parseError e) => e.snippet == chars!"   Line | Content\n      1 | \n >    2 | - item"
    | _ => false) = true := by decide +kernel

/-- Without any condition: the snippet accounts for all lines, and it has exactly one emphasised row, whose number is that of the selection (and of the
message) and whose text is that of the line that the selection is on. -/
theorem C38_emphasis (h : parse o input = .error (.parseError e)) : ∃ rows lb le total,
    (o.reporter = .text → e.snippet = plainSnippet o rows) ∧ Accounts total 1 rows ∧ e.selection.start.line < total ∧
    (∀ k t, SnipRow.line .emphasis k t ∈ rows ↔ k = e.selection.start.line + 1 ∧ t = slice input lb le) ∧
    IsLine input lb le ∧ Selects lb le e.selection ∧ ∀ n, e.text.line? = some n → n = e.selection.start.line + 1 := by
  obtain ⟨ctx, b, report, O, E, S, hm, hl, _, _⟩ := parse_error_facts h
  obtain ⟨B, C⟩ := O.report.chart
  have hB := C.all b O.mem
  have h1 := C.placed b hB O.le
  rw [O.source] at h1
  obtain ⟨rows, r1, _, r3, r4, _⟩ := snippet_rows O E o
  refine ⟨rows, b.span.1, b.span.2, ctx.lineCount, ?_, r3, by rw [S.startLine]; exact C.below b hB, by rw [S.startLine]; exact r4, h1,
    ⟨S.start, S.order, S.stop, S.startColumn, S.stopColumn, by rw [S.startLine, S.stopLine]⟩, by rw [S.startLine]; exact hl⟩
  intro ho
  have := r1 ho
  rw [hm] at this
  injection this

/-- For input where nothing is spread over lines all rows show their lines; only comments (and lines of white space) may be shown as empty, and if the analysis
succeeded comments are shown too. Missing for C38: pending comments (see `C38_refuted`) and inputs that are not neat. -/
theorem C38_rows_partial (h : parse o input = .error (.parseError e)) (hN : Neat input) : ∃ rows,
    (o.reporter = .text → e.snippet = plainSnippet o rows) ∧ Shows input rows e.selection.start.line IsCommentLine ∧
    ((∃ c, analyze input = .ok c) → Shows input rows e.selection.start.line (fun _ => False) ∧ Accounts (splitNl input).length 1 rows) := by
  obtain ⟨ctx, b, report, O, E, S, hm, hl, _, K⟩ := parse_error_facts h
  obtain ⟨B, C⟩ := O.report.chart
  have t : Tidy ctx := C.tidy_neat (by rw [O.source]; exact hN)
  obtain ⟨rows, r1, _, r3, r4, r5, r6⟩ := snippet_rows O E o
  rw [S.startLine]
  refine ⟨rows, ?_, r5 t, ?_⟩
  · intro ho
    have := r1 ho
    rw [hm] at this
    injection this
  · intro hc
    obtain ⟨k, c, h1, h2⟩ := K hc
    refine ⟨r6 t k, ?_⟩
    obtain ⟨⟨⟨_, B', C'⟩, _⟩, _, hin⟩ := complete_analyze h1
    have := (C11_line_numbers_partial h1 (fun b hb => by have := C'.tidy_neat (by rw [hin]; exact hN) b hb; rwa [hin] at this)).2
    rw [splitNl_length, ← this, h2]
    exact r3

example : Neat (chars!"> c\na: 1\n- d\n") ∧ ∃ e, parse {} (chars!"> c\na: 1\n- d\n") = .error (.parseError e) ∧
    e.snippet = chars!"   Line | Content\n      1 | > c\n      2 | a: 1\n >    3 | - d\n      4 | " := by
  refine ⟨by decide +kernel, _, rfl, ?_⟩; decide +kernel

/-! ## C39 -/

/-- Escaping leaves none of the characters with a meaning in HTML, and unescaping gives back the text. -/
theorem C39_escape (s : Str) : decode (HtmlReporter.escape s) = s ∧ ∀ c ∈ HtmlReporter.escape s, c ≠ '<' ∧ c ≠ '>' ∧ c ≠ '"' ∧ c ≠ '\'' := by
  refine ⟨decode_escape s, fun c hc => ?_⟩
  have := escape_free s c hc
  simpa using this

/-- Whatever is reported, an HTML snippet read as HTML is the markup of rows, with the texts that the text reporter shows. (The header of the gutter is not escaped;
it is a fixed message.) -/
theorem C39_html {ctx : Ctx} {report : Snippet → Except PyExc Snippet} {out : Str} (ho : o.source = none ∨ o.source = some [])
    (hg : '<' ∉ o.gutterHeader ∧ '&' ∉ o.gutterHeader) (h : makeSnippet { o with reporter := .html } ctx report = .ok out) :
    ∃ rows, makeSnippet { o with reporter := .text, source := none } ctx report = .ok (plainSnippet { o with source := none } rows) ∧
      htmlToks out = .tag (chars!"pre class=\"eno-report\"") :: lineToks [] o.gutterHeader o.contentHeader ++ rowToks rows ++ [.tag (chars!"/pre")] := by
  unfold makeSnippet at h ⊢
  cases hi : buildIndex ctx with
  | error e => rw [hi] at h; cases h
  | ok index =>
    rw [hi] at h
    cases hr : report (List.replicate ctx.lineCount none) with
    | error e => rw [hr] at h; cases h
    | ok s =>
      rw [hr] at h
      simp only [html_print, text_print, Except.ok.injEq] at h ⊢
      refine ⟨_, rfl, ?_⟩
      rw [← h]
      exact html_toks (o := { o with reporter := .html }) ho _ hg

example : ∃ e, parse { reporter := .html } (chars!"<b>&'\"") = .error (.parseError e) ∧
    htmlToks e.snippet = .tag (chars!"pre class=\"eno-report\"") :: lineToks [] (chars!"Line") (chars!"Content") ++
      rowToks [.line .emphasis 1 (chars!"<b>&'\"")] ++ [.tag (chars!"/pre")] := by
  refine ⟨_, rfl, ?_⟩; decide +kernel

/-- The source, however, is not escaped. -/
theorem C39_source_refuted : (match parse { reporter := .html, source := some (chars!"<i>") } (chars!"a") with
    | .error (.parseError e) => htmlToks e.snippet |>.contains (.tag (chars!"i"))
    | _ => false) = true := by decide +kernel

/-! ## C41 -/

/-- Whatever lines a report marks, the snippet accounts for all lines: each is shown or in a gap, and there is a row of dots exactly where lines are left out. Marked lines
are shown with their marks; other lines are shown only within two lines of a marked one, or if there is no mark at all. -/
theorem C41_window {ctx : Ctx} {report : Snippet → Except PyExc Snippet} {out : Str} {s : Snippet} (h : makeSnippet { o with reporter := .text } ctx report = .ok out)
    (hs : report (List.replicate ctx.lineCount none) = .ok s) (hm : Marked s) (hne : ∃ n, IsMarked s n) :
    ∃ rows, out = plainSnippet o rows ∧ Accounts s.length 1 rows ∧
      (∀ n m, MarkedAs s n m → ∃ t, SnipRow.line m (n + 1) t ∈ rows) ∧
      (∀ m k t, SnipRow.line m k t ∈ rows → ∃ n, k = n + 1 ∧ (MarkedAs s n m ∨
        (m = .plain ∧ ¬ IsMarked s n ∧ ∃ n', IsMarked s n' ∧ n ≤ n' + 2 ∧ n' ≤ n + 2))) := by
  unfold makeSnippet at h
  cases hi : buildIndex ctx with
  | error e => rw [hi] at h; cases h
  | ok index =>
    rw [hi] at h
    simp only [hs, text_print, Except.ok.injEq] at h
    refine ⟨_, h.symm, window_accounts hm, ?_, ?_⟩
    · intro n m hM
      refine ⟨content ctx.input index n, rows_mem.2 ?_⟩
      cases m with
      | plain => exact hM.elim
      | emphasis => exact ⟨n, .emphasize, rfl, rfl, window_mark hM, by simp, rfl⟩
      | indication => exact ⟨n, .indicate, rfl, rfl, window_mark hM, by simp, rfl⟩
      | question => exact ⟨n, .question, rfl, rfl, window_mark hM, by simp, rfl⟩
    · intro m k t hr
      obtain ⟨n, tag, rfl, rfl, hw, hno, hmt⟩ := rows_mem.1 hr
      refine ⟨n, rfl, ?_⟩
      by_cases hd : tag = .display
      · subst hd
        right
        obtain ⟨_, h1, h2⟩ := (window_plain hm hne).1 hw
        refine ⟨hmt.symm, h1, ?_⟩
        rcases h2 with h2 | h2 | ⟨hn, h2⟩ | ⟨hn, h2⟩
        · exact ⟨_, h2, by omega, by omega⟩
        · exact ⟨_, h2, by omega, by omega⟩
        · exact ⟨_, h2, by omega, by omega⟩
        · exact ⟨_, h2, by omega, by omega⟩
      · left
        have hsn := window_unmarked hw hd hno hm hne
        cases tag <;> simp_all [markOf] <;> subst hmt <;> exact hsn

/-- Sample for the hypotheses (also for `C58_context_partial`): a report that marks the third of five lines and asks about the fourth. -/
example : ∃ ctx out s, makeSnippet { ({} : Options) with reporter := .text } ctx (fun x => .ok ((x.set 2 (some .emphasize)).set 3 (some .question))) = .ok out ∧
    (fun x : Snippet => (Except.ok ((x.set 2 (some .emphasize)).set 3 (some .question)) : Except PyExc Snippet)) (List.replicate ctx.lineCount none) = .ok s ∧
    Marked s ∧ IsMarked s 2 ∧ s.length = 5 := by
  obtain ⟨ctx, out, _, h1, h2⟩ : ∃ ctx out, load (chars!"a: 1\n\nb: 2\nc: 3\n") = .ok ctx ∧ makeSnippet { ({} : Options) with reporter := .text } ctx (fun x => .ok ((x.set 2 (some .emphasize)).set 3 (some .question))) = .ok out ∧
      ctx.lineCount = 5 := by
    refine ⟨_, _, rfl, rfl, ?_⟩
    decide +kernel
  refine ⟨ctx, out, _, h1, rfl, ?_, ⟨.emphasis, ?_⟩, ?_⟩
  · rw [h2]
    intro t ht
    simp only [List.replicate, List.set, List.mem_cons, List.not_mem_nil, or_false, reduceCtorEq, false_or, Option.some.injEq] at ht
    rcases ht with rfl | rfl <;> simp
  · rw [h2]; rfl
  · rw [h2]; rfl

/-- The other direction fails at the beginning of a document: the second line is not shown next to a marked first one. -/
theorem C58_context_refuted : (match parse {} (chars!"a\nb: 1\nc: 2\nd: 3\ne: 4") with
    | .error (.parseError e) => e.snippet == chars!"   Line | Content\n >    1 | a\n   ..."
    | _ => false) = true := by decide +kernel

/-- It holds everywhere else: a line within two lines of a marked line that is not the first is shown. -/
theorem C58_context_partial {ctx : Ctx} {report : Snippet → Except PyExc Snippet} {out : Str} {s : Snippet} (h : makeSnippet { o with reporter := .text } ctx report = .ok out)
    (hs : report (List.replicate ctx.lineCount none) = .ok s) (hm : Marked s) {n n' : Nat} (hn : n < s.length) (hM : IsMarked s n') (h1 : n ≤ n' + 2) (h2 : n' ≤ n + 2)
    (h0 : 0 < n' ∨ n = 0) : ∃ rows, out = plainSnippet o rows ∧ ∃ m t, SnipRow.line m (n + 1) t ∈ rows := by
  unfold makeSnippet at h
  cases hi : buildIndex ctx with
  | error e => rw [hi] at h; cases h
  | ok index =>
    rw [hi] at h
    simp only [hs, text_print, Except.ok.injEq] at h
    refine ⟨_, h.symm, ?_⟩
    by_cases hx : IsMarked s n
    · obtain ⟨m, hx⟩ := hx
      cases m with
      | plain => exact hx.elim
      | emphasis => exact ⟨_, _, rows_mem.2 ⟨n, .emphasize, rfl, rfl, window_mark hx, by simp, rfl⟩⟩
      | indication => exact ⟨_, _, rows_mem.2 ⟨n, .indicate, rfl, rfl, window_mark hx, by simp, rfl⟩⟩
      | question => exact ⟨_, _, rows_mem.2 ⟨n, .question, rfl, rfl, window_mark hx, by simp, rfl⟩⟩
    · refine ⟨_, _, rows_mem.2 ⟨n, .display, rfl, rfl, (window_plain hm ⟨_, hM⟩).2 ⟨hn, hx, ?_⟩, by simp, rfl⟩⟩
      have hne : n ≠ n' := by rintro rfl; exact hx hM
      rcases Nat.lt_or_gt_of_ne hne with q | q
      · by_cases q2 : n' = n + 1
        · subst q2; exact .inl hM
        · have : n' = n + 2 := by omega
          subst this; exact .inr (.inl hM)
      · by_cases q2 : n = n' + 1
        · subst q2; exact .inr (.inr (.inl ⟨by omega, hM⟩))
        · have : n = n' + 2 := by omega
          subst this; exact .inr (.inr (.inr ⟨by omega, hM⟩))

/-! ## C11, from the input alone -/

/-- If no line of the input continues another one all line numbers are right; this can be seen from the lines one by one. -/
theorem C11_neat_partial {ctx : Ctx} (h : analyze input = .ok ctx) (hN : Neat input) :
    (∀ b ∈ ctx.instructions, b.line = nlBefore input b.span.1) ∧ ctx.lineCount = countNl input + 1 := by
  obtain ⟨⟨⟨_, B, C⟩, _⟩, _, hin⟩ := complete_analyze h
  exact C11_line_numbers_partial h (fun b hb => by have := C.tidy_neat (by rw [hin]; exact hN) b hb; rwa [hin] at this)

/-- Whatever the input, no line number is too large. -/
theorem C11_at_most {ctx : Ctx} (h : analyze input = .ok ctx) : ∀ b ∈ ctx.instructions, b.span.1 ≤ b.span.2 → b.line ≤ nlBefore input b.span.1 := by
  obtain ⟨⟨⟨_, B, C⟩, _⟩, _, hin⟩ := complete_analyze h
  intro b hb hle
  have := C.most b (C.all b hb) hle
  rwa [hin] at this

example : Neat (chars!"> c\n# a\nb = not: a : key\n-- d\n  e\n-- d\n\n## f << g h\n") := by decide +kernel

end Eno
