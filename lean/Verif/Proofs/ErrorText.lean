import Verif.Proofs.ErrorReports
import Verif.Proofs.HtmlLemmas

/-! # Parse errors in full -/

namespace Eno

open Spec

variable {input : Str} {ctx : Ctx} {B : List Base} {h h0 : Heap} {index : List (Option Row)} {o : Options} {s : Snippet} {b : Base}

/-- A parse error with the context and the instruction it is about. -/
inductive Origin (o : Options) (input : Str) : Ctx → Base → Except PyExc ErrObj → Prop where
  | analysis {k ctx b} : analyze input = .error (.parse k ctx b) → Origin o input ctx b (analysisError o ctx b k)
  | resolution {k ctx b h} : analyze input = .ok ctx → load input = .error (.resolution (.parse k h)) → Unresolved input { ctx with heap := h } b k →
      Origin o input { ctx with heap := h } b (resolutionError o { ctx with heap := h } k)

/-- What all contexts of errors share. -/
structure OriginOk (input : Str) (ctx : Ctx) (b : Base) : Prop where
  source : ctx.input = input
  report : Reportable ctx
  mem : b ∈ ctx.instructions
  line : b.range? .line = some b.span
  le : b.span.1 ≤ b.span.2
  inside : b.span.2 ≤ input.length

theorem Origin.ok {e : Except PyExc ErrObj} (g : Origin o input ctx b e) : OriginOk input ctx b := by
  cases g with
  | analysis h =>
    obtain ⟨R, A, _⟩ := analysis_context h
    exact ⟨A.source, R, A.mem, A.range, A.isLine.le, A.isLine.inside⟩
  | resolution _ _ U => exact ⟨U.source, U.complete.toReportable, U.mem, U.ranges.line, U.ranges.le, U.ranges.inside⟩

theorem Origin.about {e : Except PyExc ErrObj} (g : Origin o input ctx b e) : ErrorAbout o ctx b (fun _ => True) e := by
  cases g with
  | analysis h =>
    obtain ⟨report, text, sel, h1, h2, h3, h4, _⟩ := analysis_error h o
    exact ⟨report, text, sel, h1, h2, h3, h4, fun _ _ => trivial⟩
  | resolution _ _ U => exact resolution_error U o

theorem load_of_analysis_error {x : AExc} (h : analyze input = .error x) : load input = .error (.analysis x) := by
  unfold load; rw [h]

/-- Every error of `parse` that is a parse error, or would be if the reporter did not fail. -/
theorem parse_origin {x : Raised} (h : parse o input = .error x) :
    (∃ ctx b e, Origin o input ctx b e ∧ x = raiseParse e) ∨ (∃ py, x = .py py ∧ load input = .error (.resolution (.py py))) := by
  unfold parse at h
  split at h
  · rename_i k c b ha
    injection h with h
    exact .inl ⟨c, b, _, .analysis ha, h.symm⟩
  · rename_i ha; rcases C07_total input with ⟨_, q⟩ | ⟨_, _, _, q⟩ <;> rw [ha] at q <;> cases q
  · rename_i ha; rcases C07_total input with ⟨_, q⟩ | ⟨_, _, _, q⟩ <;> rw [ha] at q <;> cases q
  · rename_i c ha
    split at h
    · cases h
    · rename_i k hp hl
      injection h with h
      obtain ⟨c', b, hc, U⟩ := resolution_context hl
      rw [ha] at hc; injection hc with hc; subst hc
      exact .inl ⟨_, b, _, .resolution ha hl U, h.symm⟩
    · rename_i py hl
      injection h with h
      exact .inr ⟨py, h.symm, hl⟩
    · rename_i hl
      exfalso
      unfold load at hl
      rw [ha] at hl
      simp only at hl
      split at hl
      · split at hl <;> cases hl
      · cases hl

/-! ## The rows of a snippet -/

end Eno

namespace Eno.Spec

/-- What the rows of a snippet about line `n` are. Lines in `gone` are shown as empty. -/
structure Shows (input : Str) (rows : List SnipRow) (n : Nat) (gone : Str → Prop) : Prop where
  emphasis : ∀ k t, SnipRow.line .emphasis k t ∈ rows ↔ k = n + 1 ∧ t = lineText input n
  lines : ∀ m k t, SnipRow.line m k t ∈ rows → 0 < k ∧ (t = lineText input (k - 1) ∨ (t = [] ∧ (WhiteLine (lineText input (k - 1)) ∨ gone (lineText input (k - 1)))))

end Eno.Spec

namespace Eno

open Spec

variable {input : Str} {ctx : Ctx} {B : List Base} {h h0 : Heap} {index : List (Option Row)} {o : Options} {s : Snippet} {b : Base}

/-- The rows for a report, whatever the reporter. -/
theorem snippet_rows (O : OriginOk input ctx b) {report : Snippet → Except PyExc Snippet} (hr : Emphasises ctx b report) (o : Options) :
    ∃ rows, (o.reporter = .text → makeSnippet o ctx report = .ok (plainSnippet o rows)) ∧ (o.reporter = .html → makeSnippet o ctx report = .ok (htmlSnippet o rows)) ∧
      Accounts ctx.lineCount 1 rows ∧ (∀ k t, SnipRow.line .emphasis k t ∈ rows ↔ k = b.line + 1 ∧ t = slice input b.span.1 b.span.2) ∧
      (Tidy ctx → Shows input rows b.line IsCommentLine) ∧ (Tidy ctx → Complete ctx → Shows input rows b.line fun _ => False) := by
  obtain ⟨B, C⟩ := O.report.chart
  obtain ⟨index, e, I⟩ := buildIndex_ok O.report.grown C
  obtain ⟨s, h1, h2, h3, hM⟩ := hr
  have emph : ∀ k t, SnipRow.line .emphasis k t ∈ rowsOf (content ctx.input index) (window s) ↔ k = b.line + 1 ∧ t = sourceText input b := by
    intro k t
    rw [rows_mem]
    constructor
    · rintro ⟨n, tag, rfl, rfl, h4, h5, h6⟩
      have : tag = .emphasize := by cases tag <;> simp_all [markOf]
      subst this
      have := (h3 n).1 (window_emphasis h4)
      subst this
      exact ⟨rfl, by rw [content_eq I O.mem, O.source]⟩
    · rintro ⟨rfl, rfl⟩
      exact ⟨b.line, .emphasize, rfl, by rw [content_eq I O.mem, O.source], window_mark ((h3 _).2 rfl), by simp, rfl⟩
  have gen : ∀ gone : Str → Prop, Tidy ctx → (∀ n, content ctx.input index n = lineText ctx.input n ∨
      (content ctx.input index n = [] ∧ (WhiteLine (lineText ctx.input n) ∨ gone (lineText ctx.input n)))) →
      Shows input (rowsOf (content ctx.input index) (window s)) b.line gone := by
    intro gone t hc
    refine ⟨?_, ?_⟩
    · intro k u
      rw [emph, ← O.source, C.text (C.tidy t) b (C.all b O.mem)]; rfl
    · intro m k u hm
      obtain ⟨n, tag, rfl, rfl, _⟩ := rows_mem.1 hm
      refine ⟨by omega, ?_⟩
      rw [Nat.add_sub_cancel, ← O.source]
      exact hc n
  refine ⟨rowsOf (content ctx.input index) (window s), ?_, ?_, by rw [← h2]; exact window_accounts hM, emph, ?_, ?_⟩
  · intro ho
    unfold makeSnippet
    simp only [e, h1, ho, text_print]
  · intro ho
    unfold makeSnippet
    simp only [e, h1, ho, html_print]
  · intro t
    exact gen _ t fun n => (content_ok C I t n).imp id fun q => ⟨q.1, q.2.imp id fun r => r.1⟩
  · intro t K
    obtain ⟨B', C', hB⟩ := K.full
    refine gen _ t fun n => (content_ok C' I t n).imp id fun q => ⟨q.1, q.2.imp id ?_⟩
    rintro ⟨_, b', hb', _, hn⟩
    exact hn (hB b' hb')

/-! ## The terminal reporter -/

theorem lastWrite_append {α} (a c : List (Nat × α)) (n : Nat) : lastWrite (a ++ c) n = (lastWrite c n).or (lastWrite a n) := by
  unfold lastWrite
  rw [List.filter_append, List.getLast?_append]
  cases (c.filter fun w => w.1 = n).getLast? <;> simp

theorem index_untyped {x : Base} (U : Untyped ctx x) (e : buildIndex ctx = .ok index) : index.getD x.line none = some ⟨x, none⟩ := by
  unfold buildIndex at e
  split at e
  · cases e
  · rename_i rows _
    rw [putAll_getD e, List.map_append, lastWrite_append]
    obtain ⟨y, hy⟩ := lastWrite_isSome (n := x.line) (x := (⟨x, none⟩ : Row))
      (ws := (ctx.metas.map fun m => (⟨m.base, m.type⟩ : Row)).map fun r => (r.line, r))
      (List.mem_map.2 ⟨⟨x, none⟩, List.mem_map.2 ⟨_, U.mem, rfl⟩, rfl⟩)
    obtain ⟨r, hr, h1⟩ := List.mem_map.1 (lastWrite_mem hy)
    obtain ⟨m, hm, rfl⟩ := List.mem_map.1 hr
    injection h1 with h1 h2
    have := U.only m hm h1
    subst this
    rw [hy, ← h2]; rfl

theorem except_bind_ok {α β} {x : Except PyExc α} {f : α → Except PyExc β} {e : PyExc} (h : (x >>= f) = .error e) :
    x = .error e ∨ ∃ a, x = .ok a ∧ f a = .error e := by
  cases x with
  | error e' => left; cases h; rfl
  | ok a => right; exact ⟨a, rfl, h⟩

theorem paint_fails {lb : Nat} {x : RangeName × (Nat × Nat)} {c : Str} {e : PyExc} (h : TerminalReporter.paint input lb c x = .error e) : e = .keyError := by
  unfold TerminalReporter.paint at h
  split at h
  · rename_i hr
    injection h with h; subst h
    unfold TerminalReporter.rangeStyle at hr
    split at hr <;> first | cases hr | skip
    all_goals first | rfl | (injection hr with hr; exact hr.symm)
  · cases h

theorem paints_fail {lb : Nat} : ∀ (l : Ranges) {c : Str} {e : PyExc}, l.foldlM (TerminalReporter.paint input lb) c = .error e → e = .keyError
  | [], _, _, h => by cases h
  | x :: t, c, e, h => by
    rw [List.foldlM_cons] at h
    rcases except_bind_ok h with h | ⟨a, _, h⟩
    · exact paint_fails h
    · exact paints_fail t h

theorem terminal_line_fails {pad n : Nat} {t : Tag} {e : PyExc} (h : TerminalReporter.line pad input index n t = .error e) : e = .keyError := by
  unfold TerminalReporter.line at h
  split at h
  · cases h
  · rename_i ht
    rcases except_bind_ok h with h | ⟨a, _, h⟩
    · unfold TerminalReporter.content at h
      split at h
      · cases h
      · split at h
        · injection h with h; exact h.symm
        · split at h
          · cases h
          · exact paints_fail _ h
    · rcases except_bind_ok h with h | ⟨a, _, h⟩
      · cases t <;> first | exact absurd rfl ht | cases h
      · rcases except_bind_ok h with h | ⟨a, _, h⟩
        · cases t <;> first | exact absurd rfl ht | cases h
        · cases h

theorem terminal_line_untyped {pad n : Nat} {t : Tag} {x : Base} (h : index.getD n none = some ⟨x, none⟩) (ht : t ≠ .omission) :
    TerminalReporter.line pad input index n t = .error .keyError := by
  unfold TerminalReporter.line
  rw [if_neg ht, h]
  rfl

theorem allOk_fails {α : Type} : ∀ (l : List (Except PyExc α)), (∀ x ∈ l, ∀ e, x = .error e → e = .keyError) → (∃ x ∈ l, x = .error .keyError) →
    allOk l = .error .keyError
  | [], _, ⟨_, h, _⟩ => by cases h
  | .error e :: t, h1, _ => by
    have := h1 _ (by simp) e rfl
    subst this; rfl
  | .ok a :: t, h1, ⟨x, hx, he⟩ => by
    have : allOk t = .error .keyError := by
      refine allOk_fails t (fun x hx => h1 x (by simp [hx])) ⟨x, ?_, he⟩
      rcases List.mem_cons.1 hx with rfl | hx
      · cases he
      · exact hx
    simp [allOk, this]

theorem terminal_fails (O : OriginOk input ctx b) {report : Snippet → Except PyExc Snippet} (hr : Emphasises ctx b report)
    (hP : ∀ s, report (List.replicate ctx.lineCount none) = .ok s → ShowsUntyped ctx s) (ho : o.reporter = .terminal) :
    makeSnippet o ctx report = .error .keyError := by
  obtain ⟨B, C⟩ := O.report.chart
  obtain ⟨index, e, I⟩ := buildIndex_ok O.report.grown C
  obtain ⟨s, h1, h2, h3, hM⟩ := hr
  obtain ⟨x, t, U, hx, ht⟩ := hP s h1
  unfold makeSnippet
  simp only [e, h1, ho, TerminalReporter.print, printLines]
  rw [allOk_fails]
  · rfl
  · intro y hy e' he
    obtain ⟨⟨n, t⟩, _, rfl⟩ := List.mem_map.1 hy
    exact terminal_line_fails he
  · exact ⟨_, List.mem_map.2 ⟨(x.line, t), shown_mem.2 (window_mark hx), rfl⟩, terminal_line_untyped (index_untyped U e) ht⟩

end Eno
