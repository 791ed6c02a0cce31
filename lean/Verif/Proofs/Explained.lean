import Verif.Proofs.UnclosedKey
import Verif.Proofs.ElementErrors

/-! # What parse errors say -/

namespace Eno

open Spec

variable {input : Str} {ctx : Ctx} {B : List Base} {h h0 : Heap} {o : Options} {s : Snippet} {b : Base} {es : List Event} {ev : Event}
variable {report : Snippet → Except PyExc Snippet} {out : Str} {ws : List (Nat × Tag)}

/-! ## Marks -/

theorem textMarks (O : OriginOk input ctx b) (hr : report (List.replicate ctx.lineCount none) = .ok s) (hm : Marked s) (ha : ∃ n, IsMarked s n) (ho : o.reporter = .text)
    (hout : makeSnippet o ctx report = .ok out) :
    TextMarks o out (s.getD · none = some .emphasize) (s.getD · none = some .indicate) (s.getD · none = some .question) := by
  obtain ⟨B, C⟩ := O.report.chart
  obtain ⟨index, hi, I⟩ := buildIndex_ok O.report.grown C
  have hout' : makeSnippet o ctx report = .ok (plainSnippet o (rowsOf (content ctx.input index) (window s))) := by
    unfold makeSnippet
    simp only [hi, hr, ho, text_print]
  rw [hout'] at hout
  injection hout with hout
  have key : ∀ m n, m ≠ .plain → ((∃ t, SnipRow.line m (n + 1) t ∈ rowsOf (content ctx.input index) (window s)) ↔ MarkedAs s n m) := by
    intro m n hmp
    constructor
    · rintro ⟨t, ht⟩
      obtain ⟨n', tag, e, _, hw, hno, hmt⟩ := rows_mem.1 ht
      have : n' = n := by omega
      subst this
      by_cases hd : tag = .display
      · subst hd; exact absurd hmt.symm hmp
      · have hsn := window_unmarked hw hd hno hm ha
        cases tag <;> simp_all [markOf] <;> subst hmt <;> exact hsn
    · intro hM
      refine ⟨content ctx.input index n, rows_mem.2 ?_⟩
      cases m with
      | plain => exact hM.elim
      | emphasis => exact ⟨n, .emphasize, rfl, rfl, window_mark hM, by simp, rfl⟩
      | indication => exact ⟨n, .indicate, rfl, rfl, window_mark hM, by simp, rfl⟩
      | question => exact ⟨n, .question, rfl, rfl, window_mark hM, by simp, rfl⟩
  exact ⟨_, hout.symm, fun n => ⟨key .emphasis n (by simp), key .indication n (by simp), key .question n (by simp)⟩⟩

/-- A report that emphasises a line and marks others. -/
theorem told {t : Tag} (O : OriginOk input ctx b) (hw : ∀ w ∈ ws, w.1 < ctx.lineCount ∧ w.1 ≠ b.line ∧ w.2 = t) (ht : t = .indicate ∨ t = .question)
    (hr : report (List.replicate ctx.lineCount none) = (do let s ← markLine .emphasize b (List.replicate ctx.lineCount none); putAll s ws)) (ho : o.reporter = .text)
    (hout : makeSnippet o ctx report = .ok out) :
    TextMarks o out (· = b.line) (fun n => t = .indicate ∧ n ∈ ws.map (·.1)) (fun n => t = .question ∧ n ∈ ws.map (·.1)) := by
  obtain ⟨B, C⟩ := O.report.chart
  have hb := C.below b (C.all b O.mem)
  obtain ⟨s, h1, h2, h3, hM⟩ := emphasises_more (ctx := ctx) (b := b) (ws := ws) hb (fun w q => ⟨(hw w q).1, (hw w q).2.1, by rw [(hw w q).2.2]; exact ht⟩)
  have hs1 : markLine .emphasize b (List.replicate ctx.lineCount none) = .ok ((List.replicate ctx.lineCount none).set b.line (some .emphasize)) := put_ok (by simpa using hb)
  have hg : ∀ n, s.getD n none = if n ∈ ws.map (·.1) then some t else if n = b.line then some .emphasize else none := by
    intro n
    have h1' := h1
    simp only [hs1] at h1'
    rw [putAll_getD (show putAll _ ws = .ok s from h1')]
    rw [getD_set (by simpa using hb), fresh_getD]
    by_cases hn : n ∈ ws.map (·.1)
    · rw [if_pos hn]
      obtain ⟨w, hw1, rfl⟩ := List.mem_map.1 hn
      obtain ⟨y, hy⟩ := lastWrite_isSome (n := w.1) (x := w.2) (ws := ws) hw1
      rw [hy]
      have := (hw _ (lastWrite_mem hy)).2.2
      simp only at this
      simp [this]
    · rw [if_neg hn]
      cases hl : lastWrite ws n with
      | none => simp
      | some y => exact absurd (List.mem_map.2 ⟨_, lastWrite_mem hl, rfl⟩) hn
  have := textMarks O (by rw [hr]; exact h1) hM ⟨b.line, .emphasis, (h3 _).2 rfl⟩ ho hout
  obtain ⟨rows, r1, r2⟩ := this
  refine ⟨rows, r1, fun n => ?_⟩
  obtain ⟨q1, q2, q3⟩ := r2 n
  refine ⟨q1.trans (h3 n), q2.trans ?_, q3.trans ?_⟩
  · show s.getD n none = _ ↔ _
    rw [hg]
    by_cases hn : n ∈ ws.map (·.1)
    · simp only [hn, if_true, and_true, Option.some.injEq]
    · simp only [hn, if_false, and_false, iff_false]; split <;> simp
  · show s.getD n none = _ ↔ _
    rw [hg]
    by_cases hn : n ∈ ws.map (·.1)
    · simp only [hn, if_true, and_true, Option.some.injEq]
    · simp only [hn, if_false, and_false, iff_false]; split <;> simp

/-- A report that only emphasises a line. -/
theorem told_line (O : OriginOk input ctx b) (ho : o.reporter = .text) (hout : makeSnippet o ctx (markLine .emphasize b) = .ok out) :
    TextMarks o out (· = b.line) noLine noLine := by
  have := told (ws := []) (t := .indicate) O (by simp) (.inl rfl) (report := markLine .emphasize b) (by
    cases markLine .emphasize b (List.replicate ctx.lineCount none) <;> rfl) ho hout
  obtain ⟨rows, r1, r2⟩ := this
  exact ⟨rows, r1, fun n => by simpa using r2 n⟩

/-! ## The last heading -/

theorem headingLine_snoc : headingLine (es ++ [ev]) = (match ev.role with | .heading _ => some ev.at.1 | _ => headingLine es) := by
  unfold headingLine
  rw [List.filterMap_append]
  cases hr : ev.role <;> simp [hr]

theorem heading_fact (hL : AllLegal es) : match headingLine es with
    | none => lastSectionOf es = 0
    | some n => ∃ ev g, 0 < lastSectionOf es ∧ (blocks es)[lastSectionOf es - 1]? = some (ev :: g) ∧ ev.at.1 = n := by
  induction es using snoc_induction with
  | h0 => rfl
  | h1 es ev ih =>
    obtain ⟨hL', hl⟩ := allLegal_snoc hL
    have ih := ih hL'
    rw [headingLine_snoc]
    by_cases hst : ev.role.starts = true
    · rw [lastSectionOf_snoc_new hst, blocks_snoc_starts hst]
      cases hr : ev.role with
      | heading d =>
        have hk : kindOf [ev] = .section := by simp [kindOf, hr]
        rw [if_pos hk]
        exact ⟨ev, [], by omega, by simp, rfl⟩
      | _ =>
        have hk : kindOf [ev] ≠ .section := by
          simp only [kindOf, hr, List.head?_nil, Option.map_none]
          try split
          all_goals simp_all
        rw [if_neg hk]
        cases hh : headingLine es with
        | none => rw [hh] at ih; exact ih
        | some n =>
          rw [hh] at ih
          obtain ⟨ev', g, h1, h2, h3⟩ := ih
          exact ⟨ev', g, h1, by rw [List.getElem?_append_left (List.getElem?_eq_some_iff.1 h2).1]; exact h2, h3⟩
    · have hst : ev.role.starts = false := by simpa using hst
      have hnh : (match ev.role with | .heading _ => some ev.at.1 | _ => headingLine es) = headingLine es := by
        cases hr : ev.role <;> first | rfl | (rw [hr] at hst; cases hst)
      rw [hnh]
      by_cases hco : ev.role.content = true
      · obtain ⟨gs, g, hg⟩ : ∃ gs g, blocks es = gs ++ [g] := by
          have : ∃ b, (blocks es).getLast? = some b := by
            unfold Legal at hl
            cases hr : ev.role <;> rw [hr] at hl hst hco <;> simp [Role.starts, Role.content] at hst hco
            · obtain ⟨b, hb, _⟩ := hl; exact ⟨b, hb⟩
            · obtain ⟨b, hb, _⟩ := hl; exact ⟨b, hb⟩
            · obtain ⟨b, hb, _⟩ := hl; exact ⟨b, hb⟩
          obtain ⟨b, hb⟩ := this
          obtain ⟨gs, e⟩ := List.getLast?_eq_some_iff.1 hb
          exact ⟨gs, b, e⟩
        rw [lastSectionOf_snoc_joins hco hst hg, blocks_snoc_joins hco hst hg]
        cases hh : headingLine es with
        | none => rw [hh] at ih; exact ih
        | some n =>
          rw [hh] at ih
          obtain ⟨ev', r, h1, h2, h3⟩ := ih
          rw [hg] at h2
          by_cases hlt : lastSectionOf es - 1 < gs.length
          · rw [List.getElem?_append_left hlt] at h2
            exact ⟨ev', r, h1, by rw [List.getElem?_append_left hlt]; exact h2, h3⟩
          · have hlt' := (List.getElem?_eq_some_iff.1 h2).1
            simp only [List.length_append, List.length_singleton] at hlt'
            have e : lastSectionOf es - 1 = gs.length := by omega
            rw [e, List.getElem?_append_right (Nat.le_refl _), Nat.sub_self] at h2
            simp at h2
            refine ⟨ev', r ++ [ev], h1, ?_, h3⟩
            rw [e, List.getElem?_append_right (Nat.le_refl _), Nat.sub_self, h2]
            simp
      · have hco : ev.role.content = false := by simpa using hco
        rw [lastSectionOf_snoc_skip hco, blocks_snoc_skip hco]
        exact ih

/-- The section that a heading is compared with is the document, or the element of the last heading. -/
theorem last_heading {s : AS} (hL : AllLegal es) (inv : Inv s) (lay : Layout es s) :
    match headingLine es with
    | none => (s.heap.at (lastSectionOf es)).type = .document
    | some n => (s.heap.at (lastSectionOf es)).type ≠ .document ∧ (s.heap.at (lastSectionOf es)).line = n := by
  have hf := heading_fact hL
  cases hh : headingLine es with
  | none => rw [hh] at hf; simp only at hf ⊢; rw [hf]; exact inv.heap.doc.1
  | some n =>
    rw [hh] at hf
    obtain ⟨ev, g, h1, h2, h3⟩ := hf
    have hlen : s.heap.length = (blocks es).length + 1 := by
      have := congrArg List.length lay.kinds
      have := inv.heap.pos
      simp at *; omega
    have hlt := (List.getElem?_eq_some_iff.1 h2).1
    obtain ⟨b, hb, hp, hk⟩ := elem_block (i := lastSectionOf es) lay h1 (by omega)
    rw [h2] at hb; injection hb with hb; subst hb
    refine ⟨?_, ?_⟩
    · rw [hk]
      simp only [kindOf]
      repeat' split
      all_goals simp
    · obtain ⟨e, g', gs, hpe, _, hhd, _⟩ := parts_head (List.mem_of_getElem? h2)
      simp at hhd; subst hhd
      rw [hpe] at hp
      have hst : ∃ p ps, ev.pieces = p :: ps ∧ p.line = ev.at.1 := by
        obtain ⟨e, r, he, hst, _⟩ := blocks_spec (List.mem_of_getElem? h2)
        injection he with he _; subst he
        cases ev with
        | line n b t =>
          simp only [Event.pieces]
          split
          · rename_i he; simp only [Event.role, he, roleOf, Role.starts] at hst; cases hst
          · exact ⟨_, _, rfl, rfl⟩
        | multi n b fin op key body T => exact ⟨_, _, rfl, rfl⟩
      obtain ⟨p, ps, hps, hpl⟩ := hst
      simp only [List.map_cons, List.flatMap_cons, hps, List.cons_append] at hp
      unfold Elem.parts at hp
      injection hp with hp _
      unfold Elem.head at hp
      injection hp with hp _
      have := congrArg (fun q : Piece => q.line) hp
      simp only [Elem.piece] at this
      rw [this, hpl, h3]

/-! ## The lines after an unterminated multiline field -/

theorem place_has (ls : List Str) (n i k : Nat) : (∃ p ∈ place n i ls, p.1 = k) ↔ n ≤ k ∧ k < n + ls.length := by
  have := congrArg (fun l => k ∈ l) (place_lines ls n i)
  simp only [List.mem_map, List.mem_range'_1] at this
  rw [this]

theorem later_metas {s : AS} {fin n : Nat} {x : Base} (hx : tokenizeErrorContext input s (fin + 1) (n + 1) = some (ctx, x)) (hm : ∀ m ∈ s.metas, m.base.line < n + 1) (k : Nat) :
    (∃ m ∈ ctx.metas, n < m.base.line ∧ m.base.line = k) ↔ n < k ∧ k ≤ n + (splitNl (input.drop (fin + 1))).length := by
  by_cases hf : fin + 1 ≤ input.length
  · rw [tokenize_eq s hf] at hx
    injection hx with hx
    injection hx with hx _
    subst hx
    have : ∀ k, (∃ m ∈ (errorCtx input s (fin + 1) (n + 1)).metas, m.base.line = k) ↔
        (∃ m ∈ s.metas, m.base.line = k) ∨ ∃ p ∈ place (n + 1) (fin + 1) (splitNl (input.drop (fin + 1))), p.1 = k := by
      intro k
      have e := errorCtx_metas (input := input) (s := s) (i := fin + 1) (n := n + 1)
      constructor
      · rintro ⟨m, hm, rfl⟩
        have h1 := List.mem_map_of_mem (f := Meta.base) hm
        rw [e] at h1
        rcases List.mem_append.1 h1 with h1 | h1
        · obtain ⟨m', h2, h3⟩ := List.mem_map.1 h1
          exact .inl ⟨m', h2, by rw [h3]⟩
        · obtain ⟨p, h2, h3⟩ := List.mem_map.1 h1
          exact .inr ⟨p, h2, by rw [← h3]; rfl⟩
      · intro h
        have h1 : ∃ b ∈ (errorCtx input s (fin + 1) (n + 1)).metas.map Meta.base, b.line = k := by
          rw [e]
          rcases h with ⟨m, h2, h3⟩ | ⟨p, h2, h3⟩
          · exact ⟨_, List.mem_append_left _ (List.mem_map_of_mem h2), h3⟩
          · exact ⟨_, List.mem_append_right _ (List.mem_map_of_mem h2), h3⟩
        obtain ⟨b, hb, hk⟩ := h1
        obtain ⟨m, h2, rfl⟩ := List.mem_map.1 hb
        exact ⟨m, h2, hk⟩
    constructor
    · rintro ⟨m, h1, h2, h3⟩
      rcases (this k).1 ⟨m, h1, h3⟩ with ⟨m', h4, h5⟩ | h4
      · have := hm m' h4; omega
      · have := (place_has _ _ _ _).1 h4; omega
    · intro h
      obtain ⟨m, h1, h2⟩ := (this k).2 (.inr ((place_has _ _ _ _).2 (by omega)))
      exact ⟨m, h1, by omega, h2⟩
  · have hpc : pieces input input.length (input.length + 2) (fin + 1) (n + 1) = some [(n + 1, fin + 1, input.length)] := by
      unfold pieces findNl
      rw [List.take_length, List.drop_eq_nil_of_le (by omega)]
      rfl
    unfold tokenizeErrorContext at hx
    rw [hpc] at hx
    simp only [List.map_nil, Option.some.injEq, Prod.mk.injEq] at hx
    obtain ⟨hx, _⟩ := hx
    rw [← hx, List.drop_eq_nil_of_le (by omega)]
    simp only [List.mem_append, List.mem_singleton, splitNl, List.length_singleton]
    constructor
    · rintro ⟨m, h1 | rfl, h2, h3⟩
      · have := hm m h1; omega
      · simp only [Meta.base] at h3; omega
    · intro h
      exact ⟨_, .inr rfl, by simp [Meta.base], by simp only [Meta.base]; omega⟩

/-! ## Errors of the analysis -/

theorem finish_inv {text : Msg} {sel : Except PyExc Selection} {S : Selection} {e : ErrObj} (hsel : sel = .ok S)
    (hh : (do let snippet ← makeSnippet o ctx report; .ok ⟨text, snippet, ← sel⟩ : Except PyExc ErrObj) = .ok e) :
    makeSnippet o ctx report = .ok e.snippet ∧ e.text = text ∧ e.selection = S := by
  subst hsel
  cases hm : makeSnippet o ctx report with
  | error x => rw [hm] at hh; cases hh
  | ok out => rw [hm] at hh; cases hh; exact ⟨rfl, rfl, rfl⟩

theorem selectLine_eq (h1 : b.range? .line = some b.span) : selectLine b = .ok (wholeLine b) := by
  unfold selectLine selection; rw [cursor_ok h1 h1, cursor_ok h1 h1]; rfl

theorem lineError_inv {text : Msg} {e : ErrObj} (O : OriginOk input ctx b) (hh : lineError o ctx b text = .ok e) :
    e.text = text ∧ e.selection = wholeLine b ∧ (o.reporter = .text → TextMarks o e.snippet (· = b.line) noLine noLine) := by
  obtain ⟨h1, h2, h3⟩ := finish_inv (selectLine_eq O.line) hh
  exact ⟨h2, h3, fun ho => told_line O ho h1⟩

theorem wholeLine_errorLine (i n : Nat) : wholeLine (errorLine input i n) = onLine n i i (i + (lineFrom input i).length) := rfl

theorem sourceText_errorLine (i n : Nat) : sourceText input (errorLine input i n) = lineFrom input i := by
  show (input.take (i + (lineOf (input.drop i)).length)).drop i = lineOf (input.drop i)
  rw [List.drop_take, Nat.add_sub_cancel_left]
  exact take_takeWhile _ _

theorem noNl_lineFrom (i : Nat) : '\n' ∉ lineFrom input i := by
  intro hm
  have := mem_takeWhile_imp hm
  simp at this

theorem explained_analysis {k : FailKind} {e : ErrObj} (ha : analyze input = .error (.parse k ctx b)) (he : analysisError o ctx b k = .ok e) :
    ∃ ind ques, Explains input e.text e.selection ind ques ∧ (o.reporter = .text → TextMarks o e.snippet (· = e.selection.start.line) ind ques) := by
  have O := (Origin.analysis (o := o) ha).ok
  rcases analyze_error_cases ha with ⟨pre, ev, post, r, s, ht, hL, hnl, hk, hs, hc, hb⟩ | ⟨es, n, i, s, ht, hL, rfl, hs, hc, hb⟩ |
      ⟨es, n, i, fin, op, key, s, x, ht, hL, rfl, hs, hx, hb⟩
  · cases hr : ev.role <;> simp only [rejection, hr, Option.some.injEq, reduceCtorEq] at hk <;> subst hk
    · obtain ⟨h1, h2, h3⟩ := lineError_inv O he
      rw [h1, h2]
      subst hb
      exact ⟨_, _, .item ht hL hnl hr, h3⟩
    · obtain ⟨h1, h2, h3⟩ := lineError_inv O he
      rw [h1, h2]
      subst hb
      exact ⟨_, _, .entry ht hL hnl hr, h3⟩
    · obtain ⟨h1, h2, h3⟩ := lineError_inv O he
      rw [h1, h2]
      subst hb
      exact ⟨_, _, .continuation ht hL hnl hr, h3⟩
    · rename_i d
      obtain ⟨h1, h2, h3⟩ := finish_inv (selectLine_eq O.line) he
      rw [h2, h3]
      have hd : depthOf pre + 1 < d := by
        unfold Legal at hnl
        rw [hr] at hnl
        simpa using hnl
      obtain ⟨inv, lay⟩ := layout_runEvents pre (fun e he => trace_shaped ht e (by simp [he])) hs
      have hlast := last_heading hL inv lay
      have hheap : ctx.heap = s.heap := by rw [hc]; rfl
      refine ⟨(headingLine pre = some ·), noLine, ?_, ?_⟩
      · subst hb; exact .heading ht hL hr hd
      · intro ho
        show TextMarks o e.snippet (· = b.line) _ _
        obtain ⟨R, A, U⟩ := analysis_context ha
        obtain ⟨B, C⟩ := R.chart
        cases hh : headingLine pre with
        | none =>
          rw [hh] at hlast
          have := told (ws := []) (t := .indicate) O (by simp) (.inl rfl) (by
            simp only [hheap, hlast]
            cases markLine .emphasize b (List.replicate ctx.lineCount none) <;> rfl) ho h1
          obtain ⟨rows, r1, r2⟩ := this
          exact ⟨rows, r1, fun n => by simpa using r2 n⟩
        | some n =>
          rw [hh] at hlast
          obtain ⟨hl1, hl2⟩ := hlast
          have hsup : 0 < lastSectionOf pre ∧ lastSectionOf pre < ctx.heap.length := by
            refine ⟨Nat.pos_of_ne_zero ?_, Nat.lt_of_not_le ?_⟩
            · intro h0; rw [h0] at hl1; exact hl1 inv.heap.doc.1
            · intro hge; rw [hheap] at hge; rw [Heap.at_ge hge] at hl1; exact hl1 rfl
          have hmem : (ctx.heap.at (lastSectionOf pre)).toBase ∈ ctx.heap.tail.flatMap Elem.bases := by
            rw [List.mem_flatMap]
            exact ⟨_, mem_tail hsup.1 hsup.2, by simp [Elem.bases]⟩
          have g1 := U.before _ hmem
          have g2 := C.below _ (C.all _ (List.mem_append_left _ hmem))
          rw [hheap] at g1 g2
          have hl2' : (s.heap.at (lastSectionOf pre)).toBase.line = n := hl2
          rw [hl2'] at g1 g2
          have := told (ws := [(n, .indicate)]) (t := .indicate) O (by
            intro w hw
            rw [List.mem_singleton] at hw; subst hw
            exact ⟨g2, by simp only; omega, rfl⟩) (.inl rfl) (by
            simp only [hheap, ne_eq, hl1, not_false_eq_true, if_true]
            cases markLine .emphasize b (List.replicate ctx.lineCount none) with
            | error e => rfl
            | ok s' =>
              show markLine .indicate (s.heap.at (lastSectionOf pre)).toBase s' = putAll s' [(n, .indicate)]
              simp [putAll, markLine, hl2']) ho h1
          obtain ⟨rows, r1, r2⟩ := this
          refine ⟨rows, r1, fun m => ?_⟩
          obtain ⟨q1, q2, q3⟩ := r2 m
          refine ⟨q1, q2.trans ?_, q3.trans ?_⟩
          · simp [eq_comm]
          · simp
  · simp only [analysisError, invalidLine] at he
    rw [O.source, hb, sourceText_errorLine, ← hb] at he
    split at he
    · rename_i column hcol
      have hcol := (unterminatedKey_iff (noNl_lineFrom i)).1 hcol
      unfold unterminatedEscapedKey at he
      rw [cursor_ok O.line O.line] at he
      cases hm : makeSnippet o ctx (markLine .emphasize b) with
      | error x => rw [hm] at he; cases he
      | ok out =>
        rw [hm] at he; cases he
        refine ⟨noLine, noLine, ?_, fun ho => told_line O ho hm⟩
        have := Explains.unclosed ht hL hcol
        subst hb
        have e1 : onLine n i (i + column) (i + (lineFrom input i).length) = ⟨⟨column, i + column, n⟩, ⟨((i + (lineFrom input i).length : Nat) : Int) - i, i + (lineFrom input i).length, n⟩⟩ := by
          unfold onLine
          congr 2
          omega
        rw [e1] at this
        exact this
    · rename_i hcol
      obtain ⟨h1, h2, h3⟩ := lineError_inv O he
      rw [h1, h2]
      subst hb
      refine ⟨_, _, .invalid ht hL ?_, h3⟩
      intro k hk
      rw [(unterminatedKey_iff (noNl_lineFrom i)).2 hk] at hcol
      cases hcol
  · obtain ⟨inv, lay⟩ := layout_runEvents es (trace_shaped ht) hs
    obtain ⟨_, _, _, F⟩ := accused_unterminated ht hL inv lay hx
    simp only [analysisError, unterminatedMultilineField] at he
    rw [← hb] at F
    rw [F.base] at he
    obtain ⟨h1, h2, h3⟩ := finish_inv (selectLine_eq O.line) he
    have hkey : (ctx.heap.at ((blocks es).length + 1)).key = key.text := by
      have hheap : ctx.heap = (openMultiline s n i fin op key).heap := by
        unfold tokenizeErrorContext at hx
        split at hx
        · cases hx
        · cases hx
        · injection hx with hx
          injection hx with hx _
          rw [← hx]
      have hlen : s.heap.length = (blocks es).length + 1 := by
        have := congrArg List.length lay.kinds
        have := inv.heap.pos
        simp at *; omega
      rw [hheap, ← hlen]
      have ha : (openMultiline s n i fin op key).heap.at s.heap.length =
        ({ line := n, ranges := [(.line, (i, fin)), (.multilineFieldOperator, op.span), (.key, key.span)]
           comments := s.comments, key := key.text, parent := some s.lastSection, type := .mlBegin } : Elem) := at_AS_append_last _ _ _
      rw [ha]
    rw [h2, h3, hkey]
    have hbn : b.line = n := by rw [hb]; rfl
    refine ⟨fun m => n < m ∧ m ≤ n + (splitNl (input.drop (fin + 1))).length, noLine, ?_, ?_⟩
    · have := Explains.multiline ht hL
      rw [hb]
      exact this
    · intro ho
      show TextMarks o e.snippet (· = b.line) _ _
      obtain ⟨B, C⟩ := O.report.chart
      have hre : ∀ s, reportElement ctx.heap (.elem ((blocks es).length + 1)) s = markLine .emphasize b s := by
        intro s
        simp only [reportElement, Heap.base?, F.type, tagRef, tagElement, tagLeaf, tagMultiline, F.lines, F.fin, F.base, markLine]
        simp only [reduceCtorEq, if_false]
        cases hp : put s b.line Tag.emphasize with
        | error e => show (put s b.line Tag.emphasize >>= _) = _; rw [hp]; rfl
        | ok s => show (put _ b.line Tag.emphasize >>= _) = _; rw [hp]; rfl
      simp only [hre] at h1
      have hmm : ∀ m ∈ (openMultiline s n i fin op key).metas, m.base.line < n + 1 := by
        intro m hm
        obtain ⟨i', n', ht', hp⟩ := trace_prefix (post := []) (pre := es) (by simpa using ht)
        have hin : i' = i ∧ n' = n := by cases ht'; exact ⟨rfl, rfl⟩
        obtain ⟨rfl, rfl⟩ := hin
        have : m.base ∈ basesOf es := by
          refine (flat_ok es hL).subLoose.subset (List.mem_append_left _ ?_)
          have hm' := List.mem_map_of_mem (f := Meta.base) (show m ∈ s.metas from hm)
          rw [lay.metas] at hm'
          simpa [commentBases, Function.comp_def, Meta.base, List.map_flatMap] using hm'
        have hb := hp.bounds (spotOf m.base) (by rw [spots_bases]; exact List.mem_map_of_mem this)
        have := hb.2.1
        simp only [spotOf] at this
        omega
      have later := later_metas hx hmm
      have := told (ws := (ctx.metas.filter fun m => m.base.line > b.line).map fun m => (m.base.line, .indicate)) (t := .indicate) O (by
        intro w hw
        obtain ⟨m, hm, rfl⟩ := List.mem_map.1 hw
        obtain ⟨hm, hgt⟩ := List.mem_filter.1 hm
        simp only [decide_eq_true_eq] at hgt
        refine ⟨C.below _ (C.all _ (List.mem_append_right _ (List.mem_map_of_mem hm))), ?_, rfl⟩
        simp only; omega) (.inl rfl) rfl ho h1
      obtain ⟨rows, r1, r2⟩ := this
      refine ⟨rows, r1, fun m => ?_⟩
      obtain ⟨q1, q2, q3⟩ := r2 m
      refine ⟨q1, q2.trans ?_, q3.trans ?_⟩
      · refine Iff.trans ?_ (later m)
        simp only [true_and, List.map_map, List.mem_map, List.mem_filter, decide_eq_true_eq, Function.comp]
        constructor
        · rintro ⟨y, ⟨y1, y2⟩, y3⟩; exact ⟨y, y1, by omega, y3⟩
        · rintro ⟨y, y1, y2, y3⟩; exact ⟨y, ⟨y1, by omega⟩, y3⟩
      · simp

/-! ## Errors of the resolution -/

theorem explained_resolution {k : RFail} {e : ErrObj} (ha : analyze input = .ok ctx) (hl : load input = .error (.resolution (.parse k h)))
    (U : Unresolved input { ctx with heap := h } b k) (he : resolutionError o { ctx with heap := h } k = .ok e) :
    ∃ ind ques, Explains input e.text e.selection ind ques ∧ (o.reporter = .text → TextMarks o e.snippet (· = e.selection.start.line) ind ques) := by
  have O := (Origin.resolution (o := o) ha hl U).ok
  obtain ⟨_, ok, _⟩ := complete_analyze ha
  obtain ⟨c, hc, hr⟩ := load_error hl
  rw [ha] at hc; injection hc with hc; subst hc
  have S := shadow_resolve ctx
  rw [hr] at S
  simp only at S
  have eq : ∀ i, (h.at i).toBase = (ctx.heap.at i).toBase ∧ (h.at i).template = (ctx.heap.at i).template := by
    intro i
    obtain ⟨_, _, _, _, _, _, e7, e8, _⟩ := still_elements (S.own i)
    exact ⟨e7, e8⟩
  have eql : ∀ i, (h.at i).line = (ctx.heap.at i).line := fun i => congrArg Base.line (eq i).1
  have hout : Outcome ctx.heap (.error (.parse k h)) := by
    rcases load_cases ha with ⟨_, q, _⟩ | ⟨x, q, r⟩
    · rw [hl] at q; cases q
    · rw [hl] at q; injection q with q; injection q with q; subst q; exact r
  have lines : ∀ j, Present h j → (h.at j).line < ctx.lineCount := by
    obtain ⟨B, C⟩ := O.report.chart
    intro j p
    exact C.below _ (C.all _ (element_mem (ctx := { ctx with heap := h }) p))
  have pres : ∀ j, Present ctx.heap j → Present h j := fun j p => ⟨p.1, by rw [S.len]; exact p.2⟩
  -- what the error is about
  have copied : ∀ {i sec k}, i ∈ copiers ctx.heap sec k → Present h i ∧ templateName (h.at i) = .ok k := by
    intro i sec k hi
    obtain ⟨c1, c2, _⟩ := mem_copiers.1 hi
    obtain ⟨p, ht⟩ := present_copy ok c1 c2
    exact ⟨pres i p, by rw [templateName, (eq i).2, ht]⟩
  have hf := U.facts
  cases k with
  | missingListForListItem x =>
    obtain ⟨rfl, _⟩ := hf
    obtain ⟨h1, h2, h3⟩ := lineError_inv O he
    rw [h1, h2]
    refine ⟨_, _, ?_, h3⟩
    rcases hout with q | ⟨_, q | ⟨_, _, q⟩⟩
    · simp only [Ambiguous] at q
    · obtain ⟨i, xs, _, q1, _, q2⟩ := q
      exact .ownItem ha q1 q2
    · simp only [SFail] at q
  | missingFieldsetForFieldsetEntry x =>
    obtain ⟨rfl, _⟩ := hf
    obtain ⟨h1, h2, h3⟩ := lineError_inv O he
    rw [h1, h2]
    refine ⟨_, _, ?_, h3⟩
    rcases hout with q | ⟨_, q | ⟨_, _, q⟩⟩
    · simp only [Ambiguous] at q
    · obtain ⟨i, xs, _, q1, _, q2⟩ := q
      exact .ownEntry ha q1 q2
    · simp only [SFail] at q
  | nonSectionElementNotFound i =>
    obtain ⟨_, rfl, _⟩ := hf
    rcases hout with q | ⟨_, q | ⟨_, _, q⟩⟩
    · simp only [Ambiguous] at q
    · obtain ⟨k, q1, q2, q3, q4⟩ := q
      have hm : i ∈ copiers ctx.heap false k := mem_copiers.2 ⟨q1, q3, by simp [q2]⟩
      simp only [resolutionError, notFound, (copied hm).2] at he
      obtain ⟨h1, h2, h3⟩ := lineError_inv O he
      rw [h1, h2]
      refine ⟨_, _, ?_, h3⟩
      rw [eql, (eq i).1]
      exact .noElement ha hm q4
    · simp only [SFail] at q
  | sectionNotFound i =>
    obtain ⟨_, rfl, _⟩ := hf
    rcases hout with q | ⟨_, q | ⟨_, _, q⟩⟩
    · simp only [Ambiguous] at q
    · simp only [NFail] at q
    · obtain ⟨k, q1, q2, q3, q4⟩ := q
      have hm : i ∈ copiers ctx.heap true k := mem_copiers.2 ⟨q1, q3, by simp [q2]⟩
      simp only [resolutionError, notFound, (copied hm).2] at he
      obtain ⟨h1, h2, h3⟩ := lineError_inv O he
      rw [h1, h2]
      refine ⟨_, _, ?_, h3⟩
      rw [eql, (eq i).1]
      exact .noSection ha hm q4
  | twoOrMoreTemplatesFound i j l =>
    obtain ⟨pi, rfl, _, pj, pl, hij, hil⟩ := hf
    rcases hout with q | ⟨_, q | ⟨_, _, q⟩⟩
    · obtain ⟨sec, k, q1, q2, q3, q4⟩ := q
      simp only [resolutionError, twoOrMoreTemplates, (copied q1).2] at he
      obtain ⟨h1, h2, h3⟩ := finish_inv (selectLine_eq O.line) he
      rw [h2, h3]
      refine ⟨noLine, fun n => n = (ctx.heap.at j).line ∨ n = (ctx.heap.at l).line, ?_, ?_⟩
      · simp only
        rw [(eq i).1]
        exact .ambiguous ha q1 q2 q3 q4
      · intro ho
        show TextMarks o e.snippet (· = (h.at i).toBase.line) _ _
        have := told (ws := [((h.at j).line, .question), ((h.at l).line, .question)]) (t := .question) O (by
          intro w hw
          simp only [List.mem_cons, List.not_mem_nil, or_false] at hw
          rcases hw with rfl | rfl
          · exact ⟨lines j pj, U.apart j i pj pi (Ne.symm hij), rfl⟩
          · exact ⟨lines l pl, U.apart l i pl pi (Ne.symm hil), rfl⟩) (.inr rfl) (by
          show (markLine _ _ _ >>= _) = (markLine _ _ _ >>= _)
          cases markLine .emphasize (h.at i).toBase (List.replicate ctx.lineCount none) with
          | error e => rfl
          | ok s => simp [putAll, markLine]) ho h1
        obtain ⟨rows, r1, r2⟩ := this
        refine ⟨rows, r1, fun m => ?_⟩
        obtain ⟨q1, q2, q3⟩ := r2 m
        refine ⟨q1, q2.trans ?_, q3.trans ?_⟩
        · simp
        · simp [eql]
    · simp only [NFail] at q
    · simp only [SFail] at q
  | cyclicDependency i chain =>
    obtain ⟨pi, rfl, ht, pch⟩ := hf
    have hx : ∃ sec k, i ∈ copiers ctx.heap sec k ∧ i ∈ chain ∧ ∀ j ∈ chain, if sec then DepLeads ctx.heap j j else Leads ctx.heap j j := by
      have hlt : i < ctx.heap.length := by rw [← S.len]; exact pi.2
      have e := ok.elem i hlt
      have ht' : (ctx.heap.at i).copy.isSome := by rw [e.copy, ← (eq i).2]; exact ht
      obtain ⟨k, hk⟩ := Option.isSome_iff_exists.1 ht'
      rcases hout with q | ⟨_, q | ⟨_, _, q⟩⟩
      · simp only [Ambiguous] at q
      · obtain ⟨_, q2, _, q4, q5⟩ := q
        exact ⟨false, k, mem_copiers.2 ⟨hlt, hk, by simp [q2]⟩, q4, by simpa using q5⟩
      · obtain ⟨_, q2, _, _, q4, q5⟩ := q
        exact ⟨true, k, mem_copiers.2 ⟨hlt, hk, by simp [q2]⟩, q4, by simpa using q5⟩
    obtain ⟨sec, k, q1, q2, q3⟩ := hx
    simp only [resolutionError, cyclicError, (copied q1).2] at he
    obtain ⟨p, hp⟩ := Option.isSome_iff_exists.1 (U.template i pi ht)
    have hsel : selectTemplate (h.at i).toBase = .ok (onLine (h.at i).line (h.at i).span.1 p.1 p.2) := by
      unfold selectTemplate selection
      rw [cursor_ok hp O.line, cursor_ok hp O.line]; rfl
    obtain ⟨h1, h2, h3⟩ := finish_inv hsel he
    rw [h2, h3]
    refine ⟨fun n => ∃ j ∈ chain, j ≠ i ∧ n = (ctx.heap.at j).line, noLine, ?_, ?_⟩
    · have hspan : (h.at i).span = (ctx.heap.at i).span := by
        show (h.at i).toBase.span = (ctx.heap.at i).toBase.span
        rw [(eq i).1]
      simp only at hp
      rw [(eq i).1] at hp
      have hlt : i < ctx.heap.length := by rw [← S.len]; exact pi.2
      obtain ⟨c1, c2, _⟩ := mem_copiers.1 q1
      obtain ⟨p', ht'⟩ := present_copy ok c1 c2
      have := (C10_texts ha (ctx.heap.at i) (mem_tail pi.1 hlt) (ctx.heap.at i).head (by simp [Elem.parts]) (ctx.heap.at i).piece (by simp [Elem.head])).2.2
      obtain ⟨r, hr, hs⟩ := this k ht'
      have hr' : (ctx.heap.at i).toBase.range? .template = some r := hr
      rw [hp] at hr'; injection hr' with hr'; subst hr'
      rw [eql, hspan]
      exact .cyclic ha q1 q2 q3 (range_mem hp) hs
    · intro ho
      show TextMarks o e.snippet (· = (h.at i).toBase.line) _ _
      have := told (ws := (chain.filter (· ≠ i)).map fun j => ((h.at j).line, .indicate)) (t := .indicate) O (by
        intro w hw
        obtain ⟨j, hj, rfl⟩ := List.mem_map.1 hw
        obtain ⟨hj, hne⟩ := List.mem_filter.1 hj
        simp at hne
        exact ⟨lines j (pch j hj), U.apart j i (pch j hj) pi hne, rfl⟩) (.inl rfl) rfl ho h1
      obtain ⟨rows, r1, r2⟩ := this
      refine ⟨rows, r1, fun m => ?_⟩
      obtain ⟨q1, q2, q3⟩ := r2 m
      refine ⟨q1, q2.trans ?_, q3.trans ?_⟩
      · simp only [true_and, List.map_map, List.mem_map, List.mem_filter, Function.comp, eql, decide_eq_true_eq]
        constructor
        · rintro ⟨y, ⟨y1, y2⟩, rfl⟩; exact ⟨y, y1, y2, rfl⟩
        · rintro ⟨y, y1, y2, rfl⟩; exact ⟨y, ⟨y1, y2⟩, rfl⟩
      · simp

/-- Every parse error. -/
theorem explained {e : ErrObj} (hp : parse o input = .error (.parseError e)) :
    ∃ ind ques, Explains input e.text e.selection ind ques ∧ (o.reporter = .text → TextMarks o e.snippet (· = e.selection.start.line) ind ques) := by
  rcases parse_origin hp with ⟨ctx, b, x, g, hx⟩ | ⟨py, hx, _⟩
  · have hx' : x = .ok e := by
      cases x with
      | ok y => simp only [raiseParse, Raised.parseError.injEq] at hx; rw [hx]
      | error y => cases hx
    subst hx'
    generalize hg : (Except.ok e : Except PyExc ErrObj) = y at g
    cases g with
    | analysis ha => exact explained_analysis ha hg.symm
    | resolution ha hl U => exact explained_resolution ha hl U hg.symm
  · cases hx

end Eno
