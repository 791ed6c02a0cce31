import Verif.Proofs.SectionReports
import Verif.Proofs.ErrorText

/-! # Errors about elements of loaded documents -/

namespace Eno

open Spec

variable {input : Str} {ctx ctx' : Ctx} {h : Heap} {o : Options} {s s' : Snippet} {r : Ref} {b : Base} {N n L : Nat} {report : Snippet → Except PyExc Snippet}

theorem Complete.congr (C : Complete ctx) (h1 : ctx'.input = ctx.input) (h2 : ctx'.heap = ctx.heap) (h3 : ctx'.metas = ctx.metas) (h4 : ctx'.lineCount = ctx.lineCount) :
    Complete ctx' := by
  obtain ⟨⟨R1, B, c⟩, B', c', f⟩ := C
  have key : ∀ B, Charted ctx B → Charted ctx' B := by
    intro B c
    have hi : ctx'.instructions = ctx.instructions := by unfold Ctx.instructions; rw [h2, h3]
    exact ⟨c.sorted, c.ranges, by rw [h4]; exact c.below, by rw [h1]; exact c.text, by rw [hi]; exact c.all, by rw [hi, h1]; exact c.hidden, by rw [h1]; exact c.rest,
      by rw [h1]; exact c.placed, by rw [h1]; exact c.counted, by rw [h1]; exact c.most, by rw [h1]; exact c.neat⟩
  have hi : ctx'.instructions = ctx.instructions := by unfold Ctx.instructions; rw [h2, h3]
  exact ⟨⟨by rw [h2]; exact R1, B, key B c⟩, B', key B' c', by rw [hi]; exact f⟩

theorem load_shadow (ha : analyze input = .ok ctx) (hl : load input = .ok ctx') : Shadow ctx.heap ctx'.heap := by
  unfold load at hl
  rw [ha] at hl
  simp only at hl
  split at hl
  · have := shadow_resolve ctx
    cases hr : resolve ctx with
    | error e => rw [hr] at hl; cases hl
    | ok c => rw [hr] at hl this; injection hl with hl; subst hl; exact this
  · injection hl with hl; subst hl; exact .refl _

/-- All about a loaded document. -/
theorem loaded_complete (ha : analyze input = .ok ctx) (hl : load input = .ok ctx') : Complete ctx' ∧ ctx'.input = input ∧ ctx'.lineCount = ctx.lineCount ∧ Shadow ctx.heap ctx'.heap := by
  have S := load_shadow ha hl
  have C := complete_shadow ha S
  obtain ⟨_, _, hin⟩ := complete_analyze ha
  rcases load_cases ha with ⟨c, e1, _, e3, e4, e5, _⟩ | ⟨x, e1, _⟩
  · rw [e1] at hl; injection hl with hl; subst hl
    exact ⟨C.congr e3 rfl e4 e5, by rw [e3, hin], e5, S⟩
  · rw [e1] at hl; cases hl

theorem row_instruction {i : Nat} (h0 : 0 < i) (hi : i < ctx.heap.length) (hb : b ∈ (ctx.heap.at i).rows) : b ∈ ctx.instructions := by
  unfold Ctx.instructions
  simp only [List.mem_append, List.mem_flatMap]
  exact .inl ⟨_, mem_tail h0 hi, (rows_sublist _).subset hb⟩

theorem loaded_shown (ha : analyze input = .ok ctx) (hl : load input = .ok ctx') : Shown ctx'.heap ctx'.lineCount := by
  obtain ⟨C, _, _, _⟩ := loaded_complete ha hl
  have g := C.grown
  obtain ⟨B, c, _⟩ := C.full
  refine ⟨loaded_tree ha hl, ordered_byLine ha hl, loaded_kinds ha hl, g.types, ?_, ?_, ?_⟩
  · intro i h0 hi b hb
    exact c.below b (c.all b (row_instruction h0 hi hb))
  · intro i hi ht
    obtain ⟨_, _, f, h1, _, h2⟩ := loaded_multiline' ha hl hi ht
    exact ⟨f, h1, h2⟩
  · intro i hi h0 ht
    apply Classical.byContradiction; intro hne
    rcases g.sections i hne with q | q
    · omega
    · exact ht q

/-! ## Snippets of reports -/

/-- The snippet that is made of the marks of a report. -/
theorem snippet_marks (C : Complete ctx) (hr : report (List.replicate ctx.lineCount none) = .ok s) (hl : s.length = ctx.lineCount) (hm : Marked s) (ha : ∃ n, IsMarked s n) (o : Options) :
    ∃ rows, (o.reporter = .text → makeSnippet o ctx report = .ok (plainSnippet o rows)) ∧ (o.reporter = .html → makeSnippet o ctx report = .ok (htmlSnippet o rows)) ∧
      Accounts ctx.lineCount 1 rows ∧ (∀ m k, m ≠ .plain → ((∃ t, SnipRow.line m k t ∈ rows) ↔ ∃ n, k = n + 1 ∧ MarkedAs s n m)) ∧
      (Neat ctx.input → ∀ m n t, SnipRow.line m (n + 1) t ∈ rows → t = lineText ctx.input n ∨ (t = [] ∧ WhiteLine (lineText ctx.input n))) := by
  obtain ⟨B, c, f⟩ := C.full
  obtain ⟨index, hi, I⟩ := buildIndex_ok C.grown c
  refine ⟨rowsOf (content ctx.input index) (window s), ?_, ?_, ?_, ?_, ?_⟩
  · intro ho
    unfold makeSnippet
    simp only [hi, hr, ho, text_print]
  · intro ho
    unfold makeSnippet
    simp only [hi, hr, ho, html_print]
  · rw [← hl]; exact window_accounts hm
  · intro m k hmp
    constructor
    · rintro ⟨t, ht⟩
      obtain ⟨n, tag, rfl, _, hw, hno, hmt⟩ := rows_mem.1 ht
      refine ⟨n, rfl, ?_⟩
      by_cases hd : tag = .display
      · subst hd; exact absurd hmt.symm hmp
      · have hsn := window_unmarked hw hd hno hm ha
        cases tag <;> simp_all [markOf] <;> subst hmt <;> exact hsn
    · rintro ⟨n, rfl, hM⟩
      refine ⟨content ctx.input index n, rows_mem.2 ?_⟩
      cases m with
      | plain => exact hM.elim
      | emphasis => exact ⟨n, .emphasize, rfl, rfl, window_mark hM, by simp, rfl⟩
      | indication => exact ⟨n, .indicate, rfl, rfl, window_mark hM, by simp, rfl⟩
      | question => exact ⟨n, .question, rfl, rfl, window_mark hM, by simp, rfl⟩
  · intro hN m n t ht
    obtain ⟨n', tag, e, rfl, _⟩ := rows_mem.1 ht
    have : n = n' := by omega
    subst this
    rcases content_ok c I (c.tidy_neat hN) n with q | ⟨q, q' | ⟨_, b, hb, _, hnb⟩⟩
    · exact .inl q
    · exact .inr ⟨q, q'⟩
    · exact absurd (f b hb) hnb

theorem snippet_error (C : Complete ctx) {py : PyExc} (hr : report (List.replicate ctx.lineCount none) = .error py) (o : Options) : makeSnippet o ctx report = .error py := by
  obtain ⟨B, c⟩ := C.chart
  obtain ⟨index, hi, _⟩ := buildIndex_ok C.grown c
  unfold makeSnippet
  simp only [hi, hr]

theorem makeSnippet_ok (C : Complete ctx) (hr : report (List.replicate ctx.lineCount none) = .ok s) (ho : o.reporter ≠ .terminal) : ∃ out, makeSnippet o ctx report = .ok out := by
  obtain ⟨B, c⟩ := C.chart
  obtain ⟨index, hi, _⟩ := buildIndex_ok C.grown c
  unfold makeSnippet
  cases hq : o.reporter with
  | text => simp only [hi, hr, text_print]; exact ⟨_, rfl⟩
  | html => simp only [hi, hr, html_print]; exact ⟨_, rfl⟩
  | terminal => exact absurd hq ho

/-! ## Reports about elements -/

/-- The marks of a report about an element: its first line, and the others up to its end. -/
structure MarksElement (N n last : Nat) (s : Snippet) : Prop where
  len : s.length = N
  le : n ≤ last
  lt : last < N
  marks : ∀ k, s.getD k none = if k = n then some .emphasize else if n < k ∧ k ≤ last then some .indicate else none

theorem MarksElement.emphasis (M : MarksElement N n L s) (k : Nat) : MarkedAs s k .emphasis ↔ k = n := by
  simp only [MarkedAs]
  rw [M.marks k]
  by_cases h1 : k = n
  · simp [h1]
  · by_cases h2 : n < k ∧ k ≤ L <;> simp [h1, h2]

theorem MarksElement.indication (M : MarksElement N n L s) (k : Nat) : MarkedAs s k .indication ↔ n < k ∧ k ≤ L := by
  simp only [MarkedAs]
  rw [M.marks k]
  by_cases h1 : k = n
  · subst h1; simp
  · by_cases h2 : n < k ∧ k ≤ L <;> simp [h1, h2]

theorem MarksElement.question (M : MarksElement N n L s) (k : Nat) : ¬ MarkedAs s k .question := by
  simp only [MarkedAs]
  rw [M.marks k]
  by_cases h1 : k = n
  · simp [h1]
  · by_cases h2 : n < k ∧ k ≤ L <;> simp [h1, h2]

theorem MarksElement.marked (M : MarksElement N n L s) : Marked s := by
  intro t ht
  obtain ⟨k, hk, e⟩ := List.getElem_of_mem ht
  have := M.marks k
  rw [List.getD, List.getElem?_eq_getElem hk, e] at this
  simp only [Option.getD_some] at this
  split at this
  · injection this with this; exact .inl this
  · split at this
    · injection this with this; exact .inr (.inl this)
    · cases this

/-- `s'` is `s` with the marks of an element. -/
structure MarksOver (N n last : Nat) (s s' : Snippet) : Prop where
  len : s'.length = N
  le : n ≤ last
  lt : last < N
  marks : ∀ k, s'.getD k none = if k = n then some .emphasize else if n < k ∧ k ≤ last then some .indicate else s.getD k none

theorem MarksOver.fresh (M : MarksOver N n L (List.replicate N none) s) : MarksElement N n L s :=
  ⟨M.len, M.le, M.lt, fun k => by rw [M.marks k, fresh_getD]⟩

theorem marksOver_of {s s1 s2 : Snippet} {n last : Nat} (hs : s.length = N) (hn : n ≤ last) (hl : last < N) (h1 : put s n .emphasize = .ok s1)
    (P : Painted .indicate (n + 1) (last + 1) s1 s2) : MarksOver N n last s s2 := by
  obtain ⟨hlt, rfl⟩ := put_eq h1
  refine ⟨by rw [P.len]; simpa using hs, hn, hl, fun k => ?_⟩
  by_cases hk : n < k ∧ k ≤ last
  · obtain ⟨t, e, ht⟩ := P.on k (by omega) (by omega)
    rw [e, if_neg (by omega), if_pos hk]
    rcases ht with rfl | rfl <;> rfl
  · rw [P.off k (by omega), getD_set hlt]
    by_cases h2 : k = n
    · rw [if_pos h2, if_pos h2]
    · rw [if_neg h2, if_neg h2, if_neg hk]

/-- Reporting an element: it is stuck or the lines of the element are marked. -/
theorem reportElement_over (C : Complete ctx) (S : Shown ctx.heap ctx.lineCount) (hr : FirstLine ctx.heap r b) (hs : s.length = ctx.lineCount) :
    (RefStuck ctx.heap r ∧ reportElement ctx.heap r s = .error .typeError) ∨
    (¬ RefStuck ctx.heap r ∧ ∃ L s', RefEnds ctx.heap r L ∧ reportElement ctx.heap r s = .ok s' ∧ MarksOver ctx.lineCount b.line L s s') := by
  cases hr with
  | @elem i h0 hi =>
    have hd : (ctx.heap.at i).type ≠ .document := by
      have := S.types i h0 hi
      intro q; rw [q] at this; simp at this
    have hb : (ctx.heap.at i).line < ctx.lineCount := S.below i h0 hi _ (rows_head _)
    have hp := put_ok (l := s) (n := (ctx.heap.at i).line) (x := Tag.emphasize) (by rw [hs]; exact hb)
    have hrun : reportElement ctx.heap (.elem i) s =
        (tagElement ctx.heap .indicate i (s.set (ctx.heap.at i).line (some .emphasize))).map (·.2) := by
      unfold reportElement Heap.base? tagRef
      simp only [if_neg hd, bind, Except.bind, hp]
    rw [hrun]
    rcases tagElement_tags (tag := .indicate) S h0 hi with ⟨q, k⟩ | ⟨q, L, k1, k2, k3, _, k5⟩
    · exact .inl ⟨q, by rw [k _ (by simpa using hs)]; rfl⟩
    · obtain ⟨x, s', e, P, _⟩ := k5 (s.set (ctx.heap.at i).line (some .emphasize)) (by simpa using hs)
      exact .inr ⟨q, L, s', .elem k1, by rw [e]; rfl, marksOver_of hs k2 k3 hp P⟩
  | @item i k xs x hi hx hk =>
    right
    have h0 : 0 < i := by
      apply Nat.pos_of_ne_zero; rintro rfl
      have := (S.kinds.items 0 xs hi hx).1
      rw [C.grown.doc] at this; simp at this
    have hmem := List.mem_of_getElem? hk
    have hrows : ∀ y ∈ x.rows, y ∈ (ctx.heap.at i).rows := by
      intro y hy
      unfold Elem.rows
      rw [hx]
      simp only [Option.getD_some, List.mem_append, List.mem_flatMap]
      exact .inl (.inr ⟨x, hmem, hy⟩)
    have hrise : Rising x.rows := by
      have O := (S.ordered.items S.kinds h0 hi hx).1.order
      exact (pairwise_flatMap O).1 x hmem
    have hbl : ∀ y ∈ x.rows, y.line < ctx.lineCount := fun y hy => S.below i h0 hi y (hrows y hy)
    have hxl : x.line < ctx.lineCount := hbl x.toBase (sub_head x)
    have hp := put_ok (l := s) (n := x.line) (x := Tag.emphasize) (by rw [hs]; exact hxl)
    obtain ⟨s', e, P⟩ := tagConts_painted (tag := .indicate) (s := s.set x.line (some .emphasize)) (x := x.toBase) (conts := x.continuations) hrise
      (fun c hc => by simp only [List.length_set, hs]; exact hbl c.toBase (sub_cont hc))
    refine ⟨id, endLine x.rows, s', .item hx hk, ?_, marksOver_of hs (endLine_ge hrise (sub_head x)) ?_ hp P⟩
    · unfold reportElement Heap.base? tagRef
      simp only [Heap.sub?, hx, Option.getD_some, hk, bind, Except.bind, hp, e]
      rfl
    · obtain ⟨y, hy, e⟩ := endLine_mem (bs := x.rows) (by simp [Sub.rows])
      rw [← e]; exact hbl y hy
  | @entry i k xs x hi hx hk =>
    right
    have h0 : 0 < i := by
      apply Nat.pos_of_ne_zero; rintro rfl
      have := (S.kinds.entries 0 xs hi hx).1
      rw [C.grown.doc] at this; simp at this
    have hmem := List.mem_of_getElem? hk
    have hrows : ∀ y ∈ x.rows, y ∈ (ctx.heap.at i).rows := by
      intro y hy
      unfold Elem.rows
      rw [hx]
      simp only [Option.getD_some, List.mem_append, List.mem_flatMap]
      exact .inr ⟨x, hmem, hy⟩
    have hrise : Rising x.rows := by
      have O := (S.ordered.entries S.kinds h0 hi hx).1.order
      exact (pairwise_flatMap O).1 x hmem
    have hbl : ∀ y ∈ x.rows, y.line < ctx.lineCount := fun y hy => S.below i h0 hi y (hrows y hy)
    have hxl : x.line < ctx.lineCount := hbl x.toBase (sub_head x)
    have hp := put_ok (l := s) (n := x.line) (x := Tag.emphasize) (by rw [hs]; exact hxl)
    obtain ⟨s', e, P⟩ := tagConts_painted (tag := .indicate) (s := s.set x.line (some .emphasize)) (x := x.toBase) (conts := x.continuations) hrise
      (fun c hc => by simp only [List.length_set, hs]; exact hbl c.toBase (sub_cont hc))
    refine ⟨id, endLine x.rows, s', .entry hx hk, ?_, marksOver_of hs (endLine_ge hrise (sub_head x)) ?_ hp P⟩
    · unfold reportElement Heap.base? tagRef
      simp only [Heap.sub?, hx, Option.getD_some, hk, bind, Except.bind, hp, e]
      rfl
    · obtain ⟨y, hy, e⟩ := endLine_mem (bs := x.rows) (by simp [Sub.rows])
      rw [← e]; exact hbl y hy

/-- The same on a fresh snippet. -/
theorem reportElement_marks (C : Complete ctx) (S : Shown ctx.heap ctx.lineCount) (hr : FirstLine ctx.heap r b) :
    (RefStuck ctx.heap r ∧ reportElement ctx.heap r (List.replicate ctx.lineCount none) = .error .typeError) ∨
    (¬ RefStuck ctx.heap r ∧ ∃ L s, RefEnds ctx.heap r L ∧ reportElement ctx.heap r (List.replicate ctx.lineCount none) = .ok s ∧ MarksElement ctx.lineCount b.line L s) := by
  rcases reportElement_over (s := List.replicate ctx.lineCount none) C S hr (by simp) with q | ⟨q, L, s, h1, h2, M⟩
  · exact .inl q
  · exact .inr ⟨q, L, s, h1, h2, M.fresh⟩

/-- The instruction that ends an element. -/
theorem lastInRef_ok (S : Shown ctx.heap ctx.lineCount) (hd : (ctx.heap.at 0).type = .document) (hr : FirstLine ctx.heap r b) :
    ∃ l, lastInRef ctx.heap r = .ok l ∧ l ∈ ctx.instructions ∧ RefEnds ctx.heap r l.line := by
  cases hr with
  | @elem i h0 hi =>
    obtain ⟨l, j, e1, e2, _, e4, e5, e6⟩ := lastIn_ends S (ctx.heap.length + 1) i (by omega) h0 hi
    exact ⟨l, e1, row_instruction e5 e4 e6, .elem e2⟩
  | @item i k xs x hi hx hk =>
    have h0 : 0 < i := by
      apply Nat.pos_of_ne_zero; rintro rfl
      have := (S.kinds.items 0 xs hi hx).1
      rw [hd] at this; simp at this
    have hmem := List.mem_of_getElem? hk
    obtain ⟨l, e1, e2⟩ := lastInSub_ok ((S.kinds.items i xs hi hx).2.2 x hmem)
    refine ⟨l, by simp only [lastInRef, Heap.sub?, hx, Option.getD_some, hk, e1], row_instruction h0 hi ?_, ?_⟩
    · unfold Elem.rows
      rw [hx]
      simp only [Option.getD_some, List.mem_append, List.mem_flatMap]
      exact .inl (.inr ⟨x, hmem, List.mem_of_getLast? e2⟩)
    · have := RefEnds.item (h := ctx.heap) hx hk
      rwa [endLine, e2] at this
  | @entry i k xs x hi hx hk =>
    have h0 : 0 < i := by
      apply Nat.pos_of_ne_zero; rintro rfl
      have := (S.kinds.entries 0 xs hi hx).1
      rw [hd] at this; simp at this
    have hmem := List.mem_of_getElem? hk
    obtain ⟨l, e1, e2⟩ := lastInSub_ok ((S.kinds.entries i xs hi hx).2.2 x hmem)
    refine ⟨l, by simp only [lastInRef, Heap.sub?, hx, Option.getD_some, hk, e1], row_instruction h0 hi ?_, ?_⟩
    · unfold Elem.rows
      rw [hx]
      simp only [Option.getD_some, List.mem_append, List.mem_flatMap]
      exact .inr ⟨x, hmem, List.mem_of_getLast? e2⟩
    · have := RefEnds.entry (h := ctx.heap) hx hk
      rwa [endLine, e2] at this

theorem refEnds_unique {L' : Nat} (h1 : RefEnds h r L) (h2 : RefEnds h r L') : L = L' := by
  cases h1 with
  | elem a => cases h2 with | elem b => exact endsAt_unique a b
  | item a b => cases h2 with | item c d => rw [a] at c; injection c with c; subst c; rw [b] at d; injection d with d; rw [d]
  | entry a b => cases h2 with | entry c d => rw [a] at c; injection c with c; subst c; rw [b] at d; injection d with d; rw [d]

theorem base?_ok (S : Shown ctx.heap ctx.lineCount) (hr : FirstLine ctx.heap r b) : ctx.heap.base? r = .ok b := by
  cases hr with
  | @elem i h0 hi =>
    have : (ctx.heap.at i).type ≠ .document := by
      have := S.types i h0 hi
      intro q; rw [q] at this; simp at this
    simp only [Heap.base?, if_neg this]
  | item hi hx hk => simp only [Heap.base?, Heap.sub?, hx, Option.getD_some, hk]
  | entry hi hx hk => simp only [Heap.base?, Heap.sub?, hx, Option.getD_some, hk]

theorem firstLine_mem (S : Shown ctx.heap ctx.lineCount) (hd : (ctx.heap.at 0).type = .document) (hr : FirstLine ctx.heap r b) : b ∈ ctx.instructions := by
  cases hr with
  | @elem i h0 hi => exact row_instruction h0 hi (rows_head _)
  | @item i k xs x hi hx hk =>
    have h0 : 0 < i := by
      apply Nat.pos_of_ne_zero; rintro rfl
      have := (S.kinds.items 0 xs hi hx).1
      rw [hd] at this; simp at this
    refine row_instruction h0 hi ?_
    unfold Elem.rows
    rw [hx]
    simp only [Option.getD_some, List.mem_append, List.mem_flatMap]
    exact .inl (.inr ⟨x, List.mem_of_getElem? hk, sub_head x⟩)
  | @entry i k xs x hi hx hk =>
    have h0 : 0 < i := by
      apply Nat.pos_of_ne_zero; rintro rfl
      have := (S.kinds.entries 0 xs hi hx).1
      rw [hd] at this; simp at this
    refine row_instruction h0 hi ?_
    unfold Elem.rows
    rw [hx]
    simp only [Option.getD_some, List.mem_append, List.mem_flatMap]
    exact .inr ⟨x, List.mem_of_getElem? hk, sub_head x⟩

/-- The selection of an element: from the beginning of its first to the end of its last line. -/
theorem selectElement_ok (C : Complete ctx) (S : Shown ctx.heap ctx.lineCount) (hr : FirstLine ctx.heap r b) :
    ∃ l, l ∈ ctx.instructions ∧ RefEnds ctx.heap r l.line ∧ selectElement ctx.heap r = .ok ⟨⟨0, b.span.1, b.line⟩, ⟨(l.span.2 : Int) - l.span.1, l.span.2, l.line⟩⟩ := by
  have hd := C.grown.doc
  obtain ⟨B, c⟩ := C.chart
  obtain ⟨l, e1, e2, e3⟩ := lastInRef_ok S hd hr
  refine ⟨l, e2, e3, ?_⟩
  unfold selectElement selection cursor
  have r1 := c.ranges b (c.all b (firstLine_mem S hd hr))
  have r2 := c.ranges l (c.all l e2)
  simp only [base?_ok S hr, e1, bind, Except.bind, r1, r2, Side.of]
  simp

end Eno
