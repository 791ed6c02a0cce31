import Verif.Spec.Programs
import Verif.Props.ErrorKindProps

/-! # Validation errors select parts of the document -/

namespace Eno

open Spec

variable {input : Str} {ctx : Ctx} {o : Options} {r : Ref} {b b' : Base} {c c' : Cursor} {sel : Selection}

/-- A position on the line of an instruction. -/
structure CursorOn (b : Base) (c : Cursor) : Prop where
  low : b.span.1 ≤ c.index
  high : c.index ≤ b.span.2
  column : c.column = (c.index : Int) - b.span.1
  line : c.line = b.line

theorem cursor_some {n : RangeName} {side : Side} (h : cursor b n side = .ok c) : ∃ p, b.range? n = some p := by
  unfold cursor at h
  split at h
  · rename_i p l h1 h2; exact ⟨p, h1⟩
  · cases h

theorem cursor_on {n : RangeName} {side : Side} (R : RangesOk input b) (h : cursor b n side = .ok c) : CursorOn b c := by
  obtain ⟨p, hp⟩ := cursor_some h
  rw [cursor_position R hp] at h
  injection h with h; subst h
  have := R.within n p (range_mem hp)
  cases side <;> exact ⟨by simp only [positionOn, Side.of]; omega, by simp only [positionOn, Side.of]; omega, rfl, rfl⟩

theorem cursor_begin {n : RangeName} (R : RangesOk input b) (h : cursor b n .beginning = .ok c) (h' : cursor b n .ending = .ok c') : c.index ≤ c'.index := by
  obtain ⟨p, hp⟩ := cursor_some h
  rw [cursor_position R hp] at h h'
  injection h with h; subst h
  injection h' with h'; subst h'
  exact (R.within n p (range_mem hp)).2.1

theorem cursor_end (R : RangesOk input b) (hc : CursorOn b c) (h' : cursor b .line .ending = .ok c') : c.index ≤ c'.index := by
  rw [cursor_position R R.line] at h'
  injection h' with h'; subst h'
  exact hc.high

theorem cursor_start (R : RangesOk input b) (hc : CursorOn b c) (h' : cursor b .line .beginning = .ok c') : c'.index ≤ c.index := by
  rw [cursor_position R R.line] at h'
  injection h' with h'; subst h'
  exact hc.low

/-- An instruction of a loaded document. -/
structure Instr (input : Str) (ctx : Ctx) (b : Base) : Prop where
  mem : b ∈ ctx.instructions
  ranges : RangesOk input b

theorem positionIn_of (hl : load input = .ok ctx) (I : Instr input ctx b) (hc : CursorOn b c) : PositionIn input c := by
  obtain ⟨C, hin, _⟩ := loaded_all hl
  obtain ⟨B, ch⟩ := C.chart
  have hb := ch.all b I.mem
  refine ⟨b.span.1, b.span.2, by rw [← hin]; exact ch.placed b hb I.ranges.le, hc.low, hc.high, hc.column, by rw [hc.line, ← hin]; exact ch.most b hb I.ranges.le, ?_⟩
  intro hn
  rw [hc.line, ← hin]
  exact ch.counted (ch.neat (by rw [hin]; exact hn)) b hb I.ranges.le

/-- The same instruction, or a later one. -/
def Ahead (a b : Base) : Prop := a = b ∨ Before (spotOf a) (spotOf b)

theorem selectionIn_of (hl : load input = .ok ctx) (I : Instr input ctx b) (I' : Instr input ctx b') (hb : Ahead b b') (hc : CursorOn b c) (hc' : CursorOn b' c')
    (h : b = b' → c.index ≤ c'.index) : SelectionIn input ⟨c, c'⟩ := by
  refine ⟨positionIn_of hl I hc, positionIn_of hl I' hc', ?_, ?_⟩
  · rcases hb with e | e
    · exact h e
    · have e1 : b.span.2 < b'.span.1 := e.2
      have := hc.high; have := hc'.low
      simp only; omega
  · simp only [hc.line, hc'.line]
    rcases hb with e | e
    · rw [e]; exact Nat.le_refl _
    · exact Nat.le_of_lt e.1

/-- A selection from the beginning of one line to the end of a later one. -/
theorem selectionIn_lines (hl : load input = .ok ctx) (I : Instr input ctx b) (I' : Instr input ctx b') (hb : Ahead b b') (h : selection b .line .beginning b' .line .ending = .ok sel) :
    SelectionIn input sel := by
  simp only [selection, bind, Except.bind] at h
  repeat' split at h
  all_goals first | (cases h; done) | skip
  rename_i c hc _ c' hc'
  injection h with h; subst h
  refine selectionIn_of hl I I' hb (cursor_on I.ranges hc) (cursor_on I'.ranges hc') ?_
  rintro rfl
  exact cursor_begin I.ranges hc hc'

/-- A selection of a range of an instruction. -/
theorem selectionIn_range {n : RangeName} (hl : load input = .ok ctx) (I : Instr input ctx b) (h : selection b n .beginning b n .ending = .ok sel) : SelectionIn input sel := by
  simp only [selection, bind, Except.bind] at h
  repeat' split at h
  all_goals first | (cases h; done) | skip
  rename_i c hc _ c' hc'
  injection h with h; subst h
  exact selectionIn_of hl I I (.inl rfl) (cursor_on I.ranges hc) (cursor_on I.ranges hc') fun _ => cursor_begin I.ranges hc hc'

/-- A selection of nothing. -/
theorem selectionIn_empty {n : RangeName} {side : Side} (hl : load input = .ok ctx) (I : Instr input ctx b) (h : selection b n side b n side = .ok sel) : SelectionIn input sel := by
  simp only [selection, bind, Except.bind] at h
  repeat' split at h
  all_goals first | (cases h; done) | skip
  rename_i c hc _ c' hc'
  first | rw [hc] at hc' | skip
  injection hc' with hc'; subst hc'
  injection h with h; subst h
  exact selectionIn_of hl I I (.inl rfl) (cursor_on I.ranges hc) (cursor_on I.ranges hc) fun _ => Nat.le_refl _

theorem ahead_of_pairwise {l : List Base} {x y : Base} (h : l.Pairwise fun a b => Before (spotOf a) (spotOf b)) (hx : l.head? = some x) (hy : y ∈ l) : Ahead x y := by
  cases l with
  | nil => cases hx
  | cons a t =>
    injection hx with hx; subst hx
    rcases List.mem_cons.1 hy with rfl | hy
    · exact .inl rfl
    · exact .inr ((List.pairwise_cons.1 h).1 y hy)

/-- The instructions of an element lie in their order. -/
theorem rows_ok (hl : load input = .ok ctx) {i : Nat} (h0 : 0 < i) (hi : i < ctx.heap.length) :
    (∀ b ∈ (ctx.heap.at i).rows, Instr input ctx b) ∧ (ctx.heap.at i).rows.Pairwise fun a b => Before (spotOf a) (spotOf b) := by
  obtain ⟨c, ha, _⟩ := load_ok_analyze hl
  obtain ⟨h1, h2, _⟩ := loaded_rows ha hl
  exact ⟨fun b hb => ⟨row_instruction h0 hi hb, h1 i h0 hi b hb⟩, h2 i h0 hi⟩

/-- The instructions of an item or entry lie in their order. -/
theorem sub_rows_ok (hl : load input = .ok ctx) {i : Nat} {x : Sub} (hi : i < ctx.heap.length) (hx : (∃ xs, (ctx.heap.at i).items = some xs ∧ x ∈ xs) ∨ ∃ xs, (ctx.heap.at i).entries = some xs ∧ x ∈ xs) :
    (∀ b ∈ x.rows, Instr input ctx b) ∧ x.rows.Pairwise fun a b => Before (spotOf a) (spotOf b) := by
  obtain ⟨C, _, S⟩ := loaded_all hl
  have h0 : 0 < i := by
    apply Nat.pos_of_ne_zero; rintro rfl
    rcases hx with ⟨xs, h, _⟩ | ⟨xs, h, _⟩
    · have := (S.kinds.items 0 xs hi h).1
      rw [C.grown.doc] at this; simp at this
    · have := (S.kinds.entries 0 xs hi h).1
      rw [C.grown.doc] at this; simp at this
  have sub : ∀ {xs : List Sub}, x ∈ xs → x.rows.Sublist (xs.flatMap Sub.rows) := by
    intro xs h
    obtain ⟨a, b, rfl⟩ := List.append_of_mem h
    simp only [List.flatMap_append, List.flatMap_cons]
    exact (List.sublist_append_left _ _).trans (List.sublist_append_right _ _)
  have hs : x.rows.Sublist (ctx.heap.at i).rows := by
    unfold Elem.rows
    rcases hx with ⟨xs, h, hm⟩ | ⟨xs, h, hm⟩
    · rw [h]; exact ((sub hm).trans (List.sublist_append_right _ _)).trans (List.sublist_append_left _ _)
    · rw [h]; exact (sub hm).trans (List.sublist_append_right _ _)
  obtain ⟨h1, h2⟩ := rows_ok hl h0 hi
  exact ⟨fun b hb => h1 b (hs.subset hb), h2.sublist hs⟩

theorem first_ok (hl : load input = .ok ctx) (hr : FirstLine ctx.heap r b) : Instr input ctx b := by
  obtain ⟨C, _, S⟩ := loaded_all hl
  exact ⟨firstLine_mem S C.grown.doc hr, (load_written hl hr).ranges⟩

/-- The last line of an element, item or entry does not lie before its first line. -/
theorem last_ahead (hl : load input = .ok ctx) (hr : FirstLine ctx.heap r b) (h : lastInRef ctx.heap r = .ok b') : Ahead b b' ∧ Instr input ctx b' := by
  obtain ⟨C, _, S⟩ := loaded_all hl
  obtain ⟨c, ha, _⟩ := load_ok_analyze hl
  have sub : ∀ {x : Sub} {i : Nat}, i < ctx.heap.length → ((∃ xs, (ctx.heap.at i).items = some xs ∧ x ∈ xs) ∨ ∃ xs, (ctx.heap.at i).entries = some xs ∧ x ∈ xs) →
      lastInSub x = .ok b' → Ahead x.toBase b' ∧ Instr input ctx b' := by
    intro x i hi hx hq
    obtain ⟨h1, h2⟩ := sub_rows_ok hl hi hx
    have : b' ∈ x.rows := by
      unfold lastInSub at hq
      split at hq
      · injection hq with hq; subst hq; exact List.mem_cons_self ..
      · rename_i cs hcs
        split at hq
        · rename_i c hc
          injection hq with hq; subst hq
          unfold Sub.rows
          rw [hcs]
          exact List.mem_cons_of_mem _ (List.mem_map_of_mem (List.mem_of_getLast? hc))
        · cases hq
    exact ⟨ahead_of_pairwise h2 rfl this, h1 _ this⟩
  cases hr with
  | @elem i h0 hi =>
    obtain ⟨l, j, e1, _, e3, e4, e5, e6⟩ := lastIn_ends S (ctx.heap.length + 1) i (by omega) h0 hi
    have := h
    simp only [lastInRef] at this
    rw [e1] at this; injection this with this; subst this
    refine ⟨?_, (rows_ok hl e5 e4).1 _ e6⟩
    rcases Nat.eq_or_lt_of_le (e3.le S.tree e4) with rfl | hlt
    · exact ahead_of_pairwise (rows_ok hl h0 hi).2 rfl e6
    · exact .inr ((loaded_rows ha hl).2.2 i j h0 hlt e4 _ (rows_head _) _ e6)
  | @item i k xs x hi hx hk =>
    simp only [lastInRef, Heap.sub?, hx, Option.getD_some, hk] at h
    exact sub hi (.inl ⟨xs, hx, List.mem_of_getElem? hk⟩) h
  | @entry i k xs x hi hx hk =>
    simp only [lastInRef, Heap.sub?, hx, Option.getD_some, hk] at h
    exact sub hi (.inr ⟨xs, hx, List.mem_of_getElem? hk⟩) h

/-- Continuations lie behind what they continue. -/
theorem conts_ahead (hl : load input = .ok ctx) (hr : FirstLine ctx.heap r b) {cs : List Cont} (h : ctx.heap.continuations r = some cs) :
    ∀ c ∈ cs, Ahead b c.toBase ∧ Instr input ctx c.toBase ∧ b ≠ c.toBase := by
  have fin : ∀ {l : List Base} {y : Base}, (∀ z ∈ b :: l, Instr input ctx z) → (b :: l).Pairwise (fun a b => Before (spotOf a) (spotOf b)) → y ∈ l →
      Ahead b y ∧ Instr input ctx y ∧ b ≠ y := by
    intro l y h1 h2 hy
    have hb := (List.pairwise_cons.1 h2).1 y hy
    refine ⟨.inr hb, h1 _ (List.mem_cons_of_mem _ hy), ?_⟩
    rintro rfl
    exact Nat.lt_irrefl _ hb.1
  intro c hc
  cases hr with
  | @elem i h0 hi =>
    obtain ⟨h1, h2⟩ := rows_ok hl h0 hi
    simp only [Heap.continuations] at h
    simp only [Elem.rows, List.cons_append] at h1 h2
    refine fin h1 h2 ?_
    rw [h]
    simp only [List.mem_append, Option.getD_some]
    exact .inl (.inl (.inl (.inl (List.mem_map_of_mem hc))))
  | @item i k xs x hi hx hk =>
    obtain ⟨h1, h2⟩ := sub_rows_ok hl hi (.inl ⟨xs, hx, List.mem_of_getElem? hk⟩)
    simp only [Heap.continuations, Heap.sub?, hx, Option.getD_some, hk, Option.bind_some] at h
    refine fin h1 h2 ?_
    rw [h]; exact List.mem_map_of_mem hc
  | @entry i k xs x hi hx hk =>
    obtain ⟨h1, h2⟩ := sub_rows_ok hl hi (.inr ⟨xs, hx, List.mem_of_getElem? hk⟩)
    simp only [Heap.continuations, Heap.sub?, hx, Option.getD_some, hk, Option.bind_some] at h
    refine fin h1 h2 ?_
    rw [h]; exact List.mem_map_of_mem hc

theorem selectElement_in (hl : load input = .ok ctx) (hr : FirstLine ctx.heap r b) (h : selectElement ctx.heap r = .ok sel) : SelectionIn input sel := by
  obtain ⟨C, _, S⟩ := loaded_all hl
  simp only [selectElement, base?_ok S hr, bind, Except.bind] at h
  split at h
  · cases h
  · rename_i l hq
    obtain ⟨h1, h2⟩ := last_ahead hl hr hq
    exact selectionIn_lines hl (first_ok hl hr) h2 h1 h

/-- The comments of something lie in their order. -/
theorem comments_ok' (hl : load input = .ok ctx) (hr : FirstLine ctx.heap r b) {cs : List Comment} (hc : ctx.heap.comments r = some cs) :
    (∀ c ∈ cs, Instr input ctx c.toBase) ∧ (cs.map Comment.toBase).Pairwise fun a b => Before (spotOf a) (spotOf b) := by
  obtain ⟨c0, ha, _⟩ := load_ok_analyze hl
  obtain ⟨_, ⟨w, hw, rfl⟩, h3⟩ := comments_owner ha hl hr hc
  refine ⟨fun c hcm => ⟨h3 c hcm, ((comment_facts hl hr hc).2 c hcm).1⟩, ?_⟩
  have h9 := (C09_ordered ha).1
  rw [List.pairwise_map] at h9
  refine h9.sublist ?_
  obtain ⟨e, he, hw⟩ := List.mem_flatMap.1 hw
  have one : ∀ {xs : List Sub} {x : Sub}, x ∈ xs → ((x.comments.getD []).map Comment.toBase).Sublist (xs.flatMap Sub.bases) := by
    intro xs x h
    obtain ⟨a, b, rfl⟩ := List.append_of_mem h
    simp only [List.flatMap_append, List.flatMap_cons, Sub.bases]
    exact ((List.sublist_append_left _ _).trans (List.sublist_append_left _ _)).trans (List.sublist_append_right _ _)
  have : (w.1.map Comment.toBase).Sublist e.bases := by
    simp only [Elem.owners, List.mem_cons, List.mem_append, List.mem_map] at hw
    unfold Elem.bases
    rcases hw with (rfl | ⟨x, hx, rfl⟩) | ⟨x, hx, rfl⟩
    · simp only [List.append_assoc]; exact List.sublist_append_left _ _
    · exact ((one hx).trans (List.sublist_append_right _ _)).trans (List.sublist_append_left _ _)
    · exact (one hx).trans (List.sublist_append_right _ _)
  refine this.trans ?_
  obtain ⟨a, b, e'⟩ := List.append_of_mem he
  rw [e']
  simp only [List.flatMap_append, List.flatMap_cons]
  exact (List.sublist_append_left _ _).trans (List.sublist_append_right _ _)

theorem selectComments_in (hl : load input = .ok ctx) (hr : FirstLine ctx.heap r b) (h : selectComments b (ctx.heap.comments r) = .ok sel) : SelectionIn input sel := by
  cases hc : ctx.heap.comments r with
  | none => rw [hc] at h; cases h
  | some cs =>
    rw [hc] at h
    obtain ⟨h1, h2⟩ := comments_ok' hl hr hc
    match cs, h, h1, h2 with
    | [], h, _, _ => exact selectionIn_empty hl (first_ok hl hr) h
    | [c], h, h1, _ =>
      simp only [selectComments] at h
      split at h
      · exact selectionIn_range hl (h1 c (by simp)) h
      · exact selectionIn_range hl (h1 c (by simp)) h
    | c :: d :: cs, h, h1, h2 =>
      simp only [selectComments] at h
      have hm : (d :: cs).getLast (by simp) ∈ c :: d :: cs := List.mem_cons_of_mem _ (List.getLast_mem _)
      exact selectionIn_lines hl (h1 c (by simp)) (h1 _ hm) (ahead_of_pairwise h2 rfl (List.mem_map_of_mem hm)) h

theorem splitNl_first (input : Str) : ∃ le, IsLine input 0 le := by
  by_cases h : ∃ k : Nat, input[k]? = some '\n'
  · obtain ⟨k, hk⟩ := h
    have := (List.getElem?_eq_some_iff.1 hk).1
    exact ⟨k, Nat.zero_le _, by omega, .inl rfl, .inr hk⟩
  · exact ⟨input.length, Nat.zero_le _, Nat.le_refl _, .inl rfl, .inl rfl⟩

theorem documentBegin_in : SelectionIn input DOCUMENT_BEGIN := by
  obtain ⟨le, h⟩ := splitNl_first input
  have : PositionIn input ⟨0, 0, 0⟩ := ⟨0, le, h, Nat.le_refl _, Nat.zero_le _, rfl, Nat.zero_le _, fun _ => by simp [nlBefore, countNl]⟩
  exact ⟨this, this, Nat.le_refl _, Nat.le_refl _⟩

/-- From a position on a line to the end of the line or of a later one. -/
theorem selectionIn_from (hl : load input = .ok ctx) (hr : FirstLine ctx.heap r b) (hc : CursorOn b c)
    (h : cursor b .line .ending = .ok c' ∨ ∃ cs x, ctx.heap.continuations r = some cs ∧ x ∈ cs ∧ cursor x.toBase .line .ending = .ok c') : SelectionIn input ⟨c, c'⟩ := by
  have I := first_ok hl hr
  rcases h with h | ⟨cs, x, h1, h2, h3⟩
  · exact selectionIn_of hl I I (.inl rfl) hc (cursor_on I.ranges h) fun _ => cursor_end I.ranges hc h
  · obtain ⟨a1, a2, a3⟩ := conts_ahead hl hr h1 x h2
    exact selectionIn_of hl I a2 a1 hc (cursor_on a2.ranges h3) fun e => absurd e a3

theorem valueStart_on {item : Bool} (R : RangesOk input b) (h : valueStart b item = .ok c) : CursorOn b c := by
  unfold valueStart at h
  repeat' split at h
  all_goals exact cursor_on R h

theorem firstLine_of_elem {i : Nat} (hr : FirstLine ctx.heap (.elem i) b) : 0 < i ∧ i < ctx.heap.length ∧ b = (ctx.heap.at i).toBase := by
  cases hr with | elem h0 hi => exact ⟨h0, hi, rfl⟩

theorem valueError_in {m : Str} {e : ErrObj} (hl : load input = .ok ctx) (hr : FirstLine ctx.heap r b) (h : valueError o ctx m r = .ok e) : SelectionIn input e.selection := by
  obtain ⟨C, _, S⟩ := loaded_all hl
  have I := first_ok hl hr
  simp only [valueError, base?_ok S hr, bind, Except.bind] at h
  split at h
  · split at h
    · cases h
    · split at h
      · cases h
      · rename_i sel hs
        injection h with h; subst h
        exact selectionIn_range hl I hs
  · split at h
    · cases r with
      | item => cases h
      | entry => cases h
      | elem i =>
        obtain ⟨h0, hi, rfl⟩ := firstLine_of_elem hr
        simp only at h
        split at h
        · rename_i ls hls
          split at h
          · cases h
          · split at h
            · rename_i x y hx hy
              split at h
              · cases h
              · rename_i sel hs
                injection h with h; subst h
                obtain ⟨h1, h2⟩ := rows_ok hl h0 hi
                have sub : ls.Sublist (ctx.heap.at i).rows := by
                  unfold Elem.rows
                  rw [hls]
                  exact (((List.sublist_append_right _ _).trans (List.sublist_append_left _ _)).trans (List.sublist_append_left _ _)).trans (List.sublist_append_left _ _)
                have hmy := List.mem_of_getLast? hy
                exact selectionIn_lines hl (h1 _ (sub.subset (List.mem_of_mem_head? hx))) (h1 _ (sub.subset hmy)) (ahead_of_pairwise (h2.sublist sub) hx hmy) hs
            · cases h
        · split at h
          · cases h
          · split at h
            · cases h
            · rename_i sel hs
              injection h with h; subst h
              exact selectionIn_empty hl I hs
    · split at h
      · cases h
      · split at h
        · cases h
        · rename_i c hc
          split at h
          · cases h
          · rename_i c' hc'
            injection h with h; subst h
            have on := valueStart_on I.ranges hc
            unfold valueStop at hc'
            split at hc'
            · rename_i cs hcs
              split at hc'
              · rename_i x hx
                exact selectionIn_from hl hr on (.inr ⟨cs, x, hcs, List.mem_of_getLast? hx, hc'⟩)
              · cases hc'
            · split at hc'
              · rename_i hv
                unfold valueStart at hc
                rw [if_pos hv] at hc
                exact selectionIn_of hl I I (.inl rfl) on (cursor_on I.ranges hc') fun _ => cursor_begin I.ranges hc hc'
              · exact selectionIn_from hl hr on (.inl hc')

theorem missingValue_in {e : ErrObj} (hl : load input = .ok ctx) (hr : FirstLine ctx.heap r b) (h : missingValue o ctx r = .ok e) : SelectionIn input e.selection := by
  obtain ⟨C, _, S⟩ := loaded_all hl
  have I := first_ok hl hr
  cases r <;> simp only [missingValue, base?_ok S hr, bind, Except.bind] at h <;> repeat' split at h
  all_goals first | (cases h; done) | skip
  all_goals
    rename_i v hq _ _ _ _ c' hc'
    injection h with h; subst h
    have on : CursorOn b v.2 := by
      repeat' split at hq
      all_goals first | (cases hq; done) | (rename_i hc; injection hq with hq; subst hq; exact cursor_on I.ranges hc)
    refine selectionIn_from hl hr on ?_
  · repeat' split at hc'
    · rename_i hcs _ _ hx
      exact .inr ⟨_, _, hcs, List.mem_of_getLast? hx, hc'⟩
    · cases hc'
    · exact .inl hc'
  · exact .inl hc'
  · exact .inl hc'

/-- Whatever a validation error is about, it selects a part of the document. -/
theorem proper_selection {v : Complaint} {e : ErrObj} (hl : load input = .ok ctx) (hv : v.Proper ctx.heap) (h : v.raise o ctx = .ok e) : SelectionIn input e.selection := by
  obtain ⟨C, _, S⟩ := loaded_all hl
  have about : ∀ {t r b}, FirstLine ctx.heap r b → aboutElement o ctx t r = .ok e → SelectionIn input e.selection := by
    intro t r b hr h
    unfold aboutElement at h
    simp only [bind, Except.bind] at h
    repeat' split at h
    all_goals first | (cases h; done) | skip
    rename_i hs
    injection h with h; subst h
    exact selectElement_in hl hr hs
  cases v with
  | comment m r =>
    obtain ⟨b, hr⟩ := hv
    simp only [Complaint.raise, commentError, base?_ok S hr, bind, Except.bind] at h
    repeat' split at h
    all_goals first | (cases h; done) | skip
    rename_i hs
    injection h with h; subst h
    exact selectComments_in hl hr hs
  | element m r => exact about hv.choose_spec h
  | key m r =>
    obtain ⟨b, hr⟩ := hv
    simp only [Complaint.raise, keyError, base?_ok S hr, bind, Except.bind] at h
    repeat' split at h
    all_goals first | (cases h; done) | skip
    rename_i hs
    injection h with h; subst h
    exact selectionIn_range hl (first_ok hl hr) hs
  | value m r => exact valueError_in hl hv.1.choose_spec h
  | missingComment r =>
    obtain ⟨b, hr⟩ := hv
    simp only [Complaint.raise, missingComment, base?_ok S hr, bind, Except.bind] at h
    repeat' split at h
    all_goals first | (cases h; done) | skip
    rename_i hs
    injection h with h; subst h
    exact selectionIn_empty hl (first_ok hl hr) hs
  | missingValue r => exact missingValue_in hl hv.1.choose_spec h
  | missingElement key q n =>
    simp only [Complaint.raise, missingElement, bind, Except.bind] at h
    by_cases hd : (ctx.heap.at q).type = .document
    · simp only [hd, if_true] at h
      repeat' split at h
      all_goals first | (cases h; done) | skip
      injection h with h; subst h
      exact documentBegin_in
    · simp only [if_neg hd] at h
      repeat' split at h
      all_goals first | (cases h; done) | skip
      rename_i hs
      injection h with h; subst h
      have h0 : 0 < q := by
        apply Nat.pos_of_ne_zero; rintro rfl; exact hd C.grown.doc
      exact selectionIn_empty hl (first_ok hl (.elem h0 hv.1)) hs
  | unexpected m r => exact about hv.choose_spec h
  | several key rs n =>
    simp only [Complaint.raise, unexpectedMultipleElements, bind, Except.bind] at h
    repeat' split at h
    all_goals first | (cases h; done) | skip
    rename_i hs
    injection h with h; subst h
    exact selectElement_in hl (hv.2.1 _ (List.mem_cons_self ..)).choose_spec hs
  | wrongType key r n => exact about hv.1.choose_spec h

end Eno
