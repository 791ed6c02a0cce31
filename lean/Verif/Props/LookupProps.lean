import Verif.Proofs.LookupRange

/-! # Looking up positions: C49 to C52, C55, C56 -/

namespace Eno

open Spec

variable {input : Str} {ctx ctx' : Ctx} {n e : Nat} {r : Ref} {b : Base}

/-! ## C49 -/

/-- On the line that an element, item, entry or section heading is written on, `lookup` finds exactly that, and reports the range at the column. -/
theorem C49_line (hl : load input = .ok ctx') (hf : FirstLine ctx'.heap r b) (c : Int) :
    ∃ o, lookup input (some b.line) (some c) none = .ok ⟨r, o⟩ ∧ RangeAt b.ranges (b.span.1 + c) o := by
  obtain ⟨ctx, ha, _⟩ := load_ok_analyze hl
  have K := loaded_kinds ha hl
  have hd := docType_loaded ha hl
  obtain ⟨i, hi, hil, hb⟩ := first_row K hd hf
  obtain ⟨_, h2, h3⟩ := row_facts ha hl hi hil hb
  refine ⟨_, lookup_line_hit hl h3 ?_ c, range_spec h2 _⟩
  rw [checkInSectionByLine_eq]
  exact hit_first (loaded_tree ha hl) (ordered_byLine ha hl) K hd hf ⟨Nat.le_refl _, Nat.le_refl _⟩

example : ∃ ctx' b, load (chars!"# s\nl:\n- a\n- b") = .ok ctx' ∧ FirstLine ctx'.heap (.item 2 1) b := by
  obtain ⟨ctx', h⟩ : ∃ c, load (chars!"# s\nl:\n- a\n- b") = .ok c ∧ 2 < c.heap.length ∧ 1 < ((c.heap.at 2).items.getD []).length := by
    refine ⟨_, rfl, ?_, ?_⟩ <;> decide +kernel
  obtain ⟨b, hb⟩ := firstLine_item h.2.1 h.2.2
  exact ⟨ctx', b, h.1, hb⟩

example : (lookup (chars!"# s\nl:\n- a\n- b") (some 3) (some 2) none).toOption = some ⟨.item 2 1, some .value⟩ := by decide +kernel

/-! ## C50 -/

/-- At every position of the line that an element, item, entry or section heading is written on, `lookup` finds exactly that, and reports the range there. -/
theorem C50_index (hl : load input = .ok ctx') (hf : FirstLine ctx'.heap r b) (h1 : b.span.1 ≤ n) (h2 : n ≤ b.span.2) (l c : Option Int) :
    ∃ o, lookup input l c (some n) = .ok ⟨r, o⟩ ∧ RangeAt b.ranges n o := by
  obtain ⟨ctx, ha, _⟩ := load_ok_analyze hl
  have K := loaded_kinds ha hl
  have hd := docType_loaded ha hl
  obtain ⟨i, hi, hil, hb⟩ := first_row K hd hf
  obtain ⟨_, h3, _⟩ := row_facts ha hl hi hil hb
  refine ⟨_, lookup_index_hit hl (Nat.le_trans h2 h3.inside) ?_ l c, range_spec h3 _⟩
  rw [checkInSectionByIndex_eq]
  exact hit_first (loaded_tree ha hl) (ordered_bySpan ha hl) K hd hf ⟨h1, h2⟩

example : (lookup (chars!"# s\nl:\n- a\n- b") none none (some 7)).toOption = some ⟨.item 2 0, some .itemOperator⟩ := by decide +kernel

/-! ## C51 -/

/-- On a continuation line, and on the lines and the end of a multiline field, `lookup` finds what is continued.

Missing: continuations of the last item of a list and of the last entry of a fieldset; see `C51_refuted`. -/
theorem C51_further_partial (hl : load input = .ok ctx') (hf : FurtherLine ctx'.heap r b) :
    (∀ c, ∃ o, lookup input (some b.line) (some c) none = .ok ⟨r, o⟩ ∧ RangeAt b.ranges (b.span.1 + c) o) ∧
    ∀ l c (n : Nat), b.span.1 ≤ n → n ≤ b.span.2 → ∃ o, lookup input l c (some n) = .ok ⟨r, o⟩ ∧ RangeAt b.ranges n o := by
  obtain ⟨ctx, ha, _⟩ := load_ok_analyze hl
  have K := loaded_kinds ha hl
  have hd := docType_loaded ha hl
  obtain ⟨i, hi, hil, hb⟩ := further_row K hd hf
  obtain ⟨_, h2, h3⟩ := row_facts ha hl hi hil hb
  refine ⟨fun c => ⟨_, lookup_line_hit hl h3 ?_ c, range_spec h2 _⟩, fun l c n h4 h5 => ⟨_, lookup_index_hit hl (Nat.le_trans h5 h2.inside) ?_ l c, range_spec h2 _⟩⟩
  · rw [checkInSectionByLine_eq]
    exact hit_further (loaded_tree ha hl) (ordered_byLine ha hl) K hd (mlOk_byLine ha hl) hf ⟨Nat.le_refl _, Nat.le_refl _⟩
  · rw [checkInSectionByIndex_eq]
    exact hit_further (loaded_tree ha hl) (ordered_bySpan ha hl) K hd (mlOk_bySpan ha hl) hf ⟨h4, h5⟩

example : ∃ ctx' b, load (chars!"l:\n- a\n| b\n- c") = .ok ctx' ∧ FurtherLine ctx'.heap (.item 1 0) b := by
  obtain ⟨ctx', h⟩ : ∃ c, load (chars!"l:\n- a\n| b\n- c") = .ok c ∧ 1 < c.heap.length ∧ 0 + 1 < ((c.heap.at 1).items.getD []).length ∧
      ((((c.heap.at 1).items.getD [])[0]?.bind Sub.continuations).getD []).length ≠ 0 := by
    refine ⟨_, rfl, ?_, ?_, ?_⟩ <;> decide +kernel
  obtain ⟨b, hb⟩ := furtherLine_item h.2.1 h.2.2.1 h.2.2.2
  exact ⟨ctx', b, h.1, hb⟩

example : (lookup (chars!"l:\n- a\n| b\n- c") (some 2) (some 0) none).toOption = some ⟨.item 1 0, some .directLineContinuationOperator⟩ := by decide +kernel
example : (lookup (chars!"-- m\nx\n-- m") (some 1) (some 0) none).toOption = some ⟨.elem 1, some .value⟩ := by decide +kernel

/-- The statement without the exception is false: on the continuation of the only item (entry) lookup finds the document. -/
theorem C51_refuted :
    (lookup (chars!"l:\n- a\n| b") (some 2) (some 0) none).toOption = some ⟨.elem 0, none⟩ ∧
    (lookup (chars!"l:\n- a\n| b") none none (some 9)).toOption = some ⟨.elem 0, none⟩ ∧
    (lookup (chars!"l:\na = 1\n\\ b") (some 2) (some 0) none).toOption = some ⟨.elem 0, none⟩ := by decide +kernel

/-! ## C52 -/

/-- A line is refused exactly outside of the document; otherwise, given a column, there is a result. -/
theorem C52_line (hl : load input = .ok ctx') (l c : Int) :
    ((l < 0 ∨ ctx'.lineCount ≤ l) → lookup input (some l) (some c) none = .error (.py .indexError)) ∧
    (¬ (l < 0 ∨ ctx'.lineCount ≤ l) → ∃ x, lookup input (some l) (some c) none = .ok x) := by
  obtain ⟨ctx, ha, _⟩ := load_ok_analyze hl
  constructor
  · intro h
    unfold lookup; rw [hl]; simp only; rw [if_pos (by omega)]
  · intro h
    obtain ⟨m, rfl⟩ : ∃ m : Nat, l = m := ⟨l.toNat, by omega⟩
    obtain ⟨e, L⟩ := exists_last byLine (loaded_tree ha hl).pos m
    obtain ⟨z, hz, _⟩ := lookup_total (loaded_tree ha hl) (ordered_byLine ha hl) (loaded_kinds ha hl) (mlOk_byLine ha hl) L
    rw [← checkInSectionByLine_eq] at hz
    unfold lookup; rw [hl]; simp only; rw [if_neg (by omega), Int.toNat_natCast, hz]
    simp only
    split <;> exact ⟨_, rfl⟩

/-- An index is refused exactly outside of the document; otherwise there is a result. -/
theorem C52_index (hl : load input = .ok ctx') (l c : Option Int) (i : Int) :
    ((i < 0 ∨ input.length < i) → lookup input l c (some i) = .error (.py .indexError)) ∧
    (¬ (i < 0 ∨ input.length < i) → ∃ x, lookup input l c (some i) = .ok x) := by
  obtain ⟨ctx, ha, _⟩ := load_ok_analyze hl
  constructor
  · intro h
    unfold lookup; rw [hl]; simp only; rw [if_pos (by omega)]
  · intro h
    obtain ⟨m, rfl⟩ : ∃ m : Nat, i = m := ⟨i.toNat, by omega⟩
    obtain ⟨e, L⟩ := exists_last bySpan (loaded_tree ha hl).pos m
    obtain ⟨z, hz, _⟩ := lookup_total (loaded_tree ha hl) (ordered_bySpan ha hl) (loaded_kinds ha hl) (mlOk_bySpan ha hl) L
    rw [← checkInSectionByIndex_eq] at hz
    unfold lookup; rw [hl]; simp only; rw [if_neg (by omega), Int.toNat_natCast, hz]
    simp only
    split <;> exact ⟨_, rfl⟩

/-- A document that does not parse fails in the same way here. -/
theorem C52_parse {x : PExc} (hl : load input = .error x) (l c i : Option Int) : lookup input l c i = .error (.parse x) := by
  unfold lookup; rw [hl]

/-- `line_count` is one more than the number of line feeds of a document whose instructions stay on their lines, so the lines accepted are those that
exist (see also `C11_lines_partial`, `C11_refuted`). -/
example : ∃ ctx', load (chars!"a: 1\n\nb: 2\n") = .ok ctx' ∧ ctx'.lineCount = 4 := by
  refine ⟨_, rfl, ?_⟩; decide +kernel

/-- Without a column, a line with an instruction is a `TypeError`, as is giving neither line nor index. -/
theorem C52_no_column :
    (match lookup (chars!"a: 1\n\nb: 2") (some 0) none none with | .error (.py .typeError) => true | _ => false) = true ∧
    (match lookup (chars!"a: 1\n\nb: 2") none (some 0) none with | .error (.py .typeError) => true | _ => false) = true ∧
    (lookup (chars!"a: 1\n\nb: 2") (some 1) none none).toOption = some ⟨.elem 0, none⟩ := by decide +kernel

/-! ## C55 -/

/-- By line: whatever the line, `lookup` finds the last element that begins at or before it, one of its items or entries, or the section that the
element is in. -/
theorem C55_near_line (hl : load input = .ok ctx') (hn : n < ctx'.lineCount) (L : LastBefore Base.line ctx'.heap n e) (c : Int) :
    ∃ x, lookup input (some n) (some c) none = .ok x ∧
      (PartOf ctx'.heap e x.element ∨ ∃ p, (ctx'.heap.at e).parent = some p ∧ (ctx'.heap.at e).type ≠ .section ∧ x.element = .elem p) := by
  obtain ⟨ctx, ha, _⟩ := load_ok_analyze hl
  obtain ⟨z, hz, hp⟩ := lookup_total (loaded_tree ha hl) (ordered_byLine ha hl) (loaded_kinds ha hl) (mlOk_byLine ha hl) ⟨L.lt, L.le, L.last⟩
  rw [← checkInSectionByLine_eq] at hz
  have hp : PartOf ctx'.heap e z.element ∨ ∃ p, (ctx'.heap.at e).parent = some p ∧ (ctx'.heap.at e).type ≠ .section ∧ z.element = .elem p :=
    hp.imp id fun ⟨p, h1, h2, h3⟩ => ⟨p, h1, h2, by rw [h3]⟩
  unfold lookup; rw [hl]; simp only; rw [if_neg (by omega), Int.toNat_natCast, hz]
  simp only
  split <;> exact ⟨_, rfl, hp⟩

/-- By index, in the same way. -/
theorem C55_near_index (hl : load input = .ok ctx') (hn : n ≤ input.length) (L : LastBefore (fun b => b.span.1) ctx'.heap n e) (l c : Option Int) :
    ∃ x, lookup input l c (some n) = .ok x ∧
      (PartOf ctx'.heap e x.element ∨ ∃ p, (ctx'.heap.at e).parent = some p ∧ (ctx'.heap.at e).type ≠ .section ∧ x.element = .elem p) := by
  obtain ⟨ctx, ha, _⟩ := load_ok_analyze hl
  obtain ⟨z, hz, hp⟩ := lookup_total (loaded_tree ha hl) (ordered_bySpan ha hl) (loaded_kinds ha hl) (mlOk_bySpan ha hl) ⟨L.lt, L.le, L.last⟩
  rw [← checkInSectionByIndex_eq] at hz
  have hp : PartOf ctx'.heap e z.element ∨ ∃ p, (ctx'.heap.at e).parent = some p ∧ (ctx'.heap.at e).type ≠ .section ∧ z.element = .elem p :=
    hp.imp id fun ⟨p, h1, h2, h3⟩ => ⟨p, h1, h2, by rw [h3]⟩
  unfold lookup; rw [hl]; simp only; rw [if_neg (by omega), Int.toNat_natCast, hz]
  simp only
  split <;> exact ⟨_, rfl, hp⟩

/-- By line: after the last line of an element that is not a section, and before the next element, `lookup` finds the section it is in. -/
theorem C55_beyond_line (hl : load input = .ok ctx') (hn : n < ctx'.lineCount) (L : LastBefore Base.line ctx'.heap n e) (he : 0 < e)
    (hs : (ctx'.heap.at e).type ≠ .section) (hb : ∀ b ∈ (ctx'.heap.at e).rows, b.line < n) (c : Int) :
    ∃ p o, (ctx'.heap.at e).parent = some p ∧ lookup input (some n) (some c) none = .ok ⟨.elem p, o⟩ := by
  obtain ⟨ctx, ha, _⟩ := load_ok_analyze hl
  obtain ⟨p, hp, hz⟩ := lookup_beyond (loaded_tree ha hl) (ordered_byLine ha hl) (loaded_kinds ha hl) (mlOk_byLine ha hl) ⟨L.lt, L.le, L.last⟩ he hs hb
  rw [← checkInSectionByLine_eq] at hz
  unfold lookup; rw [hl]; simp only; rw [if_neg (by omega), Int.toNat_natCast, hz]
  simp only
  split <;> exact ⟨p, _, hp, rfl⟩

/-- By index, in the same way. -/
theorem C55_beyond_index (hl : load input = .ok ctx') (hn : n ≤ input.length) (L : LastBefore (fun b => b.span.1) ctx'.heap n e) (he : 0 < e)
    (hs : (ctx'.heap.at e).type ≠ .section) (hb : ∀ b ∈ (ctx'.heap.at e).rows, b.span.2 < n) (l c : Option Int) :
    ∃ p o, (ctx'.heap.at e).parent = some p ∧ lookup input l c (some n) = .ok ⟨.elem p, o⟩ := by
  obtain ⟨ctx, ha, _⟩ := load_ok_analyze hl
  obtain ⟨p, hp, hz⟩ := lookup_beyond (loaded_tree ha hl) (ordered_bySpan ha hl) (loaded_kinds ha hl) (mlOk_bySpan ha hl) ⟨L.lt, L.le, L.last⟩ he hs hb
  rw [← checkInSectionByIndex_eq] at hz
  unfold lookup; rw [hl]; simp only; rw [if_neg (by omega), Int.toNat_natCast, hz]
  simp only
  split <;> exact ⟨p, _, hp, rfl⟩

example : ∃ ctx', load (chars!"# s\na: 1\n\nb: 2") = .ok ctx' ∧ LastBefore Base.line ctx'.heap 2 2 ∧ (∀ b ∈ (ctx'.heap.at 2).rows, b.line < 2) ∧
    (ctx'.heap.at 2).type = .field := by
  obtain ⟨c, h1, h2, h3, h4, h5, h6⟩ : ∃ c, load (chars!"# s\na: 1\n\nb: 2") = .ok c ∧ c.heap.length = 4 ∧ (c.heap.at 2).line ≤ 2 ∧ 2 < (c.heap.at 3).line ∧
      (∀ b ∈ (c.heap.at 2).rows, b.line < 2) ∧ (c.heap.at 2).type = .field := by
    refine ⟨_, rfl, ?_, ?_, ?_, ?_, ?_⟩ <;> decide +kernel
  refine ⟨c, h1, ⟨by omega, fun _ => h3, fun j h7 h8 => ?_⟩, h5, h6⟩
  obtain rfl : j = 3 := by omega
  exact h4

/-! ## C56 -/

/-- On the line of a comment that belongs to no element, `lookup` finds what surrounds it and reports the range in the comment. -/
theorem C56_loose_comments (hl : load input = .ok ctx') {m : Meta} (hm : m ∈ ctx'.metas) (c : Int) :
    ∃ x, lookup input (some m.base.line) (some c) none = .ok x ∧ RangeAt m.base.ranges (m.base.span.1 + c) x.range := by
  obtain ⟨ctx, ha, _⟩ := load_ok_analyze hl
  obtain ⟨hmt, hlc⟩ := load_meta ha hl
  rw [hmt] at hm
  have hmi : m.base ∈ ctx.instructions := by
    unfold Ctx.instructions; exact List.mem_append_right _ (List.mem_map.2 ⟨m, hm, rfl⟩)
  have hlt : m.base.line < ctx'.lineCount := by rw [hlc]; exact line_below ha hmi
  obtain ⟨e, L⟩ := exists_last byLine (loaded_tree ha hl).pos m.base.line
  obtain ⟨z, hz, _⟩ := lookup_total (loaded_tree ha hl) (ordered_byLine ha hl) (loaded_kinds ha hl) (mlOk_byLine ha hl) L
  have hno : z.instruction = none := by
    cases hi : z.instruction with
    | none => rfl
    | some b =>
      exfalso
      obtain ⟨h1, h2, h3⟩ := lookup_sound (loaded_tree ha hl) (ordered_byLine ha hl) (fun _ _ _ _ => multiline_sound_byLine) L hz hi
      have hbl : b.line = m.base.line := Nat.le_antisymm h3.1 h3.2
      have hlen := load_length ha hl
      have hel := L.lt
      rw [hlen] at hel
      rw [(kept' ha hl hel).rows] at h2
      obtain ⟨hl', q⟩ := at_tail h1 hel
      have hbm : b ∈ ctx.heap.tail.flatMap Elem.bases := List.mem_flatMap.2 ⟨_, by rw [← q]; exact List.getElem_mem hl', (rows_sublist _).subset h2⟩
      rcases (C09_ordered ha).2.2 b hbm m hm with w | w
      · have : b.line < m.base.line := w.1
        omega
      · have : m.base.line < b.line := w.1
        omega
  have hfind : ctx'.metas.find? (fun (x : Meta) => some (x.base.line : Int) = some (m.base.line : Int)) = some m := by
    rw [hmt]
    have hp := (C09_ordered ha).2.1
    rw [List.map_map, List.pairwise_map] at hp
    clear hz hno hmt hlc hlt hmi L
    generalize ctx.metas = ms at hm hp
    induction ms with
    | nil => simp at hm
    | cons a ms ih =>
      rw [List.find?_cons]
      rw [List.pairwise_cons] at hp
      rcases List.mem_cons.1 hm with rfl | hm
      · simp
      · have : a.base.line < m.base.line := (hp.1 m hm).1
        rw [decide_eq_false (by intro q; injection q with q; omega)]
        exact ih hm hp.2
  rw [← checkInSectionByLine_eq] at hz
  unfold lookup; rw [hl]; simp only; rw [if_neg (by omega), Int.toNat_natCast, hz]
  simp only [hno]
  rw [hfind]
  exact ⟨_, rfl, range_spec (C10_ranges ha _ hmi) _⟩

example : (load (chars!"> x\n\na: 1")).toOption.map (fun c => c.metas.length) = some 1 := by decide +kernel
example : (lookup (chars!"> x\n\na: 1") (some 0) (some 2) none).toOption = some ⟨.elem 0, some .comment⟩ := by decide +kernel

/-- The same by index finds no range: the comment is looked for by line only. Comments of elements are not found either way. -/
theorem C56_only_by_line :
    (lookup (chars!"> x\n\na: 1") none none (some 2)).toOption = some ⟨.elem 0, none⟩ ∧
    (lookup (chars!"> x\na: 1") (some 0) (some 2) none).toOption = some ⟨.elem 0, none⟩ := by decide +kernel

end Eno
