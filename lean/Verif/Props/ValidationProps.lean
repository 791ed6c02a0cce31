import Verif.Proofs.ElementErrors
import Verif.Props.ErrorProps

/-!
# Properties of validation errors

The errors that are raised about the elements of a loaded document. `FirstLine h r b` says that `r` is an element, item or entry, written with the instruction `b`.
-/

namespace Eno

open Spec

variable {input : Str} {ctx : Ctx} {o : Options} {r : Ref} {b : Base} {text : Msg} {e : ErrObj}

theorem loaded_all (hl : load input = .ok ctx) : Complete ctx ∧ ctx.input = input ∧ Shown ctx.heap ctx.lineCount := by
  obtain ⟨c, ha, _⟩ := load_ok_analyze hl
  obtain ⟨C, h1, _⟩ := loaded_complete ha hl
  exact ⟨C, h1, loaded_shown ha hl⟩

/-! ## C40 -/

/-- An error about an element, an item or an entry can be reported unless tagging gets stuck: something follows a silent element in the section, or in a section in it. -/
theorem C40_element (hl : load input = .ok ctx) (hr : FirstLine ctx.heap r b) (ho : o.reporter ≠ .terminal) :
    (RefStuck ctx.heap r → aboutElement o ctx text r = .error .typeError) ∧ (¬ RefStuck ctx.heap r → ∃ e, aboutElement o ctx text r = .ok e) := by
  obtain ⟨C, _, S⟩ := loaded_all hl
  rcases reportElement_marks C S hr with ⟨q, k⟩ | ⟨q, L, s, _, k, _⟩
  · refine ⟨fun _ => ?_, fun h => absurd q h⟩
    unfold aboutElement
    rw [snippet_error C k o]
    rfl
  · refine ⟨fun h => absurd h q, fun _ => ?_⟩
    obtain ⟨out, h1⟩ := makeSnippet_ok C k ho
    obtain ⟨l, _, _, h2⟩ := selectElement_ok C S hr
    unfold aboutElement
    rw [h1, h2]
    exact ⟨_, rfl⟩

/-- Sample for the hypotheses: an item of a list. -/
example : ∃ ctx, load (chars!"# a\nb:\n- c\n- d") = .ok ctx ∧ (∃ b, FirstLine ctx.heap (.item 2 1) b) ∧ ¬ RefStuck ctx.heap (.item 2 1) := by
  obtain ⟨ctx, h, h1, h2⟩ : ∃ c, load (chars!"# a\nb:\n- c\n- d") = .ok c ∧ 2 < c.heap.length ∧ 1 < ((c.heap.at 2).items.getD []).length := by
    refine ⟨_, rfl, ?_, ?_⟩ <;> decide +kernel
  cases hx : (ctx.heap.at 2).items with
  | none => rw [hx] at h2; simp at h2
  | some xs =>
    rw [hx] at h2
    exact ⟨ctx, h, ⟨_, .item h1 hx (List.getElem?_eq_getElem h2)⟩, fun h => h⟩

/-- Items, entries and everything but sections are never a problem. -/
theorem C40_leaves (hl : load input = .ok ctx) (hr : FirstLine ctx.heap r b) (ho : o.reporter ≠ .terminal) (hs : ∀ i, r = .elem i → (ctx.heap.at i).type ≠ .section) :
    ∃ e, aboutElement o ctx text r = .ok e := by
  obtain ⟨_, _, S⟩ := loaded_all hl
  refine (C40_element hl hr ho).2 ?_
  cases hr with
  | elem h0 hi => exact not_stuck_leaf (S.leaves _ hi h0 (hs _ rfl))
  | item => exact id
  | entry => exact id

example : ∃ ctx, load (chars!"# a\nb:\nc:\n") = .ok ctx ∧ FirstLine ctx.heap (.elem 3) (ctx.heap.at 3).toBase ∧ (ctx.heap.at 3).type ≠ .section := by
  obtain ⟨ctx, h, h1, h2⟩ : ∃ c, load (chars!"# a\nb:\nc:\n") = .ok c ∧ 3 < c.heap.length ∧ (c.heap.at 3).type ≠ .section := by
    refine ⟨_, rfl, ?_⟩; decide +kernel
  exact ⟨ctx, h, .elem (by omega) h1, h2⟩

/-- A missing element in a section can be reported unless something follows a silent element before the first section in it. -/
theorem C40_missing_section {i : Nat} {key : Option Str} {name : MsgName} (hl : load input = .ok ctx) (h0 : 0 < i) (hi : i < ctx.heap.length) (ht : (ctx.heap.at i).type = .section)
    (ho : o.reporter ≠ .terminal) : (StuckAbove ctx.heap i → missingElement o ctx key i name = .error .typeError) ∧
      (¬ StuckAbove ctx.heap i → ∃ e, missingElement o ctx key i name = .ok e) := by
  obtain ⟨C, _, S⟩ := loaded_all hl
  have hb : (ctx.heap.at i).line < ctx.lineCount := S.below i h0 hi _ (rows_head _)
  have hp := put_ok (l := List.replicate ctx.lineCount (none : Option Tag)) (n := (ctx.heap.at i).line) (x := Tag.indicate) (by simpa using hb)
  have R := S.rest hi
  have hlt : ∀ j ∈ (ctx.heap.at i).elements, (ctx.heap.at i).line + 1 ≤ (ctx.heap.at j).line := by
    intro j hj
    obtain ⟨hj1, hj2⟩ := R.kids j hj
    exact S.ordered.outer i j h0 (S.tree.parent_lt hj1 hj2).2.1 hj1 _ (rows_head _) _ (rows_head _)
  have hrun : reportMissingElement ctx.heap i (List.replicate ctx.lineCount none) =
      (sectionLoop ctx.heap .question false (tagSection ctx.heap .question ctx.heap.length true) (ctx.heap.at i).elements (some ((ctx.heap.at i).line + 1))
        ((List.replicate ctx.lineCount none).set (ctx.heap.at i).line (some .indicate))).map (·.2) := by
    unfold reportMissingElement
    simp only [ht, if_neg (show ¬ Ty.section = Ty.document by decide), hp, bind, Except.bind, if_true]
    rfl
  have hd : (ctx.heap.at i).type ≠ .document := by rw [ht]; simp
  rcases flatLoop_painted (tag := .question) S (inner := tagSection ctx.heap .question ctx.heap.length true) _ ((ctx.heap.at i).line + 1)
      ((List.replicate ctx.lineCount none).set (ctx.heap.at i).line (some .indicate)) R (by simp) hlt (by omega) with ⟨q, k⟩ | ⟨q, n, x, s', k, _⟩
  · refine ⟨fun _ => ?_, fun h => absurd q h⟩
    have hm : makeSnippet o ctx (reportMissingElement ctx.heap i) = .error .typeError := snippet_error C (by rw [hrun, k]; rfl) o
    unfold missingElement
    simp only [hm, bind, Except.bind]
  · refine ⟨fun h => absurd h q, fun _ => ?_⟩
    obtain ⟨out, h1⟩ := makeSnippet_ok C (report := reportMissingElement ctx.heap i) (by rw [hrun, k]; rfl) ho
    obtain ⟨B, c⟩ := C.chart
    have r1 := c.ranges _ (c.all _ (row_instruction h0 hi (rows_head (ctx.heap.at i))))
    unfold missingElement
    simp only [h1, bind, Except.bind, if_neg hd, selection, cursor, r1]
    exact ⟨_, rfl⟩

/-- Sample for the hypotheses: a section with elements from which the end can be found. -/
example : ∃ ctx, load (chars!"# a\nb: 1\nc: 2\n## d\n") = .ok ctx ∧ 1 < ctx.heap.length ∧ (ctx.heap.at 1).type = .section ∧
    (missingElement {} ctx (some (chars!"x")) 1 .missingField).toOption.isSome = true := by
  refine ⟨_, rfl, ?_⟩
  decide +kernel

/-- In the document, and in elements that are not sections, it can always be reported. -/
theorem C40_missing_other {i : Nat} {key : Option Str} {name : MsgName} (hl : load input = .ok ctx) (hi : i < ctx.heap.length) (ht : (ctx.heap.at i).type ≠ .section)
    (ho : o.reporter ≠ .terminal) : ∃ e, missingElement o ctx key i name = .ok e := by
  obtain ⟨C, _, S⟩ := loaded_all hl
  by_cases h0 : i = 0
  · subst h0
    have hd := C.grown.doc
    obtain ⟨out, h1⟩ := makeSnippet_ok C (report := reportMissingElement ctx.heap 0) (s := List.replicate ctx.lineCount none) (by
      unfold reportMissingElement tagElement tagLeaf
      simp only [hd, if_true, if_neg (show ¬ Ty.document = Ty.section by decide)]
      rfl) ho
    unfold missingElement
    simp only [h1, bind, Except.bind, if_pos hd]
    exact ⟨_, rfl⟩
  · have h0 : 0 < i := by omega
    have hb : (ctx.heap.at i).line < ctx.lineCount := S.below i h0 hi _ (rows_head _)
    have hp := put_ok (l := List.replicate ctx.lineCount (none : Option Tag)) (n := (ctx.heap.at i).line) (x := Tag.indicate) (by simpa using hb)
    have hd : (ctx.heap.at i).type ≠ .document := by
      have := S.types i h0 hi
      intro q; rw [q] at this; simp at this
    have hlen : ((List.replicate ctx.lineCount none).set (ctx.heap.at i).line (some Tag.indicate)).length = ctx.lineCount := by simp
    obtain ⟨x, s', k, _⟩ := tagLeaf_painted (tag := .question) (s := (List.replicate ctx.lineCount none).set (ctx.heap.at i).line (some .indicate))
      (by rw [hlen]; exact S) h0 hi ht
    obtain ⟨out, h1⟩ := makeSnippet_ok C (report := reportMissingElement ctx.heap i) (s := s') (by
      unfold reportMissingElement tagElement
      simp only [if_neg ht, if_neg hd, hp, bind, Except.bind, k]
      rfl) ho
    obtain ⟨B, c⟩ := C.chart
    have r1 := c.ranges _ (c.all _ (row_instruction h0 hi (rows_head (ctx.heap.at i))))
    unfold missingElement
    simp only [h1, bind, Except.bind, if_neg hd, selection, cursor, r1]
    exact ⟨_, rfl⟩

example : ∃ ctx, load (chars!"a: 1\nb:\nc = 2\n") = .ok ctx ∧ 2 < ctx.heap.length ∧ (ctx.heap.at 2).type = .fieldset ∧
    (missingElement {} ctx (some (chars!"x")) 2 .missingFieldsetEntry).toOption.isSome = true := by
  refine ⟨_, rfl, ?_⟩
  decide +kernel

/-- Two elements without anything in a section are enough to get stuck, for missing elements as well as for errors about the section. -/
theorem C40_refuted : ∃ ctx, load (chars!"# a\nb:\nc:\n") = .ok ctx ∧ FirstLine ctx.heap (.elem 1) (ctx.heap.at 1).toBase ∧
    elementError {} ctx [] (.elem 1) = .error .typeError ∧ missingElement {} ctx none 1 .missingElement = .error .typeError := by
  obtain ⟨ctx, hl, h1, h2, h3, h4, h5⟩ : ∃ c, load (chars!"# a\nb:\nc:\n") = .ok c ∧ c.heap.length = 4 ∧ (c.heap.at 1).type = .section ∧ (c.heap.at 1).elements = [2, 3] ∧
      (c.heap.at 2).type = .empty ∧ (c.heap.at 2).type ≠ .section := by
    refine ⟨_, rfl, ?_, ?_, ?_, ?_, ?_⟩ <;> decide +kernel
  have hf : FirstLine ctx.heap (.elem 1) (ctx.heap.at 1).toBase := .elem (by omega) (by omega)
  refine ⟨ctx, hl, hf, (C40_element hl hf (by decide)).1 ?_, (C40_missing_section hl (by omega) (by omega) h2 (by decide)).1 ?_⟩
  · exact Stuck.here (pre := []) (post := []) h3 (.empty h4)
  · exact ⟨[], 2, 3, [], h3, .empty h4, by simpa using h5⟩

/-! ## C59 -/

/-- The snippet of an error about an element marks exactly the lines of the element: the first one is emphasised, the others up to its last line are indicated. For neat
input every line that is shown is shown with its text. -/
theorem C59_marks (hl : load input = .ok ctx) (hr : FirstLine ctx.heap r b) (ho : o.reporter = .text) (h : aboutElement o ctx text r = .ok e) :
    ∃ rows last, e.snippet = plainSnippet o rows ∧ RefEnds ctx.heap r last ∧ Accounts ctx.lineCount 1 rows ∧
      (∀ k, (∃ t, SnipRow.line .emphasis k t ∈ rows) ↔ k = b.line + 1) ∧
      (∀ k, (∃ t, SnipRow.line .indication k t ∈ rows) ↔ b.line + 1 < k ∧ k ≤ last + 1) ∧
      (∀ k t, SnipRow.line .question k t ∉ rows) ∧
      (Neat input → ∀ m n t, SnipRow.line m (n + 1) t ∈ rows → t = lineText input n ∨ (t = [] ∧ WhiteLine (lineText input n))) := by
  obtain ⟨C, hin, S⟩ := loaded_all hl
  rcases reportElement_marks C S hr with ⟨q, _⟩ | ⟨_, L, s, g, k, M⟩
  · have := (C40_element (o := o) (text := text) hl hr (by rw [ho]; simp)).1 q
    rw [h] at this; cases this
  · obtain ⟨rows, r1, _, r3, r4, r5⟩ := snippet_marks C k M.len M.marked ⟨_, .emphasis, (M.emphasis b.line).2 rfl⟩ o
    obtain ⟨l, _, _, h2⟩ := selectElement_ok C S hr
    unfold aboutElement at h
    rw [r1 ho, h2] at h
    simp only [bind, Except.bind, Except.ok.injEq] at h
    refine ⟨rows, L, by rw [← h], g, r3, fun k => ?_, fun k => ?_, fun k t ht => ?_, by rw [← hin]; exact r5⟩
    · rw [r4 .emphasis k (by simp)]
      simp only [M.emphasis]
      constructor
      · rintro ⟨n, h1, h2⟩; omega
      · intro h1; exact ⟨_, h1, rfl⟩
    · rw [r4 .indication k (by simp)]
      simp only [M.indication]
      constructor
      · rintro ⟨n, h1, h2⟩; omega
      · intro h1; exact ⟨k - 1, by omega, by omega⟩
    · obtain ⟨n, _, h1⟩ := (r4 .question k (by simp)).1 ⟨t, ht⟩
      exact M.question n h1

/-- The selection of such an error is the element: from the beginning of its first line to the end of its last one. -/
theorem C59_selection (hl : load input = .ok ctx) (hr : FirstLine ctx.heap r b) (h : aboutElement o ctx text r = .ok e) :
    ∃ l ∈ ctx.instructions, RefEnds ctx.heap r l.line ∧ e.selection = ⟨⟨0, b.span.1, b.line⟩, ⟨(l.span.2 : Int) - l.span.1, l.span.2, l.line⟩⟩ := by
  obtain ⟨C, _, S⟩ := loaded_all hl
  obtain ⟨l, h1, h2, h3⟩ := selectElement_ok C S hr
  refine ⟨l, h1, h2, ?_⟩
  unfold aboutElement at h
  rw [h3] at h
  cases hm : makeSnippet o ctx (reportElement ctx.heap r) with
  | error x => rw [hm] at h; cases h
  | ok out =>
    rw [hm] at h
    simp only [bind, Except.bind, Except.ok.injEq] at h
    rw [← h]

example : ∃ ctx e, load (chars!"a: 1\n# b\nc:\n- d\n\n- e\n| f\n\ng: 2") = .ok ctx ∧ elementError {} ctx (chars!"no") (.elem 3) = .ok e ∧
    e.snippet = chars!"   Line | Content\n      1 | a: 1\n      2 | # b\n >    3 | c:\n *    4 | - d\n *    5 | \n *    6 | - e\n *    7 | | f\n      8 | \n      9 | g: 2" ∧
    e.selection = ⟨⟨0, 9, 2⟩, ⟨3, 24, 6⟩⟩ := by
  refine ⟨_, _, rfl, rfl, ?_, ?_⟩ <;> decide +kernel

end Eno
