import Verif.Props.LookupProps
import Verif.Proofs.LookupPast

/-!
# More about C51: exactly what is found on continuations of last items and entries
-/

namespace Eno

open Spec

variable {input : Str} {ctx ctx' : Ctx} {n e i : Nat} {b : Base}

/-- No comment that belongs to no element is on the line of an instruction. -/
theorem meta_elsewhere (ha : analyze input = .ok ctx) (hl : load input = .ok ctx') (hi : 0 < i) (hil : i < ctx'.heap.length) (hb : b ∈ (ctx'.heap.at i).rows) :
    ctx'.metas.find? (fun (x : Meta) => some (x.base.line : Int) = some (b.line : Int)) = none := by
  obtain ⟨hmt, _⟩ := load_meta ha hl
  have hlen := load_length ha hl
  rw [hlen] at hil
  rw [(kept' ha hl hil).rows] at hb
  obtain ⟨hl', q⟩ := at_tail hi hil
  have hbm : b ∈ ctx.heap.tail.flatMap Elem.bases := List.mem_flatMap.2 ⟨_, by rw [← q]; exact List.getElem_mem hl', (rows_sublist _).subset hb⟩
  rw [hmt, List.find?_eq_none]
  intro m hm
  rcases (C09_ordered ha).2.2 b hbm m hm with w | w
  · have : b.line < m.base.line := w.1
    simp; omega
  · have : m.base.line < b.line := w.1
    simp; omega

/-- On the continuations that C51 leaves out, `lookup` finds the section that the list or fieldset is in, and no range, by line and by index. -/
theorem C51_last (hl : load input = .ok ctx') (hf : LastContinued ctx'.heap i b) :
    ∃ p, (ctx'.heap.at i).parent = some p ∧ (∀ c, lookup input (some b.line) c none = .ok ⟨.elem p, none⟩) ∧
      ∀ c (n : Nat), b.span.1 ≤ n → n ≤ b.span.2 → lookup input none c (some n) = .ok ⟨.elem p, none⟩ := by
  obtain ⟨ctx, ha, _⟩ := load_ok_analyze hl
  have K := loaded_kinds ha hl
  have hd := docType_loaded ha hl
  obtain ⟨hi, hil, hb, p, hp, hz⟩ := lookup_last (loaded_tree ha hl) (ordered_byLine ha hl) K (mlOk_byLine ha hl) hd hf (n := b.line) ⟨Nat.le_refl _, Nat.le_refl _⟩
  obtain ⟨_, h2, h3⟩ := row_facts ha hl hi hil hb
  refine ⟨p, hp, fun c => ?_, fun c n h4 h5 => ?_⟩
  · rw [← checkInSectionByLine_eq] at hz
    unfold lookup; rw [hl]; simp only; rw [if_neg (by omega), Int.toNat_natCast, hz]
    simp only
    rw [meta_elsewhere ha hl hi hil hb]
    rfl
  · obtain ⟨_, _, _, p', hp', hz'⟩ := lookup_last (loaded_tree ha hl) (ordered_bySpan ha hl) K (mlOk_bySpan ha hl) hd hf (n := n) ⟨h4, h5⟩
    rw [hp] at hp'
    obtain rfl : p = p' := by simpa using hp'
    rw [← checkInSectionByIndex_eq] at hz'
    have := h2.inside
    unfold lookup; rw [hl]; simp only; rw [if_neg (by omega), Int.toNat_natCast, hz']
    simp only
    have : ctx'.metas.find? (fun (x : Meta) => some (x.base.line : Int) = none) = none := by
      rw [List.find?_eq_none]; intro m _; simp
    rw [this]
    rfl

example : ∃ ctx' b, load (chars!"# s\nl:\n- a\n- b\n| c") = .ok ctx' ∧ LastContinued ctx'.heap 2 b ∧ (ctx'.heap.at 2).parent = some 1 := by
  obtain ⟨c, h1, h2, h3, h4, h5⟩ : ∃ c, load (chars!"# s\nl:\n- a\n- b\n| c") = .ok c ∧ 2 < c.heap.length ∧ ((c.heap.at 2).items.getD []).getLast?.isSome ∧
      ((((c.heap.at 2).items.getD []).getLast?.bind Sub.continuations).getD []).length ≠ 0 ∧ (c.heap.at 2).parent = some 1 := by
    refine ⟨_, rfl, ?_, ?_, ?_, ?_⟩ <;> decide +kernel
  cases hx : (c.heap.at 2).items with
  | none => rw [hx] at h3; cases h3
  | some xs =>
    rw [hx] at h3 h4
    cases hk : xs.getLast? with
    | none => simp only [Option.getD_some, hk] at h3; cases h3
    | some x =>
      simp only [Option.getD_some, hk, Option.bind] at h4
      cases hcs : x.continuations with
      | none => rw [hcs] at h4; simp at h4
      | some cs =>
        rw [hcs] at h4
        cases cs with
        | nil => simp at h4
        | cons y ys => exact ⟨c, _, h1, .item h2 hx hk hcs (List.mem_cons_self ..), h5⟩

example : (lookup (chars!"# s\nl:\n- a\n- b\n| c") (some 4) (some 0) none).toOption = some ⟨.elem 1, none⟩ := by decide +kernel

/-- All further lines: those of `C51_further_partial` and those of `C51_last`. -/
theorem C51_all {x : Sub} {xs : List Sub} {c : Cont} {cs : List Cont} {k : Nat} (hi : i < ctx'.heap.length) (hx : xs[k]? = some x) (hcs : x.continuations = some cs) (hc : c ∈ cs) :
    ((ctx'.heap.at i).items = some xs → FurtherLine ctx'.heap (.item i k) c.toBase ∨ LastContinued ctx'.heap i c.toBase) ∧
      ((ctx'.heap.at i).entries = some xs → FurtherLine ctx'.heap (.entry i k) c.toBase ∨ LastContinued ctx'.heap i c.toBase) := by
  have hk : k < xs.length := (List.getElem?_eq_some_iff.1 hx).1
  by_cases hlt : k + 1 < xs.length
  · exact ⟨fun h => .inl (.item hi h hx hlt hcs hc), fun h => .inl (.entry hi h hx hlt hcs hc)⟩
  · have hl : xs.getLast? = some x := by
      rw [List.getLast?_eq_getElem?, show xs.length - 1 = k by omega, hx]
    exact ⟨fun h => .inr (.item hi h hl hcs hc), fun h => .inr (.entry hi h hl hcs hc)⟩

example : ∃ ctx xs x cs c, load (chars!"l:\n- a\n- b\n| c\n\\ d") = .ok ctx ∧ 1 < ctx.heap.length ∧ (ctx.heap.at 1).items = some xs ∧ xs[1]? = some x ∧ x.continuations = some cs ∧ c ∈ cs := by
  refine ⟨_, _, _, _, _, rfl, ?_, rfl, rfl, rfl, List.mem_cons_self ..⟩
  decide +kernel

end Eno
