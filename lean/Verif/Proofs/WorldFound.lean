import Verif.Proofs.LookupFacts
import Verif.Proofs.WorldInv

/-! # What `lookup` finds is there -/

namespace Eno.El

variable {input : Str} {ctx : Ctx} {h : Heap} {m : Extent} {e n : Nat}

theorem part_actual {r : Ref} (he : e < h.length) (hp : PartOf h e r) : Actual h r ∨ r = .elem 0 := by
  rcases hp with rfl | ⟨k, hk, rfl⟩ | ⟨k, hk, rfl⟩
  · by_cases h0 : e = 0
    · exact .inr (by rw [h0])
    · exact .inl ⟨Nat.pos_of_ne_zero h0, he⟩
  · refine .inl ?_
    unfold Actual
    cases hq : (h.at e).items with
    | none => rw [hq] at hk; simp at hk
    | some xs => rw [hq] at hk; simp [Heap.sub?, hq]; simpa using hk
  · refine .inl ?_
    unfold Actual
    cases hq : (h.at e).entries with
    | none => rw [hq] at hk; simp at hk
    | some xs => rw [hq] at hk; simp [Heap.sub?, hq]; simpa using hk

theorem found_check {ml : Ref → Elem → Nat → Except PyExc (Option Hit)} (T : Tree h) (O : Ordered m h) (K : Kinds h) (M : MlOk m ml h) {z : Hit}
    (hz : gCheck m ml h n (h.length + 1) 0 = .ok z) : Actual h z.element ∨ z.element = .elem 0 := by
  obtain ⟨e, L⟩ := exists_last m T.pos n
  obtain ⟨z', h1, h2⟩ := lookup_total T O K M L
  rw [hz] at h1
  cases h1
  rcases h2 with h2 | ⟨p, h2, _, h3⟩
  · exact part_actual L.lt h2
  · have := T.parent_lt L.lt h2
    rw [h3]
    by_cases h0 : p = 0
    · exact .inr (by rw [h0])
    · exact .inl ⟨Nat.pos_of_ne_zero h0, by have := L.lt; omega⟩

theorem found_actual {l c i : Option Int} {r : LookupResult} (hl : load input = .ok ctx) (hr : lookup input l c i = .ok r) :
    Actual ctx.heap r.element ∨ r.element = .elem 0 := by
  obtain ⟨ctx0, ha, _⟩ := load_ok_analyze hl
  have T := loaded_tree ha hl
  have K := loaded_kinds ha hl
  unfold lookup at hr
  rw [hl] at hr
  simp only at hr
  split at hr
  · cases hr
  · rename_i z hz
    have key : Actual ctx.heap z.element ∨ z.element = .elem 0 := by
      split at hz
      · split at hz
        · cases hz
        · split at hz
          · cases hz
          · rw [checkInSectionByLine_eq] at hz
            exact found_check T (ordered_byLine ha hl) K (mlOk_byLine ha hl) hz
      · split at hz
        · cases hz
        · rw [checkInSectionByIndex_eq] at hz
          exact found_check T (ordered_bySpan ha hl) K (mlOk_bySpan ha hl) hz
    split at hr
    · cases hr; exact key
    · split at hr
      · cases hr; exact key
      · cases hr; exact key
      · cases hr

end Eno.El
