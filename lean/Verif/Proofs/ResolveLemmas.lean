import Verif.Proofs.IndexLemmas

/-! # Resolving copies of non-section elements -/

namespace Eno

open Spec

variable {h h' h0 : Heap} {i j n p t : Nat} {sec : Bool} {k : Str} {d : Copies}

/-! ## Updating one element -/

theorem Heap.length_set' {e : Elem} : (h.set i e).length = h.length := by simp

theorem Heap.at_set_self {e : Elem} (hi : i < h.length) : Heap.at (h.set i e) i = e := by simp [Heap.at, List.getD, hi]

theorem Heap.at_set_ne {e : Elem} (hj : j ≠ i) : Heap.at (h.set i e) j = h.at j := by
  have : ¬ i = j := fun e => hj e.symm
  simp [Heap.at, List.getD, List.getElem?_set, this]

theorem Heap.modify_eq_set {f : Elem → Elem} (hi : i < h.length) : h.modify i f = h.set i (f (h.at i)) := by
  apply List.ext_getElem
  · simp
  · intro m h1 h2
    simp only [List.getElem_modify, List.getElem_set]
    by_cases hm : i = m
    · subst hm; simp [Heap.at_eq_getElem hi]
    · simp [hm]

theorem Heap.set_at (hi : i < h.length) : h.set i (h.at i) = h := by
  rw [Heap.at_eq_getElem hi]; simp

/-- The comments that a copy takes over. -/
def inheritC (e t : Elem) : Elem := if t.comments.isSome ∧ e.comments = none then { e with comments := t.comments } else e

/-- A non-section copy after it has been resolved. -/
def consN (e t : Elem) (tid : Nat) : Except RFail Elem :=
  let e := { inheritC e t with copy := none }
  if e.type = .empty then
    if t.type = .mlBegin ∨ t.type = .field then .ok { e with type := .field, mirror := some (t.mirror.getD tid) }
    else if t.type = .fieldset then .ok { e with type := .fieldset, mirror := some (t.mirror.getD tid) }
    else if t.type = .list then .ok { e with type := .list, mirror := some (t.mirror.getD tid) }
    else .ok e
  else if e.type = .fieldset then
    if t.type = .fieldset then .ok { e with extend := some tid }
    else if t.type = .field ∨ t.type = .list ∨ t.type = .mlBegin then .error (.missingFieldsetForFieldsetEntry ((e.entries.getD []).headD default))
    else .ok e
  else if e.type = .list then
    if t.type = .list then .ok { e with extend := some tid }
    else if t.type = .field ∨ t.type = .fieldset ∨ t.type = .mlBegin then .error (.missingListForListItem ((e.items.getD []).headD default))
    else .ok e
  else .ok e

theorem inheritComments_eq (hi : i < h.length) : inheritComments h i t = h.set i (inheritC (h.at i) (h.at t)) := by
  unfold inheritComments inheritC
  split
  · rw [Heap.modify_eq_set hi]
  · rw [Heap.set_at hi]

theorem setType_eq {ty : Ty} (hi : i < h.length) : setType h i ty = h.set i { h.at i with type := ty } := by
  unfold setType; rw [Heap.modify_eq_set hi]

theorem mirrorTo_eq (hi : i < h.length) : mirrorTo h i t = h.set i { h.at i with mirror := some ((h.at t).mirror.getD t) } := by
  unfold mirrorTo
  split
  · rename_i m hm; rw [Heap.modify_eq_set hi, hm]; rfl
  · rename_i hm; rw [Heap.modify_eq_set hi, hm]; rfl

theorem consolidate_ok (hi : i < h.length) (hit : t ≠ i) (ok : ElemOk (h.at i)) :
    (∃ e' h1, consN (h.at i) (h.at t) t = .ok e' ∧ consolidateNonSection h i t = .ok h1 ∧ (h1.modify i fun x => { x with copy := none }) = h.set i e') ∨
    (∃ x, consN (h.at i) (h.at t) t = .error x ∧ consolidateNonSection h i t = .error (.parse x (h.set i (inheritC (h.at i) (h.at t))))) := by
  have hi' : ∀ {e : Elem}, i < (h.set i e).length := by intro e; simpa using hi
  have hat : ∀ e, Heap.at (h.set i e) t = h.at t := fun e => Heap.at_set_ne hit
  have hai : ∀ e, Heap.at (h.set i e) i = e := fun e => Heap.at_set_self hi
  have hty : (inheritC (h.at i) (h.at t)).type = (h.at i).type := by unfold inheritC; split <;> rfl
  have hen : (inheritC (h.at i) (h.at t)).entries = (h.at i).entries := by unfold inheritC; split <;> rfl
  have hin : (inheritC (h.at i) (h.at t)).items = (h.at i).items := by unfold inheritC; split <;> rfl
  simp only [consolidateNonSection, consN, inheritComments_eq hi, hat, hai]
  generalize hg : inheritC (h.at i) (h.at t) = e at *
  have hm : ∀ ty, ((mirrorTo (setType (h.set i e) i ty) i t).modify i fun x => { x with copy := none }) =
      h.set i { e with copy := none, type := ty, mirror := some ((h.at t).mirror.getD t) } := by
    intro ty
    simp only [setType_eq hi', hai, List.set_set, mirrorTo_eq hi', hat, Heap.modify_eq_set hi']
  have hk : ((h.set i e).modify i fun x => { x with copy := none }) = h.set i { e with copy := none } := by
    simp only [Heap.modify_eq_set hi', hai, List.set_set]
  have hx : (((h.set i e).modify i fun e => { e with extend := some t }).modify i fun x => { x with copy := none }) =
      h.set i { e with copy := none, extend := some t } := by
    simp only [Heap.modify_eq_set hi', hai, List.set_set]
  by_cases c1 : e.type = .empty
  · left
    simp only [c1, if_true]
    by_cases d1 : (h.at t).type = .mlBegin
    · simp only [d1, true_or, if_true]; exact ⟨_, _, rfl, rfl, hm _⟩
    · by_cases d2 : (h.at t).type = .field
      · simp only [d2]; exact ⟨_, _, rfl, rfl, hm _⟩
      · by_cases d3 : (h.at t).type = .fieldset
        · simp only [d3]; exact ⟨_, _, rfl, rfl, hm _⟩
        · by_cases d4 : (h.at t).type = .list
          · simp only [d4]; exact ⟨_, _, rfl, rfl, hm _⟩
          · simp only [d1, d2, d3, d4, if_false, or_self]; exact ⟨_, _, rfl, rfl, by simpa [c1] using hk⟩
  · by_cases c2 : e.type = .fieldset
    · simp only [c2]
      by_cases d1 : (h.at t).type = .fieldset
      · left; simp only [d1]; exact ⟨_, _, rfl, rfl, by simpa [c2] using hx⟩
      · by_cases d2 : (h.at t).type = .field ∨ (h.at t).type = .list ∨ (h.at t).type = .mlBegin
        · right
          simp only [d1, d2, if_true, if_false, reduceCtorEq]
          have hs := ok.fieldset (by rw [← hty, c2])
          rw [hen]
          cases hee : (h.at i).entries with
          | none => rw [hee] at hs; simp at hs
          | some xs =>
            cases xs with
            | nil => exact absurd rfl (ok.entries _ hee).2.1
            | cons x xs => exact ⟨_, rfl, rfl⟩
        · left; simp only [d1, d2, if_false, if_true, reduceCtorEq]; exact ⟨_, _, rfl, rfl, by simpa [c2] using hk⟩
    · by_cases c3 : e.type = .list
      · simp only [c3]
        by_cases d1 : (h.at t).type = .list
        · left; simp only [d1]; exact ⟨_, _, rfl, rfl, by simpa [c3] using hx⟩
        · by_cases d2 : (h.at t).type = .field ∨ (h.at t).type = .fieldset ∨ (h.at t).type = .mlBegin
          · right
            simp only [d1, d2, if_true, if_false, reduceCtorEq]
            have hs := ok.list (by rw [← hty, c3])
            rw [hin]
            cases hee : (h.at i).items with
            | none => rw [hee] at hs; simp at hs
            | some xs =>
              cases xs with
              | nil => exact absurd rfl (ok.items _ hee).2.1
              | cons x xs => exact ⟨_, rfl, rfl⟩
          · left; simp only [d1, d2, if_false, if_true, reduceCtorEq]; exact ⟨_, _, rfl, rfl, by simpa [c3] using hk⟩
      · left; simp only [c1, c2, c3, if_false]; exact ⟨_, _, rfl, rfl, hk⟩

end Eno
