import Verif.Proofs.ReadMerged

/-! # Computing what is merged -/

namespace Eno

open Spec

variable {h : Heap} {a b n p q t s x y z : Nat} {deep : Bool}

instance : Decidable (LoneSection h p x) := by unfold LoneSection; infer_instance

/-- What merging two sections merges; the first number bounds how deep. -/
def pairList (h : Heap) (deep : Bool) : Nat → Nat → Nat → List (Nat × Nat)
  | 0, s, t => [(s, t)]
  | n + 1, s, t => (s, t) :: if deep then (h.at s).elements.flatMap fun x => if LoneSection h s x then
      (h.at t).elements.flatMap fun y => if LoneSection h t y ∧ (h.at x).key = (h.at y).key then pairList h deep n x y else [] else [] else []

theorem pairs_of_mem : ∀ (n s t : Nat), (x, y) ∈ pairList h deep n s t → Pairs h deep s t x y := by
  intro n
  induction n with
  | zero =>
    intro s t hm
    simp [pairList] at hm
    obtain ⟨rfl, rfl⟩ := hm
    exact .top
  | succ n ih =>
    intro s t hm
    simp only [pairList, List.mem_cons, Prod.mk.injEq] at hm
    rcases hm with ⟨rfl, rfl⟩ | hm
    · exact .top
    · split at hm
      · rename_i hd
        subst hd
        simp only [List.mem_flatMap] at hm
        obtain ⟨x', _, hm⟩ := hm
        split at hm
        · rename_i o1
          simp only [List.mem_flatMap] at hm
          obtain ⟨y', _, hm⟩ := hm
          split at hm
          · rename_i o2
            exact (ih x' y' hm).head o1 o2.1 o2.2
          · simp at hm
        · simp at hm
      · simp at hm

theorem mem_of_pairs (ok : TreeOk h) : ∀ (n s t : Nat), h.length - s ≤ n → Pairs h deep s t x y → (x, y) ∈ pairList h deep n s t := by
  intro n
  induction n with
  | zero =>
    intro s t hn P
    rcases P.uncons with ⟨rfl, rfl⟩ | ⟨_, x', y', o1, _⟩
    · simp [pairList]
    · have := lt_of_elements o1.mem; omega
  | succ n ih =>
    intro s t hn P
    rcases P.uncons with ⟨rfl, rfl⟩ | ⟨hd, x', y', o1, o2, hk, P'⟩
    · simp [pairList]
    · subst hd
      have hx := ok.kids _ (lt_of_elements o1.mem) _ o1.mem
      have := ih x' y' (by omega) P'
      simp only [pairList, List.mem_cons, if_true, List.mem_flatMap]
      right
      refine ⟨x', o1.mem, ?_⟩
      rw [if_pos o1, List.mem_flatMap]
      exact ⟨y', o2.mem, by rw [if_pos ⟨o2, hk⟩]; exact this⟩

/-- What is merged because of a section. -/
def mergesOf (h : Heap) (a : Nat) : List (Nat × Nat) :=
  if (h.at a).type = .section then
    match (h.at a).copy with
    | none => []
    | some k => match candidates h true k with
      | [t] => pairList h (h.at a).deepCopy h.length a t
      | _ => []
  else []

theorem merges_iff (ok : TreeOk h) : Merges h a x y ↔ a < h.length ∧ (x, y) ∈ mergesOf h a := by
  unfold mergesOf
  constructor
  · rintro ⟨hs, t, ⟨ha, k, hk, hc⟩, P⟩
    have : decide ((h.at a).type = .section) = true := by simp [hs]
    rw [this] at hc
    refine ⟨ha, ?_⟩
    rw [if_pos hs, hk]
    simp only [hc]
    exact mem_of_pairs ok _ _ _ (by omega) P
  · rintro ⟨ha, hm⟩
    split at hm
    · rename_i hs
      split at hm
      · simp at hm
      · rename_i k hk
        split at hm
        · rename_i t hc
          exact ⟨hs, t, ⟨ha, k, hk, by rw [← hc]; simp [hs]⟩, pairs_of_mem _ _ _ hm⟩
        · simp at hm
    · simp at hm

/-- The first section in the document because of which a section is merged decides. -/
theorem source_of_first (ok : TreeOk h) (ha : a < h.length) (hm : (x, y) ∈ mergesOf h a)
    (hf : (List.range a).all (fun b => (mergesOf h b).all fun p => p.1 ≠ x) = true) : Source h x y := by
  refine ⟨a, (merges_iff ok).2 ⟨ha, hm⟩, fun b z hb hab => ?_⟩
  have := ok.above_lt hab
  obtain ⟨_, hbm⟩ := (merges_iff ok).1 hb
  rw [List.all_eq_true] at hf
  have := hf b (List.mem_range.2 this)
  rw [List.all_eq_true] at this
  simpa using this _ hbm

theorem no_source (ok : TreeOk h) (hf : (List.range h.length).all (fun b => (mergesOf h b).all fun p => p.1 ≠ x) = true) : ¬ Source h x y := by
  intro S
  obtain ⟨a, M⟩ := S.merges
  obtain ⟨ha, hm⟩ := (merges_iff ok).1 M
  rw [List.all_eq_true] at hf
  have := hf a (List.mem_range.2 ha)
  rw [List.all_eq_true] at this
  simpa using this _ hm

/-- A measure that every merge lessens rules out circles. -/
theorem no_circles (ok : TreeOk h) (r : Nat → Nat) (hr : (List.range h.length).all (fun a => (mergesOf h a).all fun p => r p.2 < r p.1) = true) (x : Nat) : ¬ MergePath h x x := by
  have key : ∀ {x y}, MergePath h x y → r y < r x := by
    intro x y P
    have one : ∀ {a x y}, Merges h a x y → r y < r x := by
      intro a x y M
      obtain ⟨ha, hm⟩ := (merges_iff ok).1 M
      rw [List.all_eq_true] at hr
      have := hr a (List.mem_range.2 ha)
      rw [List.all_eq_true] at this
      simpa using this _ hm
    induction P with
    | one M => exact one M
    | step M _ ih => have := one M; omega
  intro P
  have := key P
  omega

/-- Where each empty section is merged because of one section only, all is steady. -/
theorem steady_of_once (ok : TreeOk h) (hr : (List.range h.length).all (fun a => (mergesOf h a).all fun p => !(h.at p.1).elements.isEmpty ||
    (List.range h.length).all fun b => b = a || (mergesOf h b).all fun q => q.1 ≠ p.1) = true) (s : Nat) : Steady h s := by
  intro t _ he a b y z M N
  obtain ⟨ha, hm⟩ := (merges_iff ok).1 M
  obtain ⟨hb, hn⟩ := (merges_iff ok).1 N
  rw [List.all_eq_true] at hr
  have := hr a (List.mem_range.2 ha)
  rw [List.all_eq_true] at this
  have := this _ hm
  simp only [he, List.isEmpty_nil, Bool.not_true, Bool.false_or, List.all_eq_true, Bool.or_eq_true, decide_eq_true_eq] at this
  rcases this b (List.mem_range.2 hb) with e | e
  · exact e.symm
  · exact absurd rfl (e _ hn)

end Eno
