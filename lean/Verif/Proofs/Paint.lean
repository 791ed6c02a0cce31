import Verif.Spec.Screen
import Verif.Spec.Operators
import Verif.Proofs.TraceGeometry

/-! # Painting a line -/

namespace Eno

open Spec TerminalReporter

variable {input : Str} {b : Base}

/-! ## Reading back -/

theorem shown_plain {l : Look} {s : Str} (h : escape ∉ s) (t : Str) : readTerminal .text l (s ++ t) = cells l s ++ readTerminal .text l t := by
  induction s with
  | nil => rfl
  | cons c s ih =>
    have h1 : c ≠ escape := fun e => h (by simp [e])
    have h2 : escape ∉ s := fun e => h (by simp [e])
    simp only [List.cons_append, readTerminal, if_neg h1, cells, List.map_cons, ih h2]

/-- What a style is for a terminal. -/
def Styles (s : Str) (l : Look) : Prop := ∀ t, readTerminal .text [] (s ++ t) = readTerminal .text l t

theorem shown_reset (l : Look) (t : Str) : readTerminal .text l (RESET ++ t) = readTerminal .text [] t := by
  simp [RESET, esc, readTerminal, escape]

theorem rangeStyle_styles {n : RangeName} {s : Str} (h : rangeStyle n = .ok s) : Styles s (rangeLook n) := by
  intro t
  cases n <;> simp only [rangeStyle, Except.ok.injEq, reduceCtorEq] at h <;> subst h <;>
    simp [WHITE, BOLD, BRIGHT_WHITE, DIM, esc, readTerminal, escape, rangeLook]

/-! ## Sorting -/

theorem insertRange_perm (x : RangeName × (Nat × Nat)) : ∀ l, (insertRange x l).Perm (x :: l)
  | [] => List.Perm.refl _
  | y :: l => by
    unfold insertRange
    split
    · exact List.Perm.refl _
    · exact ((insertRange_perm x l).cons y).trans (List.Perm.swap _ _ _)

theorem insertRange_sorted (x : RangeName × (Nat × Nat)) : ∀ l : Ranges, l.Pairwise (fun a b => b.2.1 ≤ a.2.1) → (insertRange x l).Pairwise fun a b => b.2.1 ≤ a.2.1
  | [], _ => List.pairwise_singleton _ _
  | y :: l, h => by
    obtain ⟨h1, h2⟩ := List.pairwise_cons.1 h
    unfold insertRange
    split
    · rename_i hlt
      refine List.pairwise_cons.2 ⟨fun z hz => ?_, h⟩
      rcases List.mem_cons.1 hz with rfl | hz
      · omega
      · have := h1 z hz; omega
    · rename_i hge
      refine List.pairwise_cons.2 ⟨fun z hz => ?_, insertRange_sorted x l h2⟩
      rcases List.mem_cons.1 ((insertRange_perm x l).mem_iff.1 hz) with rfl | hz
      · omega
      · exact h1 z hz

theorem sortRanges_perm (l : Ranges) : (sortRanges l).Perm l := by
  have key : ∀ (l acc : Ranges), (l.foldl (fun acc x => insertRange x acc) acc).Perm (l ++ acc) := by
    intro l
    induction l with
    | nil => exact fun acc => List.Perm.refl _
    | cons x l ih =>
      intro acc
      exact (ih _).trans (((insertRange_perm x acc).append_left l).trans List.perm_middle)
  simpa [sortRanges] using key l []

theorem sortRanges_sorted (l : Ranges) : (sortRanges l).Pairwise fun a b => b.2.1 ≤ a.2.1 := by
  have key : ∀ (l acc : Ranges), acc.Pairwise (fun a b => b.2.1 ≤ a.2.1) → (l.foldl (fun acc x => insertRange x acc) acc).Pairwise fun a b => b.2.1 ≤ a.2.1 := by
    intro l
    induction l with
    | nil => exact fun acc h => h
    | cons x l ih => exact fun acc h => ih _ (insertRange_sorted x acc h)
  exact key l [] .nil

/-- The ranges in the order in which they are painted. -/
def painted (b : Base) : Ranges := sortRanges (b.ranges.filter fun x => x.1 ≠ .line)

theorem painted_mem {x : RangeName × (Nat × Nat)} : x ∈ painted b ↔ x ∈ b.ranges ∧ x.1 ≠ .line := by
  unfold painted
  rw [(sortRanges_perm _).mem_iff]
  simp

theorem painted_apart (h : Apart b) : (painted b).Pairwise fun x y => y.2.2 ≤ x.2.1 := by
  have h1 : (b.ranges.filter fun x => x.1 ≠ .line).Pairwise (fun x y => Precedes x.2 y.2 ∨ Precedes y.2 x.2) := by
    rw [List.pairwise_filter]
    refine h.imp fun {x y} hxy hx hy => ?_
    simp only [ne_eq, decide_eq_true_eq] at hx hy
    rcases hxy with q | q | q
    · exact absurd q hx
    · exact absurd q hy
    · exact q
  have h2 : (painted b).Pairwise (fun x y => Precedes x.2 y.2 ∨ Precedes y.2 x.2) := (sortRanges_perm _).symm.pairwise h1 (fun h => h.symm)
  have h3 : (painted b).Pairwise fun x y => y.2.1 ≤ x.2.1 := sortRanges_sorted _
  refine (h2.and h3).imp ?_
  rintro x y ⟨q | q, r⟩
  · have := q.1; omega
  · exact q.2

/-! ## Painting -/

theorem stretch_nil (b : Base) (i : Nat) : stretch input b i i = [] := by simp [stretch]

theorem stretch_append {lo mid hi : Nat} (h1 : lo ≤ mid) (h2 : mid ≤ hi) : stretch input b lo mid ++ stretch input b mid hi = stretch input b lo hi := by
  unfold stretch
  rw [← List.map_append]
  congr 1
  have e1 : lo + 1 * (mid - lo) = mid := by omega
  have := List.range'_append (s := lo) (m := mid - lo) (n := hi - mid) (step := 1)
  rw [e1] at this
  rw [this]
  congr 1; omega

theorem slice_range {lo hi : Nat} (h : hi ≤ input.length) : slice input lo hi = (List.range' lo (hi - lo)).map fun i => input.getD i ' ' := by
  unfold slice
  apply List.ext_getElem
  · simp; omega
  · intro i h1 h2
    simp at h1
    simp [List.getD, List.getElem?_eq_getElem (show lo + i < input.length by omega)]

theorem stretch_cells {l : Look} {lo hi : Nat} (h : hi ≤ input.length) (hl : ∀ i, lo ≤ i → i < hi → lookAt b i = l) : stretch input b lo hi = cells l (slice input lo hi) := by
  rw [slice_range h]
  unfold stretch cells
  rw [List.map_map]
  refine List.map_congr_left fun i hi => ?_
  rw [List.mem_range'_1] at hi
  simp only [Function.comp]
  rw [hl i hi.1 (by omega)]

theorem slice_free {lo hi : Nat} (h : escape ∉ input) : escape ∉ slice input lo hi := fun hm => h (List.mem_of_mem_take (List.mem_of_mem_drop hm))

theorem slice_slice {lo mid hi : Nat} (h1 : lo ≤ mid) (h2 : mid ≤ hi) : slice input lo mid ++ slice input mid hi = slice input lo hi := by
  unfold slice
  rw [List.drop_take, List.drop_take, List.drop_take]
  have e1 : hi - lo = (mid - lo) + (hi - mid) := by omega
  have e2 : input.drop mid = (input.drop lo).drop (mid - lo) := by rw [List.drop_drop]; congr 1; omega
  rw [e1, e2, List.take_add]

/-- After some ranges have been painted, from the last one on: what is to the left of them is as it was, the rest looks as it should. -/
theorem paint_all {lb le : Nat} (hE : escape ∉ input) (hle : le ≤ input.length) (hnc : RangeName.commentOperator ∉ b.ranges.map Prod.fst) :
    ∀ (rs : Ranges) (m : Nat) (tail out : Str), rs.Pairwise (fun x y => y.2.2 ≤ x.2.1) → (∀ x ∈ rs, x ∈ b.ranges ∧ x.1 ≠ .line ∧ lb ≤ x.2.1 ∧ x.2.1 ≤ x.2.2 ∧ x.2.2 ≤ m) →
      (∀ x ∈ b.ranges, x.1 ≠ .line → x ∈ rs ∨ m ≤ x.2.1) → lb ≤ m → m ≤ le →
      (∀ t, readTerminal .text [] (tail ++ t) = stretch input b m le ++ readTerminal .text [] t) →
      rs.foldlM (paint input lb) (slice input lb m ++ tail) = .ok out → ∀ t, readTerminal .text [] (out ++ t) = stretch input b lb le ++ readTerminal .text [] t
  | [], m, tail, out, _, _, hall, hlb, hml, htail, hout, t => by
    injection hout with hout
    subst hout
    rw [List.append_assoc, shown_plain (slice_free hE), htail, ← List.append_assoc, ← stretch_append hlb hml]
    congr 2
    symm
    refine stretch_cells (by omega) fun i h1 h2 => ?_
    unfold lookAt
    rw [if_neg hnc]
    split
    · rename_i x hx
      have hq := List.find?_some hx
      simp only [decide_eq_true_eq] at hq
      rcases hall x (List.mem_of_find?_eq_some hx) hq.1 with h | h
      · cases h
      · omega
    · rfl
  | x :: rs, m, tail, out, hp, hin, hall, hlb, hml, htail, hout, t => by
    obtain ⟨p1, p2⟩ := List.pairwise_cons.1 hp
    obtain ⟨i1, i2, i3, i4, i5⟩ := hin x (by simp)
    rw [List.foldlM_cons] at hout
    cases hs : rangeStyle x.1 with
    | error e =>
      have : paint input lb (slice input lb m ++ tail) x = .error e := by unfold paint; rw [hs]
      rw [this] at hout; cases hout
    | ok style =>
      have e1 : (slice input lb m ++ tail).take (x.2.1 - lb) = slice input lb x.2.1 := by
        rw [← slice_slice (mid := x.2.1) i3 (by omega), List.append_assoc, List.take_left' (by rw [slice_length (by omega)])]
      have e2 : (slice input lb m ++ tail).drop (x.2.2 - lb) = slice input x.2.2 m ++ tail := by
        rw [← slice_slice (mid := x.2.2) (by omega) i5, List.append_assoc, List.drop_left' (by rw [slice_length (by omega)])]
      have e3 : paint input lb (slice input lb m ++ tail) x =
          .ok (slice input lb x.2.1 ++ (style ++ slice input x.2.1 x.2.2 ++ RESET ++ (slice input x.2.2 m ++ tail))) := by
        unfold paint
        rw [hs]
        simp only
        rw [e1, e2]
        simp only [List.append_assoc]
        rfl
      rw [e3] at hout
      have hout' : rs.foldlM (paint input lb) (slice input lb x.2.1 ++ (style ++ slice input x.2.1 x.2.2 ++ RESET ++ (slice input x.2.2 m ++ tail))) = .ok out := hout
      refine paint_all hE hle hnc rs x.2.1 _ out p2 ?_ ?_ i3 (by omega) ?_ hout' t
      · intro y hy
        obtain ⟨j1, j2, j3, j4, _⟩ := hin y (by simp [hy])
        exact ⟨j1, j2, j3, j4, p1 y hy⟩
      · intro y hy hyl
        rcases hall y hy hyl with h | h
        · rcases List.mem_cons.1 h with rfl | h
          · exact .inr (Nat.le_refl _)
          · exact .inl h
        · exact .inr (by omega)
      · intro t
        have hst := rangeStyle_styles hs
        rw [List.append_assoc, List.append_assoc, List.append_assoc, hst, shown_plain (slice_free hE), shown_reset, List.append_assoc, shown_plain (slice_free hE), htail,
          ← stretch_append (mid := x.2.2) i4 (by omega), ← stretch_append (mid := m) i5 hml]
        simp only [List.append_assoc]
        congr 1
        · symm
          refine stretch_cells (by omega) fun i h1 h2 => ?_
          unfold lookAt
          rw [if_neg hnc]
          have hsome : (b.ranges.find? fun x => decide (x.1 ≠ .line ∧ x.2.1 ≤ i ∧ i < x.2.2)).isSome := by
            rw [List.find?_isSome]
            exact ⟨x, i1, by simp [i2, h1, h2]⟩
          obtain ⟨y, hy⟩ := Option.isSome_iff_exists.1 hsome
          rw [hy]
          have hq := List.find?_some hy
          simp only [decide_eq_true_eq] at hq
          rcases hall y (List.mem_of_find?_eq_some hy) hq.1 with h | h
          · rcases List.mem_cons.1 h with rfl | h
            · rfl
            · have := p1 y h; omega
          · omega
        · congr 1
          symm
          refine stretch_cells (by omega) fun i h1 h2 => ?_
          unfold lookAt
          rw [if_neg hnc]
          split
          · rename_i y hy
            have hq := List.find?_some hy
            simp only [decide_eq_true_eq] at hq
            rcases hall y (List.mem_of_find?_eq_some hy) hq.1 with h | h
            · rcases List.mem_cons.1 h with rfl | h
              · omega
              · have := p1 y h; omega
            · omega
          · rfl

end Eno
