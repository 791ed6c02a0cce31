import Verif.Proofs.SnippetLemmas

/-! # The lines around what is marked -/

namespace Eno

open Spec

variable {s w : Snippet} {text : Nat → Str} {n : Nat}

/-! ## Rows one by one -/

/-- The rows of the lines from `k` on. -/
def rowsFrom (text : Nat → Str) : Nat → Snippet → List SnipRow
  | _, [] => []
  | k, none :: w => rowsFrom text (k + 1) w
  | k, some t :: w => rowOf text (k, t) :: rowsFrom text (k + 1) w

theorem rowsFrom_eq : ∀ (w : Snippet) (k : Nat),
    (((List.range' k w.length).zip w).filterMap fun (n, t) => t.map (n, ·)).map (rowOf text) = rowsFrom text k w
  | [], _ => by simp [rowsFrom]
  | none :: w, k => by simp [List.range'_succ, rowsFrom, rowsFrom_eq w (k + 1)]
  | some t :: w, k => by simp [List.range'_succ, rowsFrom, rowsFrom_eq w (k + 1)]

theorem rowsOf_eq (w : Snippet) : rowsOf text w = rowsFrom text 0 w := by
  rw [← rowsFrom_eq]; unfold rowsOf shown; rw [List.range_eq_range']

/-! ## Gaps -/

/-- In a gap all but the last line are hidden. -/
def Spaced : Snippet → Prop
  | [] => True
  | [none] => False
  | none :: some t :: w => t = .omission ∧ Spaced (some t :: w)
  | none :: none :: w => Spaced (none :: w)
  | some .omission :: none :: _ => False
  | some .omission :: some t :: w => t ≠ .omission ∧ Spaced (some t :: w)
  | some _ :: w => Spaced w

theorem spaced_of (h1 : ∀ n, w.getD n none = none → n < w.length → n + 1 < w.length ∧ (w.getD (n + 1) none = none ∨ w.getD (n + 1) none = some .omission))
    (h2 : ∀ n, w.getD n none = some .omission → n + 1 < w.length → ∃ t, w.getD (n + 1) none = some t ∧ t ≠ .omission) : Spaced w := by
  induction w with
  | nil => trivial
  | cons a w ih =>
    have ih := ih (fun n h3 h4 => by have := h1 (n + 1) (by simpa using h3) (by simpa using h4); simpa using this)
      (fun n h3 h4 => by have := h2 (n + 1) (by simpa using h3) (by simpa using h4); simpa using this)
    have g1 := h1 0
    have g2 := h2 0
    match a, w with
    | none, [] => simp at g1
    | none, none :: w => exact ih
    | none, some t :: w => simp at g1; exact ⟨g1, ih⟩
    | some .omission, [] => trivial
    | some .omission, none :: w => simp at g2
    | some .omission, some t :: w => simp at g2; exact ⟨g2, ih⟩
    | some .emphasize, _ | some .display, _ | some .indicate, _ | some .question, _ => exact ih

theorem accounts_of (last : Nat) : ∀ (w : Snippet) (k : Nat), Spaced w → k + w.length = last →
    (w.head? ≠ some none → Accounts last (k + 1) (rowsFrom text k w)) ∧
    (w.head? = some none → ∀ n, n ≤ k + 1 → ∃ rs, rowsFrom text k w = .omitted :: rs ∧ Accounts last n (.omitted :: rs)) := by
  intro w
  induction w with
  | nil => intro k _ hl; simp at hl; simp [rowsFrom, Accounts, hl]
  | cons a w ih =>
    intro k hs hl
    have hl' : k + 1 + w.length = last := by simp at hl; omega
    match a, w with
    | none, [] => exact hs.elim
    | none, none :: w =>
      refine ⟨by simp, fun _ n hn => ?_⟩
      rw [rowsFrom]
      exact (ih (k + 1) hs hl').2 rfl n (by omega)
    | none, some t :: w =>
      obtain ⟨rfl, hs'⟩ := hs
      refine ⟨by simp, fun _ n hn => ⟨_, rfl, ?_⟩⟩
      match w with
      | [] => simp [rowsFrom, Accounts]; simp at hl; omega
      | none :: w => exact hs'.elim
      | some u :: w =>
        have hu := hs'.1
        have := (ih (k + 1) hs' hl').1 (by simp)
        rw [rowsFrom] at this
        simp only [rowsFrom, rowOf, hu, if_true, if_false] at this ⊢
        simp only [Accounts] at this ⊢
        exact ⟨by omega, this.2⟩
    | some t, w =>
      refine ⟨fun _ => ?_, by simp⟩
      by_cases ht : t = .omission
      · subst ht
        match w with
        | [] => simp [rowsFrom, rowOf, Accounts]; simp at hl; omega
        | none :: w => exact hs.elim
        | some u :: w =>
          have hu := hs.1
          have := (ih (k + 1) hs.2 hl').1 (by simp)
          simp only [rowsFrom, rowOf, hu, if_true, if_false] at this ⊢
          simp only [Accounts] at this ⊢
          exact ⟨by omega, this.2⟩
      · have hs' : Spaced w := by cases t <;> first | exact absurd rfl ht | exact hs
        have e : rowsFrom text k (some t :: w) = .line (markOf t) (k + 1) (text k) :: rowsFrom text (k + 1) w := by simp [rowsFrom, rowOf, ht]
        rw [e]
        simp only [Accounts, true_and]
        by_cases hh : w.head? = some none
        · obtain ⟨rs, e1, e2⟩ := (ih (k + 1) hs' hl').2 hh (k + 1 + 1) (Nat.le_refl _)
          rw [e1]; exact e2
        · exact (ih (k + 1) hs' hl').1 hh

/-! ## The window -/

theorem tagged_marked (hm : Marked s) : tagged s n = true ↔ IsMarked s n := by
  unfold tagged
  constructor
  · intro h
    cases hs : s.getD n none with
    | none => rw [hs] at h; cases h
    | some t =>
      have hmem : some t ∈ s := by
        rw [List.getD] at hs
        cases hg : s[n]? with
        | none => rw [hg] at hs; cases hs
        | some x => rw [hg] at hs; simp at hs; subst hs; exact List.mem_of_getElem? hg
      rcases hm t hmem with rfl | rfl | rfl
      · exact ⟨.emphasis, hs⟩
      · exact ⟨.indication, hs⟩
      · exact ⟨.question, hs⟩
  · rintro ⟨m, h⟩
    cases m <;> simp only [MarkedAs] at h <;> first | (rw [h]; done) | rw [h]

theorem isMarked_lt (h : IsMarked s n) : n < s.length := by
  apply Nat.lt_of_not_le; intro hge
  obtain ⟨m, h⟩ := h
  cases m <;> simp [MarkedAs, List.getD, List.getElem?_eq_none hge] at h

theorem some_marked (hm : Marked s) (h : (s.getD n none).isSome) : tagged s n = true := by
  obtain ⟨t, ht⟩ := Option.isSome_iff_exists.1 h
  have hmem : some t ∈ s := by
    rw [List.getD] at ht
    cases hg : s[n]? with
    | none => rw [hg] at ht; cases ht
    | some x => rw [hg] at ht; simp at ht; subst ht; exact List.mem_of_getElem? hg
  unfold tagged
  rw [ht]
  rcases hm t hmem with rfl | rfl | rfl <;> rfl

theorem window_spaced (hm : Marked s) : Spaced (window s) := by
  by_cases ha : s.all (·.isNone) = false
  · apply spaced_of
    · intro n h hn
      rw [window_length] at hn ⊢
      rw [window_at ha hn] at h
      split at h
      · cases h
      rename_i hc
      have hn' : n + 1 < s.length := by
        apply Nat.lt_of_not_le; intro hge
        exact hc ⟨h, by omega⟩
      refine ⟨hn', ?_⟩
      have hnn : tagged s n = false := by
        cases q : tagged s n with
        | false => rfl
        | true => have := loopAt_tagged q; rw [h] at this; unfold tagged at q; rw [← this] at q; cases q
      have hnear : near s n = false ∧ tagged s (n + 3) = false := by
        unfold loopAt at h
        split at h
        · rename_i q; rw [h] at q; cases q
        · split at h
          · cases h
          · rename_i q1
            split at h
            · cases h
            · rename_i q2; exact ⟨by simpa using q1, by simpa using q2⟩
      rw [window_at ha hn']
      split
      · exact .inr rfl
      · unfold loopAt
        have n1 : (s.getD (n + 1) none).isSome = false := by
          cases q : (s.getD (n + 1) none).isSome with
          | false => rfl
          | true => have := some_marked hm q; simp [near, this] at hnear
        rw [n1]
        simp only [Bool.false_eq_true, if_false]
        have n2 : near s (n + 1) = false := by
          have q := hnear.1
          unfold near at q ⊢
          simp only [Bool.or_eq_false_iff, Bool.and_eq_false_iff, decide_eq_false_iff_not] at q ⊢
          refine ⟨⟨⟨hnear.2, ?_⟩, q.1.1.1⟩, .inr hnn⟩
          rcases q.2 with q | q
          · left; omega
          · right; rw [show n + 1 - 2 = n - 1 by omega]; exact q
        rw [n2]
        simp only [Bool.false_eq_true, if_false]
        split
        · exact .inr rfl
        · exact .inl rfl
    · intro n h hn'
      rw [window_length] at hn'
      rw [window_at ha (by omega), if_neg (by omega)] at h
      have h3 : tagged s (n + 3) = true := by
        unfold loopAt at h
        split at h
        · rename_i q; have := some_marked hm q; unfold tagged at this; rw [h] at this
          exfalso
          have hmem : some Tag.omission ∈ s := by
            rw [List.getD] at h
            cases hg : s[n]? with
            | none => rw [hg] at h; cases h
            | some x => rw [hg] at h; simp at h; subst h; exact List.mem_of_getElem? hg
          rcases hm _ hmem with q | q | q <;> cases q
        · split at h
          · cases h
          · split at h
            · assumption
            · cases h
      have key : ∃ t, loopAt s (n + 1) = some t ∧ t ≠ .omission := by
        unfold loopAt
        split
        · rename_i q
          have q' := q
          obtain ⟨t, ht⟩ := Option.isSome_iff_exists.1 q
          refine ⟨t, ht, ?_⟩
          rintro rfl
          have hmem : some Tag.omission ∈ s := by
            rw [List.getD] at ht
            cases hg : s[n + 1]? with
            | none => rw [hg] at ht; cases ht
            | some x => rw [hg] at ht; simp at ht; subst ht; exact List.mem_of_getElem? hg
          rcases hm _ hmem with q | q | q <;> cases q
        · have : near s (n + 1) = true := by unfold near; rw [h3]; rfl
          rw [this]; exact ⟨_, rfl, by simp⟩
      obtain ⟨t, ht, hne⟩ := key
      refine ⟨t, ?_, hne⟩
      rw [window_at ha hn', ht, if_neg (by simp)]
  · have e : window s = s.map fun _ => some .question := by unfold window; rw [if_pos (by simpa using ha)]
    rw [e]
    clear e ha hm
    induction s with
    | nil => trivial
    | cons a t ih => exact ih

/-- Every line is shown or in a gap. -/
theorem window_accounts (hm : Marked s) : Accounts s.length 1 (rowsOf text (window s)) := by
  rw [rowsOf_eq]
  have hs := window_spaced hm
  have A := accounts_of (text := text) s.length (window s) 0 hs (by rw [window_length]; omega)
  by_cases hh : (window s).head? = some none
  · obtain ⟨rs, e1, e2⟩ := A.2 hh 1 (Nat.le_refl _)
    rw [e1]; exact e2
  · exact A.1 hh

/-- Which lines are shown without a mark. -/
theorem window_plain (hm : Marked s) (ha : ∃ n, IsMarked s n) : (window s).getD n none = some .display ↔
    n < s.length ∧ ¬ IsMarked s n ∧ (IsMarked s (n + 1) ∨ IsMarked s (n + 2) ∨ (1 < n ∧ IsMarked s (n - 1)) ∨ (2 < n ∧ IsMarked s (n - 2))) := by
  obtain ⟨k, hk⟩ := ha
  have ha : s.all (·.isNone) = false := by
    have hl := isMarked_lt hk
    rw [List.all_eq_false]
    refine ⟨s[k], List.getElem_mem hl, ?_⟩
    obtain ⟨m, h⟩ := hk
    cases m <;> simp [MarkedAs, List.getD, List.getElem?_eq_getElem hl] at h <;> simp [h]
  have nn : near s n = true ↔ (IsMarked s (n + 1) ∨ IsMarked s (n + 2) ∨ (1 < n ∧ IsMarked s (n - 1)) ∨ (2 < n ∧ IsMarked s (n - 2))) := by
    simp only [near, Bool.or_eq_true, Bool.and_eq_true, decide_eq_true_eq, tagged_marked hm]
    constructor
    · rintro (((h | h) | h) | h) <;> simp [h]
    · rintro (h | h | h | h) <;> simp [h]
  constructor
  · intro h
    have hn : n < s.length := by
      rw [← window_length]
      apply Nat.lt_of_not_le; intro hge
      rw [List.getD, List.getElem?_eq_none hge] at h; cases h
    rw [window_at ha hn] at h
    split at h
    · cases h
    · unfold loopAt at h
      split at h
      · rename_i q
        have := some_marked hm q
        unfold tagged at this; rw [h] at this; cases this
      · rename_i q
        split at h
        · rename_i q2
          refine ⟨hn, ?_, nn.1 q2⟩
          intro hM
          have := loopAt_tagged ((tagged_marked hm).2 hM)
          obtain ⟨m, hM⟩ := hM
          cases m <;> simp only [MarkedAs] at hM <;> first | exact hM.elim | (rw [hM] at q; exact q rfl)
        · split at h <;> cases h
  · rintro ⟨hn, h1, h2⟩
    have hl : loopAt s n = some .display := by
      unfold loopAt
      rw [if_neg, if_pos (nn.2 h2)]
      intro q
      exact h1 ((tagged_marked hm).1 (some_marked hm q))
    rw [window_at ha hn, hl, if_neg (by simp)]

theorem window_unmarked {t : Tag} (h : (window s).getD n none = some t) (hd : t ≠ .display) (ho : t ≠ .omission) (hm : Marked s) (ha : ∃ n, IsMarked s n) :
    s.getD n none = some t := by
  obtain ⟨k, hk⟩ := ha
  have ha : s.all (·.isNone) = false := by
    have hl := isMarked_lt hk
    rw [List.all_eq_false]
    refine ⟨s[k], List.getElem_mem hl, ?_⟩
    obtain ⟨m, h⟩ := hk
    cases m <;> simp [MarkedAs, List.getD, List.getElem?_eq_getElem hl] at h <;> simp [h]
  have hn : n < s.length := by
    rw [← window_length]
    apply Nat.lt_of_not_le; intro hge
    rw [List.getD, List.getElem?_eq_none hge] at h; cases h
  rw [window_at ha hn] at h
  split at h
  · injection h with h; exact absurd h.symm ho
  · unfold loopAt at h
    split at h
    · exact h
    · split at h
      · injection h with h; exact absurd h.symm hd
      · split at h
        · injection h with h; exact absurd h.symm ho
        · cases h

end Eno
