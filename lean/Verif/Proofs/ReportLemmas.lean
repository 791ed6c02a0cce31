import Verif.Errors

/-! # Writing into lists, the window, printing -/

namespace Eno

variable {α β : Type} {l l' : List (Option α)} {ws : List (Nat × α)} {n m : Nat} {x : α}

/-! ## Assignments -/

theorem put_ok (h : n < l.length) : put l n x = .ok (l.set n (some x)) := if_pos h

theorem put_eq (h : put l n x = .ok l') : n < l.length ∧ l' = l.set n (some x) := by
  unfold put at h
  split at h
  · rename_i hn; injection h with h; exact ⟨hn, h.symm⟩
  · simp at h

theorem putAll_nil : putAll l [] = .ok l := rfl

theorem putAll_cons (w : Nat × α) : putAll l (w :: ws) = (put l w.1 w.2).bind fun l => putAll l ws := by
  simp only [putAll, List.foldlM_cons]; rfl

theorem putAll_ok (h : ∀ w ∈ ws, w.1 < l.length) : ∃ l', putAll l ws = .ok l' ∧ l'.length = l.length := by
  induction ws generalizing l with
  | nil => exact ⟨l, rfl, rfl⟩
  | cons w ws ih =>
    obtain ⟨l', h1, h2⟩ := ih (l := l.set w.1 (some w.2)) (by intro x hx; simpa using h x (by simp [hx]))
    refine ⟨l', ?_, by simpa using h2⟩
    rw [putAll_cons, put_ok (h w (by simp))]
    exact h1

theorem putAll_cons_eq {w : Nat × α} (h : putAll l (w :: ws) = .ok l') : w.1 < l.length ∧ putAll (l.set w.1 (some w.2)) ws = .ok l' := by
  rw [putAll_cons] at h
  cases hp : put l w.1 w.2 with
  | error e => rw [hp] at h; cases h
  | ok l1 =>
    rw [hp] at h
    obtain ⟨h1, rfl⟩ := put_eq hp
    exact ⟨h1, h⟩

theorem putAll_length (h : putAll l ws = .ok l') : l'.length = l.length := by
  induction ws generalizing l with
  | nil => cases h; rfl
  | cons w ws ih => simpa using ih (putAll_cons_eq h).2

theorem putAll_lt (h : putAll l ws = .ok l') : ∀ w ∈ ws, w.1 < l.length := by
  induction ws generalizing l with
  | nil => simp
  | cons w ws ih =>
    obtain ⟨h1, h2⟩ := putAll_cons_eq h
    intro v hv
    rcases List.mem_cons.1 hv with rfl | hv
    · exact h1
    · simpa using ih h2 v hv

/-- The last value written at a place. -/
def lastWrite (ws : List (Nat × α)) (n : Nat) : Option α := (ws.filter fun w => w.1 = n).getLast?.map (·.2)

theorem putAll_getD (h : putAll l ws = .ok l') (n : Nat) : l'.getD n none = (lastWrite ws n).or (l.getD n none) := by
  induction ws generalizing l with
  | nil => cases h; simp [lastWrite]
  | cons w ws ih =>
    obtain ⟨h1, h2⟩ := putAll_cons_eq h
    rw [ih h2]
    unfold lastWrite
    by_cases hn : w.1 = n
    · subst hn
      simp only [List.filter_cons, decide_true, if_true]
      cases hf : ws.filter (fun v => v.1 = w.1) with
      | nil => simp [List.getD, h1]
      | cons a t => simp [List.getLast?_cons]
    · simp only [List.filter_cons, hn, decide_false, Bool.false_eq_true, if_false]
      simp [List.getD, List.getElem?_set_ne hn]

theorem lastWrite_mem (h : lastWrite ws n = some x) : (n, x) ∈ ws := by
  unfold lastWrite at h
  simp only [Option.map_eq_some_iff] at h
  obtain ⟨w, hw, rfl⟩ := h
  have := List.mem_of_getLast? hw
  simp only [List.mem_filter, decide_eq_true_eq] at this
  rw [← this.2]; exact this.1

theorem lastWrite_isSome (h : (n, x) ∈ ws) : ∃ y, lastWrite ws n = some y := by
  unfold lastWrite
  cases hf : ws.filter (fun v => v.1 = n) with
  | nil =>
    have : (n, x) ∈ ws.filter (fun v => v.1 = n) := List.mem_filter.2 ⟨h, by simp⟩
    rw [hf] at this; cases this
  | cons a t => simp [List.getLast?_cons]

theorem lastWrite_none : lastWrite ws n = none ↔ ∀ w ∈ ws, w.1 ≠ n := by
  constructor
  · intro h w hw e
    obtain ⟨y, hy⟩ := lastWrite_isSome (n := n) (x := w.2) (ws := ws) (by rw [← e]; exact hw)
    rw [hy] at h; cases h
  · intro h
    cases hl : lastWrite ws n with
    | none => rfl
    | some y => exact absurd rfl (h _ (lastWrite_mem hl))

/-! ## The window -/

/-- A tagged line close enough. -/
def near (s : Snippet) (n : Nat) : Bool :=
  tagged s (n + 2) || (decide (n > 2) && tagged s (n - 2)) || tagged s (n + 1) || (decide (n > 1) && tagged s (n - 1))

/-- What the loop makes of a line. -/
def loopAt (s : Snippet) (n : Nat) : Option Tag :=
  if (s.getD n none).isSome then s.getD n none
  else if near s n then some .display
  else if tagged s (n + 3) then some .omission
  else none

theorem tagged_lt {s : Snippet} (h : tagged s n = true) : n < s.length := by
  by_cases hn : n < s.length
  · exact hn
  · have e : s.getD n none = none := by simp [List.getD, List.getElem?_eq_none (Nat.not_lt.1 hn)]
    simp only [tagged, e] at h; cases h

theorem tagged_congr {s t : Snippet} (h : t.getD n none = s.getD n none) : tagged t n = tagged s n := by
  simp only [tagged, h]

/-- The state after `k` rounds. -/
structure WInv (s : Snippet) (k : Nat) (t : Snippet) : Prop where
  len : t.length = s.length
  at_ : ∀ n, t.getD n none = if n < k then loopAt s n else s.getD n none

theorem loopAt_tagged {s : Snippet} (h : tagged s n = true) : loopAt s n = s.getD n none := by
  unfold loopAt
  rw [if_pos]
  unfold tagged at h
  cases hs : s.getD n none with
  | none => rw [hs] at h; simp at h
  | some t => rfl

theorem winv_tagged_before {s t : Snippet} {k m : Nat} (h : WInv s k t) (hm : m < k) :
    (tagged s m = true → tagged t m = true) ∧ (tagged t m = true → tagged s m = true ∨ tagged s (m + 3) = true) := by
  have e := h.at_ m
  rw [if_pos hm] at e
  constructor
  · intro hs
    rw [loopAt_tagged hs] at e
    rw [tagged_congr e]; exact hs
  · intro ht
    by_cases hs : tagged s m = true
    · exact .inl hs
    · right
      unfold loopAt at e
      by_cases h1 : (s.getD m none).isSome
      · rw [if_pos h1] at e
        rw [tagged_congr e] at ht; exact absurd ht hs
      · rw [if_neg h1] at e
        by_cases h2 : near s m
        · rw [if_pos h2] at e; simp only [tagged, e] at ht; cases ht
        · rw [if_neg h2] at e
          by_cases h3 : tagged s (m + 3)
          · exact h3
          · rw [if_neg h3] at e; simp only [tagged, e] at ht; cases ht

theorem winv_step {s t : Snippet} {k : Nat} (h : WInv s k t) (hk : k < s.length) : WInv s (k + 1) (windowStep t k) := by
  have hfut : ∀ j, k ≤ j → tagged t j = tagged s j := by
    intro j hj; have e := h.at_ j; rw [if_neg (by omega)] at e; exact tagged_congr e
  have hk' := h.at_ k
  rw [if_neg (by omega)] at hk'
  have hcond : ((k + 2 < t.length ∧ tagged t (k + 2) = true) ∨ (k > 2 ∧ tagged t (k - 2) = true) ∨ (k + 1 < t.length ∧ tagged t (k + 1) = true) ∨
      (k > 1 ∧ tagged t (k - 1) = true)) ↔ near s k = true := by
    unfold near
    simp only [Bool.or_eq_true, Bool.and_eq_true, decide_eq_true_eq]
    have e1 := hfut (k + 1) (by omega)
    have e2 := hfut (k + 2) (by omega)
    constructor
    · rintro (⟨_, h1⟩ | ⟨h0, h1⟩ | ⟨_, h1⟩ | ⟨h0, h1⟩)
      · rw [e2] at h1; exact .inl (.inl (.inl h1))
      · rcases (winv_tagged_before h (by omega)).2 h1 with h2 | h2
        · exact .inl (.inl (.inr ⟨h0, h2⟩))
        · rw [show k - 2 + 3 = k + 1 by omega] at h2; exact .inl (.inr h2)
      · rw [e1] at h1; exact .inl (.inr h1)
      · rcases (winv_tagged_before h (by omega)).2 h1 with h2 | h2
        · exact .inr ⟨h0, h2⟩
        · rw [show k - 1 + 3 = k + 2 by omega] at h2; exact .inl (.inl (.inl h2))
    · rintro (((h1 | ⟨h0, h1⟩) | h1) | ⟨h0, h1⟩)
      · exact .inl ⟨by rw [h.len]; exact tagged_lt h1, by rw [e2]; exact h1⟩
      · exact .inr (.inl ⟨h0, (winv_tagged_before h (by omega)).1 h1⟩)
      · exact .inr (.inr (.inl ⟨by rw [h.len]; exact tagged_lt h1, by rw [e1]; exact h1⟩))
      · exact .inr (.inr (.inr ⟨h0, (winv_tagged_before h (by omega)).1 h1⟩))
  have hset : ∀ x : Option Tag, loopAt s k = x → WInv s (k + 1) (t.set k x) := by
    intro x hx
    refine ⟨by simp [h.len], ?_⟩
    intro n
    by_cases hn : n = k
    · subst hn
      rw [if_pos (by omega), hx]
      simp [List.getD, h.len, hk]
    · have e := h.at_ n
      have e' : (t.set k x).getD n none = t.getD n none := by simp [List.getD, List.getElem?_set_ne (Ne.symm hn)]
      rw [e', e]
      by_cases hlt : n < k
      · rw [if_pos hlt, if_pos (by omega)]
      · rw [if_neg hlt, if_neg (by omega)]
  have hkeep : loopAt s k = t.getD k none → WInv s (k + 1) t := by
    intro hx
    have := hset _ hx
    rwa [show t.set k (t.getD k none) = t from by
      apply List.ext_getElem?; intro n
      by_cases hn : k = n
      · subst hn
        rw [List.getElem?_set_self (by rw [h.len]; exact hk), List.getD, List.getElem?_eq_getElem (by rw [h.len]; exact hk)]; rfl
      · rw [List.getElem?_set_ne hn]] at this
  unfold windowStep
  by_cases h1 : (t.getD k none).isSome
  · rw [if_pos h1]
    apply hkeep
    rw [hk'] at h1 ⊢
    unfold loopAt; rw [if_pos h1]
  · rw [if_neg h1]
    rw [hk'] at h1
    by_cases h2 : near s k = true
    · rw [if_pos (hcond.2 h2)]
      apply hset
      unfold loopAt; rw [if_neg h1, if_pos h2]
    · rw [if_neg (fun h => h2 (hcond.1 h))]
      by_cases h3 : tagged s (k + 3) = true
      · rw [if_pos ⟨by rw [h.len]; exact tagged_lt h3, by rw [hfut _ (by omega)]; exact h3⟩]
        apply hset
        unfold loopAt; rw [if_neg h1, if_neg h2, if_pos h3]
      · rw [if_neg (by rw [hfut _ (by omega)]; exact fun h => h3 h.2)]
        apply hkeep
        rw [hk']
        unfold loopAt; rw [if_neg h1, if_neg h2, if_neg h3]
        cases hs : s.getD k none with
        | none => rfl
        | some t => rw [hs] at h1; simp at h1

theorem winv_loop {s : Snippet} : ∀ k, k ≤ s.length → WInv s k ((List.range k).foldl windowStep s)
  | 0, _ => ⟨rfl, fun n => by simp⟩
  | k + 1, h => by
    rw [List.range_succ, List.foldl_append]
    exact winv_step (winv_loop k (by omega)) h

theorem window_length (s : Snippet) : (window s).length = s.length := by
  unfold window
  split
  · simp
  · simp only
    have := (winv_loop (s := s) s.length (Nat.le_refl _)).len
    split
    · simp [this]
    · exact this

/-- Every line of the window. -/
theorem window_at {s : Snippet} (h : s.all (·.isNone) = false) (hn : n < s.length) :
    (window s).getD n none = if loopAt s n = none ∧ n + 1 = s.length then some .omission else loopAt s n := by
  unfold window
  rw [if_neg (by rw [h]; simp)]
  simp only
  have W := winv_loop (s := s) s.length (Nat.le_refl _)
  generalize hw : (List.range s.length).foldl windowStep s = w at W
  have e : ∀ m, m < s.length → w.getD m none = loopAt s m := fun m hm => by rw [W.at_ m, if_pos hm]
  have hlast : w.getLast? = some none ↔ loopAt s (s.length - 1) = none := by
    rw [← e (s.length - 1) (by omega), List.getLast?_eq_getElem?, W.len, List.getD, List.getElem?_eq_getElem (by rw [W.len]; omega)]
    simp
  by_cases hl : w.getLast? = some none
  · rw [if_pos hl, W.len]
    by_cases hm : n + 1 = s.length
    · have hn' : s.length - 1 = n := by omega
      rw [hn'] at hlast ⊢
      rw [if_pos ⟨hlast.1 hl, hm⟩]
      simp [List.getD, W.len, hn]
    · rw [if_neg (fun h => hm h.2), ← e n hn]
      simp [List.getD, List.getElem?_set_ne (show s.length - 1 ≠ n by omega)]
  · rw [if_neg hl, e n hn, if_neg]
    rintro ⟨h1, h2⟩
    exact hl (hlast.2 (by rw [show s.length - 1 = n by omega]; exact h1))

end Eno
