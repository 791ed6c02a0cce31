import Verif.Proofs.ListLemmas

/-! # Evaluation lemmas for the backtracking matcher -/

namespace Eno
namespace Re

variable {pos : Nat} {rest t : Str} {caps : Nat → Option Cap} {c : Char} {p : Char → Bool}
  {k : St → Option St}

@[simp] theorem orElse_none (b : Unit → Option St) : orElse none b = b () := rfl
@[simp] theorem orElse_some (x : St) (b : Unit → Option St) : orElse (some x) b = some x := rfl
@[simp] theorem orElse_none_right (a : Option St) : orElse a (fun _ => none) = a := by
  cases a <;> rfl

@[simp] theorem adv_pos (st : St) (n : Nat) : (adv st n).pos = st.pos + n := rfl
@[simp] theorem adv_rest (st : St) (n : Nat) : (adv st n).rest = st.rest.drop n := rfl
@[simp] theorem adv_caps (st : St) (n : Nat) : (adv st n).caps = st.caps := rfl
@[simp] theorem adv_mk (n : Nat) : adv ⟨pos, rest, caps⟩ n = ⟨pos + n, rest.drop n, caps⟩ := rfl
theorem adv_zero (st : St) : adv st 0 = st := by cases st; simp [adv]
theorem adv_adv (st : St) (a b : Nat) : adv (adv st a) b = adv st (a + b) := by
  simp [adv, Nat.add_assoc]

theorem run_eps : run eps ⟨pos, rest, caps⟩ k = k ⟨pos, rest, caps⟩ := rfl
theorem run_seq (a b : Re) (st : St) : run (seq a b) st k = run a st fun st' => run b st' k := rfl
theorem run_alt (a b : Re) (st : St) : run (alt a b) st k = orElse (run a st k) fun _ => run b st k := rfl

theorem run_chr_nil : run (chr p) ⟨pos, [], caps⟩ k = none := rfl
theorem run_chr_cons : run (chr p) ⟨pos, c :: t, caps⟩ k =
    if p c then k ⟨pos + 1, t, caps⟩ else none := rfl

theorem run_lit_cons {d : Char} : run (lit d) ⟨pos, c :: t, caps⟩ k =
    if c = d then k ⟨pos + 1, t, caps⟩ else none := by
  simp [lit, run_chr_cons]
theorem run_lit_nil {d : Char} : run (lit d) ⟨pos, [], caps⟩ k = none := rfl

theorem run_grp (n : Nat) (a : Re) : run (grp n a) ⟨pos, rest, caps⟩ k =
    run a ⟨pos, rest, caps⟩ fun st' =>
      k { st' with caps := setCap st'.caps n ⟨pos, st'.pos, rest.take (st'.pos - pos)⟩ } := rfl

theorem run_star_nil {g : Bool} : run (star g (chr p)) ⟨pos, [], caps⟩ k = k ⟨pos, [], caps⟩ := rfl

theorem run_star_stop {g : Bool} (h : p c = false) :
    run (star g (chr p)) ⟨pos, c :: t, caps⟩ k = k ⟨pos, c :: t, caps⟩ := by
  cases g <;> simp [run, starGo, h, orElse]
  split <;> simp_all

theorem run_starG_cons (h : p c = true) :
    run (star true (chr p)) ⟨pos, c :: t, caps⟩ k =
      orElse (run (star true (chr p)) ⟨pos + 1, t, caps⟩ k) fun _ => k ⟨pos, c :: t, caps⟩ := by
  simp [run, starGo, h]

theorem run_starL_cons (h : p c = true) :
    run (star false (chr p)) ⟨pos, c :: t, caps⟩ k =
      orElse (k ⟨pos, c :: t, caps⟩) fun _ => run (star false (chr p)) ⟨pos + 1, t, caps⟩ k := by
  simp [run, starGo, h]

/-- Greedy class repetition: the full run is taken whenever a shorter one cannot succeed where the full
one fails. -/
theorem run_starG_full (rest : Str) : ∀ (pos : Nat),
    (∀ j, j < (rest.takeWhile p).length →
      k ⟨pos + (rest.takeWhile p).length, rest.dropWhile p, caps⟩ = none →
      k ⟨pos + j, rest.drop j, caps⟩ = none) →
    run (star true (chr p)) ⟨pos, rest, caps⟩ k =
      k ⟨pos + (rest.takeWhile p).length, rest.dropWhile p, caps⟩ := by
  induction rest with
  | nil => intro pos _; simp [run_star_nil]
  | cons c t ih =>
    intro pos h
    by_cases hp : p c = true
    · rw [run_starG_cons hp]
      simp only [hp, List.takeWhile_cons_of_pos, List.length_cons, List.dropWhile_cons_of_pos] at h ⊢
      rw [ih (pos + 1)]
      · have e : pos + 1 + (t.takeWhile p).length = pos + ((t.takeWhile p).length + 1) := by omega
        rw [e]
        cases hk : k ⟨pos + ((t.takeWhile p).length + 1), t.dropWhile p, caps⟩ with
        | some x => rfl
        | none => simpa using h 0 (by omega) hk
      · intro j hj hk
        have e : pos + 1 + (t.takeWhile p).length = pos + ((t.takeWhile p).length + 1) := by omega
        rw [e] at hk
        have := h (j + 1) (by omega) hk
        simpa [Nat.add_assoc, Nat.add_comm 1 j] using this
    · have hp' : p c = false := by simpa using hp
      rw [run_star_stop hp']; simp [hp']

/-- Greedy class repetition before something that cannot start inside the class. -/
theorem run_starG_det (rest : Str) (pos : Nat)
    (h : ∀ pos' c t, p c = true → k ⟨pos', c :: t, caps⟩ = none) :
    run (star true (chr p)) ⟨pos, rest, caps⟩ k =
      k ⟨pos + (rest.takeWhile p).length, rest.dropWhile p, caps⟩ := by
  apply run_starG_full
  intro j hj _
  obtain ⟨c, t, he, hc⟩ := drop_lt_run hj
  rw [he]
  exact h _ _ _ hc

/-- Lazy class repetition: the first position at which the continuation succeeds. -/
theorem run_starL_first : ∀ (n : Nat) (rest : Str) (pos : Nat),
    n ≤ (rest.takeWhile p).length →
    (∀ j, j < n → k ⟨pos + j, rest.drop j, caps⟩ = none) →
    ((k ⟨pos + n, rest.drop n, caps⟩).isSome ∨ n = (rest.takeWhile p).length) →
    run (star false (chr p)) ⟨pos, rest, caps⟩ k = k ⟨pos + n, rest.drop n, caps⟩ := by
  intro n
  induction n with
  | zero =>
    intro rest pos hn hj hs
    cases rest with
    | nil => simp [run_star_nil]
    | cons c t =>
      by_cases hp : p c = true
      · rw [run_starL_cons hp]
        rcases hs with hs | hs
        · simp only [Nat.add_zero, List.drop_zero] at hs ⊢
          cases hk : k ⟨pos, c :: t, caps⟩ with
          | some x => rfl
          | none => simp [hk] at hs
        · simp [hp] at hs
      · rw [run_star_stop (by simpa using hp)]; simp
  | succ n ih =>
    intro rest pos hn hj hs
    cases rest with
    | nil => simp at hn
    | cons c t =>
      by_cases hp : p c = true
      · rw [run_starL_cons hp]
        have h0 := hj 0 (by omega)
        simp only [Nat.add_zero, List.drop_zero] at h0
        rw [h0, orElse_none]
        simp only [hp, List.takeWhile_cons_of_pos, List.length_cons, Nat.add_le_add_iff_right,
          Nat.add_right_cancel_iff] at hn hs
        rw [ih t (pos + 1) hn]
        · simp [Nat.add_assoc, Nat.add_comm 1 n]
        · intro j hjn
          have := hj (j + 1) (by omega)
          simpa [Nat.add_assoc, Nat.add_comm 1 j] using this
        · simpa [Nat.add_assoc, Nat.add_comm 1 n] using hs
      · simp [hp] at hn

/-- Lazy class repetition that never succeeds. -/
theorem run_starL_none (rest : Str) (pos : Nat)
    (h : ∀ j, j ≤ (rest.takeWhile p).length → k ⟨pos + j, rest.drop j, caps⟩ = none) :
    run (star false (chr p)) ⟨pos, rest, caps⟩ k = none := by
  rw [run_starL_first (rest.takeWhile p).length rest pos (Nat.le_refl _)]
  · exact h _ (Nat.le_refl _)
  · intro j hj; exact h j (by omega)
  · right; rfl

theorem run_nla_lit_cons {d : Char} : run (nla (lit d)) ⟨pos, c :: t, caps⟩ k =
    if c = d then none else k ⟨pos, c :: t, caps⟩ := by
  unfold run; rw [run_lit_cons]; split <;> simp_all
theorem run_nla_lit_nil {d : Char} : run (nla (lit d)) ⟨pos, [], caps⟩ k = k ⟨pos, [], caps⟩ := rfl

theorem run_bref {n : Nat} {cap : Cap} (h : caps n = some cap) :
    run (bref n) ⟨pos, rest, caps⟩ k =
      if cap.text.isPrefixOf rest then k ⟨pos + cap.text.length, rest.drop cap.text.length, caps⟩ else none := by
  simp [run, h]

end Re
end Eno
