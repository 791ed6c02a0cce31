import Verif.Spec.Scan

/-! # Helper lemmas on `takeWhile`, `dropWhile`, `drop` and trimming -/

namespace Eno

theorem length_takeWhile_le {α} (p : α → Bool) (l : List α) : (l.takeWhile p).length ≤ l.length := by
  induction l with
  | nil => simp
  | cons a t ih => simp only [List.takeWhile_cons]; split <;> simp <;> omega

theorem drop_takeWhile {α} (p : α → Bool) (l : List α) :
    l.drop (l.takeWhile p).length = l.dropWhile p := by
  induction l with
  | nil => simp
  | cons a t ih => simp only [List.takeWhile_cons, List.dropWhile_cons]; split <;> simp_all

theorem take_takeWhile {α} (p : α → Bool) (l : List α) :
    l.take (l.takeWhile p).length = l.takeWhile p := by
  induction l with
  | nil => simp
  | cons a t ih => simp only [List.takeWhile_cons]; split <;> simp_all

theorem dropWhile_head {α} {p : α → Bool} {l : List α} {c : α} {t : List α}
    (h : l.dropWhile p = c :: t) : p c = false := by
  induction l with
  | nil => simp at h
  | cons a u ih =>
    rw [List.dropWhile_cons] at h
    split at h
    · exact ih h
    · simp only [List.cons.injEq] at h; obtain ⟨rfl, _⟩ := h; simp_all

/-- Inside the run every remaining suffix starts with a character of the class. -/
theorem drop_lt_run {α} {p : α → Bool} {l : List α} {j : Nat} (h : j < (l.takeWhile p).length) :
    ∃ c t, l.drop j = c :: t ∧ p c = true := by
  induction l generalizing j with
  | nil => simp at h
  | cons a u ih =>
    by_cases hp : p a = true
    · cases j with
      | zero => exact ⟨a, u, by simp, hp⟩
      | succ j => simp [hp] at h; simpa using ih h
    · simp [hp] at h

theorem run_drop {α} {p : α → Bool} {l : List α} {j : Nat} (h : j ≤ (l.takeWhile p).length) :
    ((l.drop j).takeWhile p) = (l.takeWhile p).drop j := by
  induction l generalizing j with
  | nil => simp
  | cons a u ih =>
    cases j with
    | zero => simp
    | succ j =>
      by_cases hp : p a = true
      · simp [hp] at h ⊢; exact ih h
      · simp [hp] at h

theorem dropWhile_drop {α} {p : α → Bool} {l : List α} {j : Nat} (h : j ≤ (l.takeWhile p).length) :
    (l.drop j).dropWhile p = l.dropWhile p := by
  induction l generalizing j with
  | nil => simp
  | cons a u ih =>
    cases j with
    | zero => simp
    | succ j =>
      by_cases hp : p a = true
      · simp [hp] at h ⊢; exact ih h
      · simp [hp] at h

theorem takeWhile_append_dropWhile' {α} (p : α → Bool) (l : List α) :
    l = l.takeWhile p ++ l.dropWhile p := by simp

theorem mem_takeWhile_imp {α} {p : α → Bool} {l : List α} {x : α} (h : x ∈ l.takeWhile p) : p x = true := by
  induction l with
  | nil => simp at h
  | cons a t ih =>
    rw [List.takeWhile_cons] at h
    split at h
    · simp at h; rcases h with rfl | h
      · assumption
      · exact ih h
    · simp at h

end Eno
