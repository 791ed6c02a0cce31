import Verif.Proofs.RegexLemmas

/-! # Evaluation of the grammar's building blocks -/

namespace Eno
open Re Grammar Spec

theorem isHs_isSp {c : Char} (h : isHs c = true) : isSp c = true := by
  simp [isHs] at h; exact h.1
theorem isHs_ne_nl {c : Char} (h : isHs c = true) : c ≠ '\n' := by
  simp [isHs] at h; exact h.2
@[simp] theorem isHs_nl : isHs '\n' = false := by decide
@[simp] theorem isSp_nl : isSp '\n' = true := by decide
theorem isSp_of_ne {c : Char} (h : isSp c = true) (hn : c ≠ '\n') : isHs c = true := by
  simp [isHs, h, hn]
theorem isHs_iff {c : Char} : isHs c = true ↔ isSp c = true ∧ c ≠ '\n' := by simp [isHs]

/-- At the end of a line. -/
def atEol : Str → Bool
  | [] => true
  | c :: _ => c == '\n'

variable {pos : Nat} {rest t : Str} {caps : Nat → Option Cap} {c : Char} {k : St → Option St}

theorem run_la_eol : run (la (alt (lit '\n') eos)) ⟨pos, rest, caps⟩ k =
    if atEol rest then k ⟨pos, rest, caps⟩ else none := by
  cases rest with
  | nil => simp [run, atEol, lit]
  | cons c t =>
    by_cases h : c = '\n' <;> simp [run, atEol, lit, h]

theorem atEol_false_of_hs {c : Char} (h : isHs c = true) : atEol (c :: t) = false := by
  simp [atEol, isHs_ne_nl h]

theorem run_EOL : run EOL ⟨pos, rest, caps⟩ k =
    if atEol (rest.dropWhile isHs) then
      k ⟨pos + (rest.takeWhile isHs).length, rest.dropWhile isHs, caps⟩ else none := by
  rw [EOL, run_seq, HS, run_starG_det]
  · exact run_la_eol
  · intro pos' c t h
    rw [run_la_eol, atEol_false_of_hs h]; rfl

/-! ### Trimming -/

theorem trimEnd_nil : trimEnd [] = [] := rfl
theorem trimEnd_cons (a : Char) (t : Str) :
    trimEnd (a :: t) = if trimEnd t = [] ∧ isHs a then [] else a :: trimEnd t := by
  unfold trimEnd
  rw [List.reverse_cons, List.dropWhile_append]
  by_cases h : (t.reverse.dropWhile isHs).isEmpty = true
  · have h' : t.reverse.dropWhile isHs = [] := by simpa using h
    rw [if_pos h]
    by_cases ha : isHs a = true <;> simp [h', ha]
  · have h' : t.reverse.dropWhile isHs ≠ [] := by simpa using h
    rw [if_neg h]; simp [h']

theorem trimEnd_eq_nil_iff (l : Str) : trimEnd l = [] ↔ l.all isHs = true := by
  induction l with
  | nil => simp [trimEnd]
  | cons a t ih => 
    rw [trimEnd_cons, List.all_cons, Bool.and_eq_true]
    split <;> simp_all
    intro ha
    by_cases h : trimEnd t = []
    · simp_all
    · have := mt ih.mpr h
      simpa using this

theorem trimEnd_length_le_iff (l : Str) (j : Nat) :
    (trimEnd l).length ≤ j ↔ (l.drop j).all isHs = true := by
  induction l generalizing j with
  | nil => simp [trimEnd]
  | cons a t ih =>
    cases j with
    | zero =>
      simp only [Nat.le_zero_eq, List.length_eq_zero_iff, List.drop_zero]
      exact trimEnd_eq_nil_iff _
    | succ j =>
      rw [List.drop_succ_cons, ← ih, trimEnd_cons]
      split
      · rename_i h; simp [h.1]
      · simp

theorem trimEnd_prefix (l : Str) : trimEnd l = l.take (trimEnd l).length := by
  induction l with
  | nil => simp [trimEnd]
  | cons a t ih =>
    rw [trimEnd_cons]; split
    · simp
    · simp; exact ih

theorem trimEnd_length_le (l : Str) : (trimEnd l).length ≤ l.length := by
  rw [trimEnd_length_le_iff]; simp

theorem lineOf_cons_ne {c : Char} (h : c ≠ '\n') (t : Str) : lineOf (c :: t) = c :: lineOf t := by
  simp [lineOf, h]
theorem lineOf_nil : lineOf [] = [] := rfl
theorem lineOf_nl (t : Str) : lineOf ('\n' :: t) = [] := by simp [lineOf]

theorem atEol_drop_lineOf (s : Str) : atEol (s.drop (lineOf s).length) = true := by
  unfold lineOf; rw [drop_takeWhile]
  cases h : s.dropWhile (· != '\n') with
  | nil => rfl
  | cons c t => have := dropWhile_head h; simpa [atEol] using this

theorem not_nl_of_mem_lineOf {s : Str} {c : Char} (h : c ∈ lineOf s) : c ≠ '\n' := by
  simpa using mem_takeWhile_imp h

/-- After `j` characters of the line, the rest of the line is blank iff the trimmed line has at most `j`
characters. -/
theorem atEol_dropWhile_iff (s : Str) : ∀ (j : Nat), j ≤ (lineOf s).length →
    (atEol ((s.drop j).dropWhile isHs) = true ↔ (trimEnd (lineOf s)).length ≤ j) := by
  intro j hj
  rw [trimEnd_length_le_iff]
  induction s generalizing j with
  | nil => simp [lineOf, atEol]
  | cons c t ih =>
    by_cases hc : c = '\n'
    · subst hc
      rw [lineOf_nl] at hj ⊢
      simp at hj; subst hj; simp [atEol]
    · rw [lineOf_cons_ne hc] at hj ⊢
      cases j with
      | succ j => simpa using ih j (by simpa using hj)
      | zero =>
        have := ih 0 (by omega)
        simp only [List.drop_zero] at this ⊢
        by_cases hh : isHs c = true
        · simp [hh]; simpa using this
        · simp [hh, atEol, hc]

theorem dropWhile_hs_of_blank (s : Str) : ∀ (j : Nat), j ≤ (lineOf s).length →
    atEol ((s.drop j).dropWhile isHs) = true →
    (s.drop j).dropWhile isHs = s.drop (lineOf s).length ∧
      j + ((s.drop j).takeWhile isHs).length = (lineOf s).length := by
  induction s with
  | nil => intro j hj h; simp [lineOf] at hj ⊢; exact hj
  | cons c t ih =>
    intro j hj h
    by_cases hc : c = '\n'
    · subst hc
      rw [lineOf_nl] at hj ⊢
      simp at hj; subst hj; simp
    · rw [lineOf_cons_ne hc] at hj ⊢
      cases j with
      | succ j => 
        have := ih j (by simpa using hj) (by simpa using h)
        simp; constructor
        · exact this.1
        · have := this.2; omega
      | zero =>
        simp only [List.drop_zero] at h ⊢
        by_cases hh : isHs c = true
        · simp [hh] at h ⊢
          have := ih 0 (by omega) (by simpa using h)
          simp at this; exact this
        · simp [hh, atEol, hc] at h

theorem take_trimEnd_lineOf (t : Str) : t.take (trimEnd (lineOf t)).length = trimEnd (lineOf t) := by
  have h1 : lineOf t = t.take (lineOf t).length := (take_takeWhile _ t).symm
  have h2 := trimEnd_length_le (lineOf t)
  conv => rhs; rw [trimEnd_prefix (lineOf t), h1, List.take_take]
  rw [← h1, Nat.min_eq_left h2]

/-- Lazy `[^\n]*?` before the end-of-line tail: the trimmed line. The continuation may set groups. -/
theorem run_lazy_line (rest : Str) (pos : Nat) (K : St → Option St) (g : Nat → (Nat → Option Cap))
    (hK : ∀ q r, K ⟨q, r, caps⟩ = run EOL ⟨q, r, g q⟩ k) (hk : ∀ st, (k st).isSome) :
    run (star false (chr notNl)) ⟨pos, rest, caps⟩ K =
      k ⟨pos + (lineOf rest).length, rest.drop (lineOf rest).length, g (pos + (trimEnd (lineOf rest)).length)⟩ := by
  have hl : rest.takeWhile notNl = lineOf rest := rfl
  have hn : (trimEnd (lineOf rest)).length ≤ (lineOf rest).length := trimEnd_length_le _
  have hb := (atEol_dropWhile_iff rest _ hn).mpr (Nat.le_refl _)
  obtain ⟨h1, h2⟩ := dropWhile_hs_of_blank rest _ hn hb
  rw [run_starL_first (trimEnd (lineOf rest)).length]
  · simp only [hK, run_EOL, hb, if_true]
    rw [h1, Nat.add_assoc, h2]
  · rw [hl]; exact hn
  · intro j hj
    simp only [hK, run_EOL]
    have : ¬ atEol ((rest.drop j).dropWhile isHs) = true := by
      rw [atEol_dropWhile_iff rest j (by omega)]; omega
    rw [if_neg this]
  · left
    simp only [hK, run_EOL, hb, if_true, hk]

/-- The value group starting at a non-blank character. -/
theorem run_line_group (i : Nat) (p : Char → Bool) (hp : p c = true) (hc : c ≠ '\n') (hs : isHs c = false)
    (hk : ∀ st, (k st).isSome) :
    run (grp i (seq (chr p) (star false (chr notNl)))) ⟨pos, c :: t, caps⟩ (fun st => run EOL st k) =
      k ⟨pos + (lineOf (c :: t)).length, (c :: t).drop (lineOf (c :: t)).length,
        setCap caps i ⟨pos, pos + (trimEnd (lineOf (c :: t))).length, trimEnd (lineOf (c :: t))⟩⟩ := by
  rw [run_grp, run_seq, run_chr_cons, if_pos hp]
  have ht : trimEnd (lineOf (c :: t)) = c :: trimEnd (lineOf t) := by
    rw [lineOf_cons_ne hc, trimEnd_cons, if_neg (by simp [hs])]
  rw [run_lazy_line t (pos + 1) _ (fun q => setCap caps i ⟨pos, q, (c :: t).take (q - pos)⟩) (fun q r => rfl) hk]
  rw [ht, lineOf_cons_ne hc]
  have e1 : pos + 1 + (trimEnd (lineOf t)).length - pos = (trimEnd (lineOf t)).length + 1 := by omega
  have e2 := take_trimEnd_lineOf t
  simp only [e1, List.take_succ_cons, e2, List.length_cons, List.drop_succ_cons]
  congr 2 <;> simp [Nat.add_assoc, Nat.add_comm 1]

theorem lineOf_skip (s : Str) : lineOf s = s.takeWhile isHs ++ lineOf (s.dropWhile isHs) := by
  induction s with
  | nil => rfl
  | cons c t ih =>
    by_cases h : isHs c = true
    · rw [lineOf_cons_ne (isHs_ne_nl h)]; simp [h, ih]
    · simp [h]

theorem valueAt_eq (pos : Nat) (s : Str) : valueAt pos s =
    match s.dropWhile isHs with
    | [] => none
    | c :: t => if c = '\n' then none else
      some ⟨pos + (s.takeWhile isHs).length,
        pos + (s.takeWhile isHs).length + (trimEnd (lineOf (c :: t))).length, trimEnd (lineOf (c :: t))⟩ := by
  unfold valueAt runLen
  simp only [drop_takeWhile]
  cases h : s.dropWhile isHs with
  | nil => simp [lineOf, trimEnd]
  | cons c t =>
    have hh := dropWhile_head h
    by_cases hc : c = '\n'
    · subst hc; simp [lineOf_nl, trimEnd]
    · have : trimEnd (lineOf (c :: t)) ≠ [] := by
        rw [lineOf_cons_ne hc, trimEnd_cons, if_neg (by simp [hh])]; simp
      simp [this, hc]

theorem eol_skip (pos : Nat) (s : Str) :
    pos + (s.takeWhile isHs).length + (lineOf (s.dropWhile isHs)).length = eolAt pos s := by
  unfold eolAt; rw [lineOf_skip s]; simp [Nat.add_assoc]

theorem drop_eol_skip (s : Str) :
    (s.dropWhile isHs).drop (lineOf (s.dropWhile isHs)).length = s.drop (lineOf s).length := by
  rw [lineOf_skip s, List.length_append, ← List.drop_drop, drop_takeWhile]

/-- The state after a line whose value (if any) went to group `i`. -/
def afterLine (pos : Nat) (rest : Str) (caps : Nat → Option Cap) (i : Nat) : St :=
  ⟨eolAt pos rest, rest.drop (lineOf rest).length,
    match valueAt pos rest with
    | none => caps
    | some v => setCap caps i v⟩

theorem run_REQUIRED_sp (i : Nat) (h : isSp c = true) :
    run (REQUIRED i) ⟨pos, c :: t, caps⟩ k = none := by
  simp [REQUIRED, run_grp, run_seq, run_chr_cons, h]

theorem run_REQUIRED_nil (i : Nat) : run (REQUIRED i) ⟨pos, [], caps⟩ k = none := rfl

theorem run_REQUIRED_cons (i : Nat) (h : isSp c = false) (hk : ∀ st, (k st).isSome) :
    run (REQUIRED i) ⟨pos, c :: t, caps⟩ (fun st => run EOL st k) =
      k ⟨pos + (lineOf (c :: t)).length, (c :: t).drop (lineOf (c :: t)).length,
        setCap caps i ⟨pos, pos + (trimEnd (lineOf (c :: t))).length, trimEnd (lineOf (c :: t))⟩⟩ := by
  have hc : c ≠ '\n' := by rintro rfl; simp at h
  exact run_line_group i _ (by simp [h]) hc (by simp [isHs, h]) hk

theorem run_HS_REQUIRED (i : Nat) (hk : ∀ st, (k st).isSome) :
    run HS ⟨pos, rest, caps⟩ (fun st => run (REQUIRED i) st (fun st => run EOL st k)) =
      match valueAt pos rest with
      | none => none
      | some _ => k (afterLine pos rest caps i) := by
  rw [HS, run_starG_det]
  · have hv := valueAt_eq pos rest
    unfold afterLine
    rw [← eol_skip, ← drop_eol_skip, hv]
    cases h : rest.dropWhile isHs with
    | nil => simp [run_REQUIRED_nil]
    | cons c t =>
      have hh := dropWhile_head h
      by_cases hc : c = '\n'
      · subst hc; simp [run_REQUIRED_sp]
      · have hs : isSp c = false := by simpa [isHs, hc] using hh
        simp only [hc, if_false]
        rw [run_REQUIRED_cons i hs hk]
  · intro pos' c t h; exact run_REQUIRED_sp i (isHs_isSp h)

theorem run_OPTIONAL_cons (i : Nat) (hc : c ≠ '\n') (hs : isHs c = false) (hk : ∀ st, (k st).isSome) :
    run (OPTIONAL i) ⟨pos, c :: t, caps⟩ (fun st => run EOL st k) =
      k ⟨pos + (lineOf (c :: t)).length, (c :: t).drop (lineOf (c :: t)).length,
        setCap caps i ⟨pos, pos + (trimEnd (lineOf (c :: t))).length, trimEnd (lineOf (c :: t))⟩⟩ := by
  rw [OPTIONAL, opt, run_alt, plusLazy, run_line_group i _ (by simp [notNl, hc]) hc hs hk]
  generalize hx : k _ = x
  have : x.isSome := by rw [← hx]; exact hk _
  cases x with
  | none => simp at this
  | some y => rfl

theorem run_OPTIONAL_eol (i : Nat) (h : atEol rest = true) :
    run (OPTIONAL i) ⟨pos, rest, caps⟩ (fun st => run EOL st k) = k ⟨pos, rest, caps⟩ := by
  cases rest with
  | nil => simp [OPTIONAL, opt, run_alt, run_grp, plusLazy, run_seq, run_chr_nil, run_eps, run_EOL, atEol]
  | cons c t =>
    have hc : c = '\n' := by simpa [atEol] using h
    subst hc
    simp [OPTIONAL, opt, run_alt, run_grp, plusLazy, run_seq, run_chr_cons, run_eps, run_EOL, atEol, notNl]

theorem run_HS_OPTIONAL (i : Nat) (hk : ∀ st, (k st).isSome) :
    run HS ⟨pos, rest, caps⟩ (fun st => run (OPTIONAL i) st (fun st => run EOL st k)) =
      k (afterLine pos rest caps i) := by
  have key : run (OPTIONAL i) ⟨pos + (rest.takeWhile isHs).length, rest.dropWhile isHs, caps⟩
      (fun st => run EOL st k) = k (afterLine pos rest caps i) := by
    unfold afterLine
    rw [← eol_skip, ← drop_eol_skip, valueAt_eq]
    cases h : rest.dropWhile isHs with
    | nil => rw [run_OPTIONAL_eol i rfl]; simp [lineOf]
    | cons c t =>
      have hh := dropWhile_head h
      by_cases hc : c = '\n'
      · subst hc; rw [run_OPTIONAL_eol i (by simp [atEol])]; simp [lineOf]
      · rw [run_OPTIONAL_cons i hc hh hk]; simp [hc]
  rw [HS, run_starG_full, key]
  intro j _ hn
  rw [key] at hn
  have := hk (afterLine pos rest caps i)
  simp [hn] at this

/-- What the final match state says. -/
def readTok (o : Option St) : Option (Option Tok) := o.map tokOf

end Eno
