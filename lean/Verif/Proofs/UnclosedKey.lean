import Verif.Spec.Diagnosis
import Verif.Proofs.TerminatorLemmas

/-! # The expression of `parsing.py:7` finds keys that are not closed -/

namespace Eno
open Re Grammar Spec

variable {pos : Nat} {rest t : Str} {caps : Nat → Option Cap} {c : Char} {k : St → Option St}

open Classical in
/-- ``(?:(?!\1).)*`` before something that only succeeds at the end. -/
theorem starGo_unclosed {q : Cap} (hq : caps 1 = some q) (hk : ∀ pos c t, '\n' ∉ c :: t → k ⟨pos, c :: t, caps⟩ = none) :
    ∀ (rest : Str) (n pos : Nat), rest.length ≤ n → '\n' ∉ rest →
      starGo (run (seq (nla (bref 1)) (chr notNl))) true n ⟨pos, rest, caps⟩ k = if ∃ s, s ≠ [] ∧ s <:+ rest ∧ q.text <+: s then none else k ⟨pos + rest.length, [], caps⟩ := by
  intro rest
  induction rest with
  | nil =>
    intro n pos _ _
    rw [if_neg (by rintro ⟨s, h1, h2, _⟩; exact h1 (List.suffix_nil.1 h2))]
    cases n with
    | zero => rfl
    | succ n =>
      unfold starGo
      rw [if_pos rfl]
      rw [run_seq]
      have : ∀ k, run (nla (bref 1)) ⟨pos, [], caps⟩ (fun st' => run (chr notNl) st' k) = none := by
        intro k
        unfold run
        split
        · rfl
        · rfl
      rw [this]
      rfl
  | cons c t ih =>
    intro n pos hn hnl
    obtain ⟨m, rfl⟩ : ∃ m, n = m + 1 := ⟨n - 1, by simp at hn; omega⟩
    have hc : c ≠ '\n' := fun e => hnl (by simp [e])
    have ht : '\n' ∉ t := fun e => hnl (List.mem_cons_of_mem _ e)
    have step : ∀ k, run (seq (nla (bref 1)) (chr notNl)) ⟨pos, c :: t, caps⟩ k = if q.text <+: c :: t then none else k ⟨pos + 1, t, caps⟩ := by
      intro k
      rw [run_seq]
      have : ∀ k, run (nla (bref 1)) ⟨pos, c :: t, caps⟩ k = if q.text <+: c :: t then none else k ⟨pos, c :: t, caps⟩ := by
        intro k
        rw [run, run_bref hq]
        by_cases hp : q.text <+: c :: t
        · rw [if_pos hp, if_pos (List.isPrefixOf_iff_prefix.2 hp)]
        · rw [if_neg hp, if_neg (fun e => hp (List.isPrefixOf_iff_prefix.1 e))]
      rw [this, run_chr_cons, if_pos (show notNl c = true by simp [notNl, hc])]
    unfold starGo
    rw [if_pos rfl, step, hk pos c t hnl]
    by_cases hp : q.text <+: c :: t
    · rw [if_pos hp, if_pos ⟨c :: t, by simp, List.suffix_refl _, hp⟩]
      rfl
    · rw [if_neg hp, orElse_none_right, if_neg (by simp)]
      rw [ih m (pos + 1) (by simp at hn; omega) ht]
      have e : (∃ s, s ≠ [] ∧ s <:+ c :: t ∧ q.text <+: s) ↔ ∃ s, s ≠ [] ∧ s <:+ t ∧ q.text <+: s := by
        constructor
        · rintro ⟨s, h1, h2, h3⟩
          rcases List.suffix_cons_iff.1 h2 with e | h2
          · subst e; exact absurd h3 hp
          · exact ⟨s, h1, h2, h3⟩
        · rintro ⟨s, h1, h2, h3⟩
          exact ⟨s, h1, h2.trans (List.suffix_cons _ _), h3⟩
      have e2 : pos + 1 + t.length = pos + (c :: t).length := by simp; omega
      by_cases hs : ∃ s, s ≠ [] ∧ s <:+ t ∧ q.text <+: s
      · rw [if_pos hs, if_pos (e.2 hs)]
      · rw [if_neg hs, if_neg (fun h => hs (e.1 h)), e2]

/-- Everything behind the operator. -/
theorem run_behind {q : Cap} (hq : caps 1 = some q) (hnl : '\n' ∉ rest) :
    ((run (seq (nla (lit '`')) (seq (grp 2 (plus (seq (nla (bref 1)) (chr notNl)))) eos)) ⟨pos, rest, caps⟩ some).bind fun st => st.caps 1) =
      if rest ≠ [] ∧ rest.head? ≠ some '`' ∧ ¬ q.text <:+: rest then some q else none := by
  cases rest with
  | nil =>
    rw [if_neg (by simp), run_seq, run_nla_lit_nil, run_seq, run_grp, plus, run_seq, run_seq]
    have : ∀ k, run (nla (bref 1)) ⟨pos, [], caps⟩ (fun st' => run (chr notNl) st' k) = none := by
      intro k
      unfold run
      split <;> rfl
    rw [this]
    rfl
  | cons c t =>
    have hc : c ≠ '\n' := fun e => hnl (by simp [e])
    have ht : '\n' ∉ t := fun e => hnl (List.mem_cons_of_mem _ e)
    rw [run_seq, run_nla_lit_cons]
    by_cases hb : c = '`'
    · rw [if_pos hb, if_neg (by simp [hb])]; rfl
    rw [if_neg hb, run_seq, run_grp, plus, run_seq, run_seq]
    have : ∀ k, run (nla (bref 1)) ⟨pos, c :: t, caps⟩ k = if q.text <+: c :: t then none else k ⟨pos, c :: t, caps⟩ := by
      intro k
      rw [run, run_bref hq]
      by_cases hp : q.text <+: c :: t
      · rw [if_pos hp, if_pos (List.isPrefixOf_iff_prefix.2 hp)]
      · rw [if_neg hp, if_neg (fun e => hp (List.isPrefixOf_iff_prefix.1 e))]
    rw [this]
    by_cases hp : q.text <+: c :: t
    · rw [if_pos hp, if_neg (fun h => h.2.2 hp.isInfix)]; rfl
    rw [if_neg hp, run_chr_cons, if_pos (by simp [notNl, hc])]
    unfold run
    rw [starGo_unclosed hq ?_ t t.length (pos + 1) (Nat.le_refl _) ht]
    · by_cases hs : ∃ s, s ≠ [] ∧ s <:+ t ∧ q.text <+: s
      · rw [if_pos hs, if_neg]
        · rfl
        · obtain ⟨s, h1, h2, h3⟩ := hs
          exact fun h => h.2.2 (h3.isInfix.trans (h2.isInfix.trans (List.suffix_cons _ _).isInfix))
      · rw [if_neg hs, if_pos]
        · simp [run, setCap, hq]
        · refine ⟨by simp, by simpa using hb, fun h => ?_⟩
          obtain ⟨a, b, e⟩ := h
          cases a with
          | nil => exact hp ⟨b, by simpa using e⟩
          | cons x a =>
            simp only [List.cons_append, List.append_assoc, List.cons.injEq] at e
            refine hs ⟨q.text ++ b, ?_, ⟨a, e.2⟩, List.prefix_append _ _⟩
            intro h0
            exact hp ⟨c :: t, by rw [(List.append_eq_nil_iff.1 h0).1]; rfl⟩
    · intro pos c t hnl
      unfold run
      rw [if_neg]
      rintro (e | e)
      · simp at e
      · simp only [List.cons.injEq] at e
        exact hnl (by simp [e.1])

/-- The operator and everything behind it. -/
def behind (pos : Nat) (rest : Str) : Option Nat :=
  let q := rest.takeWhile (· == '`')
  let r := rest.dropWhile (· == '`')
  if q ≠ [] ∧ r ≠ [] ∧ ¬ q <:+: r then some (pos + q.length) else none

theorem run_operator (hnl : '\n' ∉ rest) :
    ((run (seq (grp 1 (plus (lit '`'))) (seq (nla (lit '`')) (seq (grp 2 (plus (seq (nla (bref 1)) (chr notNl)))) eos))) ⟨pos, rest, caps⟩ some).bind fun st => (st.caps 1).map (·.e)) =
      behind pos rest := by
  unfold behind
  rw [run_seq, run_grp, plus, run_seq]
  cases rest with
  | nil => simp [run_lit_nil]
  | cons c t =>
    rw [run_lit_cons]
    by_cases hc : c = '`'
    · subst hc
      rw [if_pos rfl]
      have hl : lit '`' = chr (· == '`') := rfl
      rw [hl, run_starG_det]
      · have e : ∀ (o : Option St), (o.bind fun st => (st.caps 1).map (·.e)) = (o.bind fun st => st.caps 1).map (·.e) := by
          intro o; cases o <;> rfl
        rw [e]
        have ht : '\n' ∉ t.dropWhile (· == '`') := fun h => hnl (List.mem_cons_of_mem _ ((List.dropWhile_suffix _).subset h))
        have et : ('`' :: t).take (pos + 1 + (t.takeWhile (· == '`')).length - pos) = '`' :: t.takeWhile (· == '`') := by
          have : pos + 1 + (t.takeWhile (· == '`')).length - pos = (t.takeWhile (· == '`')).length + 1 := by omega
          rw [this, List.take_succ_cons]
          congr 1
          exact take_takeWhile _ t
        rw [et]
        dsimp only
        have hb := run_behind (pos := pos + 1 + (t.takeWhile (· == '`')).length) (caps := setCap caps 1 ⟨pos, pos + 1 + (t.takeWhile (· == '`')).length, '`' :: t.takeWhile (· == '`')⟩) (setCap_same _ _ _) ht
        rw [show lit '`' = chr (· == '`') from rfl] at hb
        rw [hb]
        have hh : (t.dropWhile (· == '`')).head? ≠ some '`' := by
          intro h
          have := List.head?_dropWhile_not (· == '`') t
          rw [h] at this
          simp at this
        simp only [List.takeWhile_cons, List.dropWhile_cons, beq_self_eq_true, if_true]
        by_cases hx : t.dropWhile (· == '`') ≠ [] ∧ ¬ '`' :: t.takeWhile (· == '`') <:+: t.dropWhile (· == '`')
        · rw [if_pos ⟨hx.1, hh, hx.2⟩, if_pos ⟨by simp, hx⟩]
          simp; omega
        · rw [if_neg (fun h => hx ⟨h.1, h.2.2⟩), if_neg (fun h => hx h.2)]
          rfl
      · intro pos' c' t' h
        have : c' = '`' := by simpa using h
        subst this
        rw [run_seq]
        change run (nla (lit '`')) ⟨pos', '`' :: t', _⟩ _ = none
        rw [run_nla_lit_cons, if_pos rfl]
    · rw [if_neg hc]
      simp [hc]

theorem operator_none (hc : c ≠ '`') (r : Re) : run (seq (grp 1 (plus (lit '`'))) r) ⟨pos, c :: t, caps⟩ k = none := by
  rw [run_seq, run_grp, plus, run_seq, run_lit_cons, if_neg hc]

theorem unterminatedKey_eq {line : Str} (hnl : '\n' ∉ line) : unterminatedKey line =
    (let a := line.takeWhile isSp
     let r := line.dropWhile isSp
     let h := r.takeWhile (· == '#')
     let r := r.dropWhile (· == '#')
     let b := r.takeWhile isSp
     let r := r.dropWhile isSp
     behind (a.length + h.length + b.length) r) := by
  unfold unterminatedKey UNTERMINATED_ESCAPED_KEY
  generalize hR : (seq (nla (lit '`')) (seq (grp 2 (plus (seq (nla (bref 1)) (chr notNl)))) eos)) = R
  have hop : ∀ {pos : Nat} {rest : Str} {caps}, '\n' ∉ rest → ((run (seq (grp 1 (plus (lit '`'))) R) ⟨pos, rest, caps⟩ some).bind fun st => (st.caps 1).map (·.e)) = behind pos rest := by
    intro pos rest caps h; rw [← hR]; exact run_operator h
  -- the second white space
  have h2 : ∀ pos rest caps, run (seq SP (seq (grp 1 (plus (lit '`'))) R)) ⟨pos, rest, caps⟩ some =
      run (seq (grp 1 (plus (lit '`'))) R) ⟨pos + (rest.takeWhile isSp).length, rest.dropWhile isSp, caps⟩ some := by
    intro pos rest caps
    rw [run_seq, SP, run_starG_det]
    intro pos' c t hc
    exact operator_none (by rintro rfl; revert hc; decide) R
  -- the hash signs
  have h1 : ∀ pos rest caps, run (seq (star true (lit '#')) (seq SP (seq (grp 1 (plus (lit '`'))) R))) ⟨pos, rest, caps⟩ some =
      run (seq (grp 1 (plus (lit '`'))) R) ⟨pos + (rest.takeWhile (· == '#')).length + ((rest.dropWhile (· == '#')).takeWhile isSp).length, (rest.dropWhile (· == '#')).dropWhile isSp, caps⟩ some := by
    intro pos rest caps
    rw [run_seq]
    have hl : lit '#' = chr (· == '#') := rfl
    rw [hl, run_starG_det, h2]
    intro pos' c t hc
    rw [h2]
    have : c = '#' := by simpa using hc
    subst this
    have : isSp '#' = false := by decide
    simp only [List.dropWhile_cons, this]
    exact operator_none (by decide) R
  rw [run_seq]
  conv => lhs; arg 1; arg 1; rw [SP]
  rw [run_starG_full]
  · rw [h1]
    have hs : (((line.dropWhile isSp).dropWhile (· == '#')).dropWhile isSp) <:+ line :=
      (List.dropWhile_suffix _).trans ((List.dropWhile_suffix _).trans (List.dropWhile_suffix _))
    rw [hop (fun h => hnl (hs.subset h))]
    simp
  · intro j hj hn
    rw [h1] at hn
    rw [h1]
    -- at a shorter place there is white space again
    obtain ⟨c, t, he, hc⟩ := drop_lt_run hj
    have hc' : (c == '#') = false := by
      cases h : c == '#'
      · rfl
      · have : c = '#' := by simpa using h
        subst this; revert hc; decide
    have e1 : (line.drop j).dropWhile isSp = line.dropWhile isSp := by
      have : ∀ (l : Str) (j : Nat), j ≤ (l.takeWhile isSp).length → (l.drop j).dropWhile isSp = l.dropWhile isSp := by
        intro l
        induction l with
        | nil => intro j _; simp
        | cons x l ih =>
          intro j hj
          cases j with
          | zero => rfl
          | succ j =>
            rw [List.takeWhile_cons] at hj
            split at hj
            · rename_i hx
              rw [List.drop_succ_cons, List.dropWhile_cons_of_pos hx]
              exact ih j (by simpa using hj)
            · simp at hj
      exact this line j (by omega)
    have e2 : (line.drop j).takeWhile (· == '#') = [] ∧ (line.drop j).dropWhile (· == '#') = line.drop j := by
      rw [he]; simp [hc']
    have e3 : ((line.drop j).takeWhile isSp).length = (line.takeWhile isSp).length - j := by
      have h1 := congrArg List.length (List.takeWhile_append_dropWhile (p := isSp) (l := line.drop j))
      have h2 := congrArg List.length (List.takeWhile_append_dropWhile (p := isSp) (l := line))
      rw [List.length_append, e1] at h1
      rw [List.length_append] at h2
      rw [List.length_drop] at h1
      omega
    rw [e2.1, e2.2, e3, e1]
    cases hr : line.dropWhile isSp with
    | nil => simp [run_seq, run_grp, plus, run_lit_nil]
    | cons x u =>
      by_cases hx : x = '`'
      · subst hx
        rw [hr] at hn
        have hb : isSp '`' = false := by decide
        have g1 : (('`' :: u).takeWhile (· == '#')) = [] := rfl
        have g2 : (('`' :: u).dropWhile (· == '#')) = '`' :: u := rfl
        have g3 : (('`' :: u).takeWhile isSp) = [] := by rw [List.takeWhile_cons, hb]; rfl
        have g4 : (('`' :: u).dropWhile isSp) = '`' :: u := by rw [List.dropWhile_cons, hb]; rfl
        rw [g1, g2, g3, g4] at hn
        have e : 0 + j + ([] : Str).length + ((line.takeWhile isSp).length - j) = 0 + (line.takeWhile isSp).length + ([] : Str).length + ([] : Str).length := by
          simp only [List.length_nil]; omega
        rw [e]
        exact hn
      · exact operator_none hx R

theorem unterminatedKey_iff {line : Str} {n : Nat} (hnl : '\n' ∉ line) : unterminatedKey line = some n ↔ Unclosed line n := by
  rw [unterminatedKey_eq hnl]
  dsimp only
  constructor
  · intro h
    unfold behind at h
    dsimp only at h
    split at h
    · rename_i hx
      injection h with h
      refine ⟨_, _, _, _, _, ?_, ?_, ?_, ?_, hx.1, ?_, hx.2.1, ?_, hx.2.2, h.symm⟩
      · rw [List.takeWhile_append_dropWhile, List.takeWhile_append_dropWhile, List.takeWhile_append_dropWhile, List.takeWhile_append_dropWhile]
      · intro c hc; exact mem_takeWhile_imp hc
      · intro c hc; simpa using mem_takeWhile_imp hc
      · intro c hc; exact mem_takeWhile_imp hc
      · intro c hc; simpa using mem_takeWhile_imp hc
      · intro h
        have := List.head?_dropWhile_not (· == '`') (List.dropWhile isSp (List.dropWhile (· == '#') (List.dropWhile isSp line)))
        rw [h] at this
        simp at this
    · cases h
  · rintro ⟨a, h, b, q, rest, rfl, ha, hh, hb, hq0, hq, hr0, hr, hi, rfl⟩
    have take : ∀ (p : Char → Bool) (x y : Str), (∀ c ∈ x, p c = true) → (∀ c ∈ y.head?, p c = false) → (x ++ y).takeWhile p = x ∧ (x ++ y).dropWhile p = y := by
      intro p x y hx hy
      rw [List.takeWhile_append_of_pos hx, List.dropWhile_append_of_pos hx]
      cases y with
      | nil => simp
      | cons c y =>
        have : p c = false := hy c (by simp)
        simp [this]
    obtain ⟨x, q', rfl⟩ : ∃ x q', q = x :: q' := by cases q with | nil => exact absurd rfl hq0 | cons x q' => exact ⟨x, q', rfl⟩
    have hx : x = '`' := hq x (by simp)
    subst hx
    have hfin : behind (a.length + h.length + b.length) (('`' :: q') ++ rest) = some (a.length + h.length + b.length + ('`' :: q').length) := by
      unfold behind
      have := take (· == '`') ('`' :: q') rest (fun c hc => by simp [hq c hc]) (fun c hc => by
        cases hcc : c == '`'
        · rfl
        · have e : c = '`' := by simpa using hcc
          subst e
          exact absurd hc hr)
      dsimp only
      rw [this.1, this.2, if_pos ⟨by simp, hr0, hi⟩]
    cases h with
    | nil =>
      have e1 := take isSp (a ++ b) (('`' :: q') ++ rest) (by intro c hc; exact (List.mem_append.1 hc).elim (ha c) (hb c)) (by intro c hc; cases hc; decide)
      simp only [List.nil_append, ← List.append_assoc] at e1 ⊢
      simp only [List.append_assoc] at e1 ⊢
      rw [e1.1, e1.2]
      have hs : isSp '`' = false := by decide
      have g1 : (('`' :: q' ++ rest).takeWhile (· == '#')) = [] := rfl
      have g2 : (('`' :: q' ++ rest).dropWhile (· == '#')) = '`' :: q' ++ rest := rfl
      have g3 : (('`' :: q' ++ rest).takeWhile isSp) = [] := by rw [List.cons_append, List.takeWhile_cons, hs]; rfl
      have g4 : (('`' :: q' ++ rest).dropWhile isSp) = '`' :: q' ++ rest := by rw [List.cons_append, List.dropWhile_cons, hs]; rfl
      rw [g1, g2, g3, g4]
      simpa [Nat.add_assoc] using hfin
    | cons y h =>
      have hy : y = '#' := hh y (by simp)
      subst hy
      have e1 := take isSp a (('#' :: h) ++ (b ++ (('`' :: q') ++ rest))) ha (by intro c hc; cases hc; decide)
      have e2 := take (· == '#') ('#' :: h) (b ++ (('`' :: q') ++ rest)) (fun c hc => by simp [hh c hc]) (by
        intro c hc
        cases b with
        | nil => cases hc; decide
        | cons z b =>
          cases hc
          have := hb c (by simp)
          cases hcc : c == '#'
          · rfl
          · have e : c = '#' := by simpa using hcc
            subst e; revert this; decide)
      have e3 := take isSp b (('`' :: q') ++ rest) hb (by intro c hc; cases hc; decide)
      rw [e1.1, e1.2, e2.1, e2.2, e3.1, e3.2]
      exact hfin

end Eno
