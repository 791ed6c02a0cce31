import Verif.Spec.Geometry
import Verif.Proofs.TerminatorLemmas

/-! # Where the scanner finds things -/

namespace Eno
open Spec

variable {input s t : Str} {p pos : Nat} {v : Cap}

theorem placed_append {lo fin : Nat} {xs ys : List Cap} {mid : Nat} (h1 : Placed input lo mid xs) (h2 : Placed input mid fin ys) :
    Placed input lo fin (xs ++ ys) := by
  induction xs generalizing lo with
  | nil =>
    simp [Placed] at h1
    cases ys with
    | nil => simp [Placed] at h2 ⊢; omega
    | cons y ys => exact ⟨Nat.le_trans h1 h2.1, h2.2⟩
  | cons x xs ih => exact ⟨h1.1, h1.2.1, ih h1.2.2⟩

theorem placed_mono {lo lo' fin : Nat} {xs : List Cap} (h : Placed input lo fin xs) (hl : lo' ≤ lo) : Placed input lo' fin xs := by
  cases xs with
  | nil => simp [Placed] at h ⊢; omega
  | cons x xs => exact ⟨Nat.le_trans hl h.1, h.2⟩

theorem placed_le {lo fin : Nat} {xs : List Cap} (h : Placed input lo fin xs) : lo ≤ fin := by
  induction xs generalizing lo with
  | nil => exact h
  | cons x xs ih => have := ih h.2.2; have := h.2.1.2.1; have := h.1; omega

theorem placed_single {lo fin : Nat} {c : Cap} (h1 : lo ≤ c.b) (h2 : c.In input) (h3 : c.e ≤ fin) : Placed input lo fin [c] := ⟨h1, h2, h3⟩

theorem lineOf_prefix (s : Str) : lineOf s <+: s := List.takeWhile_prefix _
theorem trimEnd_isPrefix (s : Str) : trimEnd s <+: s := by rw [trimEnd_prefix]; exact List.take_prefix _ _

theorem drop_drop' {n : Nat} (h : input.drop p = s) : input.drop (p + n) = s.drop n := by rw [← h, List.drop_drop]

theorem valueAt_in (h : input.drop p = s) (hv : valueAt p s = some v) :
    v.In input ∧ p ≤ v.b ∧ v.e ≤ eolAt p s ∧ '\n' ∉ v.text ∧ (∃ c u, v.text = c :: u ∧ isHs c = false) ∧
      (∃ u c, v.text = u ++ [c] ∧ isHs c = false) := by
  unfold valueAt at hv
  simp only at hv
  split at hv
  · simp at hv
  · rename_i hne
    simp at hv; subst hv
    refine ⟨⟨?_, by simp [Nat.add_assoc], hne⟩, by simp, ?_, ?_, ?_, ?_⟩
    · simp only []
      rw [drop_drop' h]
      exact (trimEnd_isPrefix _).trans (lineOf_prefix _)
    · simp only [eolAt]
      have h1 := trimEnd_length_le (lineOf (s.drop (runLen isHs s)))
      rw [lineOf_drop (runLen_hs_le s)] at h1 ⊢
      have := runLen_hs_le s
      simp at h1; omega
    · intro hm
      exact not_nl_of_mem_lineOf ((trimEnd_isPrefix _).subset hm) rfl
    · simp only []
      cases hx : trimEnd (lineOf (s.drop (runLen isHs s))) with
      | nil => exact absurd hx hne
      | cons c u =>
        refine ⟨c, u, rfl, ?_⟩
        have hp := trimEnd_isPrefix (lineOf (s.drop (runLen isHs s)))
        rw [hx] at hp
        obtain ⟨w, hw⟩ := hp.trans (lineOf_prefix _)
        have : s.dropWhile isHs = c :: (u ++ w) := by
          rw [← drop_takeWhile, show (s.takeWhile isHs).length = runLen isHs s from rfl, ← hw]; simp
        exact dropWhile_head this
    · have hr := hne
      unfold trimEnd at hr ⊢
      cases hx : (lineOf (s.drop (runLen isHs s))).reverse.dropWhile isHs with
      | nil => rw [hx] at hr; simp at hr
      | cons c u => exact ⟨u.reverse, c, by simp, dropWhile_head hx⟩

theorem eolAt_le (h : input.drop p = s) (hp : p ≤ input.length) : eolAt p s ≤ input.length := by
  unfold eolAt
  have := (lineOf_prefix s).length_le
  rw [← h] at this; rw [← h]; simp at this; omega

theorem atEol_eolAt (h : input.drop p = s) : atEol (input.drop (eolAt p s)) = true := by
  unfold eolAt; rw [drop_drop' h]; exact atEol_drop_lineOf s

/-- Everything known about a recognised line: it ends at the end of a line inside the input and its groups are faithful and in order. -/
structure TokOk (input : Str) (pos : Nat) (t : Tok) : Prop where
  fin_le : t.fin ≤ input.length
  eol : atEol (input.drop t.fin) = true
  placed : Placed input pos t.fin t.body.caps

/-- What a continuation of a key has to provide. -/
def AfterOk (input : Str) (after : Nat → Str → KeyTok → Option Tok) (pre : List Cap) : Prop :=
  ∀ p s k t, input.drop p = s → p ≤ input.length → after p s k = some t →
    t.fin ≤ input.length ∧ atEol (input.drop t.fin) = true ∧
    ∃ tl, t.body.caps = pre ++ k.caps ++ tl ∧ Placed input p t.fin tl

theorem op_in {c : Char} (h : input.drop p = c :: t) : Cap.In input ⟨p, p + 1, [c]⟩ :=
  ⟨by simp only []; rw [h]; exact ⟨t, rfl⟩, rfl, by simp⟩

theorem lt_of_drop {c : Char} (h : input.drop p = c :: t) : p < input.length := by
  apply Nat.lt_of_not_le; intro hle
  rw [List.drop_of_length_le hle] at h; simp at h

theorem drop_succ' {c : Char} (h : input.drop p = c :: t) : input.drop (p + 1) = t := by rw [drop_drop' h]; rfl

theorem placed_value (h : input.drop p = s) : Placed input p (eolAt p s) (valueAt p s).toList := by
  cases hv : valueAt p s with
  | none => simp [Placed, eolAt]
  | some v => have := valueAt_in h hv; exact placed_single this.2.1 this.1 this.2.2.1

theorem placed_op_value {c : Char} (h : input.drop p = c :: t) :
    Placed input p (eolAt (p + 1) t) (⟨p, p + 1, [c]⟩ :: (valueAt (p + 1) t).toList) :=
  ⟨Nat.le_refl _, op_in h, placed_value (drop_succ' h)⟩

theorem afterKey_ok : AfterOk input afterKey [] := by
  intro p s k t h hp ht
  unfold afterKey at ht
  simp only at ht
  have hn := drop_drop' (n := runLen isSp s) h
  split at ht
  · rename_i u hu
    rw [hu] at hn
    simp at ht; subst ht
    exact ⟨eolAt_le (drop_succ' hn) (lt_of_drop hn), atEol_eolAt (drop_succ' hn), _, rfl, placed_mono (placed_op_value hn) (by omega)⟩
  · rename_i u hu
    rw [hu] at hn
    simp at ht; subst ht
    exact ⟨eolAt_le (drop_succ' hn) (lt_of_drop hn), atEol_eolAt (drop_succ' hn), _, rfl, placed_mono (placed_op_value hn) (by omega)⟩
  · rename_i u hu
    rw [hu] at hn
    have hg := drop_drop' (n := runLen isSp u) (drop_succ' hn)
    simp only [Option.map_eq_some_iff] at ht
    obtain ⟨v, hv, rfl⟩ := ht
    have hv' := valueAt_in hg hv
    have hlt : p + runLen isSp s + 1 + runLen isSp u ≤ input.length := by
      have h1 := lt_of_drop hn
      have h2 := runLen_le isSp u
      have h3 := congrArg List.length (drop_succ' hn)
      simp at h3; omega
    refine ⟨eolAt_le hg hlt, atEol_eolAt hg, [_, v], rfl, ?_⟩
    refine ⟨by simp, op_in hn, ?_⟩
    exact placed_single (by have := hv'.2.1; simp; omega) hv'.1 hv'.2.2.1
  · simp at ht

theorem afterHeading_ok (op : Cap) : AfterOk input (afterHeadingKey op) [op] := by
  intro p s k t h hp ht
  unfold afterHeadingKey at ht
  simp only at ht
  have hn := drop_drop' (n := runLen isHs s) h
  have hle : p + runLen isHs s ≤ input.length := by
    have h2 := runLen_le isHs s
    have h3 := congrArg List.length h
    simp at h3; omega
  split at ht
  · rename_i hu
    rw [hu] at hn
    simp at ht; subst ht
    exact ⟨hle, by simp only []; rw [hn]; rfl, [], by simp [Body.caps], by simp [Placed]⟩
  · rename_i u hu
    rw [hu] at hn
    simp at ht; subst ht
    exact ⟨hle, by simp only []; rw [hn]; rfl, [], by simp [Body.caps], by simp [Placed]⟩
  · rename_i u hu
    rw [hu] at hn
    simp only [Option.map_eq_some_iff] at ht
    obtain ⟨v, hv, rfl⟩ := ht
    have hg : input.drop (p + runLen isHs s + 2) = u := by rw [drop_drop' hn]; rfl
    have hv' := valueAt_in hg hv
    have hlt : p + runLen isHs s + 2 ≤ input.length := lt_of_drop (drop_succ' hn)
    refine ⟨eolAt_le hg hlt, atEol_eolAt hg, [_, v], by simp [Body.caps]; rfl, ?_⟩
    refine ⟨by simp, ⟨by simp only []; rw [hn]; exact ⟨u, rfl⟩, rfl, by simp⟩, ?_⟩
    exact placed_single (by have := hv'.2.1; simp; omega) hv'.1 hv'.2.2.1
  · rename_i u hu
    rw [‹s.drop _ = _›] at hn
    simp only [Option.map_eq_some_iff] at ht
    obtain ⟨v, hv, rfl⟩ := ht
    have hg := drop_succ' hn
    have hv' := valueAt_in hg hv
    refine ⟨eolAt_le hg (lt_of_drop hn), atEol_eolAt hg, [_, v], by simp [Body.caps]; rfl, ?_⟩
    refine ⟨by simp, op_in hn, ?_⟩
    exact placed_single (by have := hv'.2.1; simp; omega) hv'.1 hv'.2.2.1
  · simp at ht

theorem plainKey_ok {after pre} (ha : AfterOk input after pre) {q : Char → Bool} {t : Tok} (h : input.drop p = s) (hp : p ≤ input.length)
    (hne : trimEnd (s.takeWhile q) ≠ [])
    (ht : plainKey q after p s = some t) :
    t.fin ≤ input.length ∧ atEol (input.drop t.fin) = true ∧ ∃ cs, t.body.caps = pre ++ cs ∧ Placed input p t.fin cs := by
  unfold plainKey at ht
  simp only at ht
  have hl := length_takeWhile_le q s
  have h3 := congrArg List.length h
  simp at h3
  obtain ⟨h1, h2, tl, h4, h5⟩ := ha _ _ _ _ (drop_drop' h) (by omega) ht
  refine ⟨h1, h2, _, by rw [h4, List.append_assoc], ?_⟩
  refine ⟨Nat.le_refl _, ⟨?_, rfl, hne⟩, placed_mono h5 ?_⟩
  · simp only []; rw [h]; exact (trimEnd_isPrefix _).trans (List.takeWhile_prefix _)
  · simp only []; have := trimEnd_length_le (s.takeWhile q); omega

theorem escapedKey_ok {after pre} (ha : AfterOk input after pre) {t : Tok} (h : input.drop p = s) (hp : p ≤ input.length)
    (hs : ∃ u, s = '`' :: u) (ht : escapedKey after p s = some t) :
    t.fin ≤ input.length ∧ atEol (input.drop t.fin) = true ∧ ∃ cs, t.body.caps = pre ++ cs ∧ Placed input p t.fin cs := by
  unfold escapedKey at ht
  simp only at ht
  obtain ⟨i, hi, ht⟩ := List.exists_of_findSome?_eq_some ht
  split at ht
  · rename_i htake
    have hn0 : 0 < runLen (· == '`') s := by obtain ⟨u, rfl⟩ := hs; simp [runLen]
    generalize hn : runLen (· == '`') s = n at *
    generalize hh : runLen isHs (s.drop n) = g at *
    generalize hg : runLen isHs ((s.drop (n + g)).drop (i + 1)) = g' at *
    have hlen := congrArg List.length h
    simp at hlen
    have hnl : n ≤ s.length := by rw [← hn]; exact runLen_le _ _
    have htl : (s.take n).length = n := by simp; omega
    have hal := congrArg List.length htake
    simp at hal
    have hi' : i < (lineOf (s.drop (n + g))).length := by simpa using hi
    have hi2 := (lineOf_prefix (s.drop (n + g))).length_le
    simp at hi2
    have hd := drop_drop' (n := n + g + (i + 1 + g') + n) h
    obtain ⟨h1, h2, tl, h4, h5⟩ := ha _ _ _ _ (by
      rw [show p + n + g + (i + 1) + g' + n = p + (n + g + (i + 1 + g') + n) by omega, hd, List.drop_drop, List.drop_drop, Nat.add_assoc (n + g)]) (by omega) ht
    refine ⟨h1, h2, _, by rw [h4, List.append_assoc], ?_⟩
    refine ⟨Nat.le_refl _, ⟨?_, ?_, ?_⟩, ?_, ⟨?_, ?_, ?_⟩, ?_, ⟨?_, ?_, ?_⟩, ?_⟩ <;> simp only []
    · rw [h]; exact List.take_prefix _ _
    · omega
    · intro e; rw [e] at htl; simp at htl; omega
    · omega
    · rw [show p + n + g = p + (n + g) by omega, drop_drop' h]; exact List.take_prefix _ _
    · rw [List.length_take, List.length_drop]; omega
    · intro e; have := congrArg List.length e; rw [List.length_take, List.length_drop] at this; simp at this; omega
    · omega
    · rw [show p + n + g + (i + 1) + g' = p + (n + g + (i + 1 + g')) by omega, drop_drop' h, ← List.drop_drop, ← htake]; exact List.take_prefix _ _
    · omega
    · intro e; rw [e] at htl; simp at htl; omega
    · exact h5
  · simp at ht

theorem length_of_drop (h : input.drop p = s) (hp : p ≤ input.length) : p + s.length = input.length := by
  have := congrArg List.length h; simp at this; omega

/-- What the operators and keys of headings and multiline openers look like. -/
def ShapeOk : Body → Prop
  | .heading op _ c => op.e = op.b + op.text.length ∧ 0 < op.text.length ∧ (∀ x ∈ op.text, x = '#') ∧
      ∀ a b, c = some (a, b) → (a.e - a.b = 2 ∨ a.e - a.b = 1)
  | .multiline op key => 2 ≤ op.text.length ∧ (∀ x ∈ op.text, x = '-') ∧ '\n' ∉ key.text ∧
      (∃ c u, key.text = c :: u ∧ isHs c = false) ∧ (∃ u c, key.text = u ++ [c] ∧ isHs c = false)
  | _ => True

theorem runLen_take_all {q : Char → Bool} (s : Str) : ∀ x ∈ s.take (runLen q s), q x = true := by
  unfold runLen; rw [take_takeWhile]; intro x hx; exact mem_takeWhile_imp hx

theorem headingAt_ok {t : Tok} (h : input.drop p = '#' :: s) (ht : headingAt p ('#' :: s) = some t) :
    TokOk input p t := by
  have hlt := lt_of_drop h
  have hlen := length_of_drop h (by omega)
  unfold headingAt at ht
  simp only at ht
  generalize hd : runLen (· == '#') ('#' :: s) = d at ht
  generalize hn : runLen isSp (('#' :: s).drop d) = n at ht
  have hd0 : 0 < d := by rw [← hd]; simp [runLen]
  have hdl : d ≤ ('#' :: s).length := by rw [← hd]; exact runLen_le _ _
  have hnl : n ≤ ('#' :: s).length - d := by rw [← hn, ← List.length_drop]; exact runLen_le _ _
  have hq : input.drop (p + d + n) = ('#' :: s).drop (d + n) := by rw [Nat.add_assoc]; exact drop_drop' h
  have hop : Cap.In input ⟨p, p + d, ('#' :: s).take d⟩ := by
    refine ⟨by simp only []; rw [h]; exact List.take_prefix _ _, by simp only [List.length_take]; omega, ?_⟩
    simp only []; intro e; have := congrArg List.length e; rw [List.length_take] at this; simp at this hdl; omega
  have hple : p + d + n ≤ input.length := by omega
  split at ht
  · simp at ht
  · simp at ht
  · rename_i u hu
    rw [hu] at ht hq
    obtain ⟨h1, h2, cs, h3, h4⟩ := escapedKey_ok (afterHeading_ok _) hq hple ⟨u, rfl⟩ ht
    exact ⟨h1, h2, by rw [h3]; exact ⟨Nat.le_refl _, hop, placed_mono h4 (by simp)⟩⟩
  · rename_i hr h1 h2
    obtain ⟨h1', h2', cs, h3, h4⟩ := plainKey_ok (afterHeading_ok _) hq hple (by
      cases hc : ('#' :: s).drop (d + n) with
      | nil => simp_all
      | cons c u =>
        intro e
        have e := (trimEnd_eq_nil_iff _).mp e
        have hns : isSp c = false := by
          have : (('#' :: s).drop d).dropWhile isSp = c :: u := by rw [← drop_takeWhile, List.drop_drop, ← hc, ← hn]; rfl
          exact dropWhile_head this
        have hc1 : c ≠ '<' := by intro e; subst e; exact h1 _ hc
        have hc2 : c ≠ '\n' := by intro e; subst e; simp at hns
        simp [hc1, hc2] at e
        rw [isHs_isSp e.1] at hns; simp at hns) ht
    exact ⟨h1', h2', by rw [h3]; exact ⟨Nat.le_refl _, hop, placed_mono h4 (by simp)⟩⟩

theorem dashAt_ok {t : Tok} (h : input.drop p = '-' :: s) (ht : dashAt p ('-' :: s) = some t) : TokOk input p t := by
  have hlt := lt_of_drop h
  have hlen := length_of_drop h (by omega)
  unfold dashAt at ht
  simp only at ht
  split at ht
  · simp at ht; subst ht
    exact ⟨eolAt_le (drop_succ' h) hlt, atEol_eolAt (drop_succ' h), placed_op_value h⟩
  · generalize hd : runLen (· == '-') ('-' :: s) = d at ht
    have hd0 : 0 < d := by rw [← hd]; simp [runLen]
    have hdl : d ≤ ('-' :: s).length := by rw [← hd]; exact runLen_le _ _
    simp only [Option.map_eq_some_iff] at ht
    obtain ⟨v, hv, rfl⟩ := ht
    have hg := drop_drop' (n := d) h
    have hv' := valueAt_in hg hv
    refine ⟨eolAt_le hg (by omega), atEol_eolAt hg, Nat.le_refl _, ⟨?_, ?_, ?_⟩, placed_single hv'.2.1 hv'.1 hv'.2.2.1⟩
    · simp only []; rw [h]; exact List.take_prefix _ _
    · simp only [List.length_take]; omega
    · simp only []; intro e; have := congrArg List.length e; rw [List.length_take] at this; simp at this hdl; omega

theorem runLen_le_len (h : input.drop p = s) (hp : p ≤ input.length) (q : Char → Bool) : p + runLen q s ≤ input.length := by
  have := length_of_drop h hp; have := runLen_le q s; omega

/-- Every recognised line is well placed. -/
theorem scan_ok {t : Tok} (hp : pos ≤ input.length) (ht : scan pos (input.drop pos) = some t) : TokOk input pos t := by
  have hr := drop_drop' (n := runLen isHs (input.drop pos)) (rfl : input.drop pos = _)
  have hle := runLen_le_len (rfl : input.drop pos = _) hp isHs
  unfold scan at ht
  simp only at ht
  split at ht
  · rename_i hu
    rw [hu] at hr
    simp at ht; subst ht
    exact ⟨hle, by simp only []; rw [hr]; rfl, by simp [Placed, Body.caps]⟩
  · rename_i c u hu
    rw [hu] at hr
    have lift : ∀ {t : Tok}, TokOk input (pos + runLen isHs (input.drop pos)) t → TokOk input pos t :=
      fun h => ⟨h.1, h.2, placed_mono h.3 (by omega)⟩
    have hlt := lt_of_drop hr
    apply lift
    have hnsp : c = '\n' ∨ isSp c = false := by
      have : (input.drop pos).dropWhile isHs = c :: u := by rw [← drop_takeWhile]; exact hu
      have := dropWhile_head this
      by_cases hc : c = '\n'
      · left; exact hc
      · right; simpa [isHs, hc] using this
    split at ht
    · rename_i hc; subst hc
      simp at ht; subst ht
      exact ⟨hle, by simp only []; rw [hr]; rfl, by simp [Placed, Body.caps]⟩
    · rename_i hnl
      split at ht
      · rename_i hc; subst hc
        simp at ht; subst ht
        exact ⟨eolAt_le (drop_succ' hr) hlt, atEol_eolAt (drop_succ' hr), placed_op_value hr⟩
      · split at ht
        · rename_i hc; subst hc
          simp at ht; subst ht
          exact ⟨eolAt_le (drop_succ' hr) hlt, atEol_eolAt (drop_succ' hr), placed_op_value hr⟩
        · split at ht
          · rename_i hc; subst hc
            simp at ht; subst ht
            exact ⟨eolAt_le (drop_succ' hr) hlt, atEol_eolAt (drop_succ' hr), placed_op_value hr⟩
          · split at ht
            · rename_i hc; subst hc
              rw [hu] at ht
              exact dashAt_ok hr ht
            · split at ht
              · rename_i hc; subst hc
                rw [hu] at ht
                exact headingAt_ok hr ht
              · split at ht
                · rename_i hc; subst hc
                  rw [hu] at ht
                  obtain ⟨h1, h2, cs, h3, h4⟩ := escapedKey_ok afterKey_ok hr hle ⟨u, rfl⟩ ht
                  exact ⟨h1, h2, by rw [h3]; exact h4⟩
                · split at ht
                  · simp at ht
                  · rename_i hops
                    rw [hu] at ht
                    obtain ⟨h1, h2, cs, h3, h4⟩ := plainKey_ok afterKey_ok hr hle (by
                      intro e
                      have e := (trimEnd_eq_nil_iff _).mp e
                      have hs := hnsp.resolve_left hnl
                      simp only [not_or] at hops
                      simp [hnl, hops] at e
                      rw [isHs_isSp e.1] at hs; simp at hs) ht
                    exact ⟨h1, h2, by rw [h3]; exact h4⟩

theorem findSome_mem {α β} {f : α → Option β} {l : List α} {b : β} (h : l.findSome? f = some b) : ∃ a, f a = some b := by
  obtain ⟨a, _, ha⟩ := List.exists_of_findSome?_eq_some h; exact ⟨a, ha⟩

theorem afterKey_shape {k : KeyTok} {t : Tok} (h : afterKey p s k = some t) : ShapeOk t.body ∧ ∀ op key, t.body ≠ .multiline op key := by
  unfold afterKey at h
  simp only at h
  split at h
  · simp at h; subst h; exact ⟨trivial, by simp⟩
  · simp at h; subst h; exact ⟨trivial, by simp⟩
  · simp only [Option.map_eq_some_iff] at h
    obtain ⟨v, _, rfl⟩ := h; exact ⟨trivial, by simp⟩
  · simp at h

theorem afterHeading_shape {k : KeyTok} {op : Cap} {t : Tok} (h1 : op.e = op.b + op.text.length) (h2 : 0 < op.text.length)
    (h3 : ∀ x ∈ op.text, x = '#') (h : afterHeadingKey op p s k = some t) : ShapeOk t.body := by
  unfold afterHeadingKey at h
  simp only at h
  split at h
  · simp at h; subst h; exact ⟨h1, h2, h3, by simp⟩
  · simp at h; subst h; exact ⟨h1, h2, h3, by simp⟩
  · simp only [Option.map_eq_some_iff] at h
    obtain ⟨v, _, rfl⟩ := h
    exact ⟨h1, h2, h3, by intro a b e; simp at e; left; rw [← e.1]; simp⟩
  · simp only [Option.map_eq_some_iff] at h
    obtain ⟨v, _, rfl⟩ := h
    exact ⟨h1, h2, h3, by intro a b e; simp at e; right; rw [← e.1]; simp⟩
  · simp at h

theorem escapedKey_after {after : Nat → Str → KeyTok → Option Tok} {t : Tok} (h : escapedKey after p s = some t) :
    ∃ p' s' k, after p' s' k = some t := by
  unfold escapedKey at h
  simp only at h
  obtain ⟨i, hi⟩ := findSome_mem h
  split at hi
  · exact ⟨_, _, _, hi⟩
  · simp at hi

theorem plainKey_after {after : Nat → Str → KeyTok → Option Tok} {q : Char → Bool} {t : Tok} (h : plainKey q after p s = some t) :
    ∃ p' s' k, after p' s' k = some t := ⟨_, _, _, h⟩

/-- Every recognised line has well-formed operators and keys. -/
theorem scan_shape {t : Tok} (ht : scan pos s = some t) : ShapeOk t.body := by
  unfold scan at ht
  simp only at ht
  split at ht
  · simp at ht; subst ht; trivial
  · rename_i c u hu
    split at ht
    · simp at ht; subst ht; trivial
    · split at ht
      · simp at ht; subst ht; trivial
      · split at ht
        · simp at ht; subst ht; trivial
        · split at ht
          · simp at ht; subst ht; trivial
          · split at ht
            · rename_i hc; subst hc
              rw [hu] at ht
              unfold dashAt at ht
              simp only at ht
              split at ht
              · simp at ht; subst ht; trivial
              · rename_i hd
                simp only [Option.map_eq_some_iff] at ht
                obtain ⟨v, hv, rfl⟩ := ht
                have hdl := runLen_le (· == '-') ('-' :: u)
                have hd0 : 0 < runLen (· == '-') ('-' :: u) := by simp [runLen]
                have hv' := valueAt_in (input := List.replicate (pos + runLen isHs s + runLen (· == '-') ('-' :: u)) 'a' ++ ('-' :: u).drop (runLen (· == '-') ('-' :: u)))
                  (by simp) hv
                refine ⟨by simp only [List.length_take]; omega, ?_, hv'.2.2.2.1, hv'.2.2.2.2.1, hv'.2.2.2.2.2⟩
                intro x hx
                simpa using runLen_take_all _ x hx
            · split at ht
              · rename_i hc; subst hc
                rw [hu] at ht
                unfold headingAt at ht
                simp only at ht
                have hdl := runLen_le (· == '#') ('#' :: u)
                have hd0 : 0 < runLen (· == '#') ('#' :: u) := by simp [runLen]
                have h1 : ∀ (a b : Nat), ((⟨a, a + runLen (· == '#') ('#' :: u), ('#' :: u).take (runLen (· == '#') ('#' :: u))⟩ : Cap).e) =
                    a + (('#' :: u).take (runLen (· == '#') ('#' :: u))).length := by
                  intro a b; simp only [List.length_take]; omega
                have h2 : 0 < (('#' :: u).take (runLen (· == '#') ('#' :: u))).length := by simp only [List.length_take]; omega
                have h3 : ∀ x ∈ ('#' :: u).take (runLen (· == '#') ('#' :: u)), x = '#' := by
                  intro x hx; simpa using runLen_take_all _ x hx
                split at ht
                · simp at ht
                · simp at ht
                · obtain ⟨_, _, _, h⟩ := escapedKey_after ht
                  exact afterHeading_shape (h1 _ 0) h2 h3 h
                · obtain ⟨_, _, _, h⟩ := plainKey_after ht
                  exact afterHeading_shape (h1 _ 0) h2 h3 h
              · split at ht
                · obtain ⟨_, _, _, h⟩ := escapedKey_after ht
                  exact (afterKey_shape h).1
                · split at ht
                  · simp at ht
                  · obtain ⟨_, _, _, h⟩ := plainKey_after ht
                    exact (afterKey_shape h).1

end Eno
