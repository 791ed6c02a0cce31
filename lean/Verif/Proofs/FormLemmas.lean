import Verif.Proofs.ScanRefine
import Verif.Spec.Forms

/-! # Computing the scanner on rendered lines -/

namespace Eno
open Spec

variable {w w1 w2 v r s : Str} {pos : Nat}

theorem Spec.Blank.all (h : Blank w) : w.all isHs = true := List.all_eq_true.mpr h
theorem Spec.Blank.noNl (h : Blank w) : '\n' ∉ w := fun hm => by have := h _ hm; simp at this

theorem Spec.LineEnd.atEol (h : LineEnd r) : atEol r = true := by
  rcases h with rfl | ⟨t, rfl⟩ <;> simp [Eno.atEol]

theorem lineOf_append (hv : '\n' ∉ v) (r : Str) : lineOf (v ++ r) = v ++ lineOf r := by
  unfold lineOf
  rw [List.takeWhile_append_of_pos]
  intro a ha
  simp; rintro rfl; exact hv ha

theorem Spec.LineEnd.lineOf (h : LineEnd r) : lineOf r = [] := by
  rcases h with rfl | ⟨t, rfl⟩ <;> simp [Spec.lineOf]

theorem Spec.LineEnd.dropHs (h : LineEnd r) : runLen isHs r = 0 := by
  rcases h with rfl | ⟨t, rfl⟩ <;> simp [runLen]

theorem trimEnd_append_blank (hw : Blank w) (hv : ∃ t c, v = t ++ [c] ∧ isHs c = false) : trimEnd (v ++ w) = v := by
  obtain ⟨t, c, rfl, hc⟩ := hv
  unfold trimEnd
  rw [List.reverse_append, List.dropWhile_append_of_pos]
  · simp [hc]
  · intro a ha; exact hw a (by simpa using ha)

theorem trimEnd_blank (hw : Blank w) : trimEnd w = [] := (trimEnd_eq_nil_iff w).mpr hw.all

theorem runLen_blank (hw : Blank w) (r : Str) : runLen isHs (w ++ r) = w.length + runLen isHs r :=
  runLen_append_hs (fun _ h => h) hw.all

theorem runLen_blank_sp (hw : Blank w) (r : Str) : runLen isSp (w ++ r) = w.length + runLen isSp r :=
  runLen_append_hs (fun _ h => isHs_isSp h) hw.all

theorem Spec.Trimmed.runHs (h : Trimmed v) (r : Str) : runLen isHs (v ++ r) = 0 := by
  obtain ⟨c, t, rfl, hc⟩ := h.head
  simp [runLen, hc]

theorem Spec.Trimmed.ne_nil (h : Trimmed v) : v ≠ [] := by
  obtain ⟨c, t, rfl, hc⟩ := h.head; simp

theorem Spec.Trimmed.not_sp (h : Trimmed v) : ∃ c t, v = c :: t ∧ isSp c = false := by
  obtain ⟨c, t, rfl, hc⟩ := h.head
  have hn : c ≠ '\n' := by rintro rfl; exact h.oneLine (by simp)
  exact ⟨c, t, rfl, by simpa [isHs, hn] using hc⟩

theorem Spec.Trimmed.runSp (h : Trimmed v) (r : Str) : runLen isSp (v ++ r) = 0 := by
  obtain ⟨c, t, rfl, hc⟩ := h.not_sp
  simp [runLen, hc]

/-- A padded value is read back exactly. -/
theorem valueAt_padded (h1 : Blank w1) (h2 : Blank w2) (hv : Trimmed v) (hr : LineEnd r) (pos : Nat) :
    valueAt pos (w1 ++ (v ++ (w2 ++ r))) = some ⟨pos + w1.length, pos + w1.length + v.length, v⟩ := by
  unfold valueAt
  simp only [runLen_blank h1, hv.runHs, Nat.add_zero]
  rw [List.drop_left, lineOf_append hv.oneLine, lineOf_append h2.noNl, hr.lineOf, List.append_nil,
    trimEnd_append_blank h2 hv.last, if_neg hv.ne_nil]

theorem valueAt_blank (h1 : Blank w1) (hr : LineEnd r) (pos : Nat) : valueAt pos (w1 ++ r) = none := by
  unfold valueAt
  simp only [runLen_blank h1, hr.dropHs, Nat.add_zero]
  rw [List.drop_left, hr.lineOf]; simp [trimEnd]

theorem eolAt_padded (h1 : Blank w1) (h2 : Blank w2) (hv : '\n' ∉ v) (hr : LineEnd r) (pos : Nat) :
    eolAt pos (w1 ++ (v ++ (w2 ++ r))) = pos + w1.length + v.length + w2.length := by
  unfold eolAt
  rw [lineOf_append h1.noNl, lineOf_append hv, lineOf_append h2.noNl, hr.lineOf]
  simp; omega

theorem eolAt_blank (h1 : Blank w1) (hr : LineEnd r) (pos : Nat) : eolAt pos (w1 ++ r) = pos + w1.length := by
  unfold eolAt
  rw [lineOf_append h1.noNl, hr.lineOf]; simp

theorem scan_indent (hw : Blank w) (s : Str) (pos : Nat) : scan pos (w ++ s) = scan (pos + w.length) s := by
  rw [scan_skip, scan_skip (pos + w.length) s, runLen_blank hw, drop_append_add, Nat.add_assoc]

theorem scan_head {c : Char} {t : Str} (hc : isHs c = false) (pos : Nat) : scan pos (c :: t) =
    if c = '\n' then some ⟨pos, .empty⟩
    else if c = '|' then
      some ⟨eolAt (pos + 1) t, .continuation false ⟨pos, pos + 1, ['|']⟩ (valueAt (pos + 1) t)⟩
    else if c = '\\' then
      some ⟨eolAt (pos + 1) t, .continuation true ⟨pos, pos + 1, ['\\']⟩ (valueAt (pos + 1) t)⟩
    else if c = '>' then
      some ⟨eolAt (pos + 1) t, .comment ⟨pos, pos + 1, ['>']⟩ (valueAt (pos + 1) t)⟩
    else if c = '-' then dashAt pos (c :: t)
    else if c = '#' then headingAt pos (c :: t)
    else if c = '`' then escapedKey afterKey pos (c :: t)
    else if c = ':' ∨ c = '=' ∨ c = '<' then none
    else plainKey (fun c => c != '\n' && c != ':' && c != '=' && c != '<') afterKey pos (c :: t) := by
  unfold scan
  have : runLen isHs (c :: t) = 0 := by simp [runLen, hc]
  simp only [this, Nat.add_zero, List.drop_zero]

/-- A plain key, padded, in front of anything that starts with an operator. -/
theorem scan_plainKey {k : Str} (hk : PlainKey k) (hw : Blank w) {c : Char} (hc : c = ':' ∨ c = '=' ∨ c = '<') (t : Str) (pos : Nat) :
    scan pos (k ++ (w ++ c :: t)) =
      afterKey (pos + k.length + w.length) (c :: t) (.plain ⟨pos, pos + k.length, k⟩) := by
  obtain ⟨a, u, rfl, ha⟩ := hk.head
  have hs := hk.start a u rfl
  have ho := hk.noOp a (by simp)
  have hnl : a ≠ '\n' := by rintro rfl; exact hk.oneLine (by simp)
  simp only [List.mem_cons, List.not_mem_nil, or_false, not_or] at hs
  rw [List.cons_append, scan_head ha, ← List.cons_append]
  simp only [hnl, hs, ho, if_false, or_false]
  generalize hK : a :: u = k at *
  unfold plainKey
  have htw : (k ++ (w ++ c :: t)).takeWhile (fun c => c != '\n' && c != ':' && c != '=' && c != '<') = k ++ w := by
    rw [List.takeWhile_append_of_pos, List.takeWhile_append_of_pos, List.takeWhile_cons_of_neg, List.append_nil]
    · rcases hc with rfl | rfl | rfl <;> simp
    · intro x hx
      have h1 := hw x hx
      have h2 := isSp_not_op (isHs_isSp h1)
      have h3 := isHs_ne_nl h1
      simp [h2, h3]
    · intro x hx
      have h2 := hk.noOp x hx
      have h3 : x ≠ '\n' := by rintro rfl; exact hk.oneLine hx
      simp [h2, h3]
  simp only [htw, trimEnd_append_blank hw hk.last]
  rw [← List.append_assoc k w, List.drop_left, List.length_append, Nat.add_assoc]

theorem isSp_op {c : Char} (hc : c = ':' ∨ c = '=' ∨ c = '<') : isSp c = false := by
  rcases hc with rfl | rfl | rfl <;> decide

theorem afterKey_blank (hw : Blank w) {c : Char} (t : Str) (pos : Nat) (k : KeyTok) :
    afterKey pos (w ++ c :: t) k = afterKey (pos + w.length) (c :: t) k := by
  exact follow_key.skip hw.all

theorem afterKey_element (t : Str) (pos : Nat) (k : KeyTok) : afterKey pos (':' :: t) k =
    some ⟨eolAt (pos + 1) t, .element k ⟨pos, pos + 1, [':']⟩ (valueAt (pos + 1) t)⟩ := by
  have : runLen isSp (':' :: t) = 0 := by simp [runLen, isSp]
  simp [afterKey, this]

theorem afterKey_entry (t : Str) (pos : Nat) (k : KeyTok) : afterKey pos ('=' :: t) k =
    some ⟨eolAt (pos + 1) t, .entry k ⟨pos, pos + 1, ['=']⟩ (valueAt (pos + 1) t)⟩ := by
  have : runLen isSp ('=' :: t) = 0 := by simp [runLen, isSp]
  simp [afterKey, this]

theorem afterKey_copy (h1 : Blank w1) (h2 : Blank w2) (hv : Trimmed v) (hr : LineEnd r) (pos : Nat) (k : KeyTok) :
    afterKey pos ('<' :: (w1 ++ (v ++ (w2 ++ r)))) k =
    some ⟨pos + 1 + w1.length + v.length + w2.length, .copy k ⟨pos, pos + 1, ['<']⟩
      ⟨pos + 1 + w1.length, pos + 1 + w1.length + v.length, v⟩⟩ := by
  have : ∀ t, runLen isSp ('<' :: t) = 0 := by simp [runLen, isSp]
  simp only [afterKey, this, Nat.add_zero, List.drop_zero, runLen_blank_sp h1, hv.runSp, List.drop_left]
  have := valueAt_padded (w1 := []) (by intro _ h; simp at h) h2 hv hr (pos + 1 + w1.length)
  have h3 := eolAt_padded (w1 := []) (by intro _ h; simp at h) h2 hv.oneLine hr (pos + 1 + w1.length)
  simp only [List.nil_append, List.length_nil, Nat.add_zero] at this h3
  simp [this, h3]

/-! ### Escaped keys -/

theorem take_rep_append {n : Nat} {c : Char} {x y : Str} (h : (x ++ y).take n = rep n c) :
    x.take n = rep n c ∨ (x = rep x.length c ∧ x.length < n ∧ y.take (n - x.length) = rep (n - x.length) c) := by
  induction x generalizing n with
  | nil =>
    by_cases hn : n = 0
    · left; subst hn; rfl
    · right; simp [rep] at h ⊢; exact ⟨by omega, h⟩
  | cons a t ih =>
    cases n with
    | zero => left; rfl
    | succ n =>
      simp only [rep, List.cons_append, List.take_succ_cons, List.replicate_succ, List.cons.injEq] at h
      rcases ih h.2 with h1 | ⟨h1, h2, h3⟩
      · left; simp only [List.take_succ_cons, rep, List.replicate_succ, h.1]; rw [h1]; rfl
      · right
        refine ⟨?_, by simp; omega, ?_⟩
        · simp only [rep, List.length_cons, List.replicate_succ, h.1]; rw [← rep, ← h1]
        · simpa using h3

theorem last_of_suffix {k b m : Str} {c' c : Char} {i : Nat} (h : k.drop i = b ++ c' :: m) (hk : ∃ t, k = t ++ [c]) :
    ∃ u, c' :: m = u ++ [c] := by
  obtain ⟨t, rfl⟩ := hk
  have h1 : (t ++ [c]).getLast? = some c := by simp
  have h2 : ((t ++ [c]).drop i).getLast? = some c := by
    rw [List.getLast?_drop]
    have : ¬ (t ++ [c]).length ≤ i := by
      intro hl; rw [List.drop_eq_nil_of_le hl] at h; simp at h
    rw [if_neg this, h1]
  rw [h, List.getLast?_append] at h2
  have h3 : (c' :: m).getLast? = some c := by
    rw [List.getLast?_cons] at h2 ⊢; simpa using h2
  exact ⟨_, (List.getLast?_eq_some_iff.mp h3).choose_spec⟩

/-- When the backtick run is longer than any inside the key (and kept apart from it), exactly the key is read. -/
theorem escapedKey_padded {after : Nat → Str → KeyTok → Option Tok} {n : Nat} {k p1 p2 t : Str} (hn : 0 < n)
    (hk : Trimmed k) (h1 : Blank p1) (h2 : Blank p2)
    (hinf : ¬ rep n '`' <:+: k)
    (hfst : p1 ≠ [] ∨ ∀ u, k ≠ '`' :: u) (hlst : p2 ≠ [] ∨ ∀ u, k ≠ u ++ ['`'])
    (pos : Nat) (tk : Tok)
    (hafter : after (pos + n + p1.length + k.length + p2.length + n) t
      (.escaped ⟨pos, pos + n, rep n '`'⟩ ⟨pos + n + p1.length, pos + n + p1.length + k.length, k⟩
        ⟨pos + n + p1.length + k.length + p2.length, pos + n + p1.length + k.length + p2.length + n, rep n '`'⟩) = some tk) :
    escapedKey after pos (rep n '`' ++ (p1 ++ (k ++ (p2 ++ (rep n '`' ++ t))))) = some tk := by
  have hrl : ∀ x, runLen (· == '`') (rep n '`' ++ x) = n + runLen (· == '`') x := by
    intro x
    unfold runLen
    rw [List.takeWhile_append_of_pos]
    · simp [rep]
    · intro a ha; simp [rep] at ha; simp [ha.2]
  have hx0 : runLen (· == '`') (p1 ++ (k ++ (p2 ++ (rep n '`' ++ t)))) = 0 := by
    cases p1 with
    | nil =>
      obtain ⟨a, u, rfl, ha⟩ := hk.head
      have : a ≠ '`' := by
        rintro rfl
        rcases hfst with h | h
        · exact h rfl
        · exact h u rfl
      simp [runLen, this]
    | cons a u =>
      have := h1 a (by simp)
      have : a ≠ '`' := by rintro rfl; exact absurd this (by decide)
      simp [runLen, this]
  have hlen : (rep n '`').length = n := by simp [rep]
  have hd1 : ∀ x : Str, (rep n '`' ++ x).drop n = x := by
    intro x; conv => lhs; arg 1; rw [← hlen]
    simp
  have ht1 : ∀ x : Str, (rep n '`' ++ x).take n = rep n '`' := by
    intro x; conv => lhs; arg 1; rw [← hlen]
    simp
  have hticknohs : ∀ x, runLen isHs (rep n '`' ++ x) = 0 := by
    intro x
    obtain ⟨m, rfl⟩ : ∃ m, n = m + 1 := ⟨n - 1, by omega⟩
    simp [rep, List.replicate_succ, runLen]
    rw [List.takeWhile_cons_of_neg (by decide)]
  unfold escapedKey
  simp only [hrl, hx0, Nat.add_zero, ht1, hd1, runLen_blank h1, hk.runHs]
  have hd2 : (rep n '`' ++ (p1 ++ (k ++ (p2 ++ (rep n '`' ++ t))))).drop (n + p1.length) = k ++ (p2 ++ (rep n '`' ++ t)) := by
    rw [← List.drop_drop, hd1, List.drop_left]
  rw [hd2]
  obtain ⟨m, hm⟩ : ∃ m, k.length = m + 1 := by
    have := hk.ne_nil; exact ⟨k.length - 1, by have := List.length_pos_iff.mpr this; omega⟩
  have hll : (lineOf (k ++ (p2 ++ (rep n '`' ++ t)))).length = m + (1 + (lineOf (p2 ++ (rep n '`' ++ t))).length) := by
    rw [lineOf_append hk.oneLine, List.length_append, hm]; omega
  rw [hll, List.range_add, List.findSome?_append]
  have hfirst : (List.range m).findSome? (fun i =>
      if ((k ++ (p2 ++ (rep n '`' ++ t))).drop (i + 1 + runLen isHs ((k ++ (p2 ++ (rep n '`' ++ t))).drop (i + 1)))).take n = rep n '`' then
        after (pos + n + p1.length + (i + 1) + runLen isHs ((k ++ (p2 ++ (rep n '`' ++ t))).drop (i + 1)) + n)
          (((k ++ (p2 ++ (rep n '`' ++ t))).drop (i + 1 + runLen isHs ((k ++ (p2 ++ (rep n '`' ++ t))).drop (i + 1)))).drop n)
          (.escaped ⟨pos, pos + n, rep n '`'⟩ ⟨pos + n + p1.length, pos + n + p1.length + (i + 1), (k ++ (p2 ++ (rep n '`' ++ t))).take (i + 1)⟩
            ⟨pos + n + p1.length + (i + 1) + runLen isHs ((k ++ (p2 ++ (rep n '`' ++ t))).drop (i + 1)),
              pos + n + p1.length + (i + 1) + runLen isHs ((k ++ (p2 ++ (rep n '`' ++ t))).drop (i + 1)) + n, rep n '`'⟩)
      else none) = none := by
    rw [List.findSome?_eq_none_iff]
    intro i hi
    rw [List.mem_range] at hi
    rw [if_neg]
    rw [← List.drop_drop, List.drop_append_of_le_length (by omega : i + 1 ≤ k.length)]
    have hlast := hk.last
    obtain ⟨t', c, hkc, hcc⟩ := hlast
    have hne : ¬ (k.drop (i + 1)).all isHs = true := by
      intro hall
      rw [List.all_eq_true] at hall
      have : c ∈ k.drop (i + 1) := by
        have h3 : (k.drop (i + 1)).getLast? = some c := by
          rw [List.getLast?_drop, if_neg (by omega), hkc]; simp
        exact List.mem_of_getLast? h3
      rw [hall c this] at hcc; cases hcc
    cases hd : (k.drop (i + 1)).dropWhile isHs with
    | nil =>
      exfalso; apply hne
      have e := takeWhile_append_dropWhile' isHs (k.drop (i + 1))
      rw [hd, List.append_nil] at e
      rw [e, List.all_eq_true]; intro x hx; exact mem_takeWhile_imp hx
    | cons c' w =>
      have e := takeWhile_append_dropWhile' isHs (k.drop (i + 1))
      rw [hd] at e
      have hcn := dropWhile_head hd
      have hb : Blank ((k.drop (i + 1)).takeWhile isHs) := fun x hx => mem_takeWhile_imp hx
      generalize (k.drop (i + 1)).takeWhile isHs = b at e hb
      rw [e, List.append_assoc, runLen_blank hb, List.cons_append]
      have h0 : ∀ x, runLen isHs (c' :: x) = 0 := by intro x; simp [runLen, hcn]
      rw [h0, Nat.add_zero, List.drop_left, ← List.cons_append]
      intro heq
      obtain ⟨u, hu⟩ := last_of_suffix e ⟨t', hkc⟩
      rcases take_rep_append heq with h3 | ⟨h3, h4, h5⟩
      · apply hinf
        refine ⟨k.take (i + 1) ++ b, (c' :: w).drop n, ?_⟩
        rw [← h3, List.append_assoc, List.append_assoc, List.take_append_drop, ← e, List.take_append_drop]
      · have hctick : c = '`' := by
          have : c ∈ rep (c' :: w).length '`' := by rw [← h3, hu]; simp
          simp [rep] at this; exact this
        subst hctick
        cases p2 with
        | nil =>
          rcases hlst with h | h
          · exact h rfl
          · exact h t' hkc
        | cons q qs =>
          have hq := h2 q (by simp)
          obtain ⟨z, hz⟩ : ∃ z, n - (c' :: w).length = z + 1 := ⟨n - (c' :: w).length - 1, by omega⟩
          rw [hz] at h5
          simp [rep, List.replicate_succ] at h5
          rw [h5.1] at hq; exact absurd hq (by decide)
  simp only [← List.drop_drop] at hfirst ⊢
  rw [hfirst, Option.none_or, List.range_add, List.map_append, List.findSome?_append]
  have hdk : ((k ++ (p2 ++ (rep n '`' ++ t))).drop m).drop 1 = p2 ++ (rep n '`' ++ t) := by
    rw [List.drop_drop, ← hm, List.drop_left]
  simp only [List.range_one, List.map_cons, List.map_nil, Nat.add_zero, List.findSome?_cons, List.findSome?_nil, hdk,
    runLen_blank h2, hticknohs, List.drop_left, ht1, hd1, if_true, ← hm, List.take_left]
  rw [hafter]
  rfl

/-! ### Headings and dashes -/

theorem runLen_rep {n : Nat} {c : Char} {x : Str} (h : ∀ u, x ≠ c :: u) : runLen (· == c) (rep n c ++ x) = n := by
  unfold runLen
  rw [List.takeWhile_append_of_pos]
  · cases x with
    | nil => simp [rep]
    | cons a t =>
      have : a ≠ c := by rintro rfl; exact h t rfl
      simp [rep, this]
  · intro a ha; simp [rep] at ha; simp [ha.2]

theorem drop_rep (n : Nat) (c : Char) (x : Str) : (rep n c ++ x).drop n = x := by
  have hlen : (rep n c).length = n := by simp [rep]
  conv => lhs; arg 1; rw [← hlen]
  simp
theorem take_rep (n : Nat) (c : Char) (x : Str) : (rep n c ++ x).take n = rep n c := by
  have hlen : (rep n c).length = n := by simp [rep]
  conv => lhs; arg 1; rw [← hlen]
  simp

theorem afterHeadingKey_plain (op : Cap) (hw : Blank w) (hr : LineEnd r) (pos : Nat) (k : KeyTok) :
    afterHeadingKey op pos (w ++ r) k = some ⟨pos + w.length, .heading op k none⟩ := by
  unfold afterHeadingKey
  simp only [runLen_blank hw, hr.dropHs, Nat.add_zero, List.drop_left]
  rcases hr with rfl | ⟨t, rfl⟩ <;> simp

theorem afterHeadingKey_copy (op : Cap) (deep : Bool) (h0 : Blank w) (h1 : Blank w1) (h2 : Blank w2) (hv : Trimmed v) (hr : LineEnd r)
    (hsep : w1 ≠ [] ∨ ∀ u, v ≠ '<' :: u) (pos : Nat) (k : KeyTok) :
    afterHeadingKey op pos (w ++ (rep (if deep then 2 else 1) '<' ++ (w1 ++ (v ++ (w2 ++ r))))) k =
      some ⟨pos + w.length + (if deep then 2 else 1) + w1.length + v.length + w2.length,
        .heading op k (some (⟨pos + w.length, pos + w.length + (if deep then 2 else 1), rep (if deep then 2 else 1) '<'⟩,
          ⟨pos + w.length + (if deep then 2 else 1) + w1.length, pos + w.length + (if deep then 2 else 1) + w1.length + v.length, v⟩))⟩ := by
  have hns : isHs '<' = false := by decide
  cases deep with
  | true =>
    unfold afterHeadingKey
    simp only [if_true, runLen_blank h0, rep, List.replicate, List.cons_append, List.nil_append]
    rw [show ∀ x, runLen isHs ('<' :: x) = 0 by intro x; simp [runLen, hns]]
    simp only [Nat.add_zero, List.drop_left, valueAt_padded h1 h2 hv hr, eolAt_padded h1 h2 hv.oneLine hr, Option.map_some]
  | false =>
    unfold afterHeadingKey
    simp only [Bool.false_eq_true, if_false, runLen_blank h0, rep, List.replicate, List.cons_append, List.nil_append]
    rw [show ∀ x, runLen isHs ('<' :: x) = 0 by intro x; simp [runLen, hns]]
    simp only [Nat.add_zero, List.drop_left]
    have hv' := valueAt_padded h1 h2 hv hr (pos + w.length + 1)
    have he' := eolAt_padded h1 h2 hv.oneLine hr (pos + w.length + 1)
    have hne : ∀ u, w1 ++ (v ++ (w2 ++ r)) ≠ '<' :: u := by
      intro u hu
      cases w1 with
      | nil =>
        obtain ⟨a, b, rfl, ha⟩ := hv.head
        rcases hsep with h | h
        · exact h rfl
        · simp at hu; rw [hu.1] at h; exact h b rfl
      | cons a b =>
        have := h1 a (by simp)
        simp at hu; rw [hu.1] at this; rw [hns] at this; cases this
    generalize w1 ++ (v ++ (w2 ++ r)) = x at hv' he' hne
    cases x with
    | nil => simp [hv', he']
    | cons a b =>
      have : a ≠ '<' := by rintro rfl; exact hne b rfl
      split <;> simp_all

/-- A heading, up to its key. -/
theorem headingAt_plain {n : Nat} {k t : Str} (hn : 0 < n) (h1 : Blank w1) (hk : PlainHeadingKey k)
    (hsep : w1 ≠ [] ∨ ∀ u, k ≠ '#' :: u) (hw : Blank w) (ht : LineEnd t ∨ ∃ u, t = '<' :: u) (pos : Nat) :
    scan pos (rep n '#' ++ (w1 ++ (k ++ (w ++ t)))) =
      afterHeadingKey ⟨pos, pos + n, rep n '#'⟩ (pos + n + w1.length + k.length) (w ++ t)
        (.plain ⟨pos + n + w1.length, pos + n + w1.length + k.length, k⟩) := by
  have hne : ∀ u, w1 ++ (k ++ (w ++ t)) ≠ '#' :: u := by
    intro u hu
    cases w1 with
    | nil =>
      obtain ⟨a, b, rfl, ha⟩ := hk.head
      rcases hsep with h | h
      · exact h rfl
      · simp at hu; rw [hu.1] at h; exact h b rfl
    | cons a b =>
      have := h1 a (by simp)
      simp at hu; rw [hu.1] at this; exact absurd this (by decide)
  have hscan : scan pos (rep n '#' ++ (w1 ++ (k ++ (w ++ t)))) = headingAt pos (rep n '#' ++ (w1 ++ (k ++ (w ++ t)))) := by
    obtain ⟨m, rfl⟩ : ∃ m, n = m + 1 := ⟨n - 1, by omega⟩
    simp only [rep, List.replicate_succ, List.cons_append]
    rw [scan_head (by decide)]
    simp
  rw [hscan]
  unfold headingAt
  simp only [runLen_rep hne, drop_rep, take_rep, runLen_blank_sp h1, hk.runSp, Nat.add_zero]
  rw [← List.drop_drop, drop_rep, List.drop_left]
  obtain ⟨a, b, hab, ha⟩ := hk.head
  have ha1 := hk.start a b hab
  have ha2 : a ≠ '<' := by rintro rfl; exact hk.noOp (by rw [hab]; simp)
  have htw : (k ++ (w ++ t)).takeWhile (fun c => c != '<' && c != '\n') = k ++ w := by
    rw [List.takeWhile_append_of_pos, List.takeWhile_append_of_pos]
    · rcases ht with (rfl | ⟨u, rfl⟩) | ⟨u, rfl⟩ <;> simp
    · intro x hx
      have h1 := hw x hx
      have h2 := isSp_not_op (isHs_isSp h1)
      have h3 := isHs_ne_nl h1
      simp [h2, h3]
    · intro x hx
      have h2 : x ≠ '<' := by rintro rfl; exact hk.noOp hx
      have h3 : x ≠ '\n' := by rintro rfl; exact hk.oneLine hx
      simp [h2, h3]
  have hp : plainKey (fun c => c != '<' && c != '\n') (afterHeadingKey ⟨pos, pos + n, rep n '#'⟩) (pos + n + w1.length) (k ++ (w ++ t)) =
      afterHeadingKey ⟨pos, pos + n, rep n '#'⟩ (pos + n + w1.length + k.length) (w ++ t)
        (.plain ⟨pos + n + w1.length, pos + n + w1.length + k.length, k⟩) := by
    unfold plainKey
    simp only [htw, trimEnd_append_blank hw hk.last]
    rw [← List.append_assoc k w, List.drop_left, List.length_append, ← Nat.add_assoc]
    exact ((follow_heading _).skip hw.all).symm
  rw [← hp]
  rw [hab, List.cons_append]
  split
  · rename_i h; cases h
  · rename_i h; simp at h; exact absurd h.1 ha2
  · rename_i h; simp at h; exact absurd h.1 ha1
  · rfl

theorem headingAt_escaped {n m : Nat} {k t p1 p2 : Str} (hn : 0 < n) (h0 : Blank w) (hm : 0 < m)
    (hk : Trimmed k) (h1 : Blank p1) (h2 : Blank p2)
    (hinf : ¬ rep m '`' <:+: k)
    (hfst : p1 ≠ [] ∨ ∀ u, k ≠ '`' :: u) (hlst : p2 ≠ [] ∨ ∀ u, k ≠ u ++ ['`']) (pos : Nat) (tk : Tok)
    (hafter : afterHeadingKey ⟨pos, pos + n, rep n '#'⟩ (pos + n + w.length + m + p1.length + k.length + p2.length + m) t
      (.escaped ⟨pos + n + w.length, pos + n + w.length + m, rep m '`'⟩
        ⟨pos + n + w.length + m + p1.length, pos + n + w.length + m + p1.length + k.length, k⟩
        ⟨pos + n + w.length + m + p1.length + k.length + p2.length,
          pos + n + w.length + m + p1.length + k.length + p2.length + m, rep m '`'⟩) = some tk) :
    scan pos (rep n '#' ++ (w ++ (rep m '`' ++ (p1 ++ (k ++ (p2 ++ (rep m '`' ++ t))))))) = some tk := by
  have hne : ∀ u, w ++ (rep m '`' ++ (p1 ++ (k ++ (p2 ++ (rep m '`' ++ t))))) ≠ '#' :: u := by
    intro u hu
    cases w with
    | nil =>
      obtain ⟨m', rfl⟩ : ∃ m', m = m' + 1 := ⟨m - 1, by omega⟩
      simp [rep, List.replicate_succ] at hu
    | cons a b =>
      have := h0 a (by simp)
      simp at hu; rw [hu.1] at this; exact absurd this (by decide)
  have hscan : ∀ x, scan pos (rep n '#' ++ x) = headingAt pos (rep n '#' ++ x) := by
    intro x
    obtain ⟨m, rfl⟩ : ∃ m, n = m + 1 := ⟨n - 1, by omega⟩
    simp only [rep, List.replicate_succ, List.cons_append]
    rw [scan_head (by decide)]
    simp
  rw [hscan]
  unfold headingAt
  have hsp : ∀ x, runLen isSp (rep m '`' ++ x) = 0 := by
    intro x
    obtain ⟨m', rfl⟩ : ∃ m', m = m' + 1 := ⟨m - 1, by omega⟩
    simp [rep, List.replicate_succ, runLen]
    rw [List.takeWhile_cons_of_neg (by decide)]
  simp only [runLen_rep hne, drop_rep, take_rep, runLen_blank_sp h0, hsp, Nat.add_zero]
  rw [← List.drop_drop, drop_rep, List.drop_left]
  have := escapedKey_padded hm hk h1 h2 hinf hfst hlst (pos + n + w.length) tk hafter
  rw [← this]
  obtain ⟨m', rfl⟩ : ∃ m', m = m' + 1 := ⟨m - 1, by omega⟩
  simp only [rep, List.replicate_succ, List.cons_append]

theorem scan_listItem {t : Str} (h : ∀ u, t ≠ '-' :: u) (pos : Nat) :
    scan pos ('-' :: t) = some ⟨eolAt (pos + 1) t, .listItem ⟨pos, pos + 1, ['-']⟩ (valueAt (pos + 1) t)⟩ := by
  rw [scan_head (by decide)]
  have : runLen (· == '-') ('-' :: t) = 1 := runLen_rep (n := 1) (c := '-') h
  simp [dashAt, this]

theorem scan_multiline {n : Nat} {t : Str} (hn : 2 ≤ n) (h : ∀ u, t ≠ '-' :: u) (pos : Nat) :
    scan pos (rep n '-' ++ t) = (valueAt (pos + n) t).map fun v => ⟨eolAt (pos + n) t, .multiline ⟨pos, pos + n, rep n '-'⟩ v⟩ := by
  have hscan : ∀ x, scan pos (rep n '-' ++ x) = dashAt pos (rep n '-' ++ x) := by
    intro x
    obtain ⟨m, rfl⟩ : ∃ m, n = m + 1 := ⟨n - 1, by omega⟩
    simp only [rep, List.replicate_succ, List.cons_append]
    rw [scan_head (by decide)]
    simp
  rw [hscan]
  simp only [dashAt, runLen_rep h, drop_rep, take_rep]
  rw [if_neg (by omega)]

end Eno
