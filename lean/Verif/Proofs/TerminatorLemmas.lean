import Verif.Spec.Terminator
import Verif.Proofs.FormLemmas

/-! # The terminator expression of `analyzer.py:336` is the line-wise search -/

namespace Eno
open Re Grammar Spec

variable {pos : Nat} {rest t : Str} {caps : Nat → Option Cap} {c : Char} {k : St → Option St}

theorem run_str (w : Str) : ∀ (pos : Nat) (rest : Str), run (str w) ⟨pos, rest, caps⟩ k =
    if w.isPrefixOf rest then k ⟨pos + w.length, rest.drop w.length, caps⟩ else none := by
  induction w with
  | nil => intro pos rest; simp [str, run]
  | cons a w ih =>
    intro pos rest
    rw [str, run_seq]
    cases rest with
    | nil => simp [run_lit_nil]
    | cons b u =>
      rw [run_lit_cons]
      by_cases h : b = a
      · subst h; simp [ih, Nat.add_assoc, Nat.add_comm 1]
      · have : ¬ a = b := fun e => h e.symm
        simp [h, List.isPrefixOf, this]

theorem isPrefixOf_take {w s : Str} (h : w.isPrefixOf s = true) : s.take w.length = w := by
  rw [List.isPrefixOf_iff_prefix] at h
  obtain ⟨u, rfl⟩ := h; simp

theorem isPrefixOf_lineOf {w : Str} (hw : '\n' ∉ w) (s : Str) : w.isPrefixOf (lineOf s) = w.isPrefixOf s := by
  induction w generalizing s with
  | nil => simp
  | cons a w ih =>
    cases s with
    | nil => simp [lineOf_nil]
    | cons b u =>
      simp at hw
      by_cases hb : b = '\n'
      · subst hb; rw [lineOf_nl]; simp [List.isPrefixOf]; intro e; exact absurd e.symm hw.1
      · rw [lineOf_cons_ne hb]; simp [List.isPrefixOf, ih hw.2]

theorem lineOf_drop {s : Str} {n : Nat} (h : n ≤ (lineOf s).length) : lineOf (s.drop n) = (lineOf s).drop n := by
  unfold lineOf at *; exact run_drop h

theorem runHs_lineOf (s : Str) : runLen isHs (lineOf s) = runLen isHs s := by
  induction s with
  | nil => rfl
  | cons a t ih =>
    by_cases ha : a = '\n'
    · subst ha; simp [lineOf_nl, runLen]
    · rw [lineOf_cons_ne ha]; unfold runLen at *; simp only [List.takeWhile_cons]; split <;> simp [ih]

theorem head_lineOf (s : Str) (d : Char) (hd : d ≠ '\n') : (lineOf s).head? = some d ↔ s.head? = some d := by
  cases s with
  | nil => simp [lineOf_nil]
  | cons a t =>
    by_cases ha : a = '\n'
    · subst ha; simp [lineOf_nl, Ne.symm hd]
    · rw [lineOf_cons_ne ha]; simp

theorem all_lineOf (s : Str) : (lineOf s).all isHs = atEol (s.dropWhile isHs) := by
  induction s with
  | nil => rfl
  | cons a t ih =>
    by_cases ha : a = '\n'
    · subst ha; simp [lineOf_nl, atEol]
    · rw [lineOf_cons_ne ha]
      by_cases hh : isHs a = true
      · simp [hh]; simpa using ih
      · simp [hh, atEol, ha]

theorem runLen_hs_le (s : Str) : runLen isHs s ≤ (lineOf s).length := by
  rw [← runHs_lineOf]; exact runLen_le _ _

theorem length_le_lineOf {w s : Str} (hw : '\n' ∉ w) (h : w.isPrefixOf s = true) : w.length ≤ (lineOf s).length := by
  rw [← isPrefixOf_lineOf hw] at h
  exact (List.isPrefixOf_iff_prefix.mp h).length_le

/-- The specification read off the whole remaining input instead of the line. -/
theorem terminatorLine_eq {op key : Str} (ho : '\n' ∉ op) (hk : '\n' ∉ key) (s : Str) :
    terminatorLine op key (lineOf s) =
      (let h := runLen isHs s
       let r := s.drop h
       if op.isPrefixOf r ∧ (r.drop op.length).head? ≠ some '-' then
         let g := runLen isHs (r.drop op.length)
         let r' := r.drop (op.length + g)
         if key.isPrefixOf r' ∧ atEol ((r'.drop key.length).dropWhile isHs) then some (h, g) else none
       else none) := by
  unfold terminatorLine
  simp only [runHs_lineOf]
  rw [← lineOf_drop (runLen_hs_le s)]
  generalize s.drop (runLen isHs s) = r
  rw [isPrefixOf_lineOf ho]
  by_cases hp : op.isPrefixOf r = true
  · have hl := length_le_lineOf ho hp
    rw [← lineOf_drop hl, runHs_lineOf]
    have hg : op.length + runLen isHs (r.drop op.length) ≤ (lineOf r).length := by
      have := runLen_hs_le (r.drop op.length)
      rw [lineOf_drop hl] at this; simp at this; omega
    rw [← lineOf_drop hg, isPrefixOf_lineOf hk]
    have hd : ((lineOf (r.drop op.length)).head? ≠ some '-') = ((r.drop op.length).head? ≠ some '-') := by
      rw [Ne, head_lineOf _ _ (by decide)]
    simp only [hd]
    by_cases hq : key.isPrefixOf (r.drop (op.length + runLen isHs (r.drop op.length))) = true
    · rw [← lineOf_drop (length_le_lineOf hk hq), all_lineOf]
    · simp [hq]
  · simp [hp]

theorem setCap_same (caps : Nat → Option Cap) (n : Nat) (c : Cap) : setCap caps n c n = some c := by simp [setCap]
theorem setCap_ne (caps : Nat → Option Cap) {n m : Nat} (c : Cap) (h : m ≠ n) : setCap caps n c m = caps m := by simp [setCap, h]

theorem run_nla_dash : run (nla (lit '-')) ⟨pos, rest, caps⟩ k =
    if rest.head? = some '-' then none else k ⟨pos, rest, caps⟩ := by
  cases rest with
  | nil => simp [run_nla_lit_nil]
  | cons c t => rw [run_nla_lit_cons]; simp

theorem run_grp_str (n : Nat) (w : Str) : run (grp n (str w)) ⟨pos, rest, caps⟩ k =
    if w.isPrefixOf rest then k ⟨pos + w.length, rest.drop w.length, setCap caps n ⟨pos, pos + w.length, w⟩⟩ else none := by
  rw [run_grp, run_str]
  by_cases h : w.isPrefixOf rest = true
  · simp [h, isPrefixOf_take h]
  · simp [h]

/-- What the expression reports, as data. -/
def termView (x : Nat × St) : Nat × Option Cap × Option Cap × Nat := (x.1, x.2.caps 1, x.2.caps 2, x.2.pos)

theorem matchAt_terminator_nil (op key : Str) (pos : Nat) : matchAt (terminator op key) pos [] = none := rfl

theorem matchAt_terminator_ne (op key : Str) (pos : Nat) (h : c ≠ '\n') : matchAt (terminator op key) pos (c :: t) = none := by
  unfold matchAt terminator; rw [run_seq, run_lit_cons]; simp [h]

theorem matchAt_terminator {op key : Str} (ho : ∃ c u, op = c :: u ∧ isHs c = false) (ho' : '\n' ∉ op)
    (hk : ∃ c u, key = c :: u ∧ isHs c = false) (hk' : '\n' ∉ key) (pos : Nat) (t : Str) :
    (matchAt (terminator op key) pos ('\n' :: t)).map (fun st => (st.caps 1, st.caps 2, st.pos)) =
      (terminatorLine op key (lineOf t)).map fun (h, g) =>
        (some ⟨pos + 1 + h, pos + 1 + h + op.length, op⟩,
         some ⟨pos + 1 + h + op.length + g, pos + 1 + h + op.length + g + key.length, key⟩,
         pos + 1 + (lineOf t).length) := by
  have hne : ∀ (w : Str), (∃ c u, w = c :: u ∧ isHs c = false) → ∀ c' (t' : Str), isHs c' = true → w.isPrefixOf (c' :: t') = false := by
    rintro w ⟨c, u, rfl, hc⟩ c' t' hc'
    have : (c == c') = false := by
      apply Bool.eq_false_iff.mpr; intro e; simp at e; subst e; simp [hc] at hc'
    simp [List.isPrefixOf, this]
  rw [terminatorLine_eq ho' hk']
  unfold matchAt terminator
  rw [run_seq, run_lit_cons, if_pos rfl, run_seq, HS, run_starG_det]
  · rw [run_seq, run_grp_str]
    simp only [show (t.takeWhile isHs).length = runLen isHs t from rfl, show t.dropWhile isHs = t.drop (runLen isHs t) from (drop_takeWhile _ _).symm]
    generalize hr : t.drop (runLen isHs t) = r
    by_cases hp : op.isPrefixOf r = true
    · simp only [hp, if_true, true_and]
      rw [run_seq, run_nla_dash]
      by_cases hd : (r.drop op.length).head? = some '-'
      · simp [hd]
      · simp only [hd, if_false, ne_eq, not_false_eq_true, if_true]
        rw [run_seq, run_starG_det]
        · rw [run_seq, run_grp_str]
          simp only [show ((r.drop op.length).takeWhile isHs).length = runLen isHs (r.drop op.length) from rfl,
            show (r.drop op.length).dropWhile isHs = (r.drop op.length).drop (runLen isHs (r.drop op.length)) from (drop_takeWhile _ _).symm]
          rw [List.drop_drop]
          by_cases hq : key.isPrefixOf (r.drop (op.length + runLen isHs (r.drop op.length))) = true
          · simp only [hq, if_true, true_and]
            rw [run_EOL]
            by_cases he : atEol (((r.drop (op.length + runLen isHs (r.drop op.length))).drop key.length).dropWhile isHs) = true
            · simp only [he, if_true, Option.map_some, Option.some.injEq, Prod.mk.injEq]
              refine ⟨by simp [setCap], by simp [setCap], ?_⟩
              -- the end of the line
              rw [List.drop_drop] at he ⊢
              rw [← hr] at hp hq he ⊢
              rw [List.drop_drop] at he ⊢
              have h1 := runLen_hs_le t
              have h2 := length_le_lineOf ho' hp
              rw [lineOf_drop h1] at h2
              have h3 := runLen_hs_le ((t.drop (runLen isHs t)).drop op.length)
              rw [List.drop_drop, lineOf_drop (by simp at h2; omega)] at h3
              rw [List.drop_drop] at hq
              have h4 := length_le_lineOf hk' hq
              rw [List.drop_drop] at h4 ⊢
              rw [lineOf_drop (by simp at h2 h3; omega)] at h4
              simp only [List.length_drop] at h2 h3 h4
              have h5 := (dropWhile_hs_of_blank t _ (by
                show runLen isHs t + (op.length + runLen isHs (t.drop (runLen isHs t + op.length)) + key.length) ≤ _
                omega) (by rw [List.drop_drop] at he; exact he)).2
              omega
            · simp only [he]; rfl
          · simp [hq]
        · intro pos' c' t' hc'
          rw [run_seq, run_grp_str, hne key hk c' t' hc']; simp
    · simp [hp]
  · intro pos' c' t' hc'
    rw [run_seq, run_grp_str, hne op ho c' t' hc']; simp

theorem search_terminator {op key : Str} (ho : ∃ c u, op = c :: u ∧ isHs c = false) (ho' : '\n' ∉ op)
    (hk : ∃ c u, key = c :: u ∧ isHs c = false) (hk' : '\n' ∉ key) (s : Str) : ∀ (pos : Nat),
    (search (terminator op key) pos s).map termView =
      (findTerminator op key pos s).map fun T =>
        (T.start, some ⟨T.op, T.op + op.length, op⟩, some ⟨T.key, T.key + key.length, key⟩, T.fin) := by
  induction s with
  | nil => intro pos; simp [search, matchAt_terminator_nil, findTerminator]
  | cons c t ih =>
    intro pos
    unfold search findTerminator
    by_cases hc : c = '\n'
    · subst hc
      have hm := matchAt_terminator ho ho' hk hk' pos t
      simp only [if_true]
      cases h1 : matchAt (terminator op key) pos ('\n' :: t) with
      | none =>
        cases h2 : terminatorLine op key (lineOf t) with
        | none => simpa using ih (pos + 1)
        | some p => rw [h1, h2] at hm; simp at hm
      | some st =>
        cases h2 : terminatorLine op key (lineOf t) with
        | none => rw [h1, h2] at hm; simp at hm
        | some p => 
          rw [h1, h2] at hm; simp at hm
          simp [termView, hm]
    · rw [matchAt_terminator_ne op key pos hc]
      simpa [hc] using ih (pos + 1)

end Eno
