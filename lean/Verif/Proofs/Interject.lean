import Verif.Proofs.GapLemmas

/-!
# Comments between lines

What is read of the lines before a line does not change if a comment is put in front of that line.
-/

namespace Eno

open Spec

variable {b b' s s' : Str}

/-- What is read of two texts: the same, up to the places in question, or something that goes beyond the place in the first text. -/
inductive CutRes (b b' : Str) : Option (Line × Str) → Option (Line × Str) → Prop where
  | none : CutRes b b' none none
  | some {l : Line} {r r' : Str} : Gap b b' r r' → CutRes b b' (some (l, r)) (some (l, r'))
  | beyond {l : Line} {r : Str} {y : Option (Line × Str)} : r <:+ b → CutRes b b' (some (l, r)) y

theorem GapRes.cut {x y : Option (Line × Str)} (h : GapRes b b' x y) : CutRes b b' x y := by
  cases h with
  | none => exact .none
  | some h => exact .some h

theorem Gap.over {t : Str} (hb : b'.dropWhile isSp = '>' :: t) (h : Gap b b' s s') : (s.dropWhile isSp = b.dropWhile isSp ∧ s'.dropWhile isSp = '>' :: t) ∨ Gap b b' (s.dropWhile isSp) (s'.dropWhile isSp) := by
  cases h with
  | same h1 h2 => exact .inr (.same ((List.dropWhile_suffix _).trans h1) h2)
  | diff L =>
    rcases all_or_stop isSp L with h1 | ⟨x, c, m, rfl, h2, h3⟩
    · rw [List.dropWhile_append_of_pos h1, List.dropWhile_append_of_pos h1]
      have hn : isSp '\n' = true := by decide
      simp only [List.dropWhile_cons, hn, if_true, hb]
      exact .inl ⟨trivial, trivial⟩
    · rw [dropWhile_stop h2 h3, dropWhile_stop h2 h3]
      exact .inr (.diff (c :: m))

theorem readAfterKey_rest {key : Str} {l : Line} {r : Str} (h : readAfterKey key s = some (l, r)) : r <:+ s.dropWhile isSp := by
  unfold readAfterKey at h
  split at h
  · rename_i e
    cases h
    rw [e]
    exact (List.dropWhile_suffix _).trans (List.suffix_cons _ _)
  · rename_i e
    cases h
    rw [e]
    exact (List.dropWhile_suffix _).trans (List.suffix_cons _ _)
  · rename_i t e
    rw [Option.map_eq_some_iff] at h
    obtain ⟨v, _, h⟩ := h
    injection h with _ h
    rw [e, ← h]
    exact ((List.dropWhile_suffix _).trans (List.dropWhile_suffix _)).trans (List.suffix_cons _ _)
  · cases h

theorem white_of_dropWhile : ∀ {l : Str}, l.dropWhile isHs = [] → ∀ c ∈ l, isHs c = true
  | [], _ => fun _ h => by cases h
  | x :: l, h => by
    rw [List.dropWhile_cons] at h
    split at h
    · rename_i hx
      intro c hc
      rcases List.mem_cons.1 hc with rfl | hc
      · exact hx
      · exact white_of_dropWhile h c hc
    · cases h

/-- Text that does not begin with white space is a value. -/
theorem valueOf_solid {c : Char} {t : Str} (hc : isSp c = false) : ∃ v, valueOf (c :: t) = some v := by
  have h1 : isHs c = false := by simp [isHs, hc]
  have h2 : c ≠ '\n' := fun e => by subst e; revert hc; decide
  have : trimEnd (lineOf ((c :: t).dropWhile isHs)) ≠ [] := by
    simp only [List.dropWhile_cons, h1, Bool.false_eq_true, if_false, lineOf, List.takeWhile_cons]
    rw [if_pos (by simp [h2])]
    unfold trimEnd
    intro e
    have := congrArg List.reverse e
    simp only [List.reverse_reverse, List.reverse_nil] at this
    have := white_of_dropWhile this c (by simp)
    rw [h1] at this
    cases this
  unfold valueOf
  simp only
  rw [if_neg this]
  exact ⟨_, rfl⟩

theorem cut_key {t0 : Str} (hb : b'.dropWhile isSp = '>' :: t0) (hn : b.dropWhile isSp ≠ []) (key : Str) (h : Gap b b' s s') : CutRes b b' (readAfterKey key s) (readAfterKey key s') := by
  rcases h.over hb with ⟨h1, h2⟩ | g
  · have e : readAfterKey key s' = none := by unfold readAfterKey; rw [h2]; rfl
    rw [e]
    cases hr : readAfterKey key s with
    | none => exact .none
    | some x =>
      obtain ⟨l, r⟩ := x
      have := readAfterKey_rest hr
      rw [h1] at this
      exact .beyond (this.trans (List.dropWhile_suffix _))
  unfold readAfterKey
  rcases g.head with ⟨h1, h2⟩ | ⟨c, t, t', h1, h2, g'⟩
  · rw [h1, h2]; exact .none
  rw [h1, h2]
  by_cases c1 : c = ':'
  · subst c1
    have g' := g' (by decide)
    simp only [g'.value]
    exact .some g'.next
  by_cases c2 : c = '='
  · subst c2
    have g' := g' (by decide)
    simp only [g'.value]
    exact .some g'.next
  by_cases c3 : c = '<'
  · subst c3
    have g' := g' (by decide)
    simp only
    rcases g'.over hb with ⟨h1, h2⟩ | g
    · rw [h1]
      cases hs : b.dropWhile isSp with
      | nil => exact absurd hs hn
      | cons c u =>
        have hc : isSp c = false := by
          have := List.head?_dropWhile_not isSp b
          rw [hs] at this
          simpa using this
        obtain ⟨v, hv⟩ := valueOf_solid (t := u) hc
        rw [hv]
        refine .beyond ?_
        have : c :: u <:+ b := hs ▸ List.dropWhile_suffix _
        exact (List.dropWhile_suffix _).trans this
    · exact (GapRes.valued g).cut
  · split <;> simp_all <;> exact .none

theorem cut_plain {p : Char → Bool} (hp : p '\n' = false) {read : Str → Str → Option (Line × Str)} (hr : ∀ k s s', Gap b b' s s' → CutRes b b' (read k s) (read k s')) (h : Gap b b' s s') :
    CutRes b b' (readPlain p read s) (readPlain p read s') := by
  unfold readPlain
  obtain ⟨h1, h2⟩ := h.while hp
  rw [h1]
  exact hr _ _ _ h2

theorem cut_findSome {l : List Nat} {f g : Nat → Option (Line × Str)} (h : ∀ a ∈ l, CutRes b b' (f a) (g a)) : CutRes b b' (l.findSome? f) (l.findSome? g) := by
  induction l with
  | nil => exact .none
  | cons a t ih =>
    simp only [List.findSome?_cons]
    have := h a (by simp)
    revert this
    generalize f a = x
    generalize g a = y
    intro this
    cases this with
    | none => exact ih fun a ha => h a (by simp [ha])
    | some hg => exact .some hg
    | beyond hg => exact .beyond hg

theorem cut_closing {read : Str → Option (Line × Str)} (hr : ∀ s s', Gap b b' s s' → CutRes b b' (read s) (read s')) (n : Nat) (h : Gap b b' s s') :
    CutRes b b' (if s.take n = rep n '`' then read (s.drop n) else none) (if s'.take n = rep n '`' then read (s'.drop n) else none) := by
  cases h with
  | same h1 h2 =>
    split
    · exact hr _ _ (.same ((List.drop_suffix _ _).trans h1) h2)
    · exact .none
  | diff L =>
    have hrn : ∀ (t : Str) m, 0 < m → ('\n' :: t).take m ≠ rep m '`' := by
      intro t m hm he
      obtain ⟨m, rfl⟩ : ∃ k, m = k + 1 := ⟨m - 1, by omega⟩
      simp [rep, List.replicate_succ] at he
    by_cases hn : n ≤ L.length
    · rw [List.take_append_of_le_length hn, List.take_append_of_le_length hn, List.drop_append_of_le_length hn, List.drop_append_of_le_length hn]
      split
      · exact hr _ _ (.diff _)
      · exact .none
    · rw [if_neg, if_neg]
      · exact .none
      all_goals
        intro he
        rcases take_rep_append he with h | ⟨_, h2, h3⟩
        · have := congrArg List.length h; simp [rep] at this; omega
        · exact hrn _ _ (by omega) h3

theorem cut_escaped {read : Str → Str → Option (Line × Str)} (hr : ∀ k s s', Gap b b' s s' → CutRes b b' (read k s) (read k s')) (h : Gap b b' s s') :
    CutRes b b' (readEscaped read s) (readEscaped read s') := by
  unfold readEscaped
  obtain ⟨h1, h2⟩ := h.while (p := (· == '`')) (by decide)
  rw [h1, takeWhile_tick s]
  have g := (h2.while (p := isHs) (by decide)).2
  revert g
  generalize (s.dropWhile (· == '`')).dropWhile isHs = x
  generalize (s'.dropWhile (· == '`')).dropWhile isHs = x'
  generalize (s.takeWhile (· == '`')).length = n
  intro g
  simp only [g.line]
  refine cut_findSome fun i hi => ?_
  rw [List.mem_range] at hi
  obtain ⟨e1, e2⟩ := g.take (n := i + 1) (by omega)
  rw [e1]
  simp only [rep, List.length_replicate]
  exact cut_closing (read := read (x.take (i + 1))) (hr _) n (e2.while (p := isHs) (by decide)).2

theorem readEscaped_rest {read : Str → Str → Option (Line × Str)} (hr : ∀ {k s l r}, read k s = some (l, r) → r <:+ s) {l : Line} {r : Str} (h : readEscaped read s = some (l, r)) : r <:+ s := by
  unfold readEscaped at h
  obtain ⟨i, _, h⟩ := List.exists_of_findSome?_eq_some h
  simp only at h
  split at h
  · exact (hr h).trans ((List.drop_suffix _ _).trans ((List.dropWhile_suffix _).trans ((List.drop_suffix _ _).trans ((List.dropWhile_suffix _).trans (List.dropWhile_suffix _)))))
  · cases h

theorem readAfterHeading_rest {d : Nat} {key : Str} {l : Line} {r : Str} (h : readAfterHeading d key s = some (l, r)) : r <:+ s := by
  refine List.IsSuffix.trans ?_ (List.dropWhile_suffix isHs (l := s))
  unfold readAfterHeading at h
  split at h
  · cases h; exact List.nil_suffix
  · rename_i e; cases h; rw [e]; exact List.suffix_refl _
  · rename_i e
    rw [Option.map_eq_some_iff] at h
    obtain ⟨v, _, h⟩ := h
    injection h with _ h
    rw [e, ← h]
    exact (List.dropWhile_suffix _).trans ((List.suffix_cons _ _).trans (List.suffix_cons _ _))
  · rename_i e
    rw [Option.map_eq_some_iff] at h
    obtain ⟨v, _, h⟩ := h
    injection h with _ h
    rw [e, ← h]
    exact (List.dropWhile_suffix _).trans (List.suffix_cons _ _)
  · cases h

/-- What is read of the first text, unless it goes beyond the place, is also read of the second. -/
def CutKept (b b' : Str) (x y : Option (Line × Str)) : Prop := ∀ l r, x = some (l, r) → r <:+ b ∨ ∃ r', Gap b b' r r' ∧ y = some (l, r')

theorem CutRes.kept {x y : Option (Line × Str)} (h : CutRes b b' x y) : CutKept b b' x y := by
  intro l r e
  cases h with
  | none => cases e
  | some g => cases e; exact .inr ⟨_, g, rfl⟩
  | beyond g => cases e; exact .inl g

theorem kept_heading {t0 : Str} (hb : b'.dropWhile isSp = '>' :: t0) (h : Gap b b' s s') : CutKept b b' (readHeading s) (readHeading s') := by
  unfold readHeading
  obtain ⟨h1, h2⟩ := h.while (p := (· == '#')) (by decide)
  simp only [h1]
  rcases h2.over hb with ⟨e1, _⟩ | g
  · intro l r e
    left
    rw [e1] at e
    have hs : b.dropWhile isSp <:+ b := List.dropWhile_suffix _
    split at e
    · cases e
    · cases e
    · exact (readEscaped_rest (fun h => readAfterHeading_rest h) e).trans hs
    · unfold readPlain at e
      exact ((readAfterHeading_rest e).trans (List.dropWhile_suffix _)).trans hs
  rcases g.head with ⟨e1, e2⟩ | ⟨c, t, t', e1, e2, g'⟩
  · rw [e1, e2]; exact CutRes.none.kept
  rw [e1, e2] at g
  rw [e1, e2]
  by_cases c1 : c = '<'
  · subst c1; exact CutRes.none.kept
  by_cases c2 : c = '`'
  · subst c2; exact (gap_escaped (fun k s s' => gap_heading _ k) g).cut.kept
  · have := (gap_plain (p := fun c => c != '<' && c != '\n') (by decide) (read := readAfterHeading (s.takeWhile (· == '#')).length) (fun k _ _ => gap_heading _ k) g).cut.kept
    split <;> simp_all

theorem kept_readLine {t0 : Str} (hb : b'.dropWhile isSp = '>' :: t0) (hn : b.dropWhile isSp ≠ []) (h : Gap b b' s s') : CutKept b b' (readLine s) (readLine s') := by
  unfold readLine
  have g := (h.while (p := isHs) (by decide)).2
  revert g
  generalize s.dropWhile isHs = x
  generalize s'.dropWhile isHs = x'
  intro g
  rcases g.head with ⟨e1, e2⟩ | ⟨c, t, t', e1, e2, g'⟩
  · subst e1; subst e2; exact (CutRes.some g).kept
  subst e1; subst e2
  simp only
  split
  · exact (CutRes.some g).kept
  rename_i hc
  have g' := g' hc
  split
  · rw [g'.value]; exact (CutRes.some g'.next).kept
  split
  · rw [g'.value]; exact (CutRes.some g'.next).kept
  split
  · rw [g'.value]; exact (CutRes.some g'.next).kept
  split
  · exact (gap_dash g).cut.kept
  split
  · exact kept_heading hb g
  split
  · exact (cut_escaped (fun k s s' => cut_key hb hn k) g).kept
  split
  · exact CutRes.none.kept
  · exact (cut_plain (by decide) (fun k s s' => cut_key hb hn k) g).kept

/-- The lines before a line stay the same if another text begins there that begins with a comment. -/
theorem Spec.Reads.interject {t0 : Str} (hb : b'.dropWhile isSp = '>' :: t0) (hn : b.dropWhile isSp ≠ []) {es : List Said} (R : Reads b s es) : ∀ a, s = a ++ '\n' :: b → Reads b' (a ++ '\n' :: b') es := by
  have hne : b ≠ [] := fun e => hn (by rw [e]; rfl)
  induction R with
  | here =>
    intro a h
    have := congrArg List.length h
    simp only [List.length_append, List.length_cons] at this
    omega
  | @line s l rest es h1 h2 h3 R ih =>
    rintro a rfl
    have hle := R.le
    simp only [List.length_drop] at hle
    have hlt : b.length < rest.length := by
      have : 0 < b.length := List.length_pos_iff.2 hne
      omega
    rcases kept_readLine hb hn (Gap.diff (b := b) (b' := b') a) l rest h2 with h | ⟨rest', g, hr⟩
    · have := h.length_le; omega
    · rw [← saidOf_gap (Gap.diff (b := b) (b' := b') a) h2]
      refine .line (by simp) hr h3 ?_
      cases g with
      | same k1 k2 =>
        exfalso
        have l1 := k1.length_le
        have l2 := (List.dropWhile_suffix (p := isSp) (l := b)).length_le
        omega
      | diff L =>
        cases L with
        | nil =>
          simp only [List.nil_append, List.drop_succ_cons, List.drop_zero] at R ⊢
          rcases R.length with ⟨rfl, _⟩ | h
          · exact .here
          · omega
        | cons c L => exact ih L rfl
  | @multi s d key rest body line after es h1 h2 L h4 h5 R ih =>
    rintro a rfl
    have hlen := congrArg List.length L.text
    simp only [List.length_append, List.length_cons] at hlen
    have hle := R.le
    simp only [List.length_drop] at hle
    rcases kept_readLine hb hn (Gap.diff (b := b) (b' := b') a) _ rest h2 with h | ⟨rest', g, hr⟩
    · have := h.length_le; omega
    · cases g with
      | same k1 k2 =>
        exfalso
        have l1 := k1.length_le
        have l2 := (List.dropWhile_suffix (p := isSp) (l := b)).length_le
        omega
      | diff M =>
        have e := L.text
        -- behind the field
        have : ∃ after', LineIn (M ++ '\n' :: b') body line after' ∧ Reads b' (after'.drop 1) es ∧ ∃ x x', M ++ '\n' :: b = body ++ '\n' :: x ∧ M ++ '\n' :: b' = body ++ '\n' :: x' := by
          rcases L.eol with rfl | ⟨X, rfl⟩
          · exfalso
            simp only [List.length_nil] at hle
            exact hne (List.length_eq_zero_iff.1 (by simpa using hle))
          · simp only [List.drop_succ_cons, List.drop_zero] at R ih
            rcases R.length with ⟨rfl, rfl⟩ | hX
            · have : M = body ++ '\n' :: line := List.append_cancel_right (bs := '\n' :: X) (by rw [e]; simp)
              subst this
              exact ⟨'\n' :: b', ⟨by simp, L.noNl, .inr ⟨_, rfl⟩⟩, .here, line ++ '\n' :: X, line ++ '\n' :: b', by simp, by simp⟩
            · obtain ⟨N, rfl⟩ : ∃ N, X = N ++ '\n' :: b := by
                have h1 : '\n' :: b <:+ M ++ '\n' :: b := List.suffix_append _ _
                have h2 : X <:+ M ++ '\n' :: b := by rw [e]; exact ⟨body ++ '\n' :: (line ++ ['\n']), by simp⟩
                obtain ⟨N, hN⟩ := List.suffix_of_suffix_length_le h1 h2 (by simp; omega)
                exact ⟨N, hN.symm⟩
              have : M = body ++ '\n' :: (line ++ '\n' :: N) := List.append_cancel_right (bs := '\n' :: b) (by rw [e]; simp)
              subst this
              exact ⟨'\n' :: (N ++ '\n' :: b'), ⟨by simp, L.noNl, .inr ⟨_, rfl⟩⟩, ih N rfl, line ++ '\n' :: (N ++ '\n' :: b), line ++ '\n' :: (N ++ '\n' :: b'), by simp, by simp⟩
        obtain ⟨after', L', R', x, x', hx, hx'⟩ := this
        refine .multi (by simp) hr L' h4 ?_ R'
        intro p l q hp hlt
        rw [hx'] at hp
        obtain ⟨q', hq⟩ := lineIn_move (x := x) hp hlt
        rw [← hx] at hq
        exact h5 _ _ _ hq hlt

end Eno
