import Verif.Proofs.SpaceLemmas
import Verif.Proofs.SaysLemmas

/-!
# White space between lines

What is read at the beginning of a text does not depend on the white space at the beginning of a later line.
-/

namespace Eno

open Spec

variable {b b' s s' : Str}

/-- The same text, behind the white space in question, or the same text up to it. -/
inductive Gap (b b' : Str) : Str → Str → Prop where
  | same {s : Str} : s <:+ b.dropWhile isSp → b.dropWhile isSp ≠ [] → Gap b b' s s
  | diff (L : Str) : Gap b b' (L ++ '\n' :: b) (L ++ '\n' :: b')

inductive GapRes (b b' : Str) : Option (Line × Str) → Option (Line × Str) → Prop where
  | none : GapRes b b' none none
  | some {l : Line} {r r' : Str} : Gap b b' r r' → GapRes b b' (some (l, r)) (some (l, r'))

theorem Gap.while {p : Char → Bool} (hp : p '\n' = false) (h : Gap b b' s s') : s'.takeWhile p = s.takeWhile p ∧ Gap b b' (s.dropWhile p) (s'.dropWhile p) := by
  cases h with
  | same h1 h2 => exact ⟨rfl, .same ((List.dropWhile_suffix _).trans h1) h2⟩
  | diff L =>
    rcases all_or_stop p L with h1 | ⟨x, c, m, rfl, h2, h3⟩
    · rw [List.dropWhile_append_of_pos h1, List.dropWhile_append_of_pos h1, List.takeWhile_append_of_pos h1, List.takeWhile_append_of_pos h1]
      simp only [List.takeWhile_cons, List.dropWhile_cons, hp, Bool.false_eq_true, if_false]
      exact ⟨trivial, .diff []⟩
    · rw [dropWhile_stop h2 h3, dropWhile_stop h2 h3, takeWhile_stop h2 h3, takeWhile_stop h2 h3]
      exact ⟨rfl, .diff (c :: m)⟩

theorem Gap.head (h : Gap b b' s s') : (s = [] ∧ s' = []) ∨ ∃ c t t', s = c :: t ∧ s' = c :: t' ∧ (c ≠ '\n' → Gap b b' t t') := by
  cases h with
  | same h1 h2 =>
    cases s with
    | nil => exact .inl ⟨rfl, rfl⟩
    | cons c t => exact .inr ⟨c, t, t, rfl, rfl, fun _ => .same ((List.suffix_cons c t).trans h1) h2⟩
  | diff L =>
    cases L with
    | nil => exact .inr ⟨'\n', b, b', rfl, rfl, fun h => absurd rfl h⟩
    | cons c L => exact .inr ⟨c, _, _, rfl, rfl, fun _ => .diff L⟩

theorem Gap.skip (hb : b'.dropWhile isSp = b.dropWhile isSp) (h : Gap b b' s s') : (s.dropWhile isSp = [] ∧ s'.dropWhile isSp = []) ∨ Gap b b' (s.dropWhile isSp) (s'.dropWhile isSp) := by
  cases h with
  | same h1 h2 => exact .inr (.same ((List.dropWhile_suffix _).trans h1) h2)
  | diff L =>
    rcases all_or_stop isSp L with h1 | ⟨x, c, m, rfl, h2, h3⟩
    · rw [List.dropWhile_append_of_pos h1, List.dropWhile_append_of_pos h1]
      have hn : isSp '\n' = true := by decide
      simp only [List.dropWhile_cons, hn, if_true, hb]
      by_cases hz : b.dropWhile isSp = []
      · exact .inl ⟨hz, hz⟩
      · exact .inr (.same (List.suffix_refl _) hz)
    · rw [dropWhile_stop h2 h3, dropWhile_stop h2 h3]
      exact .inr (.diff (c :: m))

theorem Gap.line (h : Gap b b' s s') : lineOf s' = lineOf s := (h.while (p := (· != '\n')) (by decide)).1

theorem Gap.value (h : Gap b b' s s') : valueOf s' = valueOf s := by
  unfold valueOf
  rw [(h.while (p := isHs) (by decide)).2.line]

theorem Gap.next (h : Gap b b' s s') : Gap b b' (nextOf s) (nextOf s') := (h.while (p := (· != '\n')) (by decide)).2

theorem GapRes.valued {l : Str → Line} {t t' : Str} (h : Gap b b' t t') : GapRes b b' ((valueOf t).map fun v => (l v, nextOf t)) ((valueOf t').map fun v => (l v, nextOf t')) := by
  rw [h.value]
  cases valueOf t with
  | none => exact .none
  | some v => exact .some h.next

theorem gap_key (hb : b'.dropWhile isSp = b.dropWhile isSp) (key : Str) (h : Gap b b' s s') : GapRes b b' (readAfterKey key s) (readAfterKey key s') := by
  unfold readAfterKey
  rcases h.skip hb with ⟨h1, h2⟩ | g
  · rw [h1, h2]; exact .none
  rcases g.head with ⟨h1, h2⟩ | ⟨c, t, t', h1, h2, g'⟩
  · rw [h1, h2]; exact .none
  rw [h1, h2]
  by_cases c1 : c = ':'
  · subst c1
    have g' := g' (by decide)
    simp only [g'.value]
    exact .some g'.next
  by_cases c2 : c = '='
  · subst c2
    have g' := g' (by decide)
    simp only [g'.value]
    exact .some g'.next
  by_cases c3 : c = '<'
  · subst c3
    have g' := g' (by decide)
    simp only
    rcases g'.skip hb with ⟨h1, h2⟩ | g
    · rw [h1, h2]; exact .none
    · exact .valued g
  · split <;> simp_all <;> exact .none

theorem gap_heading (d : Nat) (key : Str) (h : Gap b b' s s') : GapRes b b' (readAfterHeading d key s) (readAfterHeading d key s') := by
  unfold readAfterHeading
  have g := (h.while (p := isHs) (by decide)).2
  revert g
  generalize s.dropWhile isHs = x
  generalize s'.dropWhile isHs = x'
  intro g
  rcases g.head with ⟨h1, h2⟩ | ⟨c, t, t', h1, h2, g'⟩
  · subst h1; subst h2; exact .some g
  · subst h1; subst h2
    by_cases c1 : c = '\n'
    · subst c1; exact .some g
    have g1 := g' c1
    clear g'
    by_cases c2 : c = '<'
    · subst c2
      rcases g1.head with ⟨h1, h2⟩ | ⟨c, u, u', h1, h2, g2⟩
      · subst h1; subst h2; exact .none
      · subst h1; subst h2
        by_cases c3 : c = '<'
        · subst c3; exact .valued (g2 (by decide))
        · have v := GapRes.valued (l := fun v => Line.heading d key (some (false, v))) g1
          split <;> simp_all
    · split <;> simp_all <;> exact .none

theorem gap_plain {p : Char → Bool} (hp : p '\n' = false) {read : Str → Str → Option (Line × Str)} (hr : ∀ k s s', Gap b b' s s' → GapRes b b' (read k s) (read k s')) (h : Gap b b' s s') :
    GapRes b b' (readPlain p read s) (readPlain p read s') := by
  unfold readPlain
  obtain ⟨h1, h2⟩ := h.while hp
  rw [h1]
  exact hr _ _ _ h2

theorem gap_findSome {l : List Nat} {f g : Nat → Option (Line × Str)} (h : ∀ a ∈ l, GapRes b b' (f a) (g a)) : GapRes b b' (l.findSome? f) (l.findSome? g) := by
  induction l with
  | nil => exact .none
  | cons a t ih =>
    simp only [List.findSome?_cons]
    have := h a (by simp)
    revert this
    generalize f a = x
    generalize g a = y
    intro this
    cases this with
    | none => exact ih fun a ha => h a (by simp [ha])
    | some hg => exact .some hg

theorem Gap.take (h : Gap b b' s s') {n : Nat} (hn : n ≤ (lineOf s).length) : s'.take n = s.take n ∧ Gap b b' (s.drop n) (s'.drop n) := by
  cases h with
  | same h1 h2 => exact ⟨rfl, .same ((List.drop_suffix _ _).trans h1) h2⟩
  | diff L =>
    have : n ≤ L.length := by
      refine Nat.le_trans hn ?_
      by_cases hm : '\n' ∈ L
      · obtain ⟨u, v, rfl⟩ := List.append_of_mem hm
        rcases all_or_stop (· != '\n') u with h1 | ⟨x, c, m, rfl, h2, h3⟩
        · unfold lineOf
          rw [List.append_assoc, List.takeWhile_append_of_pos h1]
          simp
        · unfold lineOf
          rw [List.append_assoc, takeWhile_stop h2 h3]
          simp
      · rw [lineOf_append hm, lineOf_nl]; simp
    rw [List.take_append_of_le_length this, List.take_append_of_le_length this, List.drop_append_of_le_length this, List.drop_append_of_le_length this]
    exact ⟨rfl, .diff _⟩

theorem gap_closing {read : Str → Option (Line × Str)} (hr : ∀ s s', Gap b b' s s' → GapRes b b' (read s) (read s')) (n : Nat) (h : Gap b b' s s') :
    GapRes b b' (if s.take n = rep n '`' then read (s.drop n) else none) (if s'.take n = rep n '`' then read (s'.drop n) else none) := by
  cases h with
  | same h1 h2 =>
    split
    · exact hr _ _ (.same ((List.drop_suffix _ _).trans h1) h2)
    · exact .none
  | diff L =>
    have hrn : ∀ (t : Str) m, 0 < m → ('\n' :: t).take m ≠ rep m '`' := by
      intro t m hm he
      obtain ⟨m, rfl⟩ : ∃ k, m = k + 1 := ⟨m - 1, by omega⟩
      simp [rep, List.replicate_succ] at he
    by_cases hn : n ≤ L.length
    · rw [List.take_append_of_le_length hn, List.take_append_of_le_length hn, List.drop_append_of_le_length hn, List.drop_append_of_le_length hn]
      split
      · exact hr _ _ (.diff _)
      · exact .none
    · rw [if_neg, if_neg]
      · exact .none
      all_goals
        intro he
        rcases take_rep_append he with h | ⟨_, h2, h3⟩
        · have := congrArg List.length h; simp [rep] at this; omega
        · exact hrn _ _ (by omega) h3

theorem gap_escaped {read : Str → Str → Option (Line × Str)} (hr : ∀ k s s', Gap b b' s s' → GapRes b b' (read k s) (read k s')) (h : Gap b b' s s') :
    GapRes b b' (readEscaped read s) (readEscaped read s') := by
  unfold readEscaped
  obtain ⟨h1, h2⟩ := h.while (p := (· == '`')) (by decide)
  rw [h1, takeWhile_tick s]
  have g := (h2.while (p := isHs) (by decide)).2
  revert g
  generalize (s.dropWhile (· == '`')).dropWhile isHs = x
  generalize (s'.dropWhile (· == '`')).dropWhile isHs = x'
  generalize (s.takeWhile (· == '`')).length = n
  intro g
  simp only [g.line]
  refine gap_findSome fun i hi => ?_
  rw [List.mem_range] at hi
  obtain ⟨e1, e2⟩ := g.take (n := i + 1) (by omega)
  rw [e1]
  simp only [rep, List.length_replicate]
  exact gap_closing (read := read (x.take (i + 1))) (hr _) n (e2.while (p := isHs) (by decide)).2

theorem gap_dash (h : Gap b b' s s') : GapRes b b' (readDash s) (readDash s') := by
  unfold readDash
  obtain ⟨h1, h2⟩ := h.while (p := (· == '-')) (by decide)
  simp only [h1]
  split
  · rw [h2.value]; exact .some h2.next
  · exact .valued h2

theorem gap_readHeading (hb : b'.dropWhile isSp = b.dropWhile isSp) (h : Gap b b' s s') : GapRes b b' (readHeading s) (readHeading s') := by
  unfold readHeading
  obtain ⟨h1, h2⟩ := h.while (p := (· == '#')) (by decide)
  simp only [h1]
  rcases h2.skip hb with ⟨e1, e2⟩ | g
  · rw [e1, e2]; exact .none
  rcases g.head with ⟨e1, e2⟩ | ⟨c, t, t', e1, e2, g'⟩
  · rw [e1, e2]; exact .none
  rw [e1, e2] at g
  rw [e1, e2]
  by_cases c1 : c = '<'
  · subst c1; exact .none
  by_cases c2 : c = '`'
  · subst c2; exact gap_escaped (fun k s s' => gap_heading _ k) g
  · have := gap_plain (p := fun c => c != '<' && c != '\n') (by decide) (read := readAfterHeading (s.takeWhile (· == '#')).length) (fun k _ _ => gap_heading _ k) g
    split <;> simp_all

theorem gap_readLine (hb : b'.dropWhile isSp = b.dropWhile isSp) (h : Gap b b' s s') : GapRes b b' (readLine s) (readLine s') := by
  unfold readLine
  have g := (h.while (p := isHs) (by decide)).2
  revert g
  generalize s.dropWhile isHs = x
  generalize s'.dropWhile isHs = x'
  intro g
  rcases g.head with ⟨e1, e2⟩ | ⟨c, t, t', e1, e2, g'⟩
  · subst e1; subst e2; exact .some g
  subst e1; subst e2
  simp only
  split
  · exact .some g
  rename_i hc
  have g' := g' hc
  split
  · rw [g'.value]; exact .some g'.next
  split
  · rw [g'.value]; exact .some g'.next
  split
  · rw [g'.value]; exact .some g'.next
  split
  · exact gap_dash g
  split
  · exact gap_readHeading hb g
  split
  · exact gap_escaped (fun k s s' => gap_key hb k) g
  split
  · exact .none
  · exact gap_plain (by decide) (fun k s s' => gap_key hb k) g

/-! ## Whole texts -/

theorem Spec.Reads.says {es es' : List Said} {r : Stop} (R : Reads b s es) (S : Says b es' r) : Says s (es ++ es') r := by
  induction R with
  | here => exact S
  | line h1 h2 h3 _ ih => exact .line h1 h2 h3 ih
  | multi h1 h2 h3 h4 h5 _ ih => exact .multi h1 h2 h3 h4 h5 ih

theorem readLine_length {l : Line} {rest : Str} (h : readLine s = some (l, rest)) : rest <:+ s := by
  obtain ⟨h1, _⟩ := scan_view 0 s
  rw [h] at h1
  rw [Option.map_eq_some_iff] at h1
  obtain ⟨t, _, h2⟩ := h1
  injection h2 with _ h2
  rw [← h2]
  exact List.drop_suffix _ _

theorem readLine_dashes {d : Nat} {key rest : Str} (h : readLine s = some (.multiline d key, rest)) : 2 ≤ d := by
  obtain ⟨h1, _⟩ := scan_view 0 s
  rw [h] at h1
  rw [Option.map_eq_some_iff] at h1
  obtain ⟨⟨fin, body⟩, hs, h2⟩ := h1
  injection h2 with h2 _
  cases body <;> simp only [Line.ofBody, reduceCtorEq, Line.multiline.injEq] at h2
  rw [← h2.1]
  exact (scan_shape hs).1

theorem Spec.Reads.length {es : List Said} (R : Reads b s es) : (es = [] ∧ s = b) ∨ (b.length < s.length) := by
  induction R with
  | here => exact .inl ⟨rfl, rfl⟩
  | @line s l rest es h1 h2 h3 _ ih =>
    right
    have := (readLine_length h2).length_le
    have hs : 0 < s.length := List.length_pos_iff.2 h1
    rcases ih with ⟨_, h⟩ | h
    · rw [← h]; simp only [List.length_drop]; omega
    · simp only [List.length_drop] at h; omega
  | @multi s d key rest body line after es h1 h2 h3 h4 h5 _ ih =>
    right
    have := (readLine_length h2).length_le
    have hl := congrArg List.length h3.text
    simp only [List.length_append, List.length_cons] at hl
    rcases ih with ⟨_, h⟩ | h
    · rw [← h]; simp only [List.length_drop]; omega
    · simp only [List.length_drop] at h; omega

theorem Spec.Reads.le {es : List Said} (R : Reads b s es) : b.length ≤ s.length := by
  rcases R.length with ⟨_, rfl⟩ | h
  · exact Nat.le_refl _
  · omega

theorem column_gap {t : Str} (h : Gap b b' s s') (hs : s.dropWhile isHs = '>' :: t) : column s' = column s := by
  obtain ⟨h1, h2⟩ := h.while (p := isHs) (by decide)
  unfold column
  rw [h1]
  rcases h2.head with ⟨e1, e2⟩ | ⟨c, u, u', e1, e2, g⟩
  · rw [e1] at hs; cases hs
  · rw [e1] at hs
    cases hs
    have g := g (by decide)
    rw [e1, e2]
    simp only [List.drop_succ_cons, List.drop_zero, (g.while (p := isHs) (by decide)).1]

theorem saidOf_gap {l : Line} {rest : Str} (h : Gap b b' s s') (hr : readLine s = some (l, rest)) : saidOf s' l = saidOf s l := by
  cases l with
  | comment x =>
    obtain ⟨t, ht⟩ := readLine_comment hr
    simp only [saidOf, column_gap h ht]
  | _ => rfl

theorem lineIn_move {B x x' p l q : Str} (h : LineIn (B ++ '\n' :: x') p l q) (hl : p.length < B.length) : ∃ q', LineIn (B ++ '\n' :: x) p l q' := by
  have e := h.text
  rw [show p ++ '\n' :: (l ++ q) = (p ++ '\n' :: l) ++ q by simp] at e
  rcases List.append_eq_append_iff.1 e with ⟨u, h1, h2⟩ | ⟨u, h1, h2⟩
  · cases u with
    | nil => exact ⟨'\n' :: x, by rw [List.append_nil] at h1; rw [← h1]; simp, h.noNl, .inr ⟨x, rfl⟩⟩
    | cons c u =>
      exfalso
      simp only [List.cons_append, List.cons.injEq] at h2
      obtain ⟨rfl, h2⟩ := h2
      -- the line would contain the line feed
      rcases List.append_eq_append_iff.1 h1 with ⟨v, h3, h4⟩ | ⟨v, h3, h4⟩
      · cases v with
        | nil => rw [List.append_nil] at h3; rw [h3] at hl; omega
        | cons y v =>
          simp only [List.cons_append, List.cons.injEq] at h4
          exact h.noNl (by rw [h4.2]; simp)
      · have := congrArg List.length h3
        simp only [List.length_append] at this
        omega
  · refine ⟨u ++ '\n' :: x, by rw [h1]; simp, h.noNl, ?_⟩
    rcases h.eol with rfl | ⟨t, rfl⟩
    · simp at h2
    · cases u with
      | nil => exact .inr ⟨x, rfl⟩
      | cons c u =>
        simp only [List.cons_append, List.cons.injEq] at h2
        exact .inr ⟨u ++ '\n' :: x, by rw [← h2.1]; rfl⟩

/-- White space at the beginning of a line does not matter for the lines before it. -/
theorem Spec.Reads.gap (hb : b'.dropWhile isSp = b.dropWhile isSp) {es : List Said} (R : Reads b s es) : ∀ a, s = a ++ '\n' :: b → Reads b' (a ++ '\n' :: b') es := by
  induction R with
  | here =>
    intro a h
    have := congrArg List.length h
    simp only [List.length_append, List.length_cons] at this
    omega
  | @line s l rest es h1 h2 h3 R ih =>
    rintro a rfl
    have g := gap_readLine hb (Gap.diff (b := b) (b' := b') a)
    rw [h2] at g
    cases hr : readLine (a ++ '\n' :: b') with
    | none => rw [hr] at g; cases g
    | some z =>
      rw [hr] at g
      cases g with
      | @some _ _ rest' g =>
        rw [← saidOf_gap (Gap.diff (b := b) (b' := b') a) h2]
        refine .line (by simp) hr h3 ?_
        cases g with
        | same k1 k2 =>
          exfalso
          have := R.le
          have l1 := k1.length_le
          have l2 := (List.dropWhile_suffix (p := isSp) (l := b)).length_le
          simp only [List.length_drop] at this
          have : b = [] := by
            by_cases hz : rest = []
            · subst hz; simp only [List.length_nil] at this; exact List.length_eq_zero_iff.1 (by omega)
            · have := List.length_pos_iff.2 hz; omega
          subst this
          exact k2 rfl
        | diff L =>
          cases L with
          | nil =>
            simp only [List.nil_append, List.drop_succ_cons, List.drop_zero] at R ⊢
            rcases R.length with ⟨rfl, _⟩ | h
            · exact .here
            · omega
          | cons c L => exact ih L rfl
  | @multi s d key rest body line after es h1 h2 L h4 h5 R ih =>
    rintro a rfl
    have g := gap_readLine hb (Gap.diff (b := b) (b' := b') a)
    rw [h2] at g
    have hlen := congrArg List.length L.text
    simp only [List.length_append, List.length_cons] at hlen
    have hle := R.le
    simp only [List.length_drop] at hle
    cases hr : readLine (a ++ '\n' :: b') with
    | none => rw [hr] at g; cases g
    | some z =>
      rw [hr] at g
      cases g with
      | @some _ _ rest' g =>
        cases g with
        | same k1 k2 =>
          exfalso
          have l1 := k1.length_le
          have l2 := (List.dropWhile_suffix (p := isSp) (l := b)).length_le
          omega
        | diff M =>
          have hterm : line ≠ [] := by
            rintro rfl
            obtain ⟨p0, p1, p2, _, _, _, e, _⟩ := h4
            have hd := readLine_dashes h2
            have := congrArg List.length e
            simp only [List.length_nil, List.length_append, rep, List.length_replicate] at this
            omega
          have e := L.text
          -- behind the field
          have : ∃ after', LineIn (M ++ '\n' :: b') body line after' ∧ Reads b' (after'.drop 1) es ∧ ∃ x x', M ++ '\n' :: b = body ++ '\n' :: x ∧ M ++ '\n' :: b' = body ++ '\n' :: x' := by
            rcases L.eol with rfl | ⟨X, rfl⟩
            · exfalso
              simp only [List.drop_nil, List.length_nil] at R hle
              obtain rfl : b = [] := List.length_eq_zero_iff.1 (by simpa using hle)
              rw [List.append_nil] at e
              have h1 := congrArg List.getLast? e
              rw [List.getLast?_concat, List.getLast?_append, List.getLast?_cons] at h1
              obtain ⟨x, y, rfl⟩ : ∃ x y, line = y ++ [x] := ⟨line.getLast hterm, line.dropLast, (List.dropLast_concat_getLast hterm).symm⟩
              simp at h1
              exact L.noNl (by simp [← h1])
            · simp only [List.drop_succ_cons, List.drop_zero] at R ih
              rcases R.length with ⟨rfl, rfl⟩ | hX
              · have : M = body ++ '\n' :: line := List.append_cancel_right (bs := '\n' :: X) (by rw [e]; simp)
                subst this
                exact ⟨'\n' :: b', ⟨by simp, L.noNl, .inr ⟨_, rfl⟩⟩, .here, line ++ '\n' :: X, line ++ '\n' :: b', by simp, by simp⟩
              · obtain ⟨N, rfl⟩ : ∃ N, X = N ++ '\n' :: b := by
                  have h1 : '\n' :: b <:+ M ++ '\n' :: b := List.suffix_append _ _
                  have h2 : X <:+ M ++ '\n' :: b := by rw [e]; exact ⟨body ++ '\n' :: (line ++ ['\n']), by simp⟩
                  obtain ⟨N, hN⟩ := List.suffix_of_suffix_length_le h1 h2 (by simp; omega)
                  exact ⟨N, hN.symm⟩
                have : M = body ++ '\n' :: (line ++ '\n' :: N) := List.append_cancel_right (bs := '\n' :: b) (by rw [e]; simp)
                subst this
                exact ⟨'\n' :: (N ++ '\n' :: b'), ⟨by simp, L.noNl, .inr ⟨_, rfl⟩⟩, ih N rfl, line ++ '\n' :: (N ++ '\n' :: b), line ++ '\n' :: (N ++ '\n' :: b'), by simp, by simp⟩
          obtain ⟨after', L', R', x, x', hx, hx'⟩ := this
          refine .multi (by simp) hr L' h4 ?_ R'
          intro p l q hp hlt
          rw [hx'] at hp
          obtain ⟨q', hq⟩ := lineIn_move (x := x) hp hlt
          rw [← hx] at hq
          exact h5 _ _ _ hq hlt

end Eno
