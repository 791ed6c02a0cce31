import Verif.Spec.Operators
import Verif.Proofs.Outcome
import Verif.Proofs.Attach

/-! # What is written in the ranges of an instruction -/

namespace Eno

open Spec

variable {input s : Str} {p pos : Nat} {t : Tok}

/-- The groups of a key with the names of their ranges. -/
def KeyTok.named : KeyTok → List (RangeName × Cap)
  | .plain k => [(.key, k)]
  | .escaped b k e => [(.escapeBeginOperator, b), (.escapeEndOperator, e), (.key, k)]

/-- The groups of an instruction with the names of their ranges. -/
def Body.named : Body → List (RangeName × Cap)
  | .empty => []
  | .element k op v => (.elementOperator, op) :: k.named ++ v.toList.map (RangeName.value, ·)
  | .listItem op v => (.itemOperator, op) :: v.toList.map (RangeName.value, ·)
  | .entry k op v => (.entryOperator, op) :: k.named ++ v.toList.map (RangeName.value, ·)
  | .continuation sp op v => (if sp then .spacedLineContinuationOperator else .directLineContinuationOperator, op) :: v.toList.map (RangeName.value, ·)
  | .heading op k none => (.sectionOperator, op) :: k.named
  | .heading op k (some (c, t)) => (.sectionOperator, op) :: k.named ++ [(.template, t), (if c.e - c.b = 2 then .deepCopyOperator else .copyOperator, c)]
  | .multiline op k => [(.multilineFieldOperator, op), (.key, k)]
  | .comment op v => (.commentOperator, op) :: v.toList.map (RangeName.comment, ·)
  | .copy k op t => (.copyOperator, op) :: (.template, t) :: k.named

theorem named_caps (body : Body) : ∀ x ∈ body.named, x.2 ∈ body.caps := by
  cases body with
  | heading op k c => cases c <;> cases k <;> simp [Body.named, Body.caps, KeyTok.named, KeyTok.caps]
  | empty => simp [Body.named]
  | continuation sp op v => cases v <;> simp [Body.named, Body.caps]
  | listItem op v => cases v <;> simp [Body.named, Body.caps]
  | comment op v => cases v <;> simp [Body.named, Body.caps]
  | multiline op k => simp [Body.named, Body.caps]
  | copy k op t => cases k <;> simp [Body.named, Body.caps, KeyTok.named, KeyTok.caps]
  | element k op v => cases k <;> cases v <;> simp [Body.named, Body.caps, KeyTok.named, KeyTok.caps]
  | entry k op v => cases k <;> cases v <;> simp [Body.named, Body.caps, KeyTok.named, KeyTok.caps]

theorem named_ranges (body : Body) : (rangesOf body).Perm (body.named.map fun x => (x.1, (x.2.b, x.2.e))) := by
  cases body with
  | heading op k c => cases c <;> cases k <;> simp [Body.named, rangesOf, KeyTok.named, keyRanges, at_]
  | empty => simp [Body.named, rangesOf]
  | continuation sp op v => cases sp <;> cases v <;> simp [Body.named, rangesOf, at_, at?]
  | listItem op v => cases v <;> simp [Body.named, rangesOf, at_, at?]
  | comment op v => cases v <;> simp [Body.named, rangesOf, at_, at?]
  | multiline op k => simp [Body.named, rangesOf, at_]
  | copy k op t => cases k <;> simp [Body.named, rangesOf, KeyTok.named, keyRanges, at_]
  | element k op v => cases k <;> cases v <;> simp [Body.named, rangesOf, KeyTok.named, keyRanges, at_, at?]
  | entry k op v =>
    cases k with
    | plain k => cases v <;> simp [Body.named, rangesOf, KeyTok.named, keyRanges, at_, at?]
    | escaped a k e =>
      cases v <;> simp only [Body.named, rangesOf, KeyTok.named, keyRanges, at_, at?, List.cons_append, List.nil_append, List.map_cons, List.map_nil, Option.toList_none,
        Option.toList_some, List.append_nil]
      all_goals exact (List.Perm.swap _ _ _).symm.trans ((List.Perm.swap _ _ _).trans (List.Perm.refl _)) |>.trans (by
        refine List.Perm.trans ?_ (List.Perm.swap _ _ _)
        exact List.Perm.cons _ (List.Perm.swap _ _ _))

def NamedOk (l : List (RangeName × Cap)) : Prop := ∀ x ∈ l, RangeText x.1 x.2.text

/-- The text of a value is trimmed. -/
theorem valueAt_trimmed {v : Cap} (h : valueAt p s = some v) : Trimmed v.text := by
  have := valueAt_in (input := List.replicate p 'a' ++ s) (p := p) (s := s) (by simp) h
  exact ⟨this.2.2.2.1, this.2.2.2.2.1, this.2.2.2.2.2⟩

theorem valueAt_named {m : RangeName} (hm : ∀ t, Trimmed t → RangeText m t) : NamedOk ((valueAt p s).toList.map (m, ·)) := by
  intro x hx
  simp only [List.mem_map, Option.mem_toList] at hx
  obtain ⟨v, hv, rfl⟩ := hx
  exact hm _ (valueAt_trimmed hv)

theorem namedOk_cons {x : RangeName × Cap} {l} (h : RangeText x.1 x.2.text) (hl : NamedOk l) : NamedOk (x :: l) := by
  intro y hy
  simp only [List.mem_cons] at hy
  rcases hy with rfl | hy
  · exact h
  · exact hl _ hy

theorem namedOk_append {l l' : List (RangeName × Cap)} (h : NamedOk l) (hl : NamedOk l') : NamedOk (l ++ l') := by
  intro y hy
  simp only [List.mem_append] at hy
  exact hy.elim (h y) (hl y)

theorem value_text : ∀ t, Trimmed t → RangeText .value t := fun _ h => h.oneLine
theorem comment_text : ∀ t, Trimmed t → RangeText .comment t := fun _ h => h

/-- What follows a key makes well-formed ranges from well-formed ones, whatever the key is. -/
structure AfterNamed (after : Nat → Str → KeyTok → Option Tok) : Prop where
  named : ∀ p s k t, NamedOk k.named → after p s k = some t → NamedOk t.body.named
  free : ∀ p s k k', (after p s k).isSome = (after p s k').isSome

theorem afterKey_named : AfterNamed afterKey := by
  constructor
  · intro p s k t hk h
    unfold afterKey at h
    simp only at h
    split at h
    · simp at h; subst h
      exact namedOk_cons rfl (namedOk_append hk (valueAt_named value_text))
    · simp at h; subst h
      exact namedOk_cons rfl (namedOk_append hk (valueAt_named value_text))
    · simp only [Option.map_eq_some_iff] at h
      obtain ⟨v, hv, rfl⟩ := h
      exact namedOk_cons rfl (namedOk_cons (valueAt_trimmed hv) hk)
    · simp at h
  · intro p s k k'
    unfold afterKey
    simp only
    split <;> simp

theorem afterHeading_named {op : Cap} (ho : op.text ≠ [] ∧ ∀ c ∈ op.text, c = '#') : AfterNamed (afterHeadingKey op) := by
  constructor
  · intro p s k t hk h
    unfold afterHeadingKey at h
    simp only at h
    split at h
    · simp at h; subst h
      exact namedOk_cons ho hk
    · simp at h; subst h
      exact namedOk_cons ho hk
    · simp only [Option.map_eq_some_iff] at h
      obtain ⟨v, hv, rfl⟩ := h
      refine namedOk_cons ho (namedOk_append hk (namedOk_cons (valueAt_trimmed hv) (namedOk_cons ?_ (by intro x hx; cases hx))))
      simp [RangeText]
    · simp only [Option.map_eq_some_iff] at h
      obtain ⟨v, hv, rfl⟩ := h
      refine namedOk_cons ho (namedOk_append hk (namedOk_cons (valueAt_trimmed hv) (namedOk_cons ?_ (by intro x hx; cases hx))))
      simp [RangeText]
    · simp at h
  · intro p s k k'
    unfold afterHeadingKey
    simp only
    split <;> simp

theorem trimEnd_last {u : Str} (h : trimEnd u ≠ []) : ∃ w c, trimEnd u = w ++ [c] ∧ isHs c = false := by
  unfold trimEnd at h ⊢
  cases hx : u.reverse.dropWhile isHs with
  | nil => rw [hx] at h; simp at h
  | cons c u => exact ⟨u.reverse, c, by simp, dropWhile_head hx⟩

theorem plainKey_named {after} (A : AfterNamed after) {q : Char → Bool} {c : Char} {u : Str} (hs : s = c :: u) (hc : isHs c = false) (hq : q c = true) (hn : q '\n' = false)
    (h : plainKey q after p s = some t) : NamedOk t.body.named := by
  unfold plainKey at h
  refine A.named _ _ _ _ ?_ h
  refine namedOk_cons ?_ (by intro x hx; cases hx)
  simp only [RangeText]
  subst hs
  have hne : trimEnd ((c :: u).takeWhile q) ≠ [] := by
    intro e
    have := (trimEnd_eq_nil_iff _).mp e
    simp [hq, hc] at this
  refine ⟨?_, ?_, trimEnd_last hne⟩
  · intro hm
    have h2 := mem_takeWhile_imp ((trimEnd_isPrefix _).subset hm)
    rw [hn] at h2; cases h2
  · obtain ⟨w, hw⟩ := trimEnd_isPrefix ((c :: u).takeWhile q)
    cases hx : trimEnd ((c :: u).takeWhile q) with
    | nil => exact absurd hx hne
    | cons d v =>
      rw [hx] at hw
      simp [hq] at hw
      exact ⟨d, v, rfl, by rw [hw.1]; exact hc⟩

theorem runLen_cons_true {q : Char → Bool} {c : Char} {u : Str} (h : q c = true) : runLen q (c :: u) = runLen q u + 1 := by
  simp [runLen, h]

theorem findSome_first {α β} {f : α → Option β} {l : List α} {b : β} (h : l.findSome? f = some b) :
    ∃ pre a post, l = pre ++ a :: post ∧ f a = some b ∧ ∀ x ∈ pre, f x = none := by
  induction l with
  | nil => simp at h
  | cons a l ih =>
    rw [List.findSome?_cons] at h
    cases hf : f a with
    | some y => rw [hf] at h; exact ⟨[], a, l, rfl, by rw [hf]; exact h, by simp⟩
    | none =>
      rw [hf] at h
      obtain ⟨pre, x, post, rfl, h2, h3⟩ := ih h
      refine ⟨a :: pre, x, post, rfl, h2, ?_⟩
      intro y hy
      simp only [List.mem_cons] at hy
      rcases hy with rfl | hy
      · exact hf
      · exact h3 y hy

theorem escapedKey_named {after} (A : AfterNamed after) {u : Str} (hs : s = '`' :: u) (h : escapedKey after p s = some t) : NamedOk t.body.named := by
  unfold escapedKey at h
  simp only at h
  generalize hr : s.drop (runLen (· == '`') s + runLen isHs (s.drop (runLen (· == '`') s))) = r at h
  obtain ⟨pre, i, post, h1, h2, h3⟩ := findSome_first h
  split at h2
  case isFalse => simp at h2
  rename_i hcl
  have htick : s.take (runLen (· == '`') s) ≠ [] ∧ ∀ c ∈ s.take (runLen (· == '`') s), c = '`' := by
    refine ⟨?_, fun c hc => by simpa using runLen_take_all _ c hc⟩
    rw [hs, runLen_cons_true (by rfl)]
    simp
  have hi : i < (lineOf r).length := by
    have : i ∈ List.range (lineOf r).length := by rw [h1]; simp
    simpa using this
  have hpre : ∀ j, j < i → j ∈ pre := by
    intro j hj
    have hj' : j ∈ List.range (lineOf r).length := by simp; omega
    rw [h1] at hj'
    simp only [List.mem_append, List.mem_cons] at hj'
    rcases hj' with hj' | rfl | hj'
    · exact hj'
    · omega
    · have hp : (List.range (lineOf r).length).Pairwise (· < ·) := List.pairwise_lt_range
      rw [h1, List.pairwise_append] at hp
      have := (List.pairwise_cons.1 hp.2.1).1 j hj'
      omega
  have hk : Trimmed (r.take (i + 1)) := by
    have hle : (lineOf r).length ≤ r.length := (lineOf_prefix r).length_le
    have hrl : i < r.length := by omega
    have hpl : r.take (i + 1) = (lineOf r).take (i + 1) := by
      obtain ⟨w, hw⟩ := lineOf_prefix r
      conv => lhs; rw [← hw]
      rw [List.take_append_of_le_length (by omega)]
    refine ⟨?_, ?_, ?_⟩
    · rw [hpl]
      intro hm
      exact not_nl_of_mem_lineOf (List.mem_of_mem_take hm) rfl
    · cases hrr : r with
      | nil => rw [hrr] at hrl; simp at hrl
      | cons c v =>
        refine ⟨c, v.take i, rfl, ?_⟩
        have : (s.drop (runLen (· == '`') s)).dropWhile isHs = c :: v := by
          rw [← drop_takeWhile, List.drop_drop]
          rw [← hrr, ← hr]; rfl
        exact dropWhile_head this
    · refine ⟨r.take i, r[i], by rw [List.take_succ_eq_append_getElem hrl], ?_⟩
      cases q : isHs r[i] with
      | false => rfl
      | true =>
        exfalso
        cases i with
        | zero =>
          cases hrr : r with
          | nil => rw [hrr] at hrl; simp at hrl
          | cons c v =>
            have : (s.drop (runLen (· == '`') s)).dropWhile isHs = c :: v := by
              rw [← drop_takeWhile, List.drop_drop]
              rw [← hrr, ← hr]; rfl
            have := dropWhile_head this
            simp only [hrr, List.getElem_cons_zero] at q
            rw [this] at q; cases q
        | succ j =>
          have h4 := h3 j (hpre j (by omega))
          have hd : r.drop (j + 1) = r[j + 1] :: r.drop (j + 1 + 1) := List.drop_eq_getElem_cons hrl
          have hg : runLen isHs (r.drop (j + 1)) = runLen isHs (r.drop (j + 1 + 1)) + 1 := by rw [hd, runLen_cons_true q]
          have ea : j + 1 + (runLen isHs (r.drop (j + 1 + 1)) + 1) = j + 1 + 1 + runLen isHs (r.drop (j + 1 + 1)) := by omega
          have hq : ∀ a b : Nat, a + b + (j + 1) + (runLen isHs (r.drop (j + 1 + 1)) + 1) = a + b + (j + 1 + 1) + runLen isHs (r.drop (j + 1 + 1)) := by omega
          simp only [hg, ea, hcl, if_true, hq] at h4
          have h5 := congrArg Option.isSome h4
          rw [A.free _ _ _ (.escaped ⟨p, p + runLen (· == '`') s, s.take (runLen (· == '`') s)⟩ ⟨_, _, r.take (j + 1 + 1)⟩ ⟨_, _, s.take (runLen (· == '`') s)⟩), h2] at h5
          simp at h5
  refine A.named _ _ _ _ ?_ h2
  exact namedOk_cons htick (namedOk_cons htick (namedOk_cons hk (by intro x hx; cases hx)))

/-- The ranges of every recognised line are well-formed. -/
theorem scan_named (ht : scan pos s = some t) : NamedOk t.body.named := by
  unfold scan at ht
  simp only at ht
  have hhs := fun c v (h : s.drop (runLen isHs s) = c :: v) => dropWhile_head (p := isHs) (l := s) (by rw [← drop_takeWhile]; exact h)
  split at ht
  · simp at ht; subst ht; intro x hx; cases hx
  · rename_i c u hu
    have hc := hhs c u hu
    split at ht
    · simp at ht; subst ht; intro x hx; cases hx
    · rename_i hnl
      split at ht
      · simp at ht; subst ht; exact namedOk_cons rfl (valueAt_named value_text)
      · split at ht
        · simp at ht; subst ht; exact namedOk_cons rfl (valueAt_named value_text)
        · split at ht
          · simp at ht; subst ht; exact namedOk_cons rfl (valueAt_named comment_text)
          · split at ht
            · rename_i hd; subst hd
              rw [hu] at ht
              unfold dashAt at ht
              simp only at ht
              split at ht
              · simp at ht; subst ht; exact namedOk_cons rfl (valueAt_named value_text)
              · rename_i hd
                simp only [Option.map_eq_some_iff] at ht
                obtain ⟨v, hv, rfl⟩ := ht
                have hdl := runLen_le (· == '-') ('-' :: u)
                have hd0 : 0 < runLen (· == '-') ('-' :: u) := by simp [runLen]
                refine namedOk_cons ⟨by simp only [List.length_take]; omega, ?_⟩ (namedOk_cons (valueAt_trimmed hv) (by intro x hx; cases hx))
                intro x hx
                simpa using runLen_take_all _ x hx
            · split at ht
              · rename_i hc; subst hc
                rw [hu] at ht
                unfold headingAt at ht
                simp only at ht
                have hh : ('#' :: u).take (runLen (· == '#') ('#' :: u)) ≠ [] ∧ ∀ x ∈ ('#' :: u).take (runLen (· == '#') ('#' :: u)), x = '#' := by
                  refine ⟨?_, fun x hx => by simpa using runLen_take_all _ x hx⟩
                  rw [runLen_cons_true (by rfl)]
                  simp
                split at ht
                · simp at ht
                · simp at ht
                · rename_i w hw
                  rw [hw] at ht
                  exact escapedKey_named (afterHeading_named hh) rfl ht
                · rename_i hn1 hn2 hn3
                  generalize hr : ('#' :: u).drop (runLen (· == '#') ('#' :: u) + runLen isSp (('#' :: u).drop (runLen (· == '#') ('#' :: u)))) = r at ht hn1 hn2 hn3
                  cases r with
                  | nil => exact absurd rfl hn1
                  | cons d v =>
                    have : (('#' :: u).drop (runLen (· == '#') ('#' :: u))).dropWhile isSp = d :: v := by
                      rw [← drop_takeWhile, List.drop_drop, ← hr]; rfl
                    have hd := dropWhile_head this
                    have hd' : isHs d = false := by simp [isHs, hd]
                    have hdn : d ≠ '\n' := by rintro rfl; simp [isSp] at hd
                    refine plainKey_named (afterHeading_named hh) rfl hd' ?_ (by simp) ht
                    have : d ≠ '<' := by rintro rfl; exact hn2 _ rfl
                    simp [this, hdn]
              · split at ht
                · rename_i hc; subst hc
                  rw [hu] at ht
                  exact escapedKey_named afterKey_named rfl ht
                · split at ht
                  · simp at ht
                  · rename_i hops
                    rw [hu] at ht
                    simp only [not_or] at hops
                    exact plainKey_named afterKey_named rfl hc (by simp [hnl, hops]) (by simp) ht

/-- Every range of an instruction contains what its name says. -/
def RangesNamed (input : Str) (b : Base) : Prop := ∀ n r, (n, r) ∈ b.ranges → RangeText n (slice input r.1 r.2)

theorem pieceOf_named {n b : Nat} (h : TokOk input b t) (hn : NamedOk t.body.named) : RangesNamed input (pieceOf n b t).toBase := by
  intro m r hm
  simp only [pieceOf, List.mem_cons] at hm
  rcases hm with hm | hm
  · simp at hm; obtain ⟨rfl, rfl⟩ := hm; trivial
  · have := (named_ranges t.body).mem_iff.1 hm
    simp only [List.mem_map, Prod.mk.injEq] at this
    obtain ⟨x, hx, rfl, rfl⟩ := this
    rw [slice_cap (placed_mem h.placed _ (named_caps _ x hx)).2.1]
    exact hn x hx

theorem slice_cons {b e : Nat} {c : Char} {u : Str} (h : input.drop b = c :: u) (he : b < e) : slice input b e = c :: slice input (b + 1) e := by
  unfold slice
  rw [List.drop_take, List.drop_take, h]
  have : input.drop (b + 1) = u := by rw [drop_drop' h]; rfl
  rw [this]
  obtain ⟨k, rfl⟩ : ∃ k, e = b + 1 + k := ⟨e - (b + 1), by omega⟩
  have e1 : b + 1 + k - b = k + 1 := by omega
  have e2 : b + 1 + k - (b + 1) = k := by omega
  rw [e1, e2, List.take_succ_cons]

theorem place_oneLine (w : Str) : ∀ (n i : Nat) (p : Spot), p ∈ place n i (splitNl w) → w <+: input.drop i → '\n' ∉ slice input p.2.1 p.2.2 := by
  induction w with
  | nil =>
    intro n i p h _
    simp [splitNl, place] at h; subst h
    simp [slice]
  | cons c t ih =>
    intro n i p h hw
    obtain ⟨v, hv⟩ := hw
    have hd : input.drop i = c :: (t ++ v) := hv.symm
    have hi : t <+: input.drop (i + 1) := ⟨v, by rw [drop_drop' hd]; rfl⟩
    by_cases hc : c = '\n'
    · subst hc
      have : splitNl ('\n' :: t) = [] :: splitNl t := by simp [splitNl]
      rw [this] at h
      simp only [place, List.mem_cons] at h
      rcases h with rfl | h
      · simp [slice]
      · exact ih _ _ _ h hi
    · cases hs : splitNl t with
      | nil => exact absurd hs (splitNl_ne_nil t)
      | cons l ls =>
        have : splitNl (c :: t) = (c :: l) :: ls := by
          conv => lhs; unfold splitNl
          simp [hc, hs]
        rw [this] at h
        rw [hs] at ih
        simp only [place, List.mem_cons] at h ih
        rcases h with rfl | h
        · have q := ih n (i + 1) (n, i + 1, i + 1 + l.length) (.inl rfl) hi
          simp only at q ⊢
          rw [slice_cons hd (by simp only [List.length_cons]; omega)]
          simp only [List.length_cons, List.mem_cons, not_or]
          refine ⟨fun e => hc e.symm, ?_⟩
          have : i + (l.length + 1) = i + 1 + l.length := by omega
          rw [this]; exact q
        · refine ih n (i + 1) p (.inr ?_) hi
          have : i + (c :: l).length + 1 = i + 1 + l.length + 1 := by simp; omega
          rw [this] at h; exact h

theorem slice_oneLine {p : Spot} {n fin stop : Nat} (hp : p ∈ mlBody input n fin stop) : '\n' ∉ slice input p.2.1 p.2.2 := by
  unfold mlBody at hp
  split at hp
  · cases hp
  · exact place_oneLine _ _ _ _ hp (by rw [List.drop_take]; exact List.take_prefix _ _)

theorem event_named {ev : Event} (h : EventIn input ev) : ∀ p ∈ ev.pieces, RangesNamed input p.toBase := by
  cases ev with
  | line n b t =>
    intro p hp
    unfold Event.pieces at hp
    simp only at hp
    split at hp
    · simp at hp
    · simp at hp; subst hp
      exact pieceOf_named (scan_ok (Nat.le_of_lt h.1) h.2.1) (scan_named h.2.1)
  | multi n b fin op key body T =>
    obtain ⟨h1, h2, h3, rfl⟩ := h
    have geo := multi_geo h1 h2 h3
    have hn := scan_named h2
    have g1 := geo.start
    intro p hp
    simp only [Event.pieces, List.mem_cons, List.mem_append, List.mem_map, List.cons_append, List.not_mem_nil, or_false] at hp
    rcases hp with rfl | ⟨q, hq, rfl⟩ | rfl
    · exact pieceOf_named geo.tok hn
    · intro m r hm
      simp at hm
      rcases hm with ⟨rfl, rfl⟩ | ⟨rfl, rfl⟩
      · trivial
      · exact slice_oneLine hq
    · intro m r hm
      simp at hm
      rcases hm with ⟨rfl, rfl⟩ | ⟨rfl, rfl⟩ | ⟨rfl, rfl⟩
      · simp only; rw [geo.keyText]; exact hn (.key, key) (by simp [Body.named])
      · trivial
      · simp only; rw [geo.opText]; exact hn (.multilineFieldOperator, op) (by simp [Body.named])

/-! ## The ranges do not overlap -/

theorem placed_apart {lo fin : Nat} {xs : List Cap} (h : Placed input lo fin xs) :
    xs.Pairwise (fun c d => Precedes (c.b, c.e) (d.b, d.e)) ∧ ∀ c ∈ xs, lo ≤ c.b := by
  induction xs generalizing lo with
  | nil => exact ⟨.nil, by simp⟩
  | cons x xs ih =>
    obtain ⟨h1, ⟨_, h2, h3⟩, h4⟩ := h
    obtain ⟨i1, i2⟩ := ih h4
    have hp : 0 < x.text.length := List.length_pos_iff.2 h3
    refine ⟨List.pairwise_cons.2 ⟨fun d hd => ?_, i1⟩, ?_⟩
    · have := i2 d hd
      exact ⟨by simp only; omega, this⟩
    · intro c hc
      rcases List.mem_cons.1 hc with rfl | hc
      · exact h1
      · have := i2 c hc; omega

theorem named_perm (body : Body) : (body.named.map Prod.snd).Perm body.caps := by
  cases body with
  | heading op k c =>
    cases c with
    | none => cases k <;> simp [Body.named, Body.caps, KeyTok.named, KeyTok.caps] <;> exact List.Perm.swap _ _ _
    | some c =>
      obtain ⟨c, t⟩ := c
      cases k with
      | plain k => exact List.Perm.cons _ (List.Perm.cons _ (List.Perm.swap _ _ _))
      | escaped b k e => exact List.Perm.cons _ (List.Perm.cons _ ((List.Perm.swap _ _ _).trans (List.Perm.cons _ (List.Perm.cons _ (List.Perm.swap _ _ _)))))
  | empty => exact List.Perm.refl _
  | continuation sp op v => cases v <;> simp [Body.named, Body.caps]
  | listItem op v => cases v <;> simp [Body.named, Body.caps]
  | comment op v => cases v <;> simp [Body.named, Body.caps]
  | multiline op k => exact List.Perm.refl _
  | copy k op t =>
    cases k with
    | plain k => exact ((List.Perm.cons _ (List.Perm.swap k t [])).trans (List.Perm.swap k op [t]))
    | escaped b k e =>
      have : ([op, t] ++ [b, e, k]).Perm ([b, k, e] ++ [op, t]) := List.perm_append_comm.trans ((List.Perm.cons _ (List.Perm.swap _ _ _)).append_right _)
      exact this
  | element k op v =>
    cases k with
    | plain k => cases v <;> exact List.Perm.swap _ _ _
    | escaped b k e =>
      have q : ([op] ++ [b, e, k]).Perm ([b, k, e] ++ [op]) := List.perm_append_comm.trans ((List.Perm.cons _ (List.Perm.swap _ _ _)).append_right _)
      cases v with
      | none => exact q
      | some v => exact q.append_right [v]
  | entry k op v =>
    cases k with
    | plain k => cases v <;> exact List.Perm.swap _ _ _
    | escaped b k e =>
      have q : ([op] ++ [b, e, k]).Perm ([b, k, e] ++ [op]) := List.perm_append_comm.trans ((List.Perm.cons _ (List.Perm.swap _ _ _)).append_right _)
      cases v with
      | none => exact q
      | some v => exact q.append_right [v]

theorem pieceOf_apart {n b : Nat} (h : TokOk input b t) : Apart (pieceOf n b t).toBase := by
  have h1 := (placed_apart h.placed).1
  have h2 : t.body.caps.Pairwise (fun c d => Precedes (c.b, c.e) (d.b, d.e) ∨ Precedes (d.b, d.e) (c.b, c.e)) := h1.imp Or.inl
  have h3 := (named_perm t.body).symm.pairwise h2 (fun h => h.symm)
  rw [List.pairwise_map] at h3
  have h4 : (t.body.named.map fun x => (x.1, (x.2.b, x.2.e))).Pairwise (fun x y => x.1 = .line ∨ y.1 = .line ∨ Precedes x.2 y.2 ∨ Precedes y.2 x.2) := by
    rw [List.pairwise_map]
    exact h3.imp fun h => .inr (.inr h)
  have h5 := (named_ranges t.body).symm.pairwise h4 (fun h => by
    rcases h with h | h | h
    · exact .inr (.inl h)
    · exact .inl h
    · exact .inr (.inr h.symm))
  exact List.pairwise_cons.2 ⟨fun _ _ => .inl rfl, h5⟩

theorem event_apart {ev : Event} (h : EventIn input ev) : ∀ p ∈ ev.pieces, Apart p.toBase := by
  cases ev with
  | line n b t =>
    intro p hp
    unfold Event.pieces at hp
    simp only at hp
    split at hp
    · simp at hp
    · simp at hp; subst hp
      exact pieceOf_apart (scan_ok (Nat.le_of_lt h.1) h.2.1)
  | multi n b fin op key body T =>
    obtain ⟨h1, h2, h3, rfl⟩ := h
    have geo := multi_geo h1 h2 h3
    intro p hp
    simp only [Event.pieces, List.mem_cons, List.mem_append, List.mem_map, List.cons_append, List.not_mem_nil, or_false] at hp
    rcases hp with rfl | ⟨q, hq, rfl⟩ | rfl
    · exact pieceOf_apart geo.tok
    · exact List.pairwise_cons.2 ⟨fun _ _ => .inl rfl, List.pairwise_singleton _ _⟩
    · have g := geo.tok.placed
      simp only [Body.caps, Placed] at g
      have hop : 0 < op.text.length := List.length_pos_iff.2 g.2.1.2.2
      have k1 := geo.keyStart
      refine List.pairwise_cons.2 ⟨?_, List.pairwise_cons.2 ⟨fun _ _ => .inl rfl, List.pairwise_singleton _ _⟩⟩
      intro y hy
      simp only [List.mem_cons, List.not_mem_nil, or_false] at hy
      rcases hy with rfl | rfl
      · exact .inr (.inl rfl)
      · exact .inr (.inr (.inr ⟨by simp only; omega, k1⟩))

/-! ## Which ranges there are -/

/-- The groups of a block: the first one begins with the element, the others with items or entries; continuations follow. -/
theorem parts_shape {e : Event} {r : List Event} (h2 : e.role.starts = true) (h3 : ∀ x ∈ r, x.role = .item ∨ x.role = .entry ∨ x.role = .continuation) :
    ∃ g gs, parts (e :: r) = (e :: g) :: gs ∧ (∀ x ∈ g, x ∈ r ∧ x.role = .continuation) ∧
      ∀ q ∈ gs, ∃ a u, q = a :: u ∧ a ∈ r ∧ (a.role = .item ∨ a.role = .entry) ∧ ∀ x ∈ u, x ∈ r ∧ x.role = .continuation := by
  induction r using snoc_induction with
  | h0 => exact ⟨[], [], parts_single (starts_owns h2), by simp, by simp⟩
  | h1 l a ih =>
    obtain ⟨g, gs, h4, h5, h6⟩ := ih (fun x hx => h3 x (by simp [hx]))
    have up : ∀ {x : Event}, x ∈ l ∧ x.role = .continuation → x ∈ l ++ [a] ∧ x.role = .continuation := fun h => ⟨by simp [h.1], h.2⟩
    have h6' : ∀ q ∈ gs, ∃ b u, q = b :: u ∧ b ∈ l ++ [a] ∧ (b.role = .item ∨ b.role = .entry) ∧ ∀ x ∈ u, x ∈ l ++ [a] ∧ x.role = .continuation := by
      intro q hq
      obtain ⟨b, u, k1, k2, k3, k4⟩ := h6 q hq
      exact ⟨b, u, k1, by simp [k2], k3, fun x hx => up (k4 x hx)⟩
    rw [← List.cons_append]
    by_cases ha : a.role.owns = true
    · refine ⟨g, gs ++ [[a]], by rw [parts_snoc_owns ha, h4]; rfl, fun x hx => up (h5 x hx), ?_⟩
      intro q hq
      simp only [List.mem_append, List.mem_singleton] at hq
      rcases hq with hq | rfl
      · exact h6' q hq
      · refine ⟨a, [], rfl, by simp, ?_, by simp⟩
        rcases h3 a (by simp) with h | h | h
        · exact .inl h
        · exact .inr h
        · rw [h] at ha; cases ha
    · have hac : a.role = .continuation := by
        rcases h3 a (by simp) with h | h | h
        · rw [h] at ha; exact absurd rfl ha
        · rw [h] at ha; exact absurd rfl ha
        · exact h
      have hnew : a ∈ l ++ [a] ∧ a.role = .continuation := ⟨by simp, hac⟩
      rcases List.eq_nil_or_concat gs with rfl | ⟨gs', g', rfl⟩
      · have := parts_snoc_joins (b := e :: l) (gs := []) (ev := a) (by simpa using ha) h4
        refine ⟨g ++ [a], [], this, ?_, by simp⟩
        intro x hx
        simp only [List.mem_append, List.mem_singleton] at hx
        rcases hx with hx | rfl
        · exact up (h5 x hx)
        · exact hnew
      · rw [List.concat_eq_append] at h4 h6'
        have := parts_snoc_joins (b := e :: l) (gs := (e :: g) :: gs') (g := g') (ev := a) (by simpa using ha) (by rw [h4]; rfl)
        refine ⟨g, gs' ++ [g' ++ [a]], this, fun x hx => up (h5 x hx), ?_⟩
        intro q hq
        simp only [List.mem_append, List.mem_singleton] at hq
        rcases hq with hq | rfl
        · exact h6' q (by simp [hq])
        · obtain ⟨b, u, rfl, k2, k3, k4⟩ := h6' g' (by simp)
          refine ⟨b, u ++ [a], rfl, k2, k3, ?_⟩
          intro x hx
          simp only [List.mem_append, List.mem_singleton] at hx
          rcases hx with hx | rfl
          · exact k4 x hx
          · exact hnew

theorem pieces_head {ev : Event} (h : ev.role ≠ .blank) : ∃ l, ev.pieces = ev.piece :: l := by
  cases ev with
  | line n b t =>
    refine ⟨[], ?_⟩
    have : t.body ≠ .empty := by intro e; simp [Event.role, e, roleOf] at h
    simp [Event.pieces, this, Event.piece]
  | multi => exact ⟨_, rfl⟩

theorem pieces_line {ev : Event} (h : ev.role ≠ .blank) (hm : ev.role ≠ .multiline) : ev.pieces = [ev.piece] := by
  cases ev with
  | line n b t =>
    have : t.body ≠ .empty := by intro e; simp [Event.role, e, roleOf] at h
    simp [Event.pieces, this, Event.piece]
  | multi => simp [Event.role] at hm

variable {es : List Event} {sa : AS} {i : Nat} {r : Ending}

/-- What the parts of an element are recorded from. -/
theorem elem_events (lay : Layout es sa) (hi : 0 < i) (hl : i < sa.heap.length) :
    ∃ ev rest, ev ∈ es ∧ ev.role.starts = true ∧ (sa.heap.at i).type = kindOf (ev :: rest) ∧ (sa.heap.at i).piece = ev.piece ∧
      (∀ x ∈ (sa.heap.at i).items.getD [] ++ (sa.heap.at i).entries.getD [], ∃ sub ∈ es, (sub.role = .item ∨ sub.role = .entry) ∧ x.piece = sub.piece ∧
        ∀ c ∈ x.continuations.getD [], ∃ k ∈ es, k.role = .continuation ∧ c.piece = k.piece) ∧
      (ev.role ≠ .multiline → ∀ c ∈ (sa.heap.at i).continuations.getD [], ∃ k ∈ es, k.role = .continuation ∧ c.piece = k.piece) := by
  obtain ⟨b, hb, hp, hk⟩ := elem_block lay hi hl
  have hbm := List.mem_of_getElem? hb
  obtain ⟨ev, rest, rfl, h2, h3⟩ := blocks_spec hbm
  obtain ⟨g, gs, h4, h5, h6⟩ := parts_shape h2 h3
  have hmem : ∀ x ∈ ev :: rest, x ∈ es := fun x hx => (blocks_mem hbm hx).1
  have hnb : ev.role ≠ .blank := by intro e; rw [e] at h2; cases h2
  have hcont : ∀ {u : List Event}, (∀ x ∈ u, x ∈ rest ∧ x.role = .continuation) → u.flatMap Event.pieces = u.map Event.piece := by
    intro u hu
    induction u with
    | nil => rfl
    | cons a u ih =>
      have ha := (hu a (by simp)).2
      rw [List.flatMap_cons, ih (fun x hx => hu x (by simp [hx])), pieces_line (by rw [ha]; simp) (by rw [ha]; simp)]
      rfl
  rw [h4] at hp
  simp only [Elem.parts, List.map_cons, List.cons_append, List.flatMap_cons, List.cons.injEq] at hp
  obtain ⟨hp1, hp2⟩ := hp
  refine ⟨ev, rest, hmem ev (by simp), h2, hk, ?_, ?_, ?_⟩
  · obtain ⟨l, hl⟩ := pieces_head hnb
    rw [hl] at hp1
    simp only [Elem.head, List.cons_append, List.cons.injEq] at hp1
    exact hp1.1
  · intro x hx
    have hxp : x.part ∈ gs.map (fun g => g.flatMap Event.pieces) := by
      rw [← hp2, ← List.map_append]
      exact List.mem_map_of_mem hx
    simp only [List.mem_map] at hxp
    obtain ⟨q, hq, hqx⟩ := hxp
    obtain ⟨a, u, rfl, k2, k3, k4⟩ := h6 q hq
    have hab : a.role ≠ .blank ∧ a.role ≠ .multiline := by rcases k3 with k | k <;> rw [k] <;> simp
    rw [List.flatMap_cons, hcont k4, pieces_line hab.1 hab.2] at hqx
    simp only [Sub.part, List.cons_append, List.nil_append, List.cons.injEq] at hqx
    refine ⟨a, hmem a (by simp [k2]), k3, hqx.1.symm, ?_⟩
    intro c hc
    have : c.piece ∈ u.map Event.piece := by rw [hqx.2]; exact List.mem_map_of_mem hc
    simp only [List.mem_map] at this
    obtain ⟨k, hk1, hk2⟩ := this
    exact ⟨k, hmem k (by simp [(k4 k hk1).1]), (k4 k hk1).2, hk2.symm⟩
  · intro hm c hc
    rw [pieces_line hnb hm, hcont h5] at hp1
    have : c.piece ∈ g.map Event.piece := by
      simp only [Elem.head, List.cons_append, List.nil_append, List.cons.injEq] at hp1
      rw [← hp1.2]
      simp only [List.mem_append, List.mem_map]
      exact .inl (.inl ⟨c, hc, rfl⟩)
    simp only [List.mem_map] at this
    obtain ⟨k, hk1, hk2⟩ := this
    exact ⟨k, hmem k (by simp [(h5 k hk1).1]), (h5 k hk1).2, hk2.symm⟩

theorem kindOf_other {ev : Event} {rest : List Event} (h1 : ∀ d, ev.role ≠ .heading d) (h2 : ev.role ≠ .multiline) : kindOf (ev :: rest) ≠ .section ∧ kindOf (ev :: rest) ≠ .mlBegin := by
  unfold kindOf
  simp only
  split
  · rename_i d hd; exact absurd hd (h1 d)
  · rename_i hd; exact absurd hd h2
  · simp
  · split <;> simp

theorem elementNames_plain {e : Elem} (h1 : e.type ≠ .section) (h2 : e.type ≠ .mlBegin) : elementNames e =
    match e.template with | some _ => [.template, .copyOperator] | none => .elementOperator :: valueNames e.value := by
  unfold elementNames
  cases e.template <;> cases ht : e.type <;> first | rfl | (exact absurd ht h1) | (exact absurd ht h2)

theorem event_shape {ev : Event} (h : EventIn input ev) (hs : ev.role.starts = true) :
    (∃ n b fin k op v, ev = .line n b ⟨fin, .element k op v⟩) ∨ (∃ n b fin k op t, ev = .line n b ⟨fin, .copy k op t⟩) ∨
    (∃ n b fin op k c, ev = .line n b ⟨fin, .heading op k c⟩) ∨ ∃ n b fin op key body T, ev = .multi n b fin op key body T := by
  cases ev with
  | multi n b fin op key body T => exact .inr (.inr (.inr ⟨n, b, fin, op, key, body, T, rfl⟩))
  | line n b t =>
    obtain ⟨fin, body⟩ := t
    cases body with
    | element k op v => exact .inl ⟨_, _, _, _, _, _, rfl⟩
    | copy k op t => exact .inr (.inl ⟨_, _, _, _, _, _, rfl⟩)
    | heading op k c => exact .inr (.inr (.inl ⟨_, _, _, _, _, _, rfl⟩))
    | multiline op k => exact absurd rfl (h.2.2 op k)
    | empty => simp [Event.role, roleOf, Role.starts] at hs
    | listItem => simp [Event.role, roleOf, Role.starts] at hs
    | entry => simp [Event.role, roleOf, Role.starts] at hs
    | continuation => simp [Event.role, roleOf, Role.starts] at hs
    | comment => simp [Event.role, roleOf, Role.starts] at hs

/-- Whether a key is between backticks. -/
def KeyTok.isEscaped : KeyTok → Bool
  | .plain _ => false
  | .escaped .. => true

theorem named_names (n b fin : Nat) (body : Body) : HasRanges (pieceOf n b ⟨fin, body⟩).toBase (.line :: body.named.map Prod.fst) := by
  unfold HasRanges pieceOf
  simp only [List.map_cons]
  refine List.Perm.cons _ ?_
  have := (named_ranges body).map Prod.fst
  rwa [List.map_map] at this

theorem keyNames (k : KeyTok) : (k.named.map Prod.fst).Perm (.key :: escapeNames k.isEscaped) := by
  cases k with
  | plain k => exact List.Perm.refl _
  | escaped a k e => exact (List.perm_append_comm (l₁ := [RangeName.escapeBeginOperator, .escapeEndOperator]) (l₂ := [.key]))

theorem Spec.HasRanges.perm {b : Base} {l l' : List RangeName} (h : HasRanges b l) (hp : l.Perm l') : HasRanges b l' := List.Perm.trans h hp

theorem key_perm {o : RangeName} (k : KeyTok) (v : List RangeName) :
    (RangeName.line :: o :: (k.named.map Prod.fst ++ v)).Perm (.line :: .key :: (escapeNames k.isEscaped ++ o :: v)) := by
  refine List.Perm.cons _ ?_
  have h1 : (o :: (k.named.map Prod.fst ++ v)).Perm (o :: (.key :: escapeNames k.isEscaped ++ v)) := List.Perm.cons _ (List.Perm.append_right _ (keyNames k))
  refine h1.trans ?_
  exact (List.perm_middle (a := o) (l₁ := .key :: escapeNames k.isEscaped) (l₂ := v)).symm

theorem value_names (m : RangeName) (v : Option Cap) : (v.toList.map (m, ·)).map Prod.fst = if (v.map (·.text)).isSome then [m] else [] := by
  cases v <;> rfl

/-- The ranges of an element. -/
theorem elem_names {n : Nat} {j : Nat} (ht : Trace input j n es r) (lay : Layout es sa) (inv : Inv sa) (hi : 0 < i) (hl : i < sa.heap.length) :
    ∃ esc, HasRanges (sa.heap.at i).toBase (.line :: .key :: (escapeNames esc ++ elementNames (sa.heap.at i))) := by
  obtain ⟨ev, rest, hm, hs, hk, hp, _, _⟩ := elem_events lay hi hl
  have eok := inv.heap.elem i hl
  generalize sa.heap.at i = e at hk hp eok
  have hb : e.toBase = ev.piece.toBase := congrArg Piece.toBase hp
  have hv : e.value = ev.piece.value := congrArg Piece.value hp
  have htm : e.template = ev.piece.template := congrArg Piece.template hp
  rcases event_shape (trace_events ht ev hm) hs with ⟨n, b, fin, k, op, v, rfl⟩ | ⟨n, b, fin, k, op, t, rfl⟩ | ⟨n, b, fin, op, k, c, rfl⟩ | ⟨n, b, fin, op, key, body, T, rfl⟩
  · have hq := kindOf_other (ev := .line n b ⟨fin, .element k op v⟩) (rest := rest) (by simp [Event.role, roleOf]) (by simp [Event.role, roleOf])
    rw [← hk] at hq
    have htn : e.template = none := htm
    have hvv : e.value = v.map (·.text) := hv
    rw [elementNames_plain hq.1 hq.2, htn, hvv, hb]
    refine ⟨k.isEscaped, (named_names n b fin (.element k op v)).perm ?_⟩
    have : (Body.named (.element k op v)).map Prod.fst = .elementOperator :: (k.named.map Prod.fst ++ valueNames (v.map (·.text))) := by
      simp only [Body.named, List.cons_append, List.map_cons, List.map_append, value_names]; rfl
    rw [this]
    exact key_perm k _
  · have hq := kindOf_other (ev := .line n b ⟨fin, .copy k op t⟩) (rest := rest) (by simp [Event.role, roleOf]) (by simp [Event.role, roleOf])
    rw [← hk] at hq
    have htn : e.template = some t.text := htm
    rw [elementNames_plain hq.1 hq.2, htn, hb]
    refine ⟨k.isEscaped, (named_names n b fin (.copy k op t)).perm ?_⟩
    have : (Body.named (.copy k op t)).map Prod.fst = .copyOperator :: .template :: (k.named.map Prod.fst ++ []) := by
      simp only [Body.named, List.map_cons, List.append_nil]
    rw [this]
    have h1 : (RangeName.copyOperator :: .template :: (k.named.map Prod.fst ++ [])).Perm ([.copyOperator, .template] ++ (.key :: escapeNames k.isEscaped)) := by
      rw [List.append_nil]; exact List.Perm.cons _ (List.Perm.cons _ (keyNames k))
    refine List.Perm.cons _ (h1.trans ?_)
    exact (List.perm_append_comm (l₁ := [RangeName.copyOperator, .template]) (l₂ := .key :: escapeNames k.isEscaped)).trans
      (List.Perm.append_left (.key :: escapeNames k.isEscaped) (List.Perm.swap _ _ _))
  · have hty : e.type = .section := by rw [hk]; simp [kindOf, Event.role, roleOf]
    cases c with
    | none =>
      have htn : e.template = none := htm
      have : elementNames e = [.sectionOperator] := by unfold elementNames; rw [hty, htn]
      rw [this, hb]
      refine ⟨k.isEscaped, (named_names n b fin (.heading op k none)).perm ?_⟩
      have : (Body.named (.heading op k none)).map Prod.fst = .sectionOperator :: (k.named.map Prod.fst ++ []) := by
        simp only [Body.named, List.map_cons, List.append_nil]
      rw [this]
      exact key_perm k _
    | some ct =>
      obtain ⟨c, t⟩ := ct
      have htn : e.template = some t.text := htm
      have hdp : e.deepCopy = decide (c.e - c.b = 2) := by
        rw [eok.deepOp, hb]
        by_cases h : c.e - c.b = 2
        · simp only [Event.piece, pieceOf, rangesOf, h, decide_true, if_true]; cases k <;> rfl
        · simp only [Event.piece, pieceOf, rangesOf, h, decide_false, if_false]; cases k <;> rfl
      have : elementNames e = [.sectionOperator, .template, if c.e - c.b = 2 then .deepCopyOperator else .copyOperator] := by
        unfold elementNames; rw [hty, htn, hdp]; simp
      rw [this, hb]
      refine ⟨k.isEscaped, (named_names n b fin (.heading op k (some (c, t)))).perm ?_⟩
      have : (Body.named (.heading op k (some (c, t)))).map Prod.fst =
          .sectionOperator :: (k.named.map Prod.fst ++ [.template, if c.e - c.b = 2 then .deepCopyOperator else .copyOperator]) := by
        simp only [Body.named, List.cons_append, List.map_cons, List.map_append, List.map_nil]
      rw [this]
      exact key_perm k _
  · have hty : e.type = .mlBegin := by rw [hk]; simp [kindOf, Event.role]
    have : elementNames e = [.multilineFieldOperator] := by unfold elementNames; rw [hty]
    rw [this, hb]
    refine ⟨false, (named_names n b fin (.multiline op key)).perm ?_⟩
    exact List.Perm.cons _ (List.Perm.swap _ _ _)

/-- The ranges of a continuation. -/
theorem cont_names {ev : Event} (h : EventIn input ev) (hr : ev.role = .continuation) : ∃ o, (o = .spacedLineContinuationOperator ∨ o = .directLineContinuationOperator) ∧
    HasRanges ev.piece.toBase (.line :: o :: valueNames ev.piece.value) := by
  match ev, h, hr with
  | .line n b ⟨fin, .continuation sp op v⟩, _, _ =>
    refine ⟨if sp then .spacedLineContinuationOperator else .directLineContinuationOperator, by cases sp <;> simp, (named_names n b fin _).perm ?_⟩
    simp only [Body.named, List.map_cons, value_names]
    exact List.Perm.refl _

theorem item_names {ev : Event} (h : EventIn input ev) (hr : ev.role = .item) : HasRanges ev.piece.toBase (.line :: .itemOperator :: valueNames ev.piece.value) := by
  match ev, h, hr with
  | .line n b ⟨fin, .listItem op v⟩, _, _ =>
    refine (named_names n b fin _).perm ?_
    simp only [Body.named, List.map_cons, value_names]
    exact List.Perm.refl _

theorem entry_names {ev : Event} (h : EventIn input ev) (hr : ev.role = .entry) :
    ∃ esc, HasRanges ev.piece.toBase (.line :: .key :: (escapeNames esc ++ .entryOperator :: valueNames ev.piece.value)) := by
  match ev, h, hr with
  | .line n b ⟨fin, .entry k op v⟩, _, _ =>
    refine ⟨k.isEscaped, (named_names n b fin _).perm ?_⟩
    have : (Body.named (.entry k op v)).map Prod.fst = .entryOperator :: (k.named.map Prod.fst ++ valueNames (v.map (·.text))) := by
      simp only [Body.named, List.cons_append, List.map_cons, List.map_append, value_names]; rfl
    rw [this]
    exact key_perm k _

theorem role_key {ev : Event} (hr : ev.role = .item ∨ ev.role = .entry) : (ev.role = .entry ↔ ev.piece.key.isSome) := by
  match ev, hr with
  | .line n b ⟨fin, .listItem op v⟩, _ => simp [Event.role, roleOf, Event.piece, pieceOf, keyText]
  | .line n b ⟨fin, .entry k op v⟩, _ => simp [Event.role, roleOf, Event.piece, pieceOf, keyText]

/-- The ranges of a comment. -/
theorem comment_names {ev : Event} : ∀ c ∈ ev.comments, HasRanges c.toBase (.line :: .commentOperator :: if c.comment.isSome then [.comment] else []) := by
  intro c hc
  match ev, hc with
  | .line n b ⟨fin, .comment op v⟩, hc =>
    simp only [Event.comments, List.mem_singleton] at hc
    subst hc
    have := named_names n b fin (.comment op v)
    simp only [Body.named, List.map_cons, value_names] at this
    exact this

/-! ## The backticks around a key -/

/-- The key of an instruction that can have backticks. -/
def Body.key? : Body → Option KeyTok
  | .element k _ _ | .entry k _ _ | .heading _ k _ | .copy k _ _ => some k
  | _ => none

/-- The backticks on both sides are the same. -/
def KeyTok.Twins : KeyTok → Prop
  | .plain _ => True
  | .escaped b _ e => b.text = e.text

theorem afterKey_key {k : KeyTok} (h : afterKey p s k = some t) : t.body.key? = some k := by
  unfold afterKey at h
  simp only at h
  split at h
  · simp at h; subst h; rfl
  · simp at h; subst h; rfl
  · simp only [Option.map_eq_some_iff] at h
    obtain ⟨v, _, rfl⟩ := h; rfl
  · simp at h

theorem afterHeading_key {op : Cap} {k : KeyTok} (h : afterHeadingKey op p s k = some t) : t.body.key? = some k := by
  unfold afterHeadingKey at h
  simp only at h
  split at h
  · simp at h; subst h; rfl
  · simp at h; subst h; rfl
  · simp only [Option.map_eq_some_iff] at h
    obtain ⟨v, _, rfl⟩ := h; rfl
  · simp only [Option.map_eq_some_iff] at h
    obtain ⟨v, _, rfl⟩ := h; rfl
  · simp at h

theorem escapedKey_twins {after : Nat → Str → KeyTok → Option Tok} (h : escapedKey after p s = some t) : ∃ p' s' k, after p' s' k = some t ∧ k.Twins := by
  unfold escapedKey at h
  simp only at h
  obtain ⟨i, hi⟩ := findSome_mem h
  split at hi
  · exact ⟨_, _, _, hi, rfl⟩
  · simp at hi

theorem plainKey_twins {after : Nat → Str → KeyTok → Option Tok} {q : Char → Bool} (h : plainKey q after p s = some t) : ∃ p' s' k, after p' s' k = some t ∧ k.Twins :=
  ⟨_, _, _, h, trivial⟩

theorem scan_twins (ht : scan pos s = some t) : ∀ k, t.body.key? = some k → k.Twins := by
  have A : ∀ {t}, (∃ p' s' k, afterKey p' s' k = some t ∧ k.Twins) → ∀ k, t.body.key? = some k → k.Twins := by
    rintro t ⟨p', s', k, h1, h2⟩ k' hk
    rw [afterKey_key h1] at hk; injection hk with hk; subst hk; exact h2
  have H : ∀ {t op}, (∃ p' s' k, afterHeadingKey op p' s' k = some t ∧ k.Twins) → ∀ k, t.body.key? = some k → k.Twins := by
    rintro t op ⟨p', s', k, h1, h2⟩ k' hk
    rw [afterHeading_key h1] at hk; injection hk with hk; subst hk; exact h2
  unfold scan at ht
  simp only at ht
  split at ht
  · simp at ht; subst ht; intro k hk; cases hk
  · rename_i c u hu
    split at ht
    · simp at ht; subst ht; intro k hk; cases hk
    · split at ht
      · simp at ht; subst ht; intro k hk; cases hk
      · split at ht
        · simp at ht; subst ht; intro k hk; cases hk
        · split at ht
          · simp at ht; subst ht; intro k hk; cases hk
          · split at ht
            · unfold dashAt at ht
              simp only at ht
              split at ht
              · simp at ht; subst ht; intro k hk; cases hk
              · simp only [Option.map_eq_some_iff] at ht
                obtain ⟨v, hv, rfl⟩ := ht
                intro k hk; cases hk
            · split at ht
              · unfold headingAt at ht
                simp only at ht
                split at ht
                · simp at ht
                · simp at ht
                · exact H (escapedKey_twins ht)
                · exact H (plainKey_twins ht)
              · split at ht
                · exact A (escapedKey_twins ht)
                · split at ht
                  · simp at ht
                  · exact A (plainKey_twins ht)

theorem named_escape (body : Body) {b e : Cap} (h1 : (.escapeBeginOperator, b) ∈ body.named) (h2 : (.escapeEndOperator, e) ∈ body.named) :
    ∃ k, body.key? = some (.escaped b k e) := by
  cases body with
  | heading op k c => cases c <;> cases k <;> simp [Body.named, KeyTok.named, Body.key?] at h1 h2 ⊢ <;> (try split at h1) <;> (try split at h2) <;> simp_all
  | empty => simp [Body.named] at h1
  | continuation sp op v => cases v <;> cases sp <;> simp [Body.named] at h1
  | listItem op v => cases v <;> simp [Body.named] at h1
  | comment op v => cases v <;> simp [Body.named] at h1
  | multiline op k => simp [Body.named] at h1
  | copy k op t => cases k <;> simp [Body.named, KeyTok.named, Body.key?] at h1 h2 ⊢; simp_all
  | element k op v => cases k <;> cases v <;> simp [Body.named, KeyTok.named, Body.key?] at h1 h2 ⊢ <;> simp_all
  | entry k op v => cases k <;> cases v <;> simp [Body.named, KeyTok.named, Body.key?] at h1 h2 ⊢ <;> simp_all

/-- Of a record of a line: the backticks on both sides of the key are the same. -/
def EscapesSame (input : Str) (b : Base) : Prop := ∀ r r', (.escapeBeginOperator, r) ∈ b.ranges → (.escapeEndOperator, r') ∈ b.ranges → slice input r.1 r.2 = slice input r'.1 r'.2

theorem pieceOf_escapes {n b : Nat} (h : TokOk input b t) (hn : ∀ k, t.body.key? = some k → k.Twins) : EscapesSame input (pieceOf n b t).toBase := by
  intro r r' h1 h2
  simp only [pieceOf, List.mem_cons, Prod.mk.injEq, reduceCtorEq, false_and, false_or] at h1 h2
  have h1 := (named_ranges t.body).mem_iff.1 h1
  have h2 := (named_ranges t.body).mem_iff.1 h2
  simp only [List.mem_map, Prod.mk.injEq] at h1 h2
  obtain ⟨⟨_, x⟩, hx, e1, rfl⟩ := h1
  obtain ⟨⟨_, y⟩, hy, e2, rfl⟩ := h2
  simp only at e1 e2
  subst e1; subst e2
  obtain ⟨k, hk⟩ := named_escape _ hx hy
  rw [slice_cap (placed_mem h.placed _ (named_caps _ _ hx)).2.1, slice_cap (placed_mem h.placed _ (named_caps _ _ hy)).2.1]
  exact hn _ hk

theorem event_escapes {ev : Event} (h : EventIn input ev) : ∀ p ∈ ev.pieces, EscapesSame input p.toBase := by
  cases ev with
  | line n b t =>
    intro p hp
    unfold Event.pieces at hp
    simp only at hp
    split at hp
    · simp at hp
    · simp at hp; subst hp
      exact pieceOf_escapes (scan_ok (Nat.le_of_lt h.1) h.2.1) (scan_twins h.2.1)
  | multi n b fin op key body T =>
    obtain ⟨h1, h2, h3, rfl⟩ := h
    intro p hp
    simp only [Event.pieces, List.mem_cons, List.mem_append, List.mem_map, List.cons_append, List.not_mem_nil, or_false] at hp
    rcases hp with rfl | ⟨q, hq, rfl⟩ | rfl
    · intro r r' h1; simp [pieceOf, rangesOf, at_] at h1
    · intro r r' h1; simp at h1
    · intro r r' h1; simp at h1

end Eno
