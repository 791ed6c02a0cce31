import Verif.Proofs.TraceLines
import Verif.Proofs.FormLemmas
import Verif.Proofs.Outcome
import Verif.Proofs.LineLemmas

/-! # Lines that stay lines -/

namespace Eno

open Spec

variable {input : Str} {ctx : Ctx}

/-- What neat lines give for any rest of the input. -/
structure Fine (s : Str) : Prop where
  op : ∀ a w c t, s = a ++ '\n' :: (w ++ c :: t) → (∀ x ∈ w, isSp x = true) → c ≠ ':' ∧ c ≠ '=' ∧ c ≠ '<'
  copy : ∀ a w t, s = a ++ '<' :: (w ++ '\n' :: t) → (∀ x ∈ w, isSp x = true) → False

theorem Fine.suffix {a s : Str} (h : Fine (a ++ s)) : Fine s :=
  ⟨fun b w c t e => h.op (a ++ b) w c t (by rw [e]; simp), fun b w t e => h.copy (a ++ b) w t (by rw [e]; simp)⟩

theorem splitNl_ink {w : Str} (hw : ∀ x ∈ w, isSp x = true) {c : Char} (hc : isSp c = false) (t : Str) :
    ∃ l ∈ splitNl (w ++ c :: t), (l.dropWhile isSp).head? = some c := by
  induction w with
  | nil =>
    have hne : c ≠ '\n' := by rintro rfl; exact absurd hc (by decide)
    obtain ⟨ls, e⟩ := splitNl_head (c :: t)
    refine ⟨lineOf (c :: t), by simp [e], ?_⟩
    rw [lineOf_cons hne, List.dropWhile_cons, if_neg (by simp [hc])]; rfl
  | cons x w ih =>
    obtain ⟨l, hl, h2⟩ := ih (fun y hy => hw y (by simp [hy]))
    have hx := hw x (by simp)
    rw [List.cons_append, splitNl]
    split
    · exact ⟨l, by simp [hl], h2⟩
    · split
      · rename_i e; rw [e] at hl; simp at hl
      · rename_i l' ls e
        rw [e] at hl
        rcases List.mem_cons.1 hl with rfl | hl
        · exact ⟨x :: l, by simp, by rw [List.dropWhile_cons, if_pos hx]; exact h2⟩
        · exact ⟨l, by simp [hl], h2⟩

theorem splitNl_last (a v : Str) (hv : '\n' ∉ v) : ∃ l, l ∈ splitNl (a ++ v) ∧ v <:+ l := by
  induction a with
  | nil => exact ⟨v, by simp [splitNl_noNl hv], List.suffix_refl _⟩
  | cons x a ih =>
    obtain ⟨l, hl, h2⟩ := ih
    rw [List.cons_append, splitNl]
    split
    · exact ⟨l, by simp [hl], h2⟩
    · split
      · rename_i e; rw [e] at hl; simp at hl
      · rename_i l' ls e
        rw [e] at hl
        rcases List.mem_cons.1 hl with rfl | hl
        · exact ⟨x :: l, by simp, h2.trans (List.suffix_cons _ _)⟩
        · exact ⟨l, by simp [hl], h2⟩

theorem neat_fine {s : Str} (h : Neat s) : Fine s := by
  constructor
  · intro a w c t e hw
    by_cases hc : isSp c = true
    · refine ⟨?_, ?_, ?_⟩ <;> rintro rfl <;> exact absurd hc (by decide)
    · obtain ⟨l, hl, h2⟩ := splitNl_ink hw (by simpa using hc) t
      have := (h l (by rw [e, splitNl_nl]; exact List.mem_append_right _ hl)).1 c (by rw [h2]; rfl)
      exact this
  · intro a w t e hw
    obtain ⟨w', r, e2, hn⟩ : ∃ w' r, w ++ '\n' :: t = w' ++ '\n' :: r ∧ (∀ x ∈ w', isSp x = true ∧ x ≠ '\n') := by
      clear e
      induction w with
      | nil => exact ⟨[], t, rfl, by simp⟩
      | cons x w ih =>
        by_cases hx : x = '\n'
        · exact ⟨[], w ++ '\n' :: t, by simp [hx], by simp⟩
        · obtain ⟨w', r, e2, hn⟩ := ih (fun y hy => hw y (by simp [hy]))
          refine ⟨x :: w', r, by simp [e2], ?_⟩
          intro y hy
          rcases List.mem_cons.1 hy with rfl | hy
          · exact ⟨hw y (by simp), hx⟩
          · exact hn y hy
    rw [e2] at e
    obtain ⟨l, hl, v, rfl⟩ := splitNl_last a ('<' :: w') (by
      intro hm
      rcases List.mem_cons.1 hm with q | q
      · cases q
      · exact (hn _ q).2 rfl)
    have := (h (v ++ '<' :: w') (by rw [e, show a ++ '<' :: (w' ++ '\n' :: r) = (a ++ '<' :: w') ++ '\n' :: r by simp, splitNl_nl]; exact List.mem_append_left _ hl)).2.1
    apply this
    rw [List.reverse_append, List.reverse_cons, List.append_assoc, List.dropWhile_append_of_pos (by
      intro x hx; exact (hn x (List.mem_reverse.1 hx)).1)]
    rfl

theorem nextOf_skip {a : Str} (ha : '\n' ∉ a) (s : Str) : nextOf (a ++ s) = nextOf s := by
  unfold nextOf
  rw [List.dropWhile_append_of_pos]
  intro x hx
  have : x ≠ '\n' := by rintro rfl; exact ha hx
  simpa using this

theorem nextOf_cons {c : Char} (h : c ≠ '\n') (s : Str) : nextOf (c :: s) = nextOf s := nextOf_skip (a := [c]) (by simp [Ne.symm h]) s

theorem nextOf_while {p : Char → Bool} (hp : p '\n' = false) (s : Str) : nextOf s = nextOf (s.dropWhile p) := by
  conv => lhs; rw [← List.takeWhile_append_dropWhile (p := p) (l := s)]
  apply nextOf_skip
  intro hm
  have := mem_takeWhile_imp hm
  rw [hp] at this; cases this

/-- White space before an operator does not go over lines. -/
theorem fine_gap {s t : Str} {c : Char} (f : Fine s) (h : s.dropWhile isSp = c :: t) (hc : c = ':' ∨ c = '=' ∨ c = '<') : '\n' ∉ s.takeWhile isSp := by
  intro hm
  obtain ⟨a, w, e⟩ := List.append_of_mem hm
  have := f.op a w c t (by
    conv => lhs; rw [← List.takeWhile_append_dropWhile (p := isSp) (l := s)]
    rw [e, h]; simp) (fun x hx => mem_takeWhile_imp (p := isSp) (l := s) (by rw [e]; simp [hx]))
  simp_all

theorem read_key {key s rest : Str} {l : Line} (f : Fine s) (h : readAfterKey key s = some (l, rest)) : rest = nextOf s := by
  have skip : ∀ {c t}, s.dropWhile isSp = c :: t → (c = ':' ∨ c = '=' ∨ c = '<') → nextOf s = nextOf t := by
    intro c t e hc
    conv => lhs; rw [← List.takeWhile_append_dropWhile (p := isSp) (l := s)]
    rw [nextOf_skip (fine_gap f e hc), e, nextOf_cons]
    rcases hc with rfl | rfl | rfl <;> decide
  unfold readAfterKey at h
  split at h
  · rename_i t e; injection h with h; injection h with _ h; rw [skip e (by simp), h]
  · rename_i t e; injection h with h; injection h with _ h; rw [skip e (by simp), h]
  · rename_i t e
    rw [Option.map_eq_some_iff] at h
    obtain ⟨v, hv, h⟩ := h
    injection h with _ h
    rw [← h, skip e (by simp)]
    conv => rhs; rw [← List.takeWhile_append_dropWhile (p := isSp) (l := t)]
    rw [nextOf_skip]
    intro hm
    obtain ⟨a, w, e2⟩ := List.append_of_mem hm
    refine f.copy (s.takeWhile isSp) a (w ++ t.dropWhile isSp) ?_ (fun x hx => mem_takeWhile_imp (p := isSp) (l := t) (by rw [e2]; simp [hx]))
    conv => lhs; rw [← List.takeWhile_append_dropWhile (p := isSp) (l := s)]
    rw [e]
    conv => lhs; rw [← List.takeWhile_append_dropWhile (p := isSp) (l := t), e2]
    simp
  · cases h

theorem read_heading {d : Nat} {key s rest : Str} {l : Line} (h : readAfterHeading d key s = some (l, rest)) : rest = nextOf s := by
  rw [nextOf_while (p := isHs) (by decide)]
  unfold readAfterHeading at h
  split at h
  · rename_i e; injection h with h; injection h with _ h; rw [e, ← h]; rfl
  · rename_i t e; injection h with h; injection h with _ h; rw [e, ← h]; simp [nextOf]
  · rename_i t e
    rw [Option.map_eq_some_iff] at h
    obtain ⟨v, hv, h⟩ := h
    injection h with _ h
    rw [e, ← h, nextOf_cons (by decide), nextOf_cons (by decide)]
  · rename_i t _ e
    rw [Option.map_eq_some_iff] at h
    obtain ⟨v, hv, h⟩ := h
    injection h with _ h
    rw [e, ← h, nextOf_cons (by decide)]
  · cases h

theorem read_plain {p : Char → Bool} (hp : p '\n' = false) {after : Str → Str → Option (Line × Str)} {s rest : Str} {l : Line} (h : readPlain p after s = some (l, rest))
    (ha : ∀ k a, (∃ b, s = b ++ a) → after k a = some (l, rest) → rest = nextOf a) : rest = nextOf s := by
  unfold readPlain at h
  rw [nextOf_while hp]
  exact ha _ _ ⟨s.takeWhile p, (List.takeWhile_append_dropWhile).symm⟩ h

theorem mem_take_line {r : Str} {i : Nat} (h : i ≤ (lineOf r).length) : '\n' ∉ r.take i := by
  intro hm
  have e : r.take i = (lineOf r).take i := by
    obtain ⟨q, hq⟩ := lineOf_prefix r
    conv => lhs; rw [← hq]
    rw [List.take_append_of_le_length h]
  rw [e] at hm
  have := mem_takeWhile_imp (List.mem_of_mem_take hm)
  exact absurd this (by decide)

theorem read_escaped {after : Str → Str → Option (Line × Str)} {s rest : Str} {l : Line} (h : readEscaped after s = some (l, rest))
    (ha : ∀ k a, (∃ b, s = b ++ a) → after k a = some (l, rest) → rest = nextOf a) : rest = nextOf s := by
  unfold readEscaped at h
  simp only at h
  obtain ⟨i, hi, h⟩ := List.exists_of_findSome?_eq_some h
  split at h
  · rename_i ht
    have ht' : ∀ x ∈ s.takeWhile (· == '`'), x = '`' := fun x hx => by simpa using mem_takeWhile_imp hx
    have e1 := List.takeWhile_append_dropWhile (p := (· == '`')) (l := s)
    have e2 := List.takeWhile_append_dropWhile (p := isHs) (l := s.dropWhile (· == '`'))
    generalize hr : (s.dropWhile (· == '`')).dropWhile isHs = r at *
    have e3 := List.take_append_drop (i + 1) r
    have e4 := List.takeWhile_append_dropWhile (p := isHs) (l := r.drop (i + 1))
    generalize hq : (r.drop (i + 1)).dropWhile isHs = a at *
    have e5 := List.take_append_drop (s.takeWhile (· == '`')).length a
    have tot : s = (s.takeWhile (· == '`') ++ ((s.dropWhile (· == '`')).takeWhile isHs ++ (r.take (i + 1) ++ ((r.drop (i + 1)).takeWhile isHs ++ a.take (s.takeWhile (· == '`')).length)))) ++
        a.drop (s.takeWhile (· == '`')).length := by
      simp only [List.append_assoc]
      rw [e5, e4, e3, e2, e1]
    have hs := ha _ _ ⟨_, tot⟩ h
    rw [hs]
    conv => rhs; rw [tot]
    rw [nextOf_skip]
    have hsN : '\n' ∉ ((s.dropWhile (· == '`')).takeWhile isHs) := fun hm => absurd (mem_takeWhile_imp hm) (by decide)
    have hsN2 : '\n' ∉ ((r.drop (i + 1)).takeWhile isHs) := fun hm => absurd (mem_takeWhile_imp hm) (by decide)
    have tk : '\n' ∉ s.takeWhile (· == '`') := fun hm => absurd (ht' _ hm) (by decide)
    have ln : '\n' ∉ r.take (i + 1) := mem_take_line (by simp at hi; omega)
    rw [ht]
    simp only [List.mem_append, not_or]
    exact ⟨tk, hsN, ln, hsN2, tk⟩
  · cases h

/-- What is read stays on its line. -/
theorem read_line {s rest : Str} {l : Line} (hn : NeatLine (lineOf s)) (f : Fine s) (h : readLine s = some (l, rest)) : rest = nextOf s := by
  have e0 := List.takeWhile_append_dropWhile (p := isHs) (l := s)
  have fk : ∀ {r}, s.dropWhile isHs = r → ∀ k a, (∃ b, r = b ++ a) → readAfterKey k a = some (l, rest) → rest = nextOf a := by
    rintro r rfl k a ⟨b, hb⟩ h
    refine read_key ?_ h
    rw [hb] at e0
    rw [← e0] at f
    exact f.suffix.suffix
  rw [nextOf_while (p := isHs) (by decide)]
  unfold readLine at h
  split at h
  · rename_i e; injection h with h; injection h with _ h; rw [e, ← h]; rfl
  · rename_i c t e
    split at h
    · rename_i hc; injection h with h; injection h with _ h; rw [e, ← h, hc]; simp [nextOf]
    rename_i hnl
    split at h
    · injection h with h; injection h with _ h; rw [e, ← h, nextOf_cons hnl]
    split at h
    · injection h with h; injection h with _ h; rw [e, ← h, nextOf_cons hnl]
    split at h
    · injection h with h; injection h with _ h; rw [e, ← h, nextOf_cons hnl]
    split at h
    · rw [e, nextOf_while (p := (· == '-')) (by decide)]
      unfold readDash at h
      simp only at h
      split at h
      · injection h with h; injection h with _ h; exact h.symm
      · rw [Option.map_eq_some_iff] at h
        obtain ⟨v, hv, h⟩ := h
        injection h with _ h; exact h.symm
    split at h
    · rename_i hc
      rw [e, nextOf_while (p := (· == '#')) (by decide)]
      have hgap : '\n' ∉ ((c :: t).dropWhile (· == '#')).takeWhile isSp := by
        intro hm
        obtain ⟨a, w, e2⟩ := List.append_of_mem hm
        -- the first line feed
        obtain ⟨a', w', e3, ha'⟩ : ∃ a' w', a ++ '\n' :: w = a' ++ '\n' :: w' ∧ '\n' ∉ a' := by
          clear e2
          induction a with
          | nil => exact ⟨[], w, rfl, by simp⟩
          | cons x a ih =>
            by_cases hx : x = '\n'
            · exact ⟨[], a ++ '\n' :: w, by simp [hx], by simp⟩
            · obtain ⟨a', w', e3, ha'⟩ := ih
              exact ⟨x :: a', w', by simp [e3], by simp [Ne.symm hx, ha']⟩
        have hsp : ∀ x ∈ a', isSp x = true := fun x hx => mem_takeWhile_imp (p := isSp) (l := (c :: t).dropWhile (· == '#')) (by rw [e2, e3]; simp [hx])
        have tot : s = (s.takeWhile isHs ++ ((c :: t).takeWhile (· == '#') ++ a')) ++ '\n' :: (w' ++ ((c :: t).dropWhile (· == '#')).dropWhile isSp) := by
          conv => lhs; rw [← e0, e, ← List.takeWhile_append_dropWhile (p := (· == '#')) (l := c :: t),
            ← List.takeWhile_append_dropWhile (p := isSp) (l := (c :: t).dropWhile (· == '#')), e2, e3]
          simp
        have hh : ∀ x ∈ (c :: t).takeWhile (· == '#'), x = '#' := fun x hx => by simpa using mem_takeWhile_imp hx
        have hl : lineOf s = s.takeWhile isHs ++ ((c :: t).takeWhile (· == '#') ++ a') := by
          conv => lhs; rw [tot]
          rw [lineOf_append, lineOf_nl, List.append_nil]
          simp only [List.mem_append, not_or]
          exact ⟨fun hm => absurd (mem_takeWhile_imp hm) (by decide), fun hm => absurd (hh _ hm) (by decide), ha'⟩
        obtain ⟨x, hx, h1, h2⟩ := hn.2.2 (by rw [hl, List.takeWhile_cons, if_pos (by simp [hc])]; simp [hc])
        rw [hl] at hx
        simp only [List.mem_append] at hx
        rcases hx with hx | hx | hx
        · have := mem_takeWhile_imp hx
          simp [isHs, h1] at this
        · exact h2 (hh x hx)
        · rw [hsp x hx] at h1; cases h1
      have e5 := List.takeWhile_append_dropWhile (p := isSp) (l := (c :: t).dropWhile (· == '#'))
      have : nextOf ((c :: t).dropWhile (· == '#')) = nextOf (((c :: t).dropWhile (· == '#')).dropWhile isSp) := by
        conv => lhs; rw [← e5]
        exact nextOf_skip hgap _
      rw [this]
      unfold readHeading at h
      simp only at h
      split at h
      · cases h
      · cases h
      · exact read_escaped h fun k a _ h => read_heading h
      · exact read_plain (by decide) h fun k a _ h => read_heading h
    split at h
    · rw [e]; exact read_escaped h (fk e)
    split at h
    · cases h
    · rw [e]; exact read_plain (by decide) h (fk e)

theorem scan_neat {pos : Nat} {s : Str} {t : Tok} (hs : Neat s) (h : scan pos s = some t) (hl : t.fin ≤ pos + s.length) : t.fin = pos + (lineOf s).length := by
  obtain ⟨h1, h2⟩ := scan_view pos s
  rw [h] at h1
  have hge := h2 t h
  obtain ⟨ls, e⟩ := splitNl_head s
  have := read_line (hs _ (by rw [e]; simp)) (neat_fine hs) h1.symm
  have hlen := congrArg List.length this
  have e2 : (lineOf s).length + (nextOf s).length = s.length := by
    rw [← List.length_append]; exact congrArg List.length List.takeWhile_append_dropWhile
  rw [List.length_drop] at hlen
  omega

theorem neat_drop {i : Nat} (h : Neat input) (hi : input.length ≤ i ∨ i = 0 ∨ (0 < i ∧ input[i - 1]? = some '\n')) : Neat (input.drop i) := by
  rcases hi with hi | rfl | ⟨hp, hi⟩
  · rw [List.drop_eq_nil_of_le hi]; intro l hl; simp [splitNl] at hl; subst hl; decide
  · simpa using h
  · have hlt : i - 1 < input.length := (List.getElem?_eq_some_iff.1 hi).1
    have e : input = input.take (i - 1) ++ '\n' :: input.drop i := by
      conv => lhs; rw [← List.take_append_drop (i - 1) input, List.drop_eq_getElem_cons hlt]
      rw [show i - 1 + 1 = i by omega, (List.getElem?_eq_some_iff.1 hi).2]
    intro l hl
    refine h l ?_
    rw [e, splitNl_nl]
    exact List.mem_append_right _ hl

theorem findTerminator_fin {op key : Str} {T : Term} : ∀ {pos : Nat} {s : Str}, findTerminator op key pos s = some T →
    T.fin = T.start + 1 + (lineOf (s.drop (T.start + 1 - pos))).length ∧ pos ≤ T.start
  | _, [], h => by simp [findTerminator] at h
  | pos, c :: t, h => by
    unfold findTerminator at h
    split at h
    · injection h with h; subst h
      simp
    · obtain ⟨h1, h2⟩ := findTerminator_fin h
      refine ⟨?_, by omega⟩
      rw [h1, show T.start + 1 - pos = (T.start + 1 - (pos + 1)) + 1 by omega, List.drop_succ_cons]

/-- On neat input every instruction stays on its line. -/
theorem trace_neat (hN : Neat input) {i n : Nat} {es : List Event} {r : Ending} (h : Trace input i n es r)
    (hi : input.length ≤ i ∨ i = 0 ∨ (0 < i ∧ input[i - 1]? = some '\n')) : ∀ ev ∈ es, ∀ x ∈ ev.spots, NoNl input x.2.1 x.2.2 := by
  induction h with
  | done => simp
  | bad => simp
  | unterminated => simp
  | @line i n t es r hlt hs ho _ ih =>
    have tok := scan_ok (by omega) hs
    have hfl := tok.fin_le
    have hfin := scan_neat (neat_drop hN hi) hs (by rw [List.length_drop]; omega)
    intro ev hev x hx
    rcases List.mem_cons.1 hev with rfl | hev
    · rw [spots_line] at hx
      split at hx
      · simp at hx
      · simp only [List.mem_singleton] at hx
        subst hx
        simp only
        rw [hfin]; exact noNl_line i
    · refine ih ?_ ev hev x hx
      by_cases q : t.fin < input.length
      · right; right; exact ⟨by omega, by simpa using atEol_get tok.eol q⟩
      · left; omega
  | @multi i n fin op key T es r hlt hs ht _ ih =>
    have geo := multi_geo hlt hs ht
    have hfin := scan_simple hs rfl
    simp only at hfin
    intro ev hev x hx
    rcases List.mem_cons.1 hev with rfl | hev
    · obtain ⟨f1, f2⟩ := findTerminator_fin ht
      rw [spots_multi] at hx
      simp only [List.cons_append, List.mem_cons, List.mem_append, List.not_mem_nil, or_false] at hx
      rcases hx with rfl | hx | rfl
      · simp only; rw [hfin]; exact noNl_line i
      · unfold mlBody at hx
        split at hx
        · simp at hx
        · rename_i hne
          have g5 := geo.fin_le
          have g1 := geo.start
          have g2 := geo.opStart
          have g3 := geo.keyStart
          have g4 := geo.keyEnd
          obtain ⟨p1, p2, p3⟩ := place_isLine _ _ _ _ hx
          intro k k1 k2 hk
          have p2' := p2.inside
          have hsl := slice_length (s := input) (b := fin + 1) (e := T.start) (by omega)
          rw [show ((input.take T.start).drop (fin + 1)).length = (slice input (fin + 1) T.start).length from rfl, hsl] at p2'
          refine p3 (k - (fin + 1)) (by omega) (by omega) ?_
          rw [List.getElem?_drop, List.getElem?_take_of_lt (by omega), ← hk]
          congr 1; omega
      · simp only
        rw [f1, List.drop_drop, show fin + (T.start + 1 - fin) = T.start + 1 by omega]
        exact noNl_line _
    · refine ih ?_ ev hev x hx
      by_cases q : T.fin < input.length
      · right; right; exact ⟨by omega, by simpa using atEol_get geo.eol q⟩
      · left; omega

end Eno
