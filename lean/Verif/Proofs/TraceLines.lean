import Verif.Proofs.Outcome

/-! # The lines of an input and what a prefix of its events covers -/

namespace Eno

open Spec

variable {input : Str}

theorem splitNl_nl (a b : Str) : splitNl (a ++ '\n' :: b) = splitNl a ++ splitNl b := by
  induction a with
  | nil => simp [splitNl]
  | cons c t ih =>
    by_cases hc : c = '\n'
    · simp [splitNl, hc, ih]
    · rw [List.cons_append, splitNl, if_neg hc, splitNl, if_neg hc, ih]
      cases hs : splitNl t with
      | nil => exact absurd hs (splitNl_ne_nil t)
      | cons l ls => rfl

/-- The text of a line is what splitting the input gives. -/
theorem isLine_text {b e : Nat} (h : IsLine input b e) (hn : NoNl input b e) : (splitNl input)[nlBefore input b]? = some (slice input b e) := by
  have hw : '\n' ∉ slice input b e := by
    intro hm
    obtain ⟨k, hk, hk'⟩ := List.getElem_of_mem hm
    have hl := slice_length (s := input) (b := b) h.inside
    refine hn (b + k) (by omega) (by omega) ?_
    have : (slice input b e)[k]? = some '\n' := by rw [List.getElem?_eq_getElem hk, hk']
    unfold slice at this
    rw [List.getElem?_drop, List.getElem?_take] at this
    split at this
    · exact this
    · cases this
  have hsplit : input.drop b = slice input b e ++ input.drop e := by
    unfold slice
    rw [List.drop_take]
    have : input.drop e = (input.drop b).drop (e - b) := by rw [List.drop_drop]; congr 1; have := h.le; omega
    rw [this, List.take_append_drop]
  have hrest : ∃ t, splitNl (input.drop b) = slice input b e :: t := by
    rcases h.stop with hs | hs
    · rw [hsplit, hs, List.drop_length, List.append_nil, ← hs, splitNl_noNl hw]; exact ⟨[], rfl⟩
    · have hlt : e < input.length := (List.getElem?_eq_some_iff.1 hs).1
      have : input.drop e = '\n' :: input.drop (e + 1) := by
        rw [List.drop_eq_getElem_cons hlt]; congr 1; exact (List.getElem?_eq_some_iff.1 hs).2
      rw [hsplit, this, splitNl_append hw]; exact ⟨_, rfl⟩
  obtain ⟨t, ht⟩ := hrest
  rcases h.start with hs | hs
  · subst hs
    simp only [List.drop_zero] at ht
    rw [ht]; simp [nlBefore, countNl]
  · obtain ⟨hb, hs⟩ := hs
    have hlt : b - 1 < input.length := (List.getElem?_eq_some_iff.1 hs).1
    have e1 : input.take (b - 1) ++ '\n' :: input.drop b = input := by
      have : input.drop (b - 1) = '\n' :: input.drop b := by
        rw [List.drop_eq_getElem_cons hlt, show b - 1 + 1 = b by omega]; congr 1; exact (List.getElem?_eq_some_iff.1 hs).2
      rw [← this, List.take_append_drop]
    have hc : nlBefore input b = countNl (input.take (b - 1)) + 1 := by
      have := nlBefore_succ_nl hs
      rwa [show b - 1 + 1 = b by omega] at this
    have e2 : splitNl input = splitNl (input.take (b - 1)) ++ slice input b e :: t := by
      rw [← ht, ← splitNl_nl, e1]
    rw [e2, hc, ← splitNl_length, List.getElem?_append_right (Nat.le_refl _)]
    simp

/-- The lines of a text are lines. -/
theorem place_isLine (w : Str) : ∀ (n i : Nat) (p : Spot), p ∈ place n i (splitNl w) → i ≤ p.2.1 ∧ IsLine w (p.2.1 - i) (p.2.2 - i) ∧ NoNl w (p.2.1 - i) (p.2.2 - i) := by
  induction w with
  | nil =>
    intro n i p h; simp [splitNl, place] at h; subst h
    exact ⟨Nat.le_refl _, ⟨Nat.le_refl _, by simp, .inl (by simp), .inl (by simp)⟩, by intro k h1 h2; simp at h1 h2⟩
  | cons c t ih =>
    intro n i p h
    have shift : i + 1 ≤ p.2.1 → (p.2.1 - (i + 1) = 0 → c = '\n') → IsLine t (p.2.1 - (i + 1)) (p.2.2 - (i + 1)) →
        NoNl t (p.2.1 - (i + 1)) (p.2.2 - (i + 1)) → p.2.1 ≤ p.2.2 → IsLine (c :: t) (p.2.1 - i) (p.2.2 - i) ∧ NoNl (c :: t) (p.2.1 - i) (p.2.2 - i) := by
      intro h1 h0 h2 h3 h4
      obtain ⟨a, ha⟩ : ∃ a, p.2.1 - (i + 1) = a := ⟨_, rfl⟩
      obtain ⟨b, hb⟩ : ∃ b, p.2.2 - (i + 1) = b := ⟨_, rfl⟩
      rw [ha] at h0 h2 h3
      rw [hb] at h2 h3
      have ea : p.2.1 - i = a + 1 := by omega
      have eb : p.2.2 - i = b + 1 := by omega
      rw [ea, eb]
      refine ⟨⟨by have := h2.le; omega, by have := h2.inside; simp; omega, .inr ⟨by omega, ?_⟩, ?_⟩, ?_⟩
      · rcases h2.start with h5 | ⟨h5, h6⟩
        · subst h5; simp [h0 rfl]
        · rw [show a + 1 - 1 = (a - 1) + 1 by omega]; simpa using h6
      · rcases h2.stop with h5 | h5
        · left; simp [h5]
        · right; simpa using h5
      · intro k k1 k2
        obtain ⟨k, rfl⟩ : ∃ k', k = k' + 1 := ⟨k - 1, by omega⟩
        simpa using h3 k (by omega) (by omega)
    by_cases hc : c = '\n'
    · rw [splitNl, if_pos hc] at h
      simp only [place, List.mem_cons, List.length_nil, Nat.add_zero] at h
      rcases h with rfl | h
      · refine ⟨Nat.le_refl _, ⟨Nat.le_refl _, by simp, .inl (by simp), .inr (by simp [hc])⟩, ?_⟩
        intro k h1 h2; simp at h1 h2
      · obtain ⟨h1, h2, h3⟩ := ih _ _ _ h
        have hb := place_bounds _ _ _ _ h
        have := shift h1 (fun _ => hc) h2 h3 (by omega)
        exact ⟨by omega, this⟩
    · rw [splitNl, if_neg hc] at h
      cases hs : splitNl t with
      | nil => exact absurd hs (splitNl_ne_nil t)
      | cons l ls =>
        rw [hs] at h
        simp only [place, List.mem_cons] at h
        rcases h with rfl | h
        · obtain ⟨_, h2, h3⟩ := ih n (i + 1) (n, i + 1, i + 1 + l.length) (by rw [hs]; simp [place])
          simp only [Nat.sub_self, Nat.add_sub_cancel_left] at h2 h3
          simp only [Nat.sub_self, List.length_cons, Nat.add_sub_cancel_left]
          refine ⟨Nat.le_refl _, ⟨by omega, by have := h2.inside; simp; omega, .inl rfl, ?_⟩, ?_⟩
          · rcases h2.stop with h5 | h5
            · left; simp [h5]
            · right; simpa using h5
          · intro k k1 k2
            cases k with
            | zero => simpa using hc
            | succ k => simpa using h3 k (by omega) (by omega)
        · have e : i + (c :: l).length + 1 = i + 1 + l.length + 1 := by simp; omega
          rw [e] at h
          have hb := place_bounds _ _ _ _ h
          obtain ⟨h1, h2, h3⟩ := ih n (i + 1) p (by rw [hs]; simp only [place, List.mem_cons]; right; exact h)
          have := shift h1 (by intro h0; omega) h2 h3 (by omega)
          exact ⟨by omega, this⟩

/-! ## Prefixes -/

/-- Where reading goes on: after a line feed, or after the end. -/
def Spec.Starts (input : Str) (i : Nat) : Prop := i = 0 ∨ (0 < i ∧ input[i - 1]? = some '\n') ∨ i = input.length + 1

/-- Every character is white space or on the line of an instruction. -/
def Spec.Covered (input : Str) (i i' : Nat) (spots : List Spot) : Prop :=
  ∀ k c, i ≤ k → k < i' → input[k]? = some c → isSp c = false → ∃ x ∈ spots, x.2.1 ≤ k ∧ k < x.2.2

/-- From one place of the input to a later one, over some instructions. -/
structure Spec.Passes (input : Str) (i n : Nat) (spots : List Spot) (i' n' : Nat) : Prop where
  index : i ≤ i'
  line : n ≤ n'
  bounds : ∀ x ∈ spots, n ≤ x.1 ∧ x.1 < n' ∧ i ≤ x.2.1 ∧ x.2.1 ≤ x.2.2 ∧ x.2.2 < i'
  sorted : spots.Pairwise Before
  starts : Starts input i → Starts input i'
  lines : Starts input i → ∀ x ∈ spots, IsLine input x.2.1 x.2.2
  clean : n = lineAt input i → (∀ x ∈ spots, NoNl input x.2.1 x.2.2) → n' = lineAt input i' ∧ ∀ x ∈ spots, x.1 = nlBefore input x.2.1
  covered : Covered input i i' spots
  most : n ≤ lineAt input i → n' ≤ lineAt input i' ∧ ∀ x ∈ spots, x.1 ≤ nlBefore input x.2.1

theorem Spec.Passes.refl (i n : Nat) : Passes input i n [] i n :=
  ⟨Nat.le_refl _, Nat.le_refl _, by simp, List.Pairwise.nil, fun h => h, by simp, fun h _ => ⟨h, by simp⟩, by intro k c h1 h2; omega, fun h => ⟨h, by simp⟩⟩

theorem Spec.Passes.trans {i n i' n' i'' n'' : Nat} {a b : List Spot} (h : Passes input i n a i' n') (h' : Passes input i' n' b i'' n'') :
    Passes input i n (a ++ b) i'' n'' := by
  have := h.index
  have := h'.index
  have := h.line
  have := h'.line
  refine ⟨by omega, by omega, ?_, ?_, fun s => h'.starts (h.starts s), ?_, ?_, ?_, ?_⟩
  rotate_right
  · intro hn
    obtain ⟨h1, h2⟩ := h.most hn
    obtain ⟨h3, h4⟩ := h'.most h1
    refine ⟨h3, ?_⟩
    intro x hx
    rcases List.mem_append.1 hx with hx | hx
    · exact h2 x hx
    · exact h4 x hx
  rotate_right
  · intro k c h1 h2 h3 h4
    by_cases hk : k < i'
    · obtain ⟨x, hx, hb⟩ := h.covered k c h1 hk h3 h4
      exact ⟨x, List.mem_append_left _ hx, hb⟩
    · obtain ⟨x, hx, hb⟩ := h'.covered k c (by omega) h2 h3 h4
      exact ⟨x, List.mem_append_right _ hx, hb⟩
  · intro x hx
    rcases List.mem_append.1 hx with hx | hx
    · have := h.bounds x hx; omega
    · have := h'.bounds x hx; omega
  · rw [List.pairwise_append]
    refine ⟨h.sorted, h'.sorted, ?_⟩
    intro x hx y hy
    have := h.bounds x hx
    have := h'.bounds y hy
    exact ⟨by omega, by omega⟩
  · intro s x hx
    rcases List.mem_append.1 hx with hx | hx
    · exact h.lines s x hx
    · exact h'.lines (h.starts s) x hx
  · intro hn hc
    obtain ⟨h1, h2⟩ := h.clean hn fun x hx => hc x (List.mem_append_left _ hx)
    obtain ⟨h3, h4⟩ := h'.clean h1 fun x hx => hc x (List.mem_append_right _ hx)
    refine ⟨h3, ?_⟩
    intro x hx
    rcases List.mem_append.1 hx with hx | hx
    · exact h2 x hx
    · exact h4 x hx

theorem starts_next {k : Nat} (h : atEol (input.drop k) = true) (hk : k ≤ input.length) : Starts input (k + 1) := by
  by_cases h1 : k < input.length
  · exact .inr (.inl ⟨by omega, atEol_get h h1⟩)
  · exact .inr (.inr (by omega))

theorem stop_of_eol {k : Nat} (h : atEol (input.drop k) = true) (hk : k ≤ input.length) : k = input.length ∨ input[k]? = some '\n' := by
  by_cases h1 : k < input.length
  · exact .inr (atEol_get h h1)
  · exact .inl (by omega)

theorem start_of_starts {i : Nat} (h : Starts input i) (hi : i < input.length) : i = 0 ∨ (0 < i ∧ input[i - 1]? = some '\n') := by
  rcases h with h | h | h
  · exact .inl h
  · exact .inr h
  · omega

theorem lineAt_le {i : Nat} (h : i ≤ input.length) : lineAt input i = nlBefore input i := if_pos h

theorem nlBefore_mono {i j : Nat} (h : i ≤ j) : nlBefore input i ≤ nlBefore input j := by
  have := nlBefore_add (input := input) i (j - i)
  rw [show i + (j - i) = j by omega] at this
  omega

theorem passes_line {i n : Nat} {t : Tok} (hi : i < input.length) (hs : scan i (input.drop i) = some t) :
    Passes input i n (Event.line n i t).spots (t.fin + 1) (n + 1) := by
  have tok := scan_ok (by omega) hs
  have hle := placed_le tok.placed
  have hfl := tok.fin_le
  rw [spots_line]
  refine ⟨by omega, by omega, ?_, by split <;> simp, fun _ => starts_next tok.eol hfl, ?_, ?_, ?_, ?_⟩
  rotate_right
  · intro hn
    rw [lineAt_le (by omega)] at hn
    have := nlBefore_mono (input := input) hle
    refine ⟨by rw [lineAt_next tok.eol hfl]; omega, ?_⟩
    intro x hx
    split at hx
    · simp at hx
    · rw [List.mem_singleton] at hx; subst hx; exact hn
  rotate_right
  · intro k c hk hk2 hc hw
    have hkl : k < input.length := (List.getElem?_eq_some_iff.1 hc).1
    by_cases hkf : k < t.fin
    · split
      · rename_i he
        obtain ⟨c', h1, h2⟩ := scan_empty_hs hs he k hk hkf
        rw [hc] at h1; simp at h1; subst h1
        simp [isHs, hw] at h2
      · exact ⟨(n, i, t.fin), by simp, hk, hkf⟩
    · have hkf' : k = t.fin := by omega
      subst hkf'
      rw [atEol_get tok.eol hkl] at hc
      injection hc with hc
      subst hc
      exact absurd hw (by decide)
  · intro x hx
    split at hx
    · simp at hx
    · rw [List.mem_singleton] at hx; subst hx; simp only; omega
  · intro st x hx
    split at hx
    · simp at hx
    · rw [List.mem_singleton] at hx; subst hx
      exact ⟨hle, hfl, start_of_starts st hi, stop_of_eol tok.eol hfl⟩
  · intro hn clean
    have hclean : NoNl input i t.fin := by
      by_cases he : t.body = .empty
      · intro k h1 h2 h3
        obtain ⟨c, h4, h5⟩ := scan_empty_hs hs he k h1 h2
        rw [h3] at h4; simp at h4; subst h4; exact absurd h5 (by decide)
      · rw [if_neg he] at clean
        exact clean (n, i, t.fin) (by simp)
    have hni : n = nlBefore input i := by rw [hn, lineAt_le (by omega)]
    have hnf : nlBefore input t.fin = n := by rw [hni]; exact nlBefore_mid hclean hle (Nat.le_refl _)
    refine ⟨by rw [lineAt_next tok.eol hfl, hnf], ?_⟩
    intro x hx
    split at hx
    · simp at hx
    · rw [List.mem_singleton] at hx; subst hx; exact hni

/-- Lines of a part of the input that begins and ends like lines. -/
theorem place_lines_of {i j n : Nat} (hij : i ≤ j) (hj : j ≤ input.length) (hs : i = 0 ∨ (0 < i ∧ input[i - 1]? = some '\n'))
    (he : j = input.length ∨ input[j]? = some '\n') {p : Spot} (hp : p ∈ place n i (splitNl ((input.take j).drop i))) :
    IsLine input p.2.1 p.2.2 ∧ NoNl input p.2.1 p.2.2 ∧ i ≤ p.2.1 ∧ p.2.2 ≤ j ∧ n ≤ p.1 ∧ (n = nlBefore input i → p.1 = nlBefore input p.2.1) ∧
      (n ≤ nlBefore input i → p.1 ≤ nlBefore input p.2.1) := by
  obtain ⟨h1, h2, h3⟩ := place_isLine _ _ _ _ hp
  obtain ⟨_, h4⟩ := place_true _ _ _ _ hp
  have hb := place_bounds _ _ _ _ hp
  have hl := slice_length (s := input) (b := i) hj
  unfold slice at hl
  have h5 := h2.inside
  have h6 := h2.le
  rw [hl] at h5
  have get : ∀ k, i + k < j → ((input.take j).drop i)[k]? = input[i + k]? := by
    intro k hk
    rw [List.getElem?_drop, List.getElem?_take, if_pos hk]
  refine ⟨⟨by omega, by omega, ?_, ?_⟩, ?_, h1, by omega, by omega, ?_, ?_⟩
  rotate_right
  · intro hn
    rw [h4]
    have ha := nlBefore_add (input := input) i (p.2.1 - i)
    rw [show i + (p.2.1 - i) = p.2.1 by omega] at ha
    rw [ha, List.drop_take, List.take_take, Nat.min_eq_left (by omega)]
    omega
  · rcases h2.start with h7 | ⟨h7, h8⟩
    · have : p.2.1 = i := by omega
      rw [this]; exact hs
    · rw [get _ (by omega)] at h8
      refine .inr ⟨by omega, ?_⟩
      rwa [show i + (p.2.1 - i - 1) = p.2.1 - 1 by omega] at h8
  · rcases h2.stop with h7 | h7
    · rw [hl] at h7
      have : p.2.2 = j := by omega
      rw [this]; exact he
    · have hlt : p.2.2 - i < ((input.take j).drop i).length := (List.getElem?_eq_some_iff.1 h7).1
      rw [hl] at hlt
      rw [get _ (by omega), show i + (p.2.2 - i) = p.2.2 by omega] at h7
      exact .inr h7
  · intro k k1 k2 hk
    have := h3 (k - i) (by omega) (by omega)
    rw [get _ (by omega), show i + (k - i) = k by omega] at this
    exact this hk
  · intro hn
    rw [h4, hn]
    have ha := nlBefore_add (input := input) i (p.2.1 - i)
    rw [show i + (p.2.1 - i) = p.2.1 by omega] at ha
    rw [ha, List.drop_take, List.take_take, Nat.min_eq_left (by omega)]

theorem passes_multi {i n fin : Nat} {op key : Cap} {T : Term} (hi : i < input.length) (hs : scan i (input.drop i) = some ⟨fin, .multiline op key⟩)
    (ht : findTerminator op.text key.text fin (input.drop fin) = some T) :
    Passes input i n (Event.multi n i fin op key (mlBody input n fin T.start) T).spots (T.fin + 1) (n + (mlBody input n fin T.start).length + 2) := by
  have geo := multi_geo hi hs ht
  have hle := placed_le geo.tok.placed
  simp only at hle
  have g1 := geo.start
  have g2 := geo.opStart
  have g3 := geo.keyStart
  have g4 := geo.keyEnd
  have g5 := geo.fin_le
  have hcov : Covered input i (T.fin + 1) ((n, i, fin) :: mlBody input n fin T.start ++ [(n + (mlBody input n fin T.start).length + 1, T.start + 1, T.fin)]) := by
    intro k c hk hk2 hc hw
    have hkl : k < input.length := (List.getElem?_eq_some_iff.1 hc).1
    have notnl : c ≠ '\n' := by intro e; subst e; exact absurd hw (by decide)
    by_cases h1 : k < fin
    · exact ⟨(n, i, fin), by simp, hk, h1⟩
    · by_cases h2 : k = fin
      · subst h2
        rw [atEol_get geo.tok.eol hkl] at hc
        simp at hc; exact absurd hc.symm notnl
      · by_cases h3 : k < T.start
        · have hsl := slice_length (s := input) (b := fin + 1) (e := T.start) (by omega)
          have hj : k - (fin + 1) < (slice input (fin + 1) T.start).length := by omega
          have hg : (slice input (fin + 1) T.start)[k - (fin + 1)] = c := by
            apply Option.some.inj
            rw [← List.getElem?_eq_getElem, ← hc]
            unfold slice
            rw [List.getElem?_drop, List.getElem?_take_of_lt (by omega)]
            congr 1; omega
          obtain ⟨p, hp, hp1, hp2⟩ := place_cover _ (n + 1) (fin + 1) _ hj (by rw [hg]; exact notnl)
          have hm : p ∈ mlBody input n fin T.start := by
            unfold mlBody
            rw [if_neg (by omega)]; exact hp
          exact ⟨p, by simp [hm], by omega, by omega⟩
        · by_cases h4 : k = T.start
          · subst h4
            rw [geo.nl] at hc
            simp at hc; exact absurd hc.symm notnl
          · by_cases h5 : k < T.fin
            · exact ⟨(n + (mlBody input n fin T.start).length + 1, T.start + 1, T.fin), by simp, by simp only; omega, h5⟩
            · have h6 : k = T.fin := by omega
              subst h6
              rw [atEol_get geo.eol hkl] at hc
              simp at hc; exact absurd hc.symm notnl
  have hB := fun p hp => mlBody_bounds (input := input) (n := n) (p := p) g1 (by omega) hp
  have hfnl : input[fin]? = some '\n' := atEol_get geo.tok.eol (by show fin < _; omega)
  have hP : (mlBody input n fin T.start).Pairwise Before := mlBody_sorted
  have hbl := mlBody_length (n := n) g1 hfnl
  have hPl : ∀ p ∈ mlBody input n fin T.start, IsLine input p.2.1 p.2.2 ∧ (n = nlBefore input fin → p.1 = nlBefore input p.2.1) ∧
      (n ≤ nlBefore input fin → p.1 ≤ nlBefore input p.2.1) := by
    intro p hp
    unfold mlBody at hp
    split at hp
    · simp at hp
    · obtain ⟨h1, _, _, _, _, h6, h7⟩ := place_lines_of (input := input) (by omega) (by omega) (.inr ⟨by omega, hfnl⟩) (.inr geo.nl) hp
      refine ⟨h1, fun hn => h6 ?_, fun hn => h7 ?_⟩
      · rw [nlBefore_succ_nl hfnl, hn]
      · rw [nlBefore_succ_nl hfnl]; omega
  rw [spots_multi]
  generalize mlBody input n fin T.start = body at *
  refine ⟨by omega, by omega, ?_, ?_, fun _ => starts_next geo.eol g5, ?_, ?_, hcov, ?_⟩
  · intro x hx
    simp at hx
    rcases hx with rfl | hx | rfl
    · simp only; omega
    · have := hB x hx; omega
    · simp only; omega
  · rw [List.cons_append, List.pairwise_cons, List.pairwise_append]
    refine ⟨?_, hP, by simp, ?_⟩
    · intro x hx
      simp at hx
      rcases hx with hx | rfl
      · have := hB x hx
        exact ⟨by simp only; omega, by simp only; omega⟩
      · exact ⟨by simp only; omega, by simp only; omega⟩
    · intro x hx y hy
      simp at hy; subst hy
      have := hB x hx
      exact ⟨by simp only; omega, by simp only; omega⟩
  · intro st x hx
    simp at hx
    rcases hx with rfl | hx | rfl
    · exact ⟨hle, by simp only; omega, start_of_starts st hi, .inr hfnl⟩
    · exact (hPl x hx).1
    · exact ⟨by simp only; omega, g5, .inr ⟨by simp only; omega, by simpa using geo.nl⟩, stop_of_eol geo.eol g5⟩
  · intro hn clean
    have hc1 : NoNl input i fin := clean (n, i, fin) (by simp)
    have hc2 : NoNl input (T.start + 1) T.fin := clean (n + body.length + 1, T.start + 1, T.fin) (by simp)
    have hni : n = nlBefore input i := by rw [hn, lineAt_le (by omega)]
    have hnf : nlBefore input fin = n := by rw [hni]; exact nlBefore_mid hc1 hle (Nat.le_refl _)
    have hT1 : nlBefore input (T.start + 1) = n + body.length + 1 := by rw [nlBefore_succ_nl geo.nl]; omega
    have hTf : nlBefore input T.fin = n + body.length + 1 := by
      rw [← hT1]; exact nlBefore_mid hc2 (by omega) (Nat.le_refl _)
    refine ⟨by rw [lineAt_next geo.eol g5, hTf], ?_⟩
    intro x hx
    rw [List.cons_append, List.mem_cons, List.mem_append, List.mem_singleton] at hx
    rcases hx with rfl | hx | rfl
    · exact hni
    · exact (hPl x hx).2.1 hnf.symm
    · exact hT1.symm
  · intro hn
    rw [lineAt_le (by omega)] at hn
    have m1 := nlBefore_mono (input := input) hle
    have hT1 := nlBefore_succ_nl geo.nl
    have m2 := nlBefore_mono (input := input) (i := T.start + 1) (j := T.fin) (by omega)
    refine ⟨by rw [lineAt_next geo.eol g5]; omega, ?_⟩
    intro x hx
    rw [List.cons_append, List.mem_cons, List.mem_append, List.mem_singleton] at hx
    rcases hx with rfl | hx | rfl
    · exact hn
    · exact (hPl x hx).2.2 (by omega)
    · simp only; omega

/-- Reading some events. -/
theorem trace_prefix {post : List Event} {r : Ending} : ∀ {pre : List Event} {i n : Nat}, Trace input i n (pre ++ post) r →
    ∃ i' n', Trace input i' n' post r ∧ Passes input i n (pre.flatMap Event.spots) i' n'
  | [], i, n, h => ⟨i, n, h, .refl i n⟩
  | ev :: pre, i, n, h => by
    rw [List.cons_append] at h
    cases h with
    | line h1 h2 h3 h4 =>
      obtain ⟨i', n', h5, h6⟩ := trace_prefix h4
      exact ⟨i', n', h5, (passes_line h1 h2).trans h6⟩
    | multi h1 h2 h3 h4 =>
      obtain ⟨i', n', h5, h6⟩ := trace_prefix h4
      exact ⟨i', n', h5, (passes_multi h1 h2 h3).trans h6⟩

/-! ## Forms that end with their line -/

/-- Forms without a key before the operator. -/
def Body.simple : Body → Bool
  | .empty | .comment .. | .continuation .. | .listItem .. | .multiline .. => true
  | _ => false

theorem afterKey_not_simple {p : Nat} {s : Str} {k : KeyTok} {t : Tok} (h : afterKey p s k = some t) : t.body.simple = false := by
  unfold afterKey at h
  simp only at h
  split at h
  · simp at h; subst h; rfl
  · simp at h; subst h; rfl
  · simp only [Option.map_eq_some_iff] at h
    obtain ⟨v, _, rfl⟩ := h; rfl
  · simp at h

theorem afterHeadingKey_not_simple {o : Cap} {p : Nat} {s : Str} {k : KeyTok} {t : Tok} (h : afterHeadingKey o p s k = some t) : t.body.simple = false := by
  unfold afterHeadingKey at h
  simp only at h
  split at h
  · simp at h; subst h; rfl
  · simp at h; subst h; rfl
  · simp only [Option.map_eq_some_iff] at h
    obtain ⟨v, _, rfl⟩ := h; rfl
  · simp only [Option.map_eq_some_iff] at h
    obtain ⟨v, _, rfl⟩ := h; rfl
  · simp at h

theorem drop_runLen (p : Char → Bool) (s : Str) : s.drop (runLen p s) = s.dropWhile p := by
  have e := List.takeWhile_append_dropWhile (p := p) (l := s)
  have h2 : ∀ a b : Str, (a ++ b).drop a.length = b := fun a b => List.drop_left' rfl
  have := h2 (s.takeWhile p) (s.dropWhile p)
  rwa [e] at this

/-- A run without line feeds belongs to the line. -/
theorem lineOf_run {p : Char → Bool} (hp : p '\n' = false) (s : Str) : lineOf s = s.takeWhile p ++ lineOf (s.drop (runLen p s)) := by
  rw [drop_runLen]
  conv => lhs; rw [← List.takeWhile_append_dropWhile (p := p) (l := s)]
  unfold lineOf
  rw [List.takeWhile_append_of_pos]
  intro x hx
  have := mem_takeWhile_imp hx
  have hne : x ≠ '\n' := by intro e; subst e; rw [hp] at this; exact absurd this (by decide)
  simpa using hne

theorem lineOf_cons {c : Char} {t : Str} (h : c ≠ '\n') : lineOf (c :: t) = c :: lineOf t := by
  unfold lineOf; rw [List.takeWhile_cons, if_pos (by simpa using h)]

/-- Only forms with a key can go beyond the end of the line. -/
theorem scan_simple {pos : Nat} {s : Str} {t : Tok} (h : scan pos s = some t) (he : t.body.simple = true) : t.fin = pos + (lineOf s).length := by
  have hls := lineOf_run (p := isHs) (by decide) s
  have hrl : (s.takeWhile isHs).length = runLen isHs s := rfl
  unfold scan at h
  simp only at h
  split at h
  · rename_i hd
    simp at h; subst h
    rw [hls, hd]; simp [lineOf, hrl]
  · rename_i c w hd
    rw [hls, List.length_append, hrl, hd]
    split at h
    · rename_i hc
      simp at h; subst h; subst hc; simp [lineOf]
    rename_i hnl
    rw [lineOf_cons hnl]
    split at h
    · simp at h; subst h; simp [eolAt]; omega
    split at h
    · simp at h; subst h; simp [eolAt]; omega
    split at h
    · simp at h; subst h; simp [eolAt]; omega
    split at h
    · rename_i hc
      subst hc
      have hr : s.drop (runLen isHs s) = '-' :: w := hd
      have hl2 := lineOf_run (p := fun c => c == '-') (by decide) ('-' :: w)
      have hn : (('-' :: w).takeWhile fun c => c == '-').length = runLen (fun c => c == '-') ('-' :: w) := rfl
      rw [← lineOf_cons hnl]
      unfold dashAt at h
      simp only at h
      rw [hr] at h
      split at h
      · rename_i h1
        simp at h; subst h
        rw [lineOf_cons hnl]; simp [eolAt]; omega
      · simp only [Option.map_eq_some_iff] at h
        obtain ⟨v, _, rfl⟩ := h
        rw [hl2, List.length_append, hn]
        simp [eolAt]; omega
    split at h
    · exfalso
      unfold headingAt at h
      simp only at h
      split at h
      · simp at h
      · simp at h
      · obtain ⟨_, _, _, h⟩ := escapedKey_after h
        rw [afterHeadingKey_not_simple h] at he; cases he
      · obtain ⟨_, _, _, h⟩ := plainKey_after h
        rw [afterHeadingKey_not_simple h] at he; cases he
    split at h
    · obtain ⟨_, _, _, h⟩ := escapedKey_after h
      rw [afterKey_not_simple h] at he; cases he
    split at h
    · simp at h
    · obtain ⟨_, _, _, h⟩ := plainKey_after h
      rw [afterKey_not_simple h] at he; cases he

/-- A comment is a line of its own. -/
theorem scan_comment {pos : Nat} {s : Str} {t : Tok} {op : Cap} {v : Option Cap} (h : scan pos s = some t) (he : t.body = .comment op v) :
    IsCommentLine (lineOf s) := by
  have hls := lineOf_run (p := isHs) (by decide) s
  have hsi : t.body.simple = true := by rw [he]; rfl
  unfold scan at h
  simp only at h
  split at h
  · simp at h; subst h; simp at he
  · rename_i c w hd
    split at h
    · simp at h; subst h; simp at he
    rename_i hnl
    split at h
    · simp at h; subst h; simp at he
    split at h
    · simp at h; subst h; simp at he
    split at h
    · rename_i hc
      rw [hls, hd, lineOf_cons hnl, hc]
      exact ⟨_, _, rfl, fun c hm => mem_takeWhile_imp hm⟩
    split at h
    · exfalso
      unfold dashAt at h
      simp only at h
      split at h
      · simp at h; subst h; simp at he
      · simp only [Option.map_eq_some_iff] at h
        obtain ⟨v, _, rfl⟩ := h; simp at he
    split at h
    · exfalso
      unfold headingAt at h
      simp only at h
      split at h
      · simp at h
      · simp at h
      · obtain ⟨_, _, _, h⟩ := escapedKey_after h
        rw [afterHeadingKey_not_simple h] at hsi; cases hsi
      · obtain ⟨_, _, _, h⟩ := plainKey_after h
        rw [afterHeadingKey_not_simple h] at hsi; cases hsi
    split at h
    · obtain ⟨_, _, _, h⟩ := escapedKey_after h
      rw [afterKey_not_simple h] at hsi; cases hsi
    split at h
    · simp at h
    · obtain ⟨_, _, _, h⟩ := plainKey_after h
      rw [afterKey_not_simple h] at hsi; cases hsi

theorem noNl_line (i : Nat) : NoNl input i (i + (lineOf (input.drop i)).length) := by
  intro k h1 h2 hk
  obtain ⟨j, rfl⟩ : ∃ j, k = i + j := ⟨k - i, by omega⟩
  have hj : j < (lineOf (input.drop i)).length := by omega
  rw [← List.getElem?_drop] at hk
  obtain ⟨r, hr⟩ := List.takeWhile_prefix (p := fun c => c != '\n') (l := input.drop i)
  have hk' : (lineOf (input.drop i))[j]? = some '\n' := by
    rw [← hk]; conv => rhs; rw [← hr]
    exact (List.getElem?_append_left hj).symm
  have := mem_takeWhile_imp (List.mem_of_getElem? hk')
  exact absurd this (by decide)

theorem slice_line (i : Nat) : slice input i (i + (lineOf (input.drop i)).length) = lineOf (input.drop i) := by
  unfold slice
  rw [List.drop_take, Nat.add_sub_cancel_left]
  obtain ⟨r, hr⟩ := List.takeWhile_prefix (p := fun c => c != '\n') (l := input.drop i)
  have h2 : ∀ a b : Str, (a ++ b).take a.length = a := fun a b => List.take_left' rfl
  have := h2 (lineOf (input.drop i)) r
  rwa [show lineOf (input.drop i) ++ r = input.drop i from hr] at this

/-- The comments of a run hold no line feed. -/
theorem trace_comments {i n : Nat} {es : List Event} {r : Ending} (h : Trace input i n es r) : ∀ ev ∈ es, ev.role = .comment →
    ∀ x ∈ ev.spots, NoNl input x.2.1 x.2.2 ∧ IsCommentLine (slice input x.2.1 x.2.2) := by
  induction h with
  | done => simp
  | bad => simp
  | unterminated => simp
  | @line i n t es r hi hs ho _ ih =>
    intro ev hev hr x hx
    rcases List.mem_cons.1 hev with rfl | hev
    · rw [spots_line] at hx
      split at hx
      · simp at hx
      · simp only [List.mem_singleton] at hx
        subst hx
        cases hb : t.body <;> simp [Event.role, roleOf, hb] at hr
        rename_i op v
        simp only
        rw [scan_simple hs (by rw [hb]; rfl), slice_line]
        exact ⟨noNl_line i, scan_comment hs hb⟩
    · exact ih ev hev hr x hx
  | multi _ _ _ _ ih =>
    intro ev hev hr x hx
    rcases List.mem_cons.1 hev with rfl | hev
    · simp [Event.role] at hr
    · exact ih ev hev hr x hx

end Eno
