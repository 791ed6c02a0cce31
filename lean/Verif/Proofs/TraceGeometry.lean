import Verif.Spec.Faithful
import Verif.Proofs.TraceLemmas

/-! # Where the instructions of an input lie -/

namespace Eno

open Spec

variable {input : Str}

/-! ## Slices -/

theorem slice_length {s : Str} {b e : Nat} (he : e ≤ s.length) : (slice s b e).length = e - b := by
  simp [slice]; omega

theorem slice_cap {c : Cap} (h : c.In input) : slice input c.b c.e = c.text := by
  obtain ⟨⟨r, hr⟩, he, _⟩ := h
  unfold slice
  rw [he, List.drop_take, ← hr]
  simp

theorem cap_le {c : Cap} (h : c.In input) : c.e ≤ input.length := by
  obtain ⟨hp, he, hne⟩ := h
  have := hp.length_le
  rw [List.length_drop] at this
  have hpos : 0 < c.text.length := by
    cases h : c.text with
    | nil => exact absurd h hne
    | cons a t => simp
  omega

theorem cap_lt {c : Cap} (h : c.In input) : c.b < c.e := by
  obtain ⟨_, he, hne⟩ := h
  have hpos : 0 < c.text.length := by
    cases h : c.text with
    | nil => exact absurd h hne
    | cons a t => simp
  omega

/-- Every group of a placed list lies between the limits and is faithful. -/
theorem placed_mem {lo fin : Nat} {cs : List Cap} (h : Placed input lo fin cs) : ∀ c ∈ cs, lo ≤ c.b ∧ c.In input ∧ c.e ≤ fin := by
  induction cs generalizing lo with
  | nil => simp
  | cons a t ih =>
    obtain ⟨h1, h2, h3⟩ := h
    intro c hc
    simp at hc
    rcases hc with rfl | hc
    · exact ⟨h1, h2, placed_le h3⟩
    · obtain ⟨h4, h5, h6⟩ := ih h3 c hc
      have := cap_lt h2
      exact ⟨by omega, h5, h6⟩

/-! ## Consecutive lines -/

theorem splitNl_sum (w : Str) : ((splitNl w).map (fun l => l.length + 1)).sum = w.length + 1 := by
  induction w with
  | nil => rfl
  | cons c t ih =>
    unfold splitNl
    split
    · simp [ih]; omega
    · split
      · rename_i h; exact absurd h (splitNl_ne_nil t)
      · rename_i l ls h; rw [h] at ih; simp at ih ⊢; omega

theorem place_bounds (ls : List Str) : ∀ (n i : Nat) (p : Spot), p ∈ place n i ls →
    n ≤ p.1 ∧ p.1 < n + ls.length ∧ i ≤ p.2.1 ∧ p.2.1 ≤ p.2.2 ∧ p.2.2 + 1 ≤ i + (ls.map (fun l => l.length + 1)).sum := by
  induction ls with
  | nil => intro n i p h; simp [place] at h
  | cons l ls ih =>
    intro n i p h
    simp [place] at h
    rcases h with rfl | h
    · simp; omega
    · have := ih _ _ p h
      simp at this ⊢; omega

theorem place_sorted (ls : List Str) : ∀ (n i : Nat), (place n i ls).Pairwise Before := by
  induction ls with
  | nil => intro n i; simp [place]
  | cons l ls ih =>
    intro n i
    simp only [place, List.pairwise_cons]
    refine ⟨?_, ih _ _⟩
    intro p hp
    have := place_bounds ls _ _ p hp
    exact ⟨by omega, by simp only; omega⟩

/-- Every character that is not a line feed is on one of the lines. -/
theorem place_cover (w : Str) : ∀ (n i j : Nat) (h : j < w.length), w[j] ≠ '\n' → ∃ p ∈ place n i (splitNl w), p.2.1 ≤ i + j ∧ i + j < p.2.2 := by
  induction w with
  | nil => intro n i j h; simp at h
  | cons c t ih =>
    intro n i j h hj
    by_cases hc : c = '\n'
    · cases j with
      | zero => simp at hj; exact absurd hc hj
      | succ j =>
        simp at hj h
        obtain ⟨p, hp, h1, h2⟩ := ih (n + 1) (i + 1) j h hj
        refine ⟨p, ?_, by omega, by omega⟩
        rw [splitNl, if_pos hc]
        simp [place]; right; exact hp
    · rw [splitNl, if_neg hc]
      cases hs : splitNl t with
      | nil => exact absurd hs (splitNl_ne_nil t)
      | cons l ls =>
        simp only [place]
        cases j with
        | zero => exact ⟨_, List.mem_cons_self, by simp, by simp⟩
        | succ j =>
          simp at hj h
          obtain ⟨p, hp, h1, h2⟩ := ih n (i + 1) j h hj
          rw [hs] at hp
          simp [place] at hp
          rcases hp with rfl | hp
          · exact ⟨_, List.mem_cons_self, by simp, by simp at h2 ⊢; omega⟩
          · refine ⟨p, ?_, by omega, by omega⟩
            simp only [List.mem_cons]; right
            have e : i + (c :: l).length + 1 = i + 1 + l.length + 1 := by simp; omega
            rw [e]; exact hp

/-! ## Events -/

/-- The spots of an event. -/
def Spec.Event.spots (ev : Event) : List Spot := ev.pieces.map fun p => spotOf p.toBase

theorem spots_line {n b : Nat} {t : Tok} : (Event.line n b t).spots = if t.body = .empty then [] else [(n, b, t.fin)] := by
  show List.map _ (if t.body = .empty then [] else _) = _
  split <;> rfl

theorem spots_multi {n b fin : Nat} {op key : Cap} {body : List Spot} {T : Term} :
    (Event.multi n b fin op key body T).spots = (n, b, fin) :: body ++ [(n + body.length + 1, T.start + 1, T.fin)] := by
  unfold Event.spots Event.pieces
  simp only [List.map_cons, List.map_append, List.map_map, List.map_nil]
  have : body.map ((fun p => spotOf p.toBase) ∘ fun p : Nat × Nat × Nat => ({ line := p.1, ranges := [(.line, p.2), (.value, p.2)] } : Piece)) = body := by
    conv => rhs; rw [← List.map_id body]
    apply List.map_congr_left
    intro a _
    rfl
  rw [this]
  rfl

/-- Geometry of a multiline field. -/
structure MultiGeo (input : Str) (b fin : Nat) (op key : Cap) (T : Term) : Prop where
  tok : TokOk input b ⟨fin, .multiline op key⟩
  start : fin ≤ T.start
  opStart : T.start < T.op
  keyStart : T.op + op.text.length ≤ T.key
  keyEnd : T.key + key.text.length ≤ T.fin
  fin_le : T.fin ≤ input.length
  opText : slice input T.op (T.op + op.text.length) = op.text
  keyText : slice input T.key (T.key + key.text.length) = key.text
  nl : input[T.start]? = some '\n'
  eol : atEol (input.drop T.fin) = true

theorem slice_of_prefix {s t : Str} {b : Nat} (h : t <+: s.drop b) : slice s b (b + t.length) = t := by
  obtain ⟨r, hr⟩ := h
  unfold slice
  rw [List.drop_take, ← hr]; simp

theorem terminatorLine_spec {op key line : Str} {h g : Nat} (ht : terminatorLine op key line = some (h, g)) :
    h + op.length + g + key.length ≤ line.length ∧ op <+: line.drop h ∧ key <+: line.drop (h + op.length + g) := by
  unfold terminatorLine at ht
  simp only at ht
  split at ht
  · rename_i h1
    split at ht
    · rename_i h2
      simp only [Option.some.injEq, Prod.mk.injEq] at ht
      obtain ⟨rfl, rfl⟩ := ht
      have p1 := List.isPrefixOf_iff_prefix.1 h1.1
      have p2 := List.isPrefixOf_iff_prefix.1 h2.1
      rw [List.drop_drop] at p2
      refine ⟨?_, p1, by rw [Nat.add_assoc]; exact p2⟩
      have l2 := p2.length_le
      have l1 := p1.length_le
      rw [List.length_drop] at l1 l2
      have l3 := runLen_le isHs line
      have l4 := runLen_le isHs ((line.drop (runLen isHs line)).drop op.length)
      simp only [List.length_drop] at l4
      omega
    · simp at ht
  · simp at ht

theorem multi_geo {i fin : Nat} {op key : Cap} {T : Term} (hi : i < input.length) (hs : scan i (input.drop i) = some ⟨fin, .multiline op key⟩)
    (ht : findTerminator op.text key.text fin (input.drop fin) = some T) : MultiGeo input i fin op key T := by
  have tok := scan_ok (by omega) hs
  obtain ⟨a, b, hab, hst, hfin, h, g, hterm, hop, hkey⟩ := findTerminator_start _ _ _ ht
  have hfl : fin ≤ input.length := tok.fin_le
  have hdrop : input.drop (T.start + 1) = b := by
    rw [hst, Nat.add_assoc, ← List.drop_drop, hab]; simp
  have hbl : T.start + 1 + b.length = input.length := by
    have := congrArg List.length hab
    simp at this; omega
  have hll : (lineOf b).length ≤ b.length := (lineOf_prefix b).length_le
  obtain ⟨h1, h2, h3⟩ := terminatorLine_spec hterm
  have pre : ∀ {t : Str} {k : Nat}, t <+: (lineOf b).drop k → k ≤ (lineOf b).length → t <+: input.drop (T.start + 1 + k) := by
    intro t k ht hk
    rw [← List.drop_drop, hdrop]
    obtain ⟨r, hr⟩ := lineOf_prefix b
    rw [← hr, List.drop_append_of_le_length hk]
    exact ht.trans (List.prefix_append _ _)
  refine ⟨tok, by omega, by omega, by omega, by omega, by omega, ?_, ?_, ?_, ?_⟩
  · apply slice_of_prefix
    rw [hop]
    exact pre h2 (by omega)
  · apply slice_of_prefix
    have e : T.key = T.start + 1 + (h + op.text.length + g) := by omega
    rw [e]
    exact pre h3 (by omega)
  · have : input.drop T.start = '\n' :: b := by rw [hst, ← List.drop_drop, hab]; simp
    rw [← List.head?_drop, this]; rfl
  · rw [hfin, ← List.drop_drop, hdrop]
    unfold lineOf
    rw [drop_takeWhile]
    cases hd : b.dropWhile (· != '\n') with
    | nil => rfl
    | cons c t =>
      have := dropWhile_head hd
      simp at this
      simp [atEol, this]

/-- What lies between two traces: the events of the first step. -/
theorem mlBody_bounds {n fin stop : Nat} (h : fin ≤ stop) (hs : stop ≤ input.length) {p : Spot} (hp : p ∈ mlBody input n fin stop) :
    n + 1 ≤ p.1 ∧ p.1 < n + 1 + (mlBody input n fin stop).length ∧ fin + 1 ≤ p.2.1 ∧ p.2.1 ≤ p.2.2 ∧ p.2.2 ≤ stop := by
  unfold mlBody at hp ⊢
  split at hp
  · simp at hp
  · rename_i hne
    rw [if_neg hne, place_length]
    have := place_bounds _ _ _ p hp
    rw [splitNl_sum] at this
    have hl := slice_length (b := fin + 1) hs
    unfold slice at hl
    rw [hl] at this
    omega

theorem mlBody_sorted {n fin stop : Nat} : (mlBody input n fin stop).Pairwise Before := by
  unfold mlBody; split
  · simp
  · exact place_sorted _ _ _

/-- The instructions of an input follow each other. -/
theorem trace_sorted {i n : Nat} {es : List Event} {r : Ending} (h : Trace input i n es r) :
    (es.flatMap Event.spots).Pairwise Before ∧
      ∀ x ∈ es.flatMap Event.spots, n ≤ x.1 ∧ i ≤ x.2.1 ∧ x.2.1 ≤ x.2.2 ∧ x.2.2 ≤ input.length := by
  induction h with
  | done => simp
  | bad => simp
  | unterminated => simp
  | @line i n t es r hi hs ho _ ih =>
    have tok := scan_ok (by omega) hs
    have hle := placed_le tok.placed
    have hfl := tok.fin_le
    rw [List.flatMap_cons, spots_line]
    split
    · simp only [List.nil_append]
      refine ⟨ih.1, ?_⟩
      intro x hx
      have := ih.2 x hx
      omega
    · simp only [List.singleton_append, List.pairwise_cons, List.mem_cons]
      refine ⟨⟨?_, ih.1⟩, ?_⟩
      · intro x hx
        have := ih.2 x hx
        exact ⟨by simp only; omega, by simp only; omega⟩
      · intro x hx
        rcases hx with rfl | hx
        · simp only; omega
        · have := ih.2 x hx
          omega
  | @multi i n fin op key T es r hi hs ht _ ih =>
    have geo := multi_geo hi hs ht
    have hle := placed_le geo.tok.placed
    simp only at hle
    have g1 := geo.start
    have g2 := geo.opStart
    have g3 := geo.keyStart
    have g4 := geo.keyEnd
    have g5 := geo.fin_le
    have hB := fun p hp => mlBody_bounds (input := input) (n := n) (p := p) g1 (by omega) hp
    rw [List.flatMap_cons, spots_multi]
    have hP : (mlBody input n fin T.start).Pairwise Before := mlBody_sorted
    generalize mlBody input n fin T.start = body at *
    refine ⟨?_, ?_⟩
    · rw [List.pairwise_append]
      refine ⟨?_, ih.1, ?_⟩
      · rw [List.cons_append, List.pairwise_cons, List.pairwise_append]
        refine ⟨?_, ?_, by simp, ?_⟩
        · intro x hx
          simp at hx
          rcases hx with hx | rfl
          · have := hB x hx
            exact ⟨by simp only; omega, by simp only; omega⟩
          · exact ⟨by simp only; omega, by simp only; omega⟩
        · exact hP
        · intro x hx y hy
          simp at hy; subst hy
          have := hB x hx
          exact ⟨by simp only; omega, by simp only; omega⟩
      · intro x hx y hy
        have hy' := ih.2 y hy
        simp at hx
        rcases hx with rfl | hx | rfl
        · exact ⟨by simp only; omega, by simp only; omega⟩
        · have := hB x hx
          exact ⟨by omega, by omega⟩
        · exact ⟨by simp only; omega, by simp only; omega⟩
    · intro x hx
      simp at hx
      rcases hx with rfl | hx | rfl | ⟨ev, hev, hx⟩
      · simp only; omega
      · have := hB x hx; omega
      · simp only; omega
      · have := ih.2 x (by simp; exact ⟨ev, hev, hx⟩)
        omega

/-! ## Blank lines -/

theorem afterKey_ne {p : Nat} {s : Str} {k : KeyTok} {t : Tok} (h : afterKey p s k = some t) : t.body ≠ .empty := by
  unfold afterKey at h
  simp only at h
  split at h
  · simp at h; subst h; simp
  · simp at h; subst h; simp
  · simp only [Option.map_eq_some_iff] at h
    obtain ⟨v, _, rfl⟩ := h; simp
  · simp at h

theorem afterHeadingKey_ne {op : Cap} {p : Nat} {s : Str} {k : KeyTok} {t : Tok} (h : afterHeadingKey op p s k = some t) : t.body ≠ .empty := by
  unfold afterHeadingKey at h
  simp only at h
  split at h
  · simp at h; subst h; simp
  · simp at h; subst h; simp
  · simp only [Option.map_eq_some_iff] at h
    obtain ⟨v, _, rfl⟩ := h; simp
  · simp only [Option.map_eq_some_iff] at h
    obtain ⟨v, _, rfl⟩ := h; simp
  · simp at h

theorem scan_empty {pos : Nat} {s : Str} {t : Tok} (h : scan pos s = some t) (he : t.body = .empty) : t.fin = pos + runLen isHs s := by
  unfold scan at h
  simp only at h
  split at h
  · simp at h; subst h; rfl
  · split at h
    · simp at h; subst h; rfl
    · exfalso
      split at h
      · simp at h; subst h; simp at he
      split at h
      · simp at h; subst h; simp at he
      split at h
      · simp at h; subst h; simp at he
      split at h
      · unfold dashAt at h
        simp only at h
        split at h
        · simp at h; subst h; simp at he
        · simp only [Option.map_eq_some_iff] at h
          obtain ⟨v, _, rfl⟩ := h; simp at he
      split at h
      · unfold headingAt at h
        simp only at h
        split at h
        · simp at h
        · simp at h
        · obtain ⟨_, _, _, h⟩ := escapedKey_after h
          exact afterHeadingKey_ne h he
        · obtain ⟨_, _, _, h⟩ := plainKey_after h
          exact afterHeadingKey_ne h he
      split at h
      · obtain ⟨_, _, _, h⟩ := escapedKey_after h
        exact afterKey_ne h he
      split at h
      · simp at h
      · obtain ⟨_, _, _, h⟩ := plainKey_after h
        exact afterKey_ne h he

/-- Blank lines are blank. -/
theorem scan_empty_hs {pos : Nat} {t : Tok} (h : scan pos (input.drop pos) = some t) (he : t.body = .empty) (k : Nat) (h1 : pos ≤ k)
    (h2 : k < t.fin) : ∃ c, input[k]? = some c ∧ isHs c = true := by
  rw [scan_empty h he] at h2
  unfold runLen at h2
  obtain ⟨j, rfl⟩ : ∃ j, k = pos + j := ⟨k - pos, by omega⟩
  have hj : j < ((input.drop pos).takeWhile isHs).length := by omega
  refine ⟨((input.drop pos).takeWhile isHs)[j], ?_, mem_takeWhile_imp (List.getElem_mem hj)⟩
  rw [← List.getElem?_drop]
  obtain ⟨r, hr⟩ := List.takeWhile_prefix (p := isHs) (l := input.drop pos)
  conv => lhs; rw [← hr]
  rw [List.getElem?_append_left hj]; simp

theorem atEol_get {k : Nat} (h : atEol (input.drop k) = true) (hk : k < input.length) : input[k]? = some '\n' := by
  rw [← List.head?_drop]
  cases hd : input.drop k with
  | nil => simp at hd; omega
  | cons c t => rw [hd] at h; simp [atEol] at h; simp [h]

/-- Every character of a completely read input is white space or on the line of an instruction. -/
theorem trace_cover {i n : Nat} {es : List Event} {r : Ending} (h : Trace input i n es r) (hr : ∃ m, r = .finished m) (k : Nat) (c : Char)
    (hk : i ≤ k) (hc : input[k]? = some c) (hw : isSp c = false) : ∃ x ∈ es.flatMap Event.spots, x.2.1 ≤ k ∧ k < x.2.2 := by
  have hkl : k < input.length := (List.getElem?_eq_some_iff.1 hc).1
  have notnl : c ≠ '\n' := by intro e; subst e; exact absurd hw (by decide)
  induction h with
  | done h => omega
  | bad => obtain ⟨m, hm⟩ := hr; simp at hm
  | unterminated => obtain ⟨m, hm⟩ := hr; simp at hm
  | @line i n t es r hi hs ho _ ih =>
    have tok := scan_ok (by omega) hs
    rw [List.flatMap_cons, spots_line]
    by_cases hkf : k < t.fin
    · split
      · rename_i he
        obtain ⟨c', h1, h2⟩ := scan_empty_hs hs he k hk hkf
        rw [hc] at h1; simp at h1; subst h1
        simp [isHs, hw] at h2
      · exact ⟨(n, i, t.fin), by simp, hk, hkf⟩
    · by_cases hkf' : k = t.fin
      · subst hkf'
        rw [atEol_get tok.eol hkl] at hc
        simp at hc; exact absurd hc.symm notnl
      · obtain ⟨x, hx, h1⟩ := ih hr (by omega)
        exact ⟨x, List.mem_append_right _ hx, h1⟩
  | @multi i n fin op key T es r hi hs ht _ ih =>
    have geo := multi_geo hi hs ht
    have g1 := geo.start
    rw [List.flatMap_cons, spots_multi]
    by_cases h1 : k < fin
    · exact ⟨(n, i, fin), by simp, hk, h1⟩
    · by_cases h2 : k = fin
      · subst h2
        rw [atEol_get geo.tok.eol hkl] at hc
        simp at hc; exact absurd hc.symm notnl
      · by_cases h3 : k < T.start
        · have hT := (List.getElem?_eq_some_iff.1 geo.nl).1
          have hsl := slice_length (s := input) (b := fin + 1) (e := T.start) (by omega)
          have hj : k - (fin + 1) < (slice input (fin + 1) T.start).length := by omega
          have hg : (slice input (fin + 1) T.start)[k - (fin + 1)] = c := by
            apply Option.some.inj
            rw [← List.getElem?_eq_getElem, ← hc]
            unfold slice
            rw [List.getElem?_drop, List.getElem?_take_of_lt (by omega)]
            congr 1; omega
          obtain ⟨p, hp, hp1, hp2⟩ := place_cover _ (n + 1) (fin + 1) _ hj (by rw [hg]; exact notnl)
          have hm : p ∈ mlBody input n fin T.start := by
            unfold mlBody
            rw [if_neg (by omega)]; exact hp
          exact ⟨p, by simp [hm], by omega, by omega⟩
        · by_cases h4 : k = T.start
          · subst h4
            rw [geo.nl] at hc
            simp at hc; exact absurd hc.symm notnl
          · by_cases h5 : k < T.fin
            · exact ⟨(n + (mlBody input n fin T.start).length + 1, T.start + 1, T.fin), by simp, by simp only; omega, h5⟩
            · by_cases h6 : k = T.fin
              · subst h6
                rw [atEol_get geo.eol hkl] at hc
                simp at hc; exact absurd hc.symm notnl
              · obtain ⟨x, hx, h1⟩ := ih hr (by omega)
                exact ⟨x, List.mem_append_right _ hx, h1⟩

/-! ## Ranges -/

theorem rangesOf_caps (body : Body) : ∀ n r, (n, r) ∈ rangesOf body → ∃ c ∈ body.caps, r = (c.b, c.e) := by
  have key : ∀ (k : KeyTok) n r, ((n, r) ∈ (keyRanges k).1 ∨ (n, r) ∈ (keyRanges k).2) → ∃ c ∈ k.caps, r = (c.b, c.e) := by
    intro k n r h
    cases k with
    | plain k => simp [keyRanges, at_] at h; exact ⟨k, by simp [KeyTok.caps], h.2⟩
    | escaped b k e =>
      simp [keyRanges, at_] at h
      rcases h with (h | h) | h
      · exact ⟨b, by simp [KeyTok.caps], h.2⟩
      · exact ⟨e, by simp [KeyTok.caps], h.2⟩
      · exact ⟨k, by simp [KeyTok.caps], h.2⟩
  have opt : ∀ (v : Option Cap) m n r, (n, r) ∈ at? m v → ∃ c, v = some c ∧ r = (c.b, c.e) := by
    intro v m n r h
    cases v with
    | none => simp [at?] at h
    | some v => simp [at?, at_] at h; exact ⟨v, rfl, h.2⟩
  have one : ∀ (v : Cap) m n r, (n, r) ∈ at_ m v → r = (v.b, v.e) := by
    intro v m n r h; simp [at_] at h; exact h.2
  intro n r h
  cases body with
  | empty => simp [rangesOf] at h
  | element k op v =>
    simp only [rangesOf, List.mem_append] at h
    rcases h with ((h | h) | h) | h
    · exact ⟨op, by simp [Body.caps], one _ _ _ _ h⟩
    · obtain ⟨c, hc, hr⟩ := key k n r (.inl h); exact ⟨c, by simp [Body.caps, hc], hr⟩
    · obtain ⟨c, hc, hr⟩ := key k n r (.inr h); exact ⟨c, by simp [Body.caps, hc], hr⟩
    · obtain ⟨c, rfl, hr⟩ := opt _ _ _ _ h; exact ⟨c, by simp [Body.caps], hr⟩
  | listItem op v =>
    simp only [rangesOf, List.mem_append] at h
    rcases h with h | h
    · exact ⟨op, by simp [Body.caps], one _ _ _ _ h⟩
    · obtain ⟨c, rfl, hr⟩ := opt _ _ _ _ h; exact ⟨c, by simp [Body.caps], hr⟩
  | entry k op v =>
    simp only [rangesOf, List.mem_append] at h
    rcases h with ((h | h) | h) | h
    · obtain ⟨c, hc, hr⟩ := key k n r (.inl h); exact ⟨c, by simp [Body.caps, hc], hr⟩
    · exact ⟨op, by simp [Body.caps], one _ _ _ _ h⟩
    · obtain ⟨c, hc, hr⟩ := key k n r (.inr h); exact ⟨c, by simp [Body.caps, hc], hr⟩
    · obtain ⟨c, rfl, hr⟩ := opt _ _ _ _ h; exact ⟨c, by simp [Body.caps], hr⟩
  | continuation sp op v =>
    cases sp <;>
    · simp only [rangesOf, List.mem_append] at h
      rcases h with h | h
      · exact ⟨op, by simp [Body.caps], one _ _ _ _ h⟩
      · obtain ⟨c, rfl, hr⟩ := opt _ _ _ _ h; exact ⟨c, by simp [Body.caps], hr⟩
  | heading op k c =>
    cases c with
    | none =>
      simp only [rangesOf, List.mem_append] at h
      rcases h with (h | h) | h
      · exact ⟨op, by simp [Body.caps], one _ _ _ _ h⟩
      · obtain ⟨c, hc, hr⟩ := key k n r (.inl h); exact ⟨c, by simp [Body.caps, hc], hr⟩
      · obtain ⟨c, hc, hr⟩ := key k n r (.inr h); exact ⟨c, by simp [Body.caps, hc], hr⟩
    | some ct =>
      obtain ⟨c, t⟩ := ct
      simp only [rangesOf, List.mem_append] at h
      rcases h with (((h | h) | h) | h) | h
      · exact ⟨op, by simp [Body.caps], one _ _ _ _ h⟩
      · obtain ⟨c, hc, hr⟩ := key k n r (.inl h); exact ⟨c, by simp [Body.caps, hc], hr⟩
      · obtain ⟨c, hc, hr⟩ := key k n r (.inr h); exact ⟨c, by simp [Body.caps, hc], hr⟩
      · exact ⟨t, by simp [Body.caps], one _ _ _ _ h⟩
      · exact ⟨c, by simp [Body.caps], one _ _ _ _ h⟩
  | multiline op k =>
    simp only [rangesOf, List.mem_append] at h
    rcases h with h | h
    · exact ⟨op, by simp [Body.caps], one _ _ _ _ h⟩
    · exact ⟨k, by simp [Body.caps], one _ _ _ _ h⟩
  | comment op v =>
    simp only [rangesOf, List.mem_append] at h
    rcases h with h | h
    · exact ⟨op, by simp [Body.caps], one _ _ _ _ h⟩
    · obtain ⟨c, rfl, hr⟩ := opt _ _ _ _ h; exact ⟨c, by simp [Body.caps], hr⟩
  | copy k op t =>
    simp only [rangesOf, List.mem_append] at h
    rcases h with ((h | h) | h) | h
    · exact ⟨op, by simp [Body.caps], one _ _ _ _ h⟩
    · exact ⟨t, by simp [Body.caps], one _ _ _ _ h⟩
    · obtain ⟨c, hc, hr⟩ := key k n r (.inl h); exact ⟨c, by simp [Body.caps, hc], hr⟩
    · obtain ⟨c, hc, hr⟩ := key k n r (.inr h); exact ⟨c, by simp [Body.caps, hc], hr⟩

theorem keyText_caps (n b fin : Nat) (body : Body) : ∀ x, keyText body = some x →
    ∃ c ∈ body.caps, c.text = x ∧ (pieceOf n b ⟨fin, body⟩).toBase.range? .key = some (c.b, c.e) := by
  intro x h
  cases body with
  | element k op v =>
    simp [keyText] at h; subst h
    cases k with
    | plain k => exact ⟨k, by simp [Body.caps, KeyTok.caps], rfl, rfl⟩
    | escaped a k e => exact ⟨k, by simp [Body.caps, KeyTok.caps], rfl, rfl⟩
  | entry k op v =>
    simp [keyText] at h; subst h
    cases k with
    | plain k => exact ⟨k, by simp [Body.caps, KeyTok.caps], rfl, rfl⟩
    | escaped a k e => exact ⟨k, by simp [Body.caps, KeyTok.caps], rfl, rfl⟩
  | copy k op v =>
    simp [keyText] at h; subst h
    cases k with
    | plain k => exact ⟨k, by simp [Body.caps, KeyTok.caps], rfl, rfl⟩
    | escaped a k e => exact ⟨k, by simp [Body.caps, KeyTok.caps], rfl, rfl⟩
  | heading op k c =>
    simp [keyText] at h; subst h
    cases c <;> cases k with
    | plain k => exact ⟨k, by simp [Body.caps, KeyTok.caps], rfl, rfl⟩
    | escaped a k e => exact ⟨k, by simp [Body.caps, KeyTok.caps], rfl, rfl⟩
  | multiline op k => simp [keyText] at h; subst h; exact ⟨k, by simp [Body.caps], rfl, rfl⟩
  | empty => simp [keyText] at h
  | listItem => simp [keyText] at h
  | continuation => simp [keyText] at h
  | comment => simp [keyText] at h

/-- The name of the range that holds the value. -/
def Spec.valueName : Body → RangeName
  | .comment .. => .comment
  | _ => .value

theorem valueText_caps (n b fin : Nat) (body : Body) : ∀ x, valueText body = some x →
    ∃ c ∈ body.caps, c.text = x ∧ (pieceOf n b ⟨fin, body⟩).toBase.range? (valueName body) = some (c.b, c.e) := by
  intro x h
  cases body with
  | element k op v =>
    simp [valueText] at h; obtain ⟨c, rfl, rfl⟩ := h
    cases k <;> exact ⟨c, by simp [Body.caps], rfl, rfl⟩
  | entry k op v =>
    simp [valueText] at h; obtain ⟨c, rfl, rfl⟩ := h
    cases k <;> exact ⟨c, by simp [Body.caps], rfl, rfl⟩
  | listItem op v => simp [valueText] at h; obtain ⟨c, rfl, rfl⟩ := h; exact ⟨c, by simp [Body.caps], rfl, rfl⟩
  | continuation sp op v =>
    simp [valueText] at h; obtain ⟨c, rfl, rfl⟩ := h
    cases sp <;> exact ⟨c, by simp [Body.caps], rfl, rfl⟩
  | comment op v => simp [valueText] at h; obtain ⟨c, rfl, rfl⟩ := h; exact ⟨c, by simp [Body.caps], rfl, rfl⟩
  | empty => simp [valueText] at h
  | heading => simp [valueText] at h
  | multiline => simp [valueText] at h
  | copy => simp [valueText] at h

theorem templateText_caps (n b fin : Nat) (body : Body) : ∀ x, templateText body = some x →
    ∃ c ∈ body.caps, c.text = x ∧ (pieceOf n b ⟨fin, body⟩).toBase.range? .template = some (c.b, c.e) := by
  intro x h
  cases body with
  | heading op k c =>
    simp [templateText] at h; obtain ⟨a, ha⟩ := h
    obtain ⟨b', rfl, rfl⟩ := ha
    cases k <;> exact ⟨b', by simp [Body.caps], rfl, rfl⟩
  | copy k op t =>
    simp [templateText] at h; subst h
    cases k <;> exact ⟨t, by simp [Body.caps], rfl, rfl⟩
  | empty => simp [templateText] at h
  | element => simp [templateText] at h
  | entry => simp [templateText] at h
  | listItem => simp [templateText] at h
  | continuation => simp [templateText] at h
  | multiline => simp [templateText] at h
  | comment => simp [templateText] at h

theorem ranges_ok {n b : Nat} {t : Tok} (h : TokOk input b t) : RangesOk input (pieceOf n b t).toBase := by
  refine ⟨rfl, placed_le h.placed, h.fin_le, ?_⟩
  intro m r hm
  simp only [pieceOf, List.mem_cons] at hm
  rcases hm with hm | hm
  · simp at hm; obtain ⟨_, rfl⟩ := hm
    have := placed_le h.placed
    exact ⟨Nat.le_refl _, this, Nat.le_refl _⟩
  · obtain ⟨c, hc, rfl⟩ := rangesOf_caps _ _ _ hm
    obtain ⟨h1, h2, h3⟩ := placed_mem h.placed c hc
    have := cap_lt h2
    exact ⟨h1, Nat.le_of_lt this, h3⟩

/-- Everything recorded about a line is faithful. -/
structure PieceOk (input : Str) (p : Piece) : Prop where
  ranges : RangesOk input p.toBase
  key : TextAt input p.toBase .key p.key
  value : TextAt input p.toBase .value p.value
  template : TextAt input p.toBase .template p.template

theorem textAt_of {n b : Nat} {t : Tok} (h : TokOk input b t) {m : RangeName} {x : Option Str}
    (hx : ∀ y, x = some y → ∃ c ∈ t.body.caps, c.text = y ∧ (pieceOf n b t).toBase.range? m = some (c.b, c.e)) :
    TextAt input (pieceOf n b t).toBase m x := by
  intro y hy
  obtain ⟨c, hc, rfl, hr⟩ := hx y hy
  exact ⟨_, hr, slice_cap (placed_mem h.placed c hc).2.1⟩

/-- What is true of each event of an input. -/
def Spec.EventIn (input : Str) : Event → Prop
  | .line _ b t => b < input.length ∧ scan b (input.drop b) = some t ∧ oneLine t
  | .multi n b fin op key body T => b < input.length ∧ scan b (input.drop b) = some ⟨fin, .multiline op key⟩ ∧
      findTerminator op.text key.text fin (input.drop fin) = some T ∧ body = mlBody input n fin T.start

theorem trace_events {i n : Nat} {es : List Event} {r : Ending} (h : Trace input i n es r) : ∀ ev ∈ es, EventIn input ev := by
  induction h with
  | done => simp
  | bad => simp
  | unterminated => simp
  | line hi hs ho _ ih =>
    intro ev hev; simp at hev
    rcases hev with rfl | hev
    · exact ⟨hi, hs, ho⟩
    · exact ih _ hev
  | multi hi hs ht _ ih =>
    intro ev hev; simp at hev
    rcases hev with rfl | hev
    · exact ⟨hi, hs, ht, rfl⟩
    · exact ih _ hev

theorem pieceOf_ok {n b : Nat} {t : Tok} (h : TokOk input b t) (hc : valueName t.body = .value) : PieceOk input (pieceOf n b t) := by
  refine ⟨ranges_ok h, textAt_of h (keyText_caps n b t.fin t.body), ?_, textAt_of h (templateText_caps n b t.fin t.body)⟩
  have := textAt_of h (valueText_caps n b t.fin t.body)
  rw [hc] at this; exact this

theorem pieces_ok {ev : Event} (h : EventIn input ev) (hc : ev.role ≠ .comment) : ∀ p ∈ ev.pieces, PieceOk input p := by
  cases ev with
  | line n b t =>
    intro p hp
    unfold Event.pieces at hp
    simp only at hp
    split at hp
    · simp at hp
    · simp at hp; subst hp
      refine pieceOf_ok (scan_ok (Nat.le_of_lt h.1) h.2.1) ?_
      cases hb : t.body <;> simp [valueName]
      simp [Event.role, hb, roleOf] at hc
  | multi n b fin op key body T =>
    obtain ⟨h1, h2, h3, rfl⟩ := h
    have geo := multi_geo h1 h2 h3
    have g1 := geo.start
    have g2 := geo.opStart
    have g3 := geo.keyStart
    have g4 := geo.keyEnd
    have g5 := geo.fin_le
    intro p hp
    simp only [Event.pieces, List.mem_cons, List.mem_append, List.mem_map, List.cons_append, List.not_mem_nil, or_false] at hp
    rcases hp with rfl | ⟨q, hq, rfl⟩ | rfl
    · exact pieceOf_ok geo.tok rfl
    · have := mlBody_bounds g1 (by omega) hq
      refine ⟨⟨rfl, ?_, ?_, ?_⟩, ?_, ?_, ?_⟩
      · show q.2.1 ≤ q.2.2; omega
      · show q.2.2 ≤ _; omega
      · intro m r hm
        simp at hm
        show q.2.1 ≤ r.1 ∧ r.1 ≤ r.2 ∧ r.2 ≤ q.2.2
        rcases hm with ⟨_, rfl⟩ | ⟨_, rfl⟩ <;> omega
      · intro x hx; simp at hx
      · intro x hx; simp at hx
      · intro x hx; simp at hx
    · refine ⟨⟨rfl, ?_, ?_, ?_⟩, ?_, ?_, ?_⟩
      · show T.start + 1 ≤ T.fin; omega
      · exact g5
      · intro m r hm
        simp at hm
        show T.start + 1 ≤ r.1 ∧ r.1 ≤ r.2 ∧ r.2 ≤ T.fin
        rcases hm with ⟨_, rfl⟩ | ⟨_, rfl⟩ | ⟨_, rfl⟩ <;> simp only <;> omega
      · intro x hx; simp at hx
      · intro x hx; simp at hx
      · intro x hx; simp at hx

theorem comments_ok {ev : Event} (h : EventIn input ev) : ∀ c ∈ ev.comments,
    RangesOk input c.toBase ∧ TextAt input c.toBase .comment c.comment := by
  intro c hc
  match ev, h, hc with
  | .line n b ⟨fin, .comment op v⟩, h, hc =>
    simp only [Event.comments, List.mem_singleton] at hc
    subst hc
    have tok := scan_ok (Nat.le_of_lt h.1) h.2.1
    exact ⟨ranges_ok tok, textAt_of tok (valueText_caps n b fin (.comment op v))⟩

end Eno
