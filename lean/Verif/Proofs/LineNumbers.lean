import Verif.Proofs.TraceGeometry
import Verif.Spec.Lines

/-! # Line numbers -/

namespace Eno

open Spec

variable {input : Str}

theorem nlBefore_succ_nl {k : Nat} (h : input[k]? = some '\n') : nlBefore input (k + 1) = nlBefore input k + 1 := by
  unfold nlBefore countNl
  rw [List.take_add_one, h]
  simp

theorem nlBefore_succ_other {k : Nat} (h : input[k]? ≠ some '\n') : nlBefore input (k + 1) = nlBefore input k := by
  unfold nlBefore countNl
  rw [List.take_add_one]
  cases hk : input[k]? with
  | none => simp
  | some c =>
    have : c ≠ '\n' := by intro e; subst e; exact h hk
    simp [this]

theorem nlBefore_mid {b e k : Nat} (h : NoNl input b e) (h1 : b ≤ k) (h2 : k ≤ e) : nlBefore input k = nlBefore input b := by
  obtain ⟨d, rfl⟩ : ∃ d, k = b + d := ⟨k - b, by omega⟩
  induction d with
  | zero => rfl
  | succ d ih =>
    rw [← Nat.add_assoc, nlBefore_succ_other (h _ (by omega) (by omega))]
    exact ih (by omega) (by omega)

theorem nlBefore_add (b d : Nat) : nlBefore input (b + d) = nlBefore input b + countNl ((input.drop b).take d) := by
  unfold nlBefore countNl
  rw [List.take_add, List.count_append]

theorem place_true (w : Str) : ∀ (n i : Nat) (p : Spot), p ∈ place n i (splitNl w) →
    i ≤ p.2.1 ∧ p.1 = n + countNl (w.take (p.2.1 - i)) := by
  induction w with
  | nil => intro n i p h; simp [splitNl, place] at h; subst h; simp [countNl]
  | cons c t ih =>
    intro n i p h
    by_cases hc : c = '\n'
    · rw [splitNl, if_pos hc] at h
      simp [place] at h
      rcases h with rfl | h
      · simp [countNl]
      · obtain ⟨h1, h2⟩ := ih _ _ _ h
        refine ⟨by omega, ?_⟩
        have : p.2.1 - i = (p.2.1 - (i + 1)) + 1 := by omega
        rw [this, h2, hc]
        simp [countNl]; omega
    · rw [splitNl, if_neg hc] at h
      cases hs : splitNl t with
      | nil => exact absurd hs (splitNl_ne_nil t)
      | cons l ls =>
        rw [hs] at h
        simp only [place, List.mem_cons] at h
        rcases h with rfl | h
        · simp [countNl]
        · have e : i + (c :: l).length + 1 = i + 1 + l.length + 1 := by simp; omega
          rw [e] at h
          have hb := place_bounds _ _ _ _ h
          obtain ⟨h1, h2⟩ := ih n (i + 1) p (by rw [hs]; simp only [place, List.mem_cons]; right; exact h)
          refine ⟨by omega, ?_⟩
          have : p.2.1 - i = (p.2.1 - (i + 1)) + 1 := by omega
          rw [this, h2]
          simp [countNl, hc]

theorem splitNl_length (w : Str) : (splitNl w).length = countNl w + 1 := by
  induction w with
  | nil => rfl
  | cons c t ih =>
    unfold splitNl
    split
    · rename_i h; simp [ih, h, countNl]
    · rename_i hc
      split
      · rename_i h; exact absurd h (splitNl_ne_nil t)
      · rename_i l ls h; rw [h] at ih; simp [countNl, hc] at ih ⊢; omega

/-- A line number that the reader has at some offset: one past the end counts as another line. -/
def Spec.lineAt (input : Str) (i : Nat) : Nat := if i ≤ input.length then nlBefore input i else countNl input + 1

theorem lineAt_next {k : Nat} (h : atEol (input.drop k) = true) (hk : k ≤ input.length) : lineAt input (k + 1) = nlBefore input k + 1 := by
  unfold lineAt
  by_cases h1 : k < input.length
  · rw [if_pos (by omega), nlBefore_succ_nl (atEol_get h h1)]
  · have : k = input.length := by omega
    rw [if_neg (by omega), this]; simp [nlBefore]

theorem mlBody_length {n fin stop : Nat} (h : fin ≤ stop) (hnl : input[fin]? = some '\n') :
    (mlBody input n fin stop).length + nlBefore input fin = nlBefore input stop := by
  unfold mlBody
  split
  · rename_i e; subst e; simp
  · rw [place_length, splitNl_length, List.drop_take]
    have := nlBefore_add (input := input) (fin + 1) (stop - (fin + 1))
    rw [show fin + 1 + (stop - (fin + 1)) = stop by omega, nlBefore_succ_nl hnl] at this
    omega

/-- If no instruction contains a line feed, every line number is the true one. -/
theorem trace_lines {i n : Nat} {es : List Event} {r : Ending} (h : Trace input i n es r)
    (hn : n = lineAt input i) (hi : i ≤ input.length + 1)
    (clean : ∀ x ∈ es.flatMap Event.spots, NoNl input x.2.1 x.2.2) :
    (∀ x ∈ es.flatMap Event.spots, x.1 = nlBefore input x.2.1) ∧
      ∀ m, r = .finished m → (m = countNl input ∧ nlBefore input input.length = m ∧ (i = input.length ∨ input.getLast? = some '\n')) ∨
        (m = countNl input + 1 ∧ (i = input.length + 1 ∨ input.getLast? ≠ some '\n')) := by
  induction h with
  | @done i n hi' =>
    refine ⟨by simp, ?_⟩
    intro m hm
    simp at hm; subst hm
    subst hn
    unfold lineAt
    by_cases h : i ≤ input.length
    · have : i = input.length := by omega
      left; simp [this, nlBefore]
    · right; simp [h]; left; omega
  | bad => simp
  | unterminated => simp
  | @line i n t es r hi' hs ho _ ih =>
    have tok := scan_ok (by omega) hs
    have hle := placed_le tok.placed
    have hfl := tok.fin_le
    rw [List.flatMap_cons, spots_line] at clean ⊢
    have hclean : NoNl input i t.fin := by
      by_cases he : t.body = .empty
      · intro k h1 h2 h3
        obtain ⟨c, h4, h5⟩ := scan_empty_hs hs he k h1 h2
        rw [h3] at h4; simp at h4; subst h4; exact absurd h5 (by decide)
      · rw [if_neg he] at clean
        exact clean (n, i, t.fin) (by simp)
    have hni : n = nlBefore input i := by rw [hn]; unfold lineAt; rw [if_pos (by omega)]
    have hnf : nlBefore input t.fin = n := by rw [hni]; exact nlBefore_mid hclean hle (Nat.le_refl _)
    have := ih (by rw [lineAt_next tok.eol hfl, hnf]) (by omega) (fun x hx => clean x (List.mem_append_right _ hx))
    refine ⟨?_, ?_⟩
    · intro x hx
      simp only [List.mem_append] at hx
      rcases hx with hx | hx
      · split at hx
        · simp at hx
        · simp at hx; subst hx; exact hni
      · exact this.1 x hx
    · intro m hm
      have hlast : ∀ c, input.getLast? = some c ↔ input[input.length - 1]? = some c := by
        intro c; rw [List.getLast?_eq_getElem?]
      rcases this.2 m hm with ⟨h1, h2, h3⟩ | ⟨h1, h2⟩
      · left
        refine ⟨h1, h2, .inr ?_⟩
        rcases h3 with h3 | h3
        · rw [hlast, show input.length - 1 = t.fin by omega]
          exact atEol_get tok.eol (by omega)
        · exact h3
      · right
        refine ⟨h1, .inr ?_⟩
        rcases h2 with h2 | h2
        · rw [Ne, hlast]
          exact hclean (input.length - 1) (by omega) (by omega)
        · exact h2
  | @multi i n fin op key T es r hi' hs ht _ ih =>
    have geo := multi_geo hi' hs ht
    have hle := placed_le geo.tok.placed
    simp only at hle
    have g1 := geo.start
    have g2 := geo.opStart
    have g3 := geo.keyStart
    have g4 := geo.keyEnd
    have g5 := geo.fin_le
    rw [List.flatMap_cons, spots_multi] at clean ⊢
    have hop : 0 < op.text.length := List.length_pos_iff.2 (placed_mem geo.tok.placed op (by simp [Body.caps])).2.1.2.2
    have hc1 : NoNl input i fin := clean (n, i, fin) (by simp)
    have hc2 : NoNl input (T.start + 1) T.fin := clean (n + (mlBody input n fin T.start).length + 1, T.start + 1, T.fin) (by simp)
    have hni : n = nlBefore input i := by rw [hn]; unfold lineAt; rw [if_pos (by omega)]
    have hnf : nlBefore input fin = n := by rw [hni]; exact nlBefore_mid hc1 hle (Nat.le_refl _)
    have hfnl : input[fin]? = some '\n' := atEol_get geo.tok.eol (by show fin < _; omega)
    have hbl := mlBody_length (n := n) g1 hfnl
    have hT1 : nlBefore input (T.start + 1) = n + (mlBody input n fin T.start).length + 1 := by
      rw [nlBefore_succ_nl geo.nl]; omega
    have hTf : nlBefore input T.fin = n + (mlBody input n fin T.start).length + 1 := by
      rw [← hT1]; exact nlBefore_mid hc2 (by omega) (Nat.le_refl _)
    have := ih (by rw [lineAt_next geo.eol g5, hTf]) (by omega) (fun x hx => clean x (List.mem_append_right _ hx))
    refine ⟨?_, ?_⟩
    · intro x hx
      rw [List.cons_append, List.cons_append] at hx
      simp only [List.mem_append, List.mem_cons, List.not_mem_nil, or_false] at hx
      rcases hx with rfl | (hx | rfl) | hx
      · exact hni
      · unfold mlBody at hx
        split at hx
        · simp at hx
        · obtain ⟨h1, h2⟩ := place_true _ _ _ _ hx
          have hb := place_bounds _ _ _ _ hx
          rw [splitNl_sum] at hb
          have hl := slice_length (s := input) (b := fin + 1) (e := T.start) (by omega)
          unfold slice at hl
          rw [hl] at hb
          have ha := nlBefore_add (input := input) (fin + 1) (x.2.1 - (fin + 1))
          rw [show fin + 1 + (x.2.1 - (fin + 1)) = x.2.1 by omega, nlBefore_succ_nl hfnl, hnf] at ha
          rw [h2, ha, List.drop_take, List.take_take, Nat.min_eq_left (by omega)]
      · exact hT1.symm
      · exact this.1 x hx
    · intro m hm
      have hlast : ∀ c, input.getLast? = some c ↔ input[input.length - 1]? = some c := by
        intro c; rw [List.getLast?_eq_getElem?]
      rcases this.2 m hm with ⟨h1, h2, h3⟩ | ⟨h1, h2⟩
      · left
        refine ⟨h1, h2, .inr ?_⟩
        rcases h3 with h3 | h3
        · rw [hlast, show input.length - 1 = T.fin by omega]
          exact atEol_get geo.eol (by omega)
        · exact h3
      · right
        refine ⟨h1, .inr ?_⟩
        rcases h2 with h2 | h2
        · rw [Ne, hlast]
          exact hc2 (input.length - 1) (by omega) (by omega)
        · exact h2

/-- The line count is right as well. -/
theorem trace_lineCount {n : Nat} {es : List Event} (h : Trace input 0 0 es (.finished n))
    (clean : ∀ x ∈ es.flatMap Event.spots, NoNl input x.2.1 x.2.2) : lineCountOf input n = countNl input + 1 := by
  have := (trace_lines h (by simp [lineAt, nlBefore, countNl]) (by omega) clean).2 n rfl
  unfold lineCountOf
  by_cases he : input = []
  · subst he; rfl
  · have hpos : 0 < input.length := List.length_pos_iff.2 he
    rw [if_neg he]
    rcases this with ⟨h1, _, h3⟩ | ⟨h1, h3⟩
    · rcases h3 with h3 | h3
      · omega
      · rw [if_pos h3, h1]
    · rcases h3 with h3 | h3
      · omega
      · rw [if_neg h3, h1]

end Eno
