import Verif.Proofs.AlikeRun

/-! # Every text says one thing -/

namespace Eno

open Spec

variable {i s rest : Str}

/-! ## Only lines with `>` are comments -/

theorem readAfterKey_comment {k s : Str} {x : Option Str} : readAfterKey k s ≠ some (.comment x, rest) := by
  unfold readAfterKey
  split
  · simp
  · simp
  · rename_i t _
    cases Spec.valueOf (t.dropWhile isSp) <;> simp
  · simp

theorem readAfterHeading_comment {d : Nat} {k s : Str} {x : Option Str} : readAfterHeading d k s ≠ some (.comment x, rest) := by
  unfold readAfterHeading
  split
  · simp
  · simp
  all_goals first | simp | (split <;> simp)

theorem readEscaped_comment {after : Str → Str → Option (Line × Str)} {x : Option Str} (h : ∀ k u r, after k u ≠ some (.comment x, r)) :
    readEscaped after s ≠ some (.comment x, rest) := by
  intro q
  unfold readEscaped at q
  simp only at q
  obtain ⟨n, _, hn⟩ := List.exists_of_findSome?_eq_some q
  split at hn
  · exact h _ _ _ hn
  · cases hn

theorem readLine_comment {x : Option Str} (h : readLine s = some (.comment x, rest)) : ∃ t, s.dropWhile isHs = '>' :: t := by
  unfold readLine at h
  split at h
  · cases h
  · rename_i c t hs
    split at h
    · simp at h
    split at h
    · simp at h
    split at h
    · simp at h
    split at h
    · rename_i hc; exact ⟨t, by rw [hs, hc]⟩
    split at h
    · unfold readDash at h
      simp only at h
      split at h
      · simp at h
      · rename_i hd _
        cases hv : Spec.valueOf (List.dropWhile (fun x => x == '-') (c :: t)) <;> rw [hv] at h <;> simp at h
    split at h
    · unfold readHeading at h
      simp only at h
      split at h
      · cases h
      · cases h
      · exact absurd h (readEscaped_comment fun _ _ _ => readAfterHeading_comment)
      · exact absurd h readAfterHeading_comment
    split at h
    · exact absurd h (readEscaped_comment fun _ _ _ => readAfterKey_comment)
    split at h
    · cases h
    · exact absurd h readAfterKey_comment

theorem scan_column {b : Nat} {t : Tok} {op : Cap} {v : Option Cap} (h : scan b s = some t) (hb : t.body = .comment op v) : v.map (fun c => (c.b - b, c.text)) = (v.map (·.text)).map fun x => (column s, x) := by
  have V := (scan_view b s).1
  rw [h] at V
  simp only [Option.map_some, view, hb, Line.ofBody] at V
  obtain ⟨u, hu⟩ := readLine_comment V.symm
  unfold scan runLen at h
  simp only [drop_takeWhile, hu] at h
  simp at h
  rw [← h] at hb
  simp only [Body.comment.injEq] at hb
  rw [← hb.2]
  unfold valueAt runLen column
  simp only [hu, List.drop_succ_cons, List.drop_zero]
  split
  · rfl
  · simp; omega

/-! ## What the instructions say -/

/-- How reading ends, without offsets. -/
def Spec.Ending.stop : Ending → Stop
  | .finished _ => .finished
  | .invalid .. => .invalid
  | .unterminated _ _ _ _ key => .unterminated key.text

theorem eq_rep {c : Char} : ∀ {w : Str}, (∀ x ∈ w, x = c) → w = rep w.length c
  | [], _ => rfl
  | x :: w, h => by
    have := eq_rep (w := w) fun y hy => h y (by simp [hy])
    rw [h x (by simp)]
    unfold rep at this ⊢
    rw [List.length_cons, List.replicate_succ, ← this]

theorem multiline_dashes {b fin : Nat} {op key : Cap} (h : scan b s = some ⟨fin, .multiline op key⟩) : op.text = rep op.text.length '-' := eq_rep (scan_shape h).2.1

theorem drop_fin_of {b n : Nat} (h : b ≤ n) : (i.drop b).drop (n - b) = i.drop n := by rw [List.drop_drop]; congr 1; omega

theorem trace_says {b n : Nat} {es : List Event} {r : Ending} (h : Trace i b n es r) : Says (i.drop b) (es.map (Event.said i)) r.stop := by
  have ne : ∀ {b : Nat}, b < i.length → i.drop b ≠ [] := by
    intro b hb h
    have := congrArg List.length h
    simp at this; omega
  have rd : ∀ {b : Nat} {t : Tok}, scan b (i.drop b) = some t → readLine (i.drop b) = some (Line.ofBody t.body, i.drop t.fin) ∧ b ≤ t.fin := by
    intro b t hs
    obtain ⟨V, W⟩ := scan_view b (i.drop b)
    rw [hs] at V
    have W := W t hs
    simp only [Option.map_some, view, drop_fin_of W] at V
    exact ⟨V.symm, W⟩
  induction h with
  | done hi => rw [List.drop_of_length_le hi]; exact .done
  | @bad b n hi hs =>
    refine .bad (ne hi) ?_
    have V := (scan_view b (i.drop b)).1
    rw [hs] at V
    exact V.symm
  | @line b n t es r hi hs ho _ ih =>
    obtain ⟨h1, h2⟩ := rd hs
    rw [List.map_cons]
    have e : Event.said i (.line n b t) = saidOf (i.drop b) (Line.ofBody t.body) := by
      unfold Event.said saidOf
      cases hb : t.body with
      | comment op v => simp only [hb, Line.ofBody, scan_column hs hb]
      | _ => simp only [hb]; rfl
    rw [e]
    refine .line (ne hi) h1 ?_ (by rw [List.drop_drop]; exact ih)
    intro d k hd
    cases hb : t.body <;> rw [hb] at hd <;> simp [Line.ofBody] at hd
    exact ho _ _ hb
  | @multi b n fin op key T es r hi hs ht _ ih =>
    obtain ⟨h1, h2⟩ := rd hs
    simp only [Line.ofBody] at h1 h2
    obtain ⟨g1, _, g2, _⟩ := multiline_shape hs
    obtain ⟨a, w, e1, e2, e3, e4, e5⟩ := findTerminator_first _ _ _ ht
    obtain ⟨after, hw, hn, hr⟩ := lineOf_split w
    have hd := multiline_dashes hs
    rw [List.map_cons]
    have e : Event.said i (.multi n b fin op key (mlBody i n fin T.start) T) = .multi key.text (if a = [] then none else some (a.drop 1)) := by
      unfold Event.said
      have h3 : T.start = fin ↔ a = [] := by rw [e2]; cases a <;> simp <;> omega
      have hl := (scan_ok (by omega) hs).fin_le
      simp only at hl
      by_cases q : a = []
      · simp only [if_pos q, if_pos (h3.2 q)]
      · simp only [if_neg q, if_neg (fun x => q (h3.1 x))]
        congr 2
        have : (i.take T.start).drop fin = a := by
          rw [List.drop_take, e1, e2]
          have : fin + a.length - fin = a.length := by omega
          rw [this, List.take_left]
        rw [← this, List.drop_drop]
    rw [e]
    have hT : T.fin = fin + (a.length + (1 + (lineOf w).length)) := by omega
    refine .multi (ne hi) h1 (line := lineOf w) (after := after) ⟨by rw [← hw]; exact e1, hn, hr⟩ (by rw [← hd]; exact (terminatorLine_iff g1 g2 _).1 e4) ?_ ?_
    · intro body' line' after' L hlt hx
      rw [← hd] at hx
      have := e5 body' (line' ++ after') L.text hlt
      rw [lineOf_append_end L.noNl L.eol] at this
      have h := (terminatorLine_iff g1 g2 line').2 hx
      rw [this] at h; simp at h
    · have : after = i.drop T.fin := by
        rw [hT, ← List.drop_drop, e1]
        rw [← List.drop_drop, List.drop_left, ← List.drop_drop]
        simp only [List.drop_succ_cons, List.drop_zero]
        have q := congrArg (List.drop (lineOf w).length) hw
        rw [List.drop_left] at q
        exact q.symm
      rw [this, List.drop_drop]
      exact ih
  | @unterminated b n fin op key hi hs ht =>
    obtain ⟨h1, h2⟩ := rd hs
    simp only [Line.ofBody] at h1 h2
    obtain ⟨g1, _, g2, _⟩ := multiline_shape hs
    have hd := multiline_dashes hs
    refine .unterminated (ne hi) h1 ?_
    intro body line after L hx
    rw [← hd] at hx
    have := (findTerminator_none _ _).1 ht body (line ++ after) L.text
    rw [lineOf_append_end L.noNl L.eol] at this
    have h := (terminatorLine_iff g1 g2 line).2 hx
    rw [this] at h; simp at h

/-- Each text says something. -/
theorem says_exists (s : Str) : ∃ es r, Says s es r := by
  obtain ⟨es, r, h⟩ := trace_exists s
  exact ⟨_, _, trace_says h⟩

theorem lineIn_unique {s body line after body' line' after' : Str} (L : LineIn s body line after) (L' : LineIn s body' line' after') (h : body'.length = body.length) :
    body' = body ∧ line' = line ∧ after' = after := by
  have e := L.text.symm.trans L'.text
  obtain ⟨h1, h2⟩ := List.append_inj e h.symm
  injection h2 with _ h2
  have e1 := lineOf_append_end L.noNl L.eol
  have e2 := lineOf_append_end L'.noNl L'.eol
  rw [h2, e2] at e1
  subst e1
  exact ⟨h1.symm, rfl, (List.append_cancel_left h2).symm⟩

/-- Each text says one thing. -/
theorem says_unique {es es' : List Said} {r r' : Stop} (h : Says s es r) (h' : Says s es' r') : es' = es ∧ r' = r := by
  induction h generalizing es' r' with
  | done => cases h' <;> first | exact ⟨rfl, rfl⟩ | contradiction
  | bad hs hq =>
    cases h' with
    | done => contradiction
    | bad => exact ⟨rfl, rfl⟩
    | line _ h => rw [hq] at h; cases h
    | multi _ h => rw [hq] at h; cases h
    | unterminated _ h => rw [hq] at h; cases h
  | line hs hq hm _ ih =>
    cases h' with
    | done => contradiction
    | bad _ h => rw [hq] at h; cases h
    | line _ h _ h3 => rw [hq] at h; cases h; obtain ⟨rfl, rfl⟩ := ih h3; exact ⟨rfl, rfl⟩
    | multi _ h => rw [hq] at h; cases h; exact absurd rfl (hm _ _)
    | unterminated _ h => rw [hq] at h; cases h; exact absurd rfl (hm _ _)
  | multi hs hq L hT hF _ ih =>
    cases h' with
    | done => contradiction
    | bad _ h => rw [hq] at h; cases h
    | line _ h hm => rw [hq] at h; cases h; exact absurd rfl (hm _ _)
    | multi _ h L' hT' hF' h3 =>
      rw [hq] at h
      cases h
      have hl : ∀ {a b : Nat}, ¬ a < b → ¬ b < a → a = b := fun h1 h2 => by omega
      obtain ⟨rfl, rfl, rfl⟩ := lineIn_unique L L' (hl (fun q => hF _ _ _ L' q hT') (fun q => hF' _ _ _ L q hT))
      obtain ⟨rfl, rfl⟩ := ih h3
      exact ⟨rfl, rfl⟩
    | unterminated _ h hU => rw [hq] at h; cases h; exact absurd hT (hU _ _ _ L)
  | unterminated hs hq hU =>
    cases h' with
    | done => contradiction
    | bad _ h => rw [hq] at h; cases h
    | line _ h hm => rw [hq] at h; cases h; exact absurd rfl (hm _ _)
    | multi _ h L' hT' => rw [hq] at h; cases h; exact absurd hT' (hU _ _ _ L')
    | unterminated _ h => rw [hq] at h; cases h; exact ⟨rfl, rfl⟩

end Eno
