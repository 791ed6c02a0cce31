import Verif.Proofs.Attach
import Verif.Spec.Reading

/-! # The value of a multiline field -/

namespace Eno

open Spec

theorem place_ends (w : Str) : ∀ (n i : Nat), ∃ p rest q front, place n i (splitNl w) = p :: rest ∧ p.2.1 = i ∧ place n i (splitNl w) = front ++ [q] ∧ q.2.2 = i + w.length := by
  induction w with
  | nil => intro n i; exact ⟨(n, i, i), [], (n, i, i), [], rfl, rfl, rfl, rfl⟩
  | cons c t ih =>
    intro n i
    unfold splitNl
    split
    · obtain ⟨p, rest, q, front, _, _, h3, h4⟩ := ih (n + 1) (i + 1)
      refine ⟨(n, i, i), place (n + 1) (i + 1) (splitNl t), q, (n, i, i) :: front, by simp [place], rfl, by simp [place, h3], by simp [h4]; omega⟩
    · obtain ⟨p, rest, q, front, h1, h2, h3, h4⟩ := ih n (i + 1)
      cases hs : splitNl t with
      | nil => rw [hs] at h1; simp [place] at h1
      | cons l ls =>
        rw [hs] at h1 h3
        simp only [place] at h1 h3 ⊢
        refine ⟨_, _, if ls = [] then (n, i, i + (c :: l).length) else q, if ls = [] then [] else (n, i, i + (c :: l).length) :: front.tail, rfl, rfl, ?_, ?_⟩
        · cases front with
          | nil =>
            simp at h3
            have : ls = [] := by
              cases ls with
              | nil => rfl
              | cons a b => simp [place] at h3
            simp [this, place]
          | cons f front =>
            simp at h3
            have hne : ls ≠ [] := by rintro rfl; simp [place] at h3
            rw [if_neg hne, if_neg hne]
            simp only [List.tail_cons, List.cons_append, List.cons.injEq, true_and, List.length_cons]
            have : i + (l.length + 1) + 1 = i + 1 + l.length + 1 := by omega
            rw [this]; exact h3.2
        · split
          · rename_i e
            subst e
            have : front = [] := by
              cases front with
              | nil => rfl
              | cons f fr => simp [place] at h3
            subst this
            simp [place] at h3
            rw [← h3] at h4
            simp at h4 ⊢; omega
          · simp [h4]; omega

/-- The value of a multiline field is the text between the line feeds that end its opening line and precede its terminator. -/
theorem multiline_value {input : Str} {e : Elem} {n b fin : Nat} {op key : Cap} {T : Term} (ok : ElemOk e) (hty : e.type = .mlBegin)
    (hle : fin ≤ T.start) (hin : T.start ≤ input.length) (hd : e.head = (Event.multi n b fin op key (mlBody input n fin T.start) T).pieces) :
    ownValue input e = if T.start = fin then none else some (slice input (fin + 1) T.start) := by
  have hc : e.continuations = none := by
    cases q : e.continuations with
    | none => rfl
    | some cs => have := (ok.conts cs q).1; rw [hty] at this; simp at this
  let f : Spot → Piece := fun p => { line := p.1, ranges := [(.line, p.2), (.value, p.2)] }
  let last : Piece := { line := n + (mlBody input n fin T.start).length + 1
                        ranges := [(.key, (T.key, T.key + key.text.length)), (.line, (T.start + 1, T.fin)),
                          (.multilineFieldOperator, (T.op, T.op + op.text.length))] }
  have hd' : (e.lines.getD []).map Base.piece ++ e.fin.toList.map Base.piece = (mlBody input n fin T.start).map f ++ [last] := by
    have : e.head = e.piece :: ((e.lines.getD []).map Base.piece ++ e.fin.toList.map Base.piece) := by
      simp [Elem.head, hc]
    rw [this] at hd
    simp only [Event.pieces, List.cons_append, List.cons.injEq] at hd
    exact hd.2
  have hlines : (e.lines.getD []).map Base.piece = (mlBody input n fin T.start).map f := by
    cases hf : e.fin with
    | some x =>
      rw [hf] at hd'
      exact (List.append_inj' hd' (by simp)).1
    | none =>
      exfalso
      rw [hf] at hd'
      simp only [Option.toList_none, List.map_nil, List.append_nil] at hd'
      cases hl : e.lines with
      | none => rw [hl] at hd'; simp at hd'
      | some ls =>
        rw [hl] at hd'
        have hm : last ∈ ls.map Base.piece := by
          have : last ∈ (mlBody input n fin T.start).map f ++ [last] := by simp
          rw [← hd'] at this; exact this
        simp only [List.mem_map] at hm
        obtain ⟨x, hx, e1⟩ := hm
        have h2 := (ok.lines ls hl).2.2 x hx
        have h3 : x.ranges = last.ranges := by rw [← e1]; rfl
        rw [h3] at h2
        simp [last] at h2
  have span : ∀ (x : Base) (p : Spot), Base.piece x = f p → x.span = p.2 := by
    intro x p h
    have h3 : x.ranges = (f p).ranges := by rw [← h]; rfl
    simp [Base.span, Base.range?, h3, f]
  unfold ownValue
  rw [if_pos hty]
  by_cases hs : T.start = fin
  · rw [if_pos hs]
    cases hl : e.lines with
    | none => rfl
    | some ls =>
      rw [hl] at hlines
      simp [mlBody, hs] at hlines
      exact absurd hlines (ok.lines ls hl).2.1
  · rw [if_neg hs]
    have hb : mlBody input n fin T.start = place (n + 1) (fin + 1) (splitNl ((input.take T.start).drop (fin + 1))) := by
      unfold mlBody; rw [if_neg hs]
    obtain ⟨p, rest, q, front, h1, h2, h3, h4⟩ := place_ends ((input.take T.start).drop (fin + 1)) (n + 1) (fin + 1)
    rw [hb] at hlines
    have hq : q.2.2 = T.start := by
      rw [h4, List.length_drop, List.length_take]; omega
    cases hl : e.lines with
    | none => rw [hl, h1] at hlines; simp at hlines
    | some ls =>
      rw [hl] at hlines
      simp only [Option.getD_some] at hlines
      have hhead : ∃ a l, ls = a :: l ∧ Base.piece a = f p := by
        rw [h1] at hlines
        cases ls with
        | nil => simp at hlines
        | cons a l => simp only [List.map_cons, List.cons.injEq] at hlines; exact ⟨a, l, rfl, hlines.1⟩
      have hlast : ∃ l z, ls = l ++ [z] ∧ Base.piece z = f q := by
        rw [h3, List.map_append] at hlines
        obtain ⟨l1, l2, e1, e2, e3⟩ := List.map_eq_append_iff.1 hlines
        simp only [List.map_cons, List.map_nil] at e3
        obtain ⟨z, e4, e5⟩ : ∃ z, l2 = [z] ∧ Base.piece z = f q := by
          cases l2 with
          | nil => simp at e3
          | cons z l3 =>
            simp only [List.map_cons, List.cons.injEq, List.map_eq_nil_iff] at e3
            exact ⟨z, by rw [e3.2], e3.1⟩
        exact ⟨l1, z, by rw [e1, e4], e5⟩
      obtain ⟨a, l, ea, pa⟩ := hhead
      obtain ⟨l', z, ez, pz⟩ := hlast
      have e1 : ls.head? = some a := by rw [ea]; rfl
      have e2 : ls.getLast? = some z := by rw [ez]; simp
      simp only [Option.bind_some, e1, e2, Option.map_some, span a p pa, span z q pz, h2, hq]
      rfl

end Eno
