import Verif.Spec.Structure
import Verif.Proofs.AnalyzerSteps

/-! # The analyzer's result is the one specified in `Spec/Structure.lean` -/

namespace Eno

open Spec

variable {α β : Type} {p : α → Bool} {l : List α} {a : α}

/-! ## Groups -/

theorem splitBefore_snoc_pos (h : p a = true) : splitBefore p (l ++ [a]) = splitBefore p l ++ [[a]] := by
  simp [splitBefore, h]

theorem splitBefore_snoc_neg {gs : List (List α)} {g : List α} (h : p a = false) (hg : splitBefore p l = gs ++ [g]) :
    splitBefore p (l ++ [a]) = gs ++ [g ++ [a]] := by
  unfold splitBefore at hg ⊢
  rw [List.foldl_append, hg]
  simp [h]

theorem snoc_induction {P : List α → Prop} (h0 : P []) (h1 : ∀ l a, P l → P (l ++ [a])) (l : List α) : P l := by
  have : ∀ n (l : List α), l.length = n → P l := by
    intro n
    induction n with
    | zero => intro l hl; rw [List.length_eq_zero_iff.1 hl]; exact h0
    | succ n ih =>
      intro l hl
      have hne : l ≠ [] := by intro h; rw [h] at hl; simp at hl
      rw [← List.dropLast_concat_getLast hne]
      exact h1 _ _ (ih _ (by simp [hl]))
  exact this _ l rfl

theorem splitBefore_snoc_eq (l : List α) (a : α) : splitBefore p (l ++ [a]) =
    if p a then splitBefore p l ++ [[a]] else (splitBefore p l).dropLast ++ ((splitBefore p l).getLast?.map (· ++ [a])).toList := by
  simp [splitBefore]

/-- Every group begins with an element that has `p`, and has no other one. -/
theorem splitBefore_spec (l : List α) : ∀ g ∈ splitBefore p l, ∃ a r, g = a :: r ∧ p a = true ∧ ∀ b ∈ r, p b = false ∧ b ∈ l := by
  induction l using snoc_induction with
  | h0 => simp [splitBefore]
  | h1 l a ih =>
    intro g hg
    rw [splitBefore_snoc_eq] at hg
    split at hg
    · rename_i hp
      simp at hg
      rcases hg with hg | hg
      · obtain ⟨x, r, h1, h2, h3⟩ := ih g hg
        exact ⟨x, r, h1, h2, fun b hb => ⟨(h3 b hb).1, by simp [(h3 b hb).2]⟩⟩
      · exact ⟨a, [], hg, hp, by simp⟩
    · rename_i hp
      simp only [List.mem_append] at hg
      rcases hg with hg | hg
      · obtain ⟨x, r, h1, h2, h3⟩ := ih g (List.dropLast_subset _ hg)
        exact ⟨x, r, h1, h2, fun b hb => ⟨(h3 b hb).1, by simp [(h3 b hb).2]⟩⟩
      · cases hl : (splitBefore p l).getLast? with
        | none => rw [hl] at hg; simp at hg
        | some last =>
          rw [hl] at hg; simp at hg; subst hg
          obtain ⟨x, r, h1, h2, h3⟩ := ih last (List.mem_of_getLast? hl)
          refine ⟨x, r ++ [a], by rw [h1]; rfl, h2, ?_⟩
          intro b hb
          simp at hb
          rcases hb with hb | hb
          · exact ⟨(h3 b hb).1, by simp [(h3 b hb).2]⟩
          · subst hb; exact ⟨by simpa using hp, by simp⟩

variable {es : List Event} {ev : Event}

theorem blocks_snoc_starts (h : ev.role.starts = true) : blocks (es ++ [ev]) = blocks es ++ [[ev]] := by
  have hc : ev.role.content = true := by
    cases hr : ev.role <;> rw [hr] at h <;> simp [Role.starts] at h <;> rfl
  simp only [blocks, List.filter_append, List.filter_cons, hc, List.filter_nil, if_true]
  exact splitBefore_snoc_pos (p := fun e : Event => e.role.starts) h

theorem blocks_snoc_joins {gs : List (List Event)} {g : List Event} (hc : ev.role.content = true) (h : ev.role.starts = false)
    (hg : blocks es = gs ++ [g]) : blocks (es ++ [ev]) = gs ++ [g ++ [ev]] := by
  simp only [blocks, List.filter_append, List.filter_cons, hc, List.filter_nil, if_true]
  exact splitBefore_snoc_neg (p := fun e : Event => e.role.starts) h hg

theorem blocks_snoc_skip (hc : ev.role.content = false) : blocks (es ++ [ev]) = blocks es := by
  simp [blocks, hc]

theorem parts_snoc_owns {b : List Event} (h : ev.role.owns = true) : parts (b ++ [ev]) = parts b ++ [[ev]] :=
  splitBefore_snoc_pos (p := fun e : Event => e.role.owns) h

theorem parts_snoc_joins {b : List Event} {gs : List (List Event)} {g : List Event} (h : ev.role.owns = false)
    (hg : parts b = gs ++ [g]) : parts (b ++ [ev]) = gs ++ [g ++ [ev]] :=
  splitBefore_snoc_neg (p := fun e : Event => e.role.owns) h hg

theorem parts_single (h : ev.role.owns = true) : parts [ev] = [[ev]] := by
  have := parts_snoc_owns (b := []) h
  simpa [parts, splitBefore] using this

/-- Every block is an event that begins an element, followed by items, entries and continuations. -/
theorem blocks_spec {b : List Event} (hb : b ∈ blocks es) : ∃ e r, b = e :: r ∧ e.role.starts = true ∧
    ∀ x ∈ r, x.role = .item ∨ x.role = .entry ∨ x.role = .continuation := by
  obtain ⟨e, r, h1, h2, h3⟩ := splitBefore_spec _ b hb
  refine ⟨e, r, h1, h2, ?_⟩
  intro x hx
  obtain ⟨h4, h5⟩ := h3 x hx
  simp at h5
  have h6 := h5.2
  cases hr : x.role <;> rw [hr] at h4 h6 <;> simp [Role.starts, Role.content] at h4 h6 ⊢

/-! ## Comments -/

theorem commentRun_snoc (es : List Event) (ev : Event) :
    commentRun (es ++ [ev]) = if ev.role = .comment then commentRun es ++ [ev] else [] := by
  unfold commentRun
  rw [List.reverse_append]
  by_cases h : ev.role = .comment <;> simp [h]

theorem owned_snoc (pre es : List Event) (ev : Event) :
    owned pre (es ++ [ev]) = owned pre es ++ (if ev.role.owns then [(commentRun (pre ++ es), ev)] else []) := by
  induction es generalizing pre with
  | nil => simp [owned]
  | cons e es ih => simp [owned, ih]

theorem loose_snoc (pre es : List Event) (ev : Event) :
    loose pre (es ++ [ev]) = loose pre es ++ (if ev.role = .blank ∨ ev.role = .continuation then commentRun (pre ++ es) else []) := by
  induction es generalizing pre with
  | nil => simp [loose]
  | cons e es ih => simp [loose, ih]

theorem depthOf_snoc (es : List Event) (ev : Event) :
    depthOf (es ++ [ev]) = match ev.role with | .heading d => d | _ => depthOf es := by
  unfold depthOf
  rw [List.filterMap_append]
  cases hr : ev.role <;> simp [hr]

end Eno
