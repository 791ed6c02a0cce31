import Verif.Spec.Document

/-! # Every valid document can be written -/

namespace Eno

open Spec

theorem blank_nil : Blank [] := by simp [Blank]

theorem blank_one : Blank [' '] := by decide

theorem each_of {α} {R : α → List Str → Prop} {xs : List α} (h : ∀ x ∈ xs, ∃ ls, R x ls) : ∃ ls, Each R xs ls := by
  induction xs with
  | nil => exact ⟨_, .nil⟩
  | cons x xs ih =>
    obtain ⟨a, ha⟩ := h x (by simp)
    obtain ⟨b, hb⟩ := ih fun y hy => h y (by simp [hy])
    exact ⟨_, .cons ha hb⟩

theorem rep_not_infix {n : Nat} {c : Char} {k : Str} (h : k.length < n) : ¬ rep n c <:+: k := by
  intro hi
  have := hi.length_le
  simp [rep] at this
  omega

theorem keyForm_of {k : Str} (hk : Trimmed k) : ∃ w, KeyForm k w :=
  ⟨_, .escaped (n := k.length + 1) hk (by omega) (rep_not_infix (by omega)) blank_one blank_one (.inl (by simp)) (.inl (by simp))⟩

theorem headingKeyForm_of {k : Str} (hk : Trimmed k) : ∃ w, HeadingKeyForm k w :=
  ⟨_, .escaped (n := k.length + 1) blank_nil hk (by omega) (rep_not_infix (by omega)) blank_one blank_one (.inl (by simp)) (.inl (by simp))⟩

/-- With a blank in front. -/
theorem valueForm_of {v : Option Str} (hv : ∀ x, v = some x → Trimmed x) : ∃ u, ValueForm v (' ' :: u) := by
  cases v with
  | none => exact ⟨[], .none blank_one⟩
  | some x => exact ⟨_, .some (p1 := [' ']) (p2 := []) blank_one (hv x rfl) blank_nil⟩

theorem remarks_of {x : Nat × Option Str} (h : match x.2 with | none => x.1 = 0 | some v => 0 < x.1 ∧ Trimmed v) : ∃ t, Remarks x t := by
  obtain ⟨n, v⟩ := x
  cases v with
  | none => simp at h; subst h; exact ⟨_, .none blank_nil blank_nil⟩
  | some v =>
    obtain ⟨h1, h2⟩ := h
    have := Remarks.some (p0 := []) (p1 := rep (n - 1) ' ') (p2 := []) blank_nil (by
      intro c hc
      rw [rep, List.mem_replicate] at hc
      rw [hc.2]; rfl) h2 blank_nil
    rw [show ([] : Str).length + 1 + (rep (n - 1) ' ').length = n by simp [rep]; simp at h1; omega] at this
    exact ⟨_, this⟩

theorem opening_of {r : Remark} {l : Line} {t : Str} (hr : Remark.Valid r) (hl : Writes l t) : ∃ ls, Opening r l ls := by
  obtain ⟨cs, hcs⟩ := each_of (R := fun a ls => ∃ c, Remarks a c ∧ ls = [c]) (xs := r) (by
    intro x hx
    obtain ⟨t, ht⟩ := remarks_of (hr.1 x hx)
    exact ⟨[t], t, ht, rfl⟩)
  exact ⟨_, .mk (g := []) ⟨by simp [Filler], by simp⟩ hcs hr.2 hl⟩

theorem continues_of {more : List (Bool × Option Str)} (h : ∀ c ∈ more, ∀ v, c.2 = some v → Trimmed v) : ∃ ls, Each Continues more ls := by
  refine each_of fun c hc => ?_
  obtain ⟨b, v⟩ := c
  obtain ⟨u, hu⟩ := valueForm_of (v := v) fun x hx => h _ hc x hx
  cases b with
  | false => exact ⟨_, .mk (f := []) (by simp [Filler]) (.direct blank_nil hu)⟩
  | true => exact ⟨_, .mk (f := []) (by simp [Filler]) (.spaced blank_nil hu)⟩

theorem item_of {x : Item} (h : x.Valid) : ∃ ls, x.Written ls := by
  obtain ⟨u, hu⟩ := valueForm_of h.2.1
  obtain ⟨o, ho⟩ := opening_of h.1 (Writes.item blank_nil hu (by simp))
  obtain ⟨c, hc⟩ := continues_of h.2.2
  exact ⟨_, .mk ho hc⟩

theorem entry_of {x : Entry} (h : x.Valid) : ∃ ls, x.Written ls := by
  obtain ⟨w, hw⟩ := keyForm_of h.2.1
  obtain ⟨u, hu⟩ := valueForm_of h.2.2.1
  obtain ⟨o, ho⟩ := opening_of h.1 (Writes.entry blank_nil hw blank_nil hu)
  obtain ⟨c, hc⟩ := continues_of h.2.2.2
  exact ⟨_, .mk ho hc⟩

theorem le_sum {l : Str} : ∀ {ls : List Str}, l ∈ ls → l.length ≤ (ls.map List.length).sum
  | a :: ls, h => by
    simp only [List.map_cons, List.sum_cons]
    rcases List.mem_cons.1 h with rfl | h
    · omega
    · have := le_sum h; omega

/-- Enough dashes for no line to end the field. -/
theorem enough_dashes (k : Str) (ls : List Str) : ∃ n, 2 ≤ n ∧ ∀ l ∈ ls, ¬ IsTerminator (rep n '-') k l := by
  refine ⟨(ls.map List.length).sum + 2, by omega, ?_⟩
  rintro l hl ⟨p0, p1, p2, _, _, _, h, _⟩
  have h1 : l.length ≤ (ls.map List.length).sum := le_sum hl
  have h2 := congrArg List.length h
  simp [rep] at h2
  omega

theorem element_of {e : Element} (h : e.Valid) : ∃ ls, e.Written ls := by
  obtain ⟨r, k, c⟩ := e
  obtain ⟨h1, h2, h3⟩ := h
  simp only at h1 h2 h3
  obtain ⟨w, hw⟩ := keyForm_of h2
  have hempty : ∃ o, Opening r (.element k none) o := by
    obtain ⟨u, hu⟩ := valueForm_of (v := none) (by simp)
    exact opening_of h1 (Writes.element blank_nil hw blank_nil hu)
  cases c with
  | parts p =>
    obtain ⟨u, hu⟩ := valueForm_of h3.1
    obtain ⟨o, ho⟩ := opening_of h1 (Writes.element blank_nil hw blank_nil hu)
    obtain ⟨c, hc⟩ := continues_of h3.2
    exact ⟨_, .parts ho hc⟩
  | items x xs =>
    obtain ⟨o, ho⟩ := hempty
    obtain ⟨ls, hl⟩ := each_of fun y hy => item_of (h3 y hy)
    exact ⟨_, .items ho hl⟩
  | entries x xs =>
    obtain ⟨o, ho⟩ := hempty
    obtain ⟨ls, hl⟩ := each_of fun y hy => entry_of (h3 y hy)
    exact ⟨_, .entries ho hl⟩
  | verbatim ls =>
    obtain ⟨n, hn, ht⟩ := enough_dashes k ls
    obtain ⟨o, ho⟩ := opening_of h1 (Writes.multiline (n := n) blank_nil hn (.some (p1 := [' ']) (p2 := []) blank_one h2 blank_nil) (by simp))
    refine ⟨_, .verbatim (t := rep n '-' ++ ([' '] ++ (k ++ []))) ho (fun l hl => ⟨h3 l hl, ht l hl⟩) ?_ ⟨[], [' '], [], blank_nil, blank_one, blank_nil, rfl, by simp⟩⟩
    have := h2.oneLine
    simp [rep, this]

mutual

theorem sec_of (d : Nat) (hd : 0 < d) : (x : Sec) → x.Valid → ∃ ls, Sec.Written d x ls
  | .mk r k es ss, h => by
    rw [Sec.Valid] at h
    obtain ⟨h1, h2, h3, h4⟩ := h
    obtain ⟨w, hw⟩ := headingKeyForm_of h2
    obtain ⟨o, ho⟩ := opening_of h1 (Writes.heading (n := d) blank_nil hd hw blank_nil)
    obtain ⟨a, ha⟩ := each_of fun e he => element_of (h3 e he)
    obtain ⟨b, hb⟩ := secs_of (d + 1) (by omega) ss h4
    exact ⟨_, .mk ho ha hb⟩

theorem secs_of (d : Nat) (hd : 0 < d) : (xs : List Sec) → SecsValid xs → ∃ ls, SecsWritten d xs ls
  | [], _ => ⟨_, .nil⟩
  | s :: ss, h => by
    rw [SecsValid] at h
    obtain ⟨a, ha⟩ := sec_of d hd s h.1
    obtain ⟨b, hb⟩ := secs_of d hd ss h.2
    exact ⟨_, .cons ha hb⟩

end

theorem document_of {D : Document} (h : D.Valid) : ∃ input, D.Text input := by
  obtain ⟨a, ha⟩ := each_of fun e he => element_of (h.1 e he)
  obtain ⟨b, hb⟩ := secs_of 1 (by omega) _ h.2
  exact ⟨_, _, .mk (f := []) ha hb (by simp [Filler]), rfl⟩

end Eno
