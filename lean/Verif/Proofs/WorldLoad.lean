import Verif.Proofs.WorldCalls
import Verif.Proofs.WorldFound
import Verif.Props.ContextProps
import Verif.Props.MergeProps
import Verif.Props.ValidationProps

/-! # Objects of loaded documents -/

namespace Eno.El

open Spec (NoCircles)

variable {α β : Type} {w w' w1 : World} {o y : Nat} {E : Env} {input : Str} {ctx0 : Ctx}

theorem madeElements_ok {h : Heap} : ∀ (n s : Nat) (acc : List Nat), instElements h n s acc = match madeElements h n s acc with
    | (none, xs) => .ok xs
    | (some e, _) => .error e
  | 0, _, _ => rfl
  | n + 1, s, acc => by
    unfold instElements madeElements
    cases (h.at s).mirror with
    | some m => exact madeElements_ok n m acc
    | none =>
      dsimp only
      cases (h.at s).extend with
      | none => rfl
      | some t => exact madeElements_ok n t _

/-- What is used of loaded documents holds of them. -/
theorem envOk_load (hl : load input = .ok E.ctx) : EnvOk E := by
  obtain ⟨C, hin, S⟩ := loaded_all hl
  have g := C.grown
  refine ⟨g.doc, fun i h0 hi h => ?_, fun s j hj => ?_, S.tree.pos, fun i k x hx => ?_, fun r => ?_, fun i h0 hi => ?_, fun l c i r hr => ?_⟩
  · have := S.types i h0 hi
    rw [h] at this
    simp at this
  · have := g.down s j hj
    exact ⟨by omega, this.2⟩
  · obtain ⟨h0, ok, Sh⟩ := C.toReportable.heap
    simp only [Heap.sub?] at hx
    have e : (E.ctx.heap.at i).entries = (h0.at i).entries := (still_elements (Sh.own i)).2.2.1
    rw [e] at hx
    cases hq : (h0.at i).entries with
    | none => rw [hq] at hx; simp at hx
    | some xs =>
      rw [hq] at hx
      have hi : i < h0.length := by
        apply Classical.byContradiction
        intro hn
        have : (h0.at i).entries = none := by simp [Heap.at, List.getElem?_eq_none (Nat.le_of_not_lt hn)]; rfl
        rw [this] at hq; cases hq
      have := ((ok.elem i hi).entries xs hq).2.2 x (List.mem_of_getElem? hx)
      rw [this.key]
  · obtain ⟨h0, ok, Sh⟩ := C.toReportable.heap
    cases r with
    | item i k => unfold computeValue; dsimp only; split <;> exact ⟨_, rfl⟩
    | entry i k => unfold computeValue; dsimp only; split <;> exact ⟨_, rfl⟩
    | elem i =>
      unfold computeValue
      dsimp only
      split
      · rw [(still_elements (Sh.own i)).2.2.2.2.1]
        split
        · exact ⟨_, rfl⟩
        · rename_i ls hls
          have hi : i < h0.length := by
            apply Classical.byContradiction
            intro hn
            have : (h0.at i).lines = none := by simp [Heap.at, List.getElem?_eq_none (Nat.le_of_not_lt hn)]; rfl
            rw [this] at hls; cases hls
          obtain ⟨_, hne, hr⟩ := (ok.elem i hi).lines ls hls
          obtain ⟨a, ha⟩ : ∃ a, ls.head? = some a := by cases ls with | nil => exact absurd rfl hne | cons a t => exact ⟨a, rfl⟩
          obtain ⟨b, hb⟩ : ∃ b, ls.getLast? = some b := ⟨ls.getLast hne, List.getLast?_eq_some_getLast hne⟩
          simp only [ha, hb]
          rw [range?_of_lines (hr a (List.mem_of_mem_head? (by rw [ha]; rfl))), range?_of_lines (hr b (List.mem_of_getLast? hb))]
          exact ⟨_, rfl⟩
      · exact ⟨_, rfl⟩
  · obtain ⟨p, h1, h2, h3⟩ := S.tree.par i h0 hi
    exact ⟨p, h1, by omega, fun h => h3.resolve_right (by omega)⟩
  · rw [hin] at hr
    exact found_actual hl hr

theorem shadow_load {ctx : Ctx} (ha : analyze input = .ok ctx0) (hl : load input = .ok ctx) : Shadow ctx0.heap ctx.heap := by
  unfold load at hl
  rw [ha] at hl
  dsimp only at hl
  split at hl
  · have h := shadow_resolve ctx0
    split at hl
    · cases hl
    · rename_i c hr
      rw [hr] at h
      cases hl
      exact h
  · cases hl
    exact .refl _

/-- The elements of every section can be found. -/
def Finite (E : Env) : Prop := ∀ s, s < E.ctx.heap.length → (E.ctx.heap.at s).type = .section ∨ s = 0 → ∃ xs, instElements E.ctx.heap E.depth s [] = .ok xs

theorem finite_load (ha : analyze input = .ok ctx0) (hl : load input = .ok E.ctx) (hd : E.ctx.heap.length ≤ E.depth) (nc : NoCircles ctx0.heap) : Finite E := by
  have L := loaded ha hl
  obtain ⟨c, hc', r, _, hlen⟩ := load_ok_analyze hl
  rw [ha] at hc'; injection hc' with hc'; subst hc'
  intro s hs ht
  have ht0 : (ctx0.heap.at s).type = .section ∨ s = 0 := by
    rcases ht with ht | ht
    · have hq := (shadow_load ha hl).type s
      rw [ht] at hq
      rcases hq with hq | ⟨_, hq | hq | hq⟩
      · exact .inl hq.symm
      all_goals cases hq
    · exact .inr ht
  exact C73_terminates ha hl nc ht0 (by omega : ctx0.heap.length ≤ E.depth)

theorem noFail_load (ha : analyze input = .ok ctx0) (hl : load input = .ok E.ctx) (hd : E.ctx.heap.length ≤ E.depth) (F : Finite E) : NoFail E := by
  have L := loaded ha hl
  obtain ⟨c, hc', r, _, hlen⟩ := load_ok_analyze hl
  rw [ha] at hc'; injection hc' with hc'; subst hc'
  have ref : ∀ w o k, Inv E w → IsA w o (.of k) → ∃ i, (w.at o).ref = .elem i ∧ i < E.ctx.heap.length ∧ (i = 0 → k = .section) ∧ (0 < i → k.fits (E.ctx.heap.at i).type = true) := by
    intro w o k I hx
    have R := (I.objs o hx.1).ref
    rw [hx.2] at R
    cases hr : (w.at o).ref with
    | elem i => rw [hr] at R; exact ⟨i, rfl, R⟩
    | item i j => rw [hr] at R; exact R.elim
    | entry i j => rw [hr] at R; exact R.elim
  have nonsec : ∀ i k, i < E.ctx.heap.length → k ≠ Kind.section → (i = 0 → k = .section) → (0 < i → k.fits (E.ctx.heap.at i).type = true) → (ctx0.heap.at i).type ≠ .section := by
    intro i k hi hk h0 hf hs
    have := L.secType i (by omega) hs
    have hp : 0 < i := by
      apply Classical.byContradiction
      intro hn
      exact hk (h0 (by omega))
    have := hf hp
    rw [L.secType i (by omega) hs] at this
    cases k <;> simp [Kind.fits] at this hk
  refine ⟨fun w o I hx => ?_, fun w o I hx => ?_, fun w o I hx => ?_⟩
  · obtain ⟨i, hr, hi, h0, hf⟩ := ref w o _ I hx
    rw [hr]
    have hs := nonsec i .list hi (by simp) h0 hf
    obtain ⟨_, h1, _, h2⟩ := C31_terminates ha hl (by omega) hs (by omega : ctx0.heap.length ≤ E.depth)
    have hp : 0 < i := by
      apply Classical.byContradiction
      intro hn
      have := h0 (by omega)
      cases this
    have hf' := hf hp
    cases ht : (E.ctx.heap.at i).type <;> rw [ht] at hf' <;> simp [Kind.fits] at hf'
    · exact ⟨_, (h2 ht).1⟩
    · obtain ⟨xs, _, h⟩ := h1 ht
      exact ⟨xs, h⟩
  · obtain ⟨i, hr, hi, h0, hf⟩ := ref w o _ I hx
    rw [hr]
    have hs := nonsec i .fieldset hi (by simp) h0 hf
    obtain ⟨_, _, h1, h2⟩ := C31_terminates ha hl (by omega) hs (by omega : ctx0.heap.length ≤ E.depth)
    have hp : 0 < i := by
      apply Classical.byContradiction
      intro hn
      have := h0 (by omega)
      cases this
    have hf' := hf hp
    cases ht : (E.ctx.heap.at i).type <;> rw [ht] at hf' <;> simp [Kind.fits] at hf'
    · exact ⟨_, (h2 ht).2⟩
    · obtain ⟨xs, m, _, h⟩ := h1 ht
      exact ⟨_, h⟩
  · obtain ⟨i, hr, hi, h0, hf⟩ := ref w o _ I hx
    rw [hr]
    have ht : (E.ctx.heap.at i).type = .section ∨ i = 0 := by
      by_cases hp : 0 < i
      · have hf' := hf hp
        cases ht : (E.ctx.heap.at i).type <;> rw [ht] at hf' <;> simp [Kind.fits] at hf' ⊢
      · exact .inr (by omega)
    obtain ⟨xs, h⟩ := F i hi ht
    rw [madeElements_ok] at h
    change (madeElements E.ctx.heap E.depth i []).1 = none
    generalize madeElements E.ctx.heap E.depth i [] = p at h
    obtain ⟨a, b⟩ := p
    cases a with
    | none => rfl
    | some e => cases h

end Eno.El
