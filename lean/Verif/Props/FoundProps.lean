import Verif.Props.ElementProps
import Verif.Props.ElementReadProps
import Verif.Props.LookupProps
import Verif.Props.ReprProps

/-!
# C78: the element that `lookup` returns

All theorems about worlds that a program can reach (`Reach`) hold for what is made of the element that `lookup` returns. Here is what it can be made into, and what is read from it.
-/

namespace Eno.El

open Spec

variable {E : Env} {w : World} {input : Str} {ctx0 : Ctx} {r : Ref} {b : Base} {k : Kind}

/-- `lookup` on the line of an element, item, entry or section heading returns an element of it that was neither yielded nor touched, and all programs can go on from there. -/
theorem C78_found (hl : load input = .ok E.ctx) (hf : FirstLine E.ctx.heap r b) (c : Int) :
    ∃ x, lookup input (some b.line) (some c) none = .ok x ∧ x.element = r ∧ Reach E (World.found x.element) ∧ IsA (World.found x.element) 0 .element ∧
      ((World.found x.element).at 0).ref = r ∧ ((World.found x.element).at 0).yielded = none ∧ ((World.found x.element).at 0).touched = false := by
  obtain ⟨o, h, _⟩ := C49_line hl hf c
  have hi : E.ctx.input = input := (loaded_all hl).2.1
  refine ⟨_, h, rfl, ⟨_, .found (by rw [hi]; exact h), 0, .done⟩, ⟨?_, ?_⟩, rfl, rfl, rfl⟩
  · exact Nat.one_pos
  · rfl

example : ∃ (E : Env) (b : Base), load (chars!"# s\nl:\n- a\n- b") = .ok E.ctx ∧ FirstLine E.ctx.heap (.item 2 1) b := by
  obtain ⟨ctx', h⟩ : ∃ c, load (chars!"# s\nl:\n- a\n- b") = .ok c ∧ 2 < c.heap.length ∧ 1 < ((c.heap.at 2).items.getD []).length := by
    refine ⟨_, rfl, ?_, ?_⟩ <;> decide +kernel
  obtain ⟨b, hb⟩ := firstLine_item h.2.1 h.2.2
  exact ⟨⟨{}, ctx', 99⟩, b, h.1, hb⟩

/-- It can be made into the kind of the element in the document, and into no other one. -/
theorem C78_to (hl : load input = .ok E.ctx) (hf : FirstLine E.ctx.heap r b) :
    (Fits k (E.ctx.heap.type r) → ∃ w1, run E 0 (.to k) (World.found r) = (.ok (.obj 1), w1) ∧ Reach E w1 ∧ IsA w1 1 (.of k) ∧ (w1.at 1).ref = r) ∧
    (¬ Fits k (E.ctx.heap.type r) → ∃ e, (run E 0 (.to k) (World.found r)).1 = .error e) := by
  obtain ⟨x, h1, h2, R, hx, h3, h4, _⟩ := C78_found hl hf 0
  rw [h2] at R hx h3 h4
  constructor
  · intro h
    have hrun : run E 0 (.to k) (World.found r) = (.ok (.obj 1), yieldedAs k 0 (World.found r)) := by
      rw [to_call (.inr hx), map_run, to_run]
      rw [show ((World.found r).at 0).made k = none from rfl]
      dsimp only
      rw [if_neg (by simp [h4]), h3, if_pos (fits_iff.1 h)]
      rfl
    refine ⟨_, hrun, ?_, ?_, ?_⟩
    · have hs : Leads E (World.found r) (run E 0 (.to k) (World.found r)).2 := ⟨0, .call 0 _ .done trivial⟩
      rw [hrun] at hs
      have hb : Begun E (World.found x.element) := .found (by rw [(loaded_all hl).2.1]; exact h1)
      rw [h2] at hb
      exact ⟨_, hb, hs⟩
    · cases k <;> exact ⟨Nat.lt_succ_self 1, rfl⟩
    · cases k <;> rfl
  · intro h
    obtain ⟨v, hv, h5, h6⟩ := C48_yields (k := k) hl R (.inr hx) h4
    rw [h3] at h6
    cases hq : (run E 0 (.to k) (World.found r)).1 with
    | error e => exact ⟨e, rfl⟩
    | ok a =>
      exfalso
      rw [to_call (.inr hx), map_run] at hq
      cases hp : to E k 0 (World.found r) with
      | mk p w1 =>
        rw [hp] at hq
        cases p with
        | error e => cases hq
        | ok y =>
          refine h (h6.1 (h5.2 ⟨y, ?_⟩))
          rw [to_call (.inr hx), map_run, hp]

/-- The value of the field that is made of it is the value of the field in the document. -/
theorem C78_value (ha : analyze input = .ok ctx0) (hl : load input = .ok E.ctx) (hd : E.ctx.heap.length + 1 ≤ E.depth) (hf : FirstLine E.ctx.heap r b)
    (hk : Fits .field (E.ctx.heap.type r)) (c : Int) :
    ∃ x w1 v, lookup input (some b.line) (some c) none = .ok x ∧ run E 0 (.to .field) (World.found x.element) = (.ok (.obj 1), w1) ∧
      AnswerOf input ctx0.heap (.value r) (.text v) ∧ (run E 1 (.value false fun s w => (.ok (.text s), w)) w1).1 = .ok (v.elim .none .text) := by
  obtain ⟨x, h1, h2, _⟩ := C78_found hl hf c
  obtain ⟨w1, h3, R, hx, h4⟩ := (C78_to hl hf).1 hk
  obtain ⟨v, w2, h5, _, h6⟩ := C45_value ha hl hd R hx.1 (.inl hx.2)
  rw [h4] at h5
  refine ⟨x, w1, v, h1, by rw [h2]; exact h3, h5, ?_⟩
  have := congrArg Prod.fst (h6 false fun s w => (.ok (.text s), w))
  cases v <;> exact this

example : ∃ (E : Env) (ctx0 : Ctx) (b : Base), analyze (chars!"l:\n- a\n\n# s\nf: 1\n| 2\n") = .ok ctx0 ∧ load (chars!"l:\n- a\n\n# s\nf: 1\n| 2\n") = .ok E.ctx ∧ E.ctx.heap.length + 1 ≤ E.depth ∧
    FirstLine E.ctx.heap (.elem 3) b ∧ Fits .field (E.ctx.heap.type (.elem 3)) := by
  obtain ⟨c0, h0⟩ : ∃ c, analyze (chars!"l:\n- a\n\n# s\nf: 1\n| 2\n") = .ok c := ⟨_, rfl⟩
  obtain ⟨c, h1, h2, h3, h4⟩ : ∃ c, load (chars!"l:\n- a\n\n# s\nf: 1\n| 2\n") = .ok c ∧ 3 < c.heap.length ∧ c.heap.length + 1 ≤ 99 ∧ Kind.fits .field (c.heap.type (.elem 3)) = true := by
    refine ⟨_, rfl, ?_, ?_, ?_⟩ <;> decide +kernel
  exact ⟨⟨{}, c, 99⟩, c0, _, h0, h1, h3, .elem (by omega) h2, fits_iff.2 h4⟩

/-- A program that looks up a field and reads it. -/
example : (match load (chars!"l:\n- a\n\n# s\nf: 1\n| 2\n"), lookup (chars!"l:\n- a\n\n# s\nf: 1\n| 2\n") (some 4) (some 3) none with
    | .ok ctx, .ok x =>
      let E : Env := ⟨{}, ctx, 99⟩
      textOf (run E 1 (.value false fun s w => (.ok (.text s), w)) (run E 0 (.to .field) (World.found x.element)).2).1
    | _, _ => none) = some (chars!"12") := by decide +kernel

/-- Its key is the key of the element in the document, or of the list for an item. -/
theorem C78_key (hl : load input = .ok E.ctx) (hf : FirstLine E.ctx.heap r b) :
    ∃ k, KeyIs E.ctx.heap r k ∧ (run E 0 (.key fun s w => (.ok (.text s), w)) (World.found r)).1 = .ok (.text k) := by
  obtain ⟨x, h1, h2, R, hx, h3, _⟩ := C78_found hl hf 0
  rw [h2] at R hx h3
  have h0 : ((World.found r).at 0).ref ≠ .elem 0 := by
    rw [h3]
    intro h
    subst h
    cases hf with
    | elem h => exact absurd h (Nat.lt_irrefl _)
  obtain ⟨k, hk, h⟩ := C45_key hl R hx.1 h0
  rw [h3] at hk
  exact ⟨k, hk, congrArg Prod.fst (h fun s w => (.ok (.text s), w))⟩

/-- What is false: elements of items cannot be made into items, and elements of entries not into entries: `to_list_item` and `to_fieldset_entry` always raise an
`AttributeError`, also where `yields_list_item` and `yields_fieldset_entry` say yes. -/
theorem C78_parts_refuted (hl : load input = .ok E.ctx) (hf : FirstLine E.ctx.heap r b) :
    run E 0 .toItem (World.found r) = (.error (.py .attributeError), World.found r) ∧ run E 0 .toEntry (World.found r) = (.error (.py .attributeError), World.found r) ∧
    (∃ b, run E 0 .yieldsItem (World.found r) = (.ok (.bool b), World.found r) ∧ (b = true ↔ ∃ i j, r = .item i j)) ∧
    (∃ b, run E 0 .yieldsEntry (World.found r) = (.ok (.bool b), World.found r) ∧ (b = true ↔ ∃ i j, r = .entry i j)) := by
  obtain ⟨x, h1, h2, R, hx, h3, _⟩ := C78_found hl hf 0
  rw [h2] at R hx h3
  obtain ⟨h5, h6⟩ := C48_parts hl R hx
  rw [h3] at h5 h6
  exact ⟨rfl, rfl, h5, h6⟩

/-- Items have no key. -/
theorem item_key (hl : load input = .ok E.ctx) (i j : Nat) : E.ctx.heap.key? (.item i j) = none := by
  obtain ⟨C, _, _⟩ := loaded_all hl
  obtain ⟨h0, ok, Sh⟩ := C.toReportable.heap
  cases hx : E.ctx.heap.sub? (.item i j) with
  | none => simp [Heap.key?, hx]
  | some x =>
    have hx' := hx
    simp only [Heap.sub?] at hx
    have e : (E.ctx.heap.at i).items = (h0.at i).items := (still_elements (Sh.own i)).2.1
    rw [e] at hx
    cases hq : (h0.at i).items with
    | none => rw [hq] at hx; simp at hx
    | some xs =>
      rw [hq] at hx
      have hi : i < h0.length := by
        apply Classical.byContradiction
        intro hn
        rw [Heap.at_ge (by omega)] at hq
        simp [Elem.document] at hq
      have := ((ok.elem i hi).items xs hq).2.2 x (List.mem_of_getElem? hx)
      simp only [Heap.key?, hx', Option.bind_some]
      cases hk : x.key with
      | none => rfl
      | some k => have := this.key; rw [hk] at this; simp at this

/-- `repr` of the element of an item or of the document raises a `KeyError`. `lookup` returns such elements. -/
theorem C77_raises (hl : load input = .ok E.ctx) {o : Nat} (hc : (w.at o).cls = .element)
    (hr : (w.at o).ref = .elem 0 ∨ ∃ i j, (w.at o).ref = .item i j) : run E o .repr w = (.error (.py .keyError), w) := by
  have V := envOk_load hl
  have hk : E.ctx.heap.key? (w.at o).ref = none := by
    rcases hr with h | ⟨i, j, h⟩
    · rw [h]
      exact if_pos V.doc
    · rw [h]
      exact item_key hl i j
  have hown : ownKey E o w = (.error (.py .keyError), w) := by
    unfold ownKey
    rw [bind_ok obj_run, hk]
    rfl
  rw [repr_call, hc, map_run]
  unfold repr
  rw [bind_ok obj_run]
  dsimp only
  rw [bind_run, hown]

/-- Such elements: on an empty line, and on the line of an item. -/
example : (lookup (chars!"l:\n- x\n\n") (some 2) (some 0) none).toOption = some ⟨.elem 0, none⟩ ∧
    (lookup (chars!"l:\n- x\n\n") (some 1) (some 0) none).toOption = some ⟨.item 1 0, some .itemOperator⟩ := by decide +kernel

end Eno.El
