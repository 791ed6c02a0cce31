import Verif.Props.ElementReadProps
import Verif.Props.ContextProps

/-! # Properties of lists, in any world that a program can reach -/

namespace Eno.El

open Spec

variable {E : Env} {w w' : World} {o i : Nat} {input : Str} {rs : List Ref} {ctx0 : Ctx}

/-! ## C69 -/

theorem items_run (V : EnvOk E) (I : Inv E w) (hx : IsA w o (.of .list)) (hit : Items E (w.at o) rs) :
    ∃ ys w1, run E o .items w = (.ok (.objs ys), w1) ∧ run E o .length w = (.ok (.nat ys.length), w1) ∧ Keeps E w w1 ∧ (w1.at o).children = some ys ∧ (w1.at o).touched = true ∧
      (∀ y ∈ ys, IsA w1 y .item ∧ (w1.at y).parent = some o) ∧ ys.map (fun y => (w1.at y).ref) = rs := by
  have _ := V
  have K0 : Keeps E w (setTouched o w).2 := keeps_touched I
  have hx0 := hx.later K0.later
  have hit0 : Items E ((setTouched o w).2.at o) rs := by
    unfold Items
    rw [(K0.later.obj o hx.1).ref]
    exact hit
  obtain ⟨ys, w1, h, K, U, h2, h3, h4, h5⟩ := items_found K0.inv hx0 hit0
  have KK := K0.trans K
  refine ⟨ys, w1, ?_, ?_, KK, h3, ?_, fun y hy => ⟨h4 y hy, (h2.members y hy).2.2.2⟩, h5⟩
  · unfold run
    rw [bind_ok obj_run, hx.2]
    dsimp only
    rw [map_run]
    unfold items
    rw [bind_ok (m := setTouched o) (a := ()) (w' := (setTouched o w).2) rfl, h]
  · unfold run
    rw [bind_ok obj_run, hx.2]
    dsimp only
    rw [map_run]
    unfold itemCount
    rw [bind_ok (m := setTouched o) (a := ()) (w' := (setTouched o w).2) rfl, bind_ok h]
    rfl
  · rw [(U.obj o hx0.1).1]
    unfold setTouched
    rw [at_assign_self hx.1]

/-- `items()` gives an item object for each item, in order, and marks the list as touched. -/
theorem C69_items (hl : load input = .ok E.ctx) (hw : Reach E w) (hx : IsA w o (.of .list)) (hit : Items E (w.at o) rs) :
    ∃ ys, (run E o .items w).1 = .ok (.objs ys) ∧ ys.map (fun y => ((run E o .items w).2.at y).ref) = rs ∧
      (∀ y ∈ ys, IsA (run E o .items w).2 y .item ∧ ((run E o .items w).2.at y).parent = some o) ∧
      ((run E o .items w).2.at o).touched = true := by
  have V := envOk_load hl
  obtain ⟨ys, w1, h, _, _, _, h4, h5, h6⟩ := items_run V (hw.inv V) hx hit
  rw [h]
  exact ⟨ys, rfl, h6, h5, h4⟩

/-- `length()` is the number of items. -/
theorem C69_length (hl : load input = .ok E.ctx) (hw : Reach E w) (hx : IsA w o (.of .list)) (hit : Items E (w.at o) rs) :
    (run E o .length w).1 = .ok (.nat rs.length) ∧ ((run E o .length w).2.at o).touched = true := by
  have V := envOk_load hl
  obtain ⟨ys, w1, _, h, _, _, h4, _, h6⟩ := items_run V (hw.inv V) hx hit
  rw [h, ← h6, List.length_map]
  exact ⟨rfl, h4⟩

/-- Later calls give the same objects. -/
theorem C69_same {ys : List Nat} (hl : load input = .ok E.ctx) (hw : Reach E w) (hx : IsA w o (.of .list)) (hit : Items E (w.at o) rs)
    (hr : (run E o .items w).1 = .ok (.objs ys)) (hw' : Leads E (run E o .items w).2 w') : (run E o .items w').1 = .ok (.objs ys) := by
  have V := envOk_load hl
  obtain ⟨zs, w1, h, _, K, h3, _⟩ := items_run V (hw.inv V) hx hit
  rw [h] at hr hw'
  have e : zs = ys := by
    have : (Val.objs zs) = Val.objs ys := by injection hr
    simp only [Val.objs, Val.list.injEq] at this
    exact List.map_inj_right (f := Val.obj) (fun a b h => by injection h) |>.1 this
  subst e
  have K' := hw'.keeps V K.inv
  have hx' := (hx.later K.later).later K'.later
  have hit' : Items E (w'.at o) rs := by
    unfold Items
    rw [(K'.later.obj o (hx.later K.later).1).ref, (K.later.obj o hx.1).ref]
    exact hit
  obtain ⟨zs', w2, h', _, K2, h3', _⟩ := items_run V K'.inv hx' hit'
  have c1 : (w'.at o).children = some zs := (K'.later.obj o (hx.later K.later).1).children zs h3 |>.1
  have c2 : (w2.at o).children = some zs := (K2.later.obj o hx'.1).children zs c1 |>.1
  rw [h3'] at c2
  rw [h', Option.some.inj c2]

/-- What an object that is no section is made of. -/
theorem made_of (ha : analyze input = .ok ctx0) (hl : load input = .ok E.ctx) (hw : Reach E w) {k : Kind} (hk : k ≠ .section) (hx : IsA w o (.of k)) :
    ∃ i, (w.at o).ref = .elem i ∧ i < ctx0.heap.length ∧ (ctx0.heap.at i).type ≠ .section ∧ Fits k (E.ctx.heap.at i).type := by
  have V := envOk_load hl
  have R := ((hw.inv V).objs o hx.1).ref
  have L := loaded ha hl
  rw [hx.2] at R
  cases hr : (w.at o).ref with
  | item a b => rw [hr] at R; exact R.elim
  | entry a b => rw [hr] at R; exact R.elim
  | elem i =>
    rw [hr] at R
    obtain ⟨h1, h2, h3⟩ := R
    have hf := h3 (Nat.pos_of_ne_zero fun e => hk (h2 e))
    rw [L.non.len] at h1
    refine ⟨i, rfl, h1, fun q => ?_, fits_iff.2 hf⟩
    rw [L.secType i h1 q] at hf
    cases k <;> first | exact hk rfl | cases hf

/-- The items are those of the document: of a list, its own after those of what it copies; of an empty element, none. -/
theorem C69_contents (ha : analyze input = .ok ctx0) (hl : load input = .ok E.ctx) (hd : E.ctx.heap.length ≤ E.depth) (hw : Reach E w) (hx : IsA w o (.of .list)) :
    ∃ i rs, (w.at o).ref = .elem i ∧ Items E (w.at o) rs ∧
      (((E.ctx.heap.at i).type = .list ∧ ItemsOf ctx0.heap i rs) ∨ ((E.ctx.heap.at i).type = .empty ∧ rs = [])) := by
  obtain ⟨i, hr, hi, hs, hf⟩ := made_of ha hl hw (by decide) hx
  have L := loaded ha hl
  have hd' : ctx0.heap.length ≤ E.depth := by rw [← L.non.len]; exact hd
  have T := C31_terminates ha hl hi hs hd'
  cases hty : (E.ctx.heap.at i).type <;> rw [hty] at hf <;> cases hf
  · exact ⟨i, [], hr, by unfold Items; rw [hr]; exact (T.2.2.2 hty).1, .inr ⟨hty, rfl⟩⟩
  · obtain ⟨xs, _, h⟩ := T.2.1 hty
    refine ⟨i, xs, hr, by unfold Items; rw [hr]; exact h, .inl ⟨hty, ?_⟩⟩
    obtain ⟨n, hn, gn⟩ := (L.non.grounded i hi hs).bounded hi
    obtain ⟨ys, hy⟩ := (L.non.grounded i hi hs).items
    have := instItems_spec L.non n i E.depth gn (by omega) hi hs hty ys hy
    rw [h] at this
    injection this with this
    rw [this]; exact hy

/-- The entries are those of the document: of a fieldset, its own after those of what it copies without those with keys of its own; of an empty element, none. -/
theorem C61_contents (ha : analyze input = .ok ctx0) (hl : load input = .ok E.ctx) (hd : E.ctx.heap.length ≤ E.depth) (hw : Reach E w) (hx : IsA w o (.of .fieldset)) :
    ∃ i rs, (w.at o).ref = .elem i ∧ Entries E (w.at o) rs ∧
      (((E.ctx.heap.at i).type = .fieldset ∧ EntriesOf ctx0.heap i rs) ∨ ((E.ctx.heap.at i).type = .empty ∧ rs = [])) := by
  obtain ⟨i, hr, hi, hs, hf⟩ := made_of ha hl hw (by decide) hx
  have L := loaded ha hl
  have hd' : ctx0.heap.length ≤ E.depth := by rw [← L.non.len]; exact hd
  have T := C31_terminates ha hl hi hs hd'
  cases hty : (E.ctx.heap.at i).type <;> rw [hty] at hf <;> cases hf
  · exact ⟨i, [], hr, ⟨[], by rw [hr]; exact (T.2.2.2 hty).2⟩, .inr ⟨hty, rfl⟩⟩
  · obtain ⟨xs, m, _, h⟩ := T.2.2.1 hty
    refine ⟨i, xs, hr, ⟨m, by rw [hr]; exact h⟩, .inl ⟨hty, ?_⟩⟩
    obtain ⟨n, hn, gn⟩ := (L.non.grounded i hi hs).bounded hi
    obtain ⟨ys, hy⟩ := (L.non.grounded i hi hs).entries
    obtain ⟨m', h2, _⟩ := instEntries_spec L.non n i E.depth gn (by omega) hi hs hty ys hy [] (by simp)
    have e : untaken ctx0.heap [] ys = ys := by unfold untaken; rw [List.filter_eq_self]; simp
    rw [h, e] at h2
    injection h2 with h2
    rw [(Prod.mk.inj h2).2]; exact hy

example : ∃ E input ctx0 w o rs, analyze input = .ok ctx0 ∧ load input = .ok E.ctx ∧ E.ctx.heap.length ≤ E.depth ∧ Reach E w ∧ IsA w o (.of .list) ∧ Items E (w.at o) rs ∧ rs ≠ [] := by
  obtain ⟨E, S⟩ := sample
  obtain ⟨c, h, _⟩ := sample_analyzed
  exact ⟨E, sampleText, c, sampleList E, 6, [.item 4 0], h, S.loaded, by have := S.depth; omega, list_reach, ⟨S.list.2.1, S.list.1⟩, S.list.2.2, by simp⟩

end Eno.El
