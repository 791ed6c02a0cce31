import Verif.Proofs.WorldSteps

/-! # Objects: making the children of lists, fieldsets and sections -/

namespace Eno.El

variable {α β : Type} {w w' w1 : World} {o y : Nat} {E : Env}

/-- The world after the children were made. -/
def withKids (o : Nat) (xs : List Obj) (ys : List Nat) (index : List (Str × List Nat)) (w : World) : World :=
  (assign o (fun x => { x with children := some ys, index := index }) (create xs w).2).2

theorem len_withKids {xs : List Obj} {ys : List Nat} {index : List (Str × List Nat)} : (withKids o xs ys index w).objs.length = w.objs.length + xs.length := by
  unfold withKids; rw [len_assign, len_create]

theorem at_withKids_self {xs : List Obj} {ys : List Nat} {index : List (Str × List Nat)} (ho : o < w.objs.length) :
    (withKids o xs ys index w).at o = { w.at o with children := some ys, index := index } := by
  unfold withKids
  rw [at_assign_self (by rw [len_create]; omega), at_create_lt ho]

theorem at_withKids_lt {xs : List Obj} {ys : List Nat} {index : List (Str × List Nat)} (hy : y < w.objs.length) (hne : y ≠ o) : (withKids o xs ys index w).at y = w.at y := by
  unfold withKids
  rw [at_assign_ne hne, at_create_lt hy]

theorem at_withKids_new {xs : List Obj} {ys : List Nat} {index : List (Str × List Nat)} {k : Nat} (ho : o < w.objs.length) (hk : k < xs.length) :
    (withKids o xs ys index w).at (w.objs.length + k) = xs[k] := by
  unfold withKids
  rw [at_assign_ne (by omega), at_create_ge hk]

theorem later_withKids {xs : List Obj} {ys : List Nat} {index : List (Str × List Nat)} (ho : o < w.objs.length) (hc : (w.at o).children = none) :
    Later w (withKids o xs ys index w) where
  len := by rw [len_withKids]; omega
  obj y hy := by
    by_cases e : y = o
    · subst e
      rw [at_withKids_self hy]
      exact ⟨rfl, rfl, rfl, id, fun _ h => by (rw [hc] at h; cases h), fun _ _ h => h, fun _ h => h⟩
    · rw [at_withKids_lt hy e]; exact .refl _

theorem keeps_withKids {xs : List Obj} {ys : List Nat} {index : List (Str × List Nat)} (I : Inv E w) (ho : o < w.objs.length) (hc : (w.at o).children = none)
    (hcls : parentCls (childCls (w.at o).cls) = (w.at o).cls)
    (hx : ∀ x ∈ xs, x.parent = some o ∧ x.cls = childCls (w.at o).cls ∧ RefOk E.ctx.heap x.cls x.ref ∧ x.children = none ∧ (x.made = fun _ => none) ∧ x.yielded = none)
    (K : KidsOk E (withKids o xs ys index w) o ys) : Keeps E w (withKids o xs ys index w) := by
  have L := later_withKids (xs := xs) (ys := ys) (index := index) ho hc
  refine ⟨⟨present_later I L, fun q hq => ?_, I.cache, I.asked⟩, L⟩
  rw [len_withKids] at hq
  have O := I.objs o ho
  by_cases e : q = o
  · subst e
    refine ⟨?_, ?_, ?_, ?_, ?_, ?_, ?_⟩
    · intro p hp
      rw [at_withKids_self ho] at hp ⊢
      obtain ⟨h1, h2⟩ := O.parent p hp
      exact ⟨h1, by rw [at_withKids_lt (by omega) (by omega)]; exact h2⟩
    · intro h
      rw [at_withKids_self ho] at h ⊢
      refine ⟨(O.orphan h).1, fun q' => (O.orphan h).2 ?_⟩
      unfold Parsed at q' ⊢
      rw [(L.obj 0 I.present).cls] at q'
      exact q'
    · intro h; rw [at_withKids_self ho] at h ⊢; exact O.top h
    · rw [at_withKids_self ho]; exact O.ref
    · intro ys' h
      rw [at_withKids_self ho] at h
      cases h
      exact K
    · intro k y h
      rw [at_withKids_self ho] at h
      obtain ⟨h1, h2⟩ := O.made k y h
      refine ⟨?_, h2.later L ho⟩
      rw [at_withKids_self ho]; exact h1
    · intro k
      rw [at_withKids_self ho]
      exact O.yielded k
  · by_cases hlt : q < w.objs.length
    · refine (I.objs q hlt).later L hlt ?_ ?_ ?_ <;> rw [at_withKids_lt hlt e]
    · obtain ⟨k, rfl⟩ : ∃ k, q = w.objs.length + k := ⟨q - w.objs.length, by omega⟩
      have hk : k < xs.length := by omega
      obtain ⟨h1, h2, h3, h4, h5, h6⟩ := hx xs[k] (by simp)
      have ha := at_withKids_new (ys := ys) (index := index) ho hk
      refine fresh_ok (p := o) (fun h => ?_) ?_ (by omega) ?_ ?_ ?_ ?_ ?_
      · rw [ha] at h
        rw [h, h2] at h3
        unfold childCls at h3
        split at h3
        · exact h3
        · exact h3
        · exact absurd h3.1 (Nat.lt_irrefl _)
      · rw [ha]; exact h1
      · rw [ha, at_withKids_self ho, h2]; exact hcls.symm
      · rw [ha]; exact h3
      · rw [ha]; exact h4
      · rw [ha]; exact h5
      · rw [ha]; exact h6

/-- The objects that were just made, with their instructions. -/
theorem new_refs {γ : Type} {f : γ → Obj} {rs : List γ} {ys : List Nat} {index : List (Str × List Nat)} (g : Obj → β) (ho : o < w.objs.length) :
    (List.range' w.objs.length rs.length).map (fun y => g ((withKids o (rs.map f) ys index w).at y)) = rs.map fun r => g (f r) := by
  apply List.ext_getElem
  · simp
  · intro k h1 h2
    simp only [List.length_map, List.length_range'] at h1
    simp only [List.getElem_map, List.getElem_range', Nat.one_mul]
    rw [at_withKids_new ho (by simpa using h1)]
    simp

theorem mem_new {n y : Nat} {a : Nat} (h : y ∈ List.range' a n) : a ≤ y ∧ y < a + n := by
  rw [List.mem_range'] at h
  obtain ⟨i, h1, h2⟩ := h
  omega

/-! ## Lists -/

theorem listItems_run : listItems E o w = match (w.at o).children with
    | some ys => (.ok ys, w)
    | none =>
      match instItems E.ctx.heap E.depth (w.at o).ref.idx with
      | .error e => (.error (.py e), w)
      | .ok rs => (.ok (List.range' w.objs.length rs.length),
          (assign o (fun x => { x with children := some (List.range' w.objs.length rs.length) }) (create (rs.map fun r => { cls := .item, ref := r, parent := some o }) w).2).2) := by
  unfold listItems
  rw [bind_ok obj_run]
  cases (w.at o).children with
  | some ys => rfl
  | none =>
    dsimp only
    cases instItems E.ctx.heap E.depth (w.at o).ref.idx with
    | error e => rfl
    | ok rs =>
      dsimp only
      rw [bind_ok (a := List.range' w.objs.length rs.length) (w' := (create (rs.map fun r => { cls := .item, ref := r, parent := some o }) w).2)]
      · rfl
      · simp [create]

theorem listItems_keeps (I : Inv E w) (hx : IsA w o (.of .list)) : Keeps E w (listItems E o w).2 ∧
    ∀ ys w1, listItems E o w = (.ok ys, w1) → (w1.at o).children = some ys ∧ KidsOk E w1 o ys := by
  obtain ⟨ho, hcls⟩ := hx
  rw [listItems_run]
  cases hc : (w.at o).children with
  | some ys =>
    refine ⟨.refl I, fun ys' w1 h => ?_⟩
    change ((Except.ok ys : Except Exc _), w) = _ at h
    cases h
    exact ⟨hc, (I.objs o ho).kids ys hc⟩
  | none =>
    dsimp only
    cases hi : instItems E.ctx.heap E.depth (w.at o).ref.idx with
    | error e => exact ⟨.refl I, fun _ _ h => by cases h⟩
    | ok rs =>
      dsimp only
      have hidx : (fun x : Obj => { x with children := some (List.range' w.objs.length rs.length) }) (w.at o) =
          (fun x : Obj => { x with children := some (List.range' w.objs.length rs.length), index := (w.at o).index }) (w.at o) := rfl
      have hw : (assign o (fun x => { x with children := some (List.range' w.objs.length rs.length) })
          (create (rs.map fun r => { cls := .item, ref := r, parent := some o }) w).2).2 =
          withKids o (rs.map fun r => { cls := .item, ref := r, parent := some o }) (List.range' w.objs.length rs.length) (w.at o).index w := by
        unfold withKids assign
        simp only [create]
        congr 1
        apply List.ext_getElem?
        intro k
        rw [List.getElem?_modify, List.getElem?_modify]
        split
        · rename_i e
          subst e
          have e2 : w.at o = w.objs[o] := by simp [World.at, ho]
          rw [List.getElem?_append_left ho, List.getElem?_eq_getElem ho, e2]
          rfl
        · rfl
      rw [hw]
      have K : KidsOk E (withKids o (rs.map fun r => { cls := .item, ref := r, parent := some o }) (List.range' w.objs.length rs.length) (w.at o).index w) o
          (List.range' w.objs.length rs.length) := by
        refine ⟨?_, ?_, List.nodup_range', ?_⟩
        · intro y hy
          obtain ⟨h1, h2⟩ := mem_new hy
          obtain ⟨k, rfl⟩ : ∃ k, y = w.objs.length + k := ⟨y - w.objs.length, by omega⟩
          have hk : k < (rs.map fun r => ({ cls := .item, ref := r, parent := some o } : Obj)).length := by rw [List.length_map]; omega
          refine ⟨by omega, by rw [len_withKids]; omega, ?_, ?_⟩
          · rw [at_withKids_new ho hk, at_withKids_self ho]; simp [hcls, childCls]
          · rw [at_withKids_new ho hk]; simp
        · rw [new_refs (fun x => x.ref) ho]
          simp only [ChildRefs, at_withKids_self ho, hcls, hi]
          simp
        · intro h
          rw [at_withKids_self ho] at h
          exact absurd hcls h
      refine ⟨keeps_withKids I ho hc (by rw [hcls]; rfl) ?_ K, fun ys' w1 h => ?_⟩
      · intro x hx
        obtain ⟨r, hr, rfl⟩ := List.mem_map.1 hx
        obtain ⟨j, k, rfl, h2⟩ := instItems_actual _ _ _ hi r hr
        exact ⟨rfl, by rw [hcls]; rfl, h2, rfl, rfl, rfl⟩
      · injection h with h1 h2
        cases h1
        rw [← h2]
        exact ⟨by rw [at_withKids_self ho], K⟩

/-! ## Fieldsets -/

theorem fieldsetEntries_run : fieldsetEntries E o w = match (w.at o).children with
    | some ys => (.ok ys, w)
    | none =>
      match instEntries E.ctx.heap E.depth (w.at o).ref.idx [] with
      | .error e => (.error (.py e), w)
      | .ok (made, listed) =>
        let ys := List.range' w.objs.length made.length
        let zs := listed.map fun r => ys.getD (made.idxOf r) 0
        (.ok zs, withKids o (made.map fun r => { cls := .entry, ref := r, parent := some o }) zs (indexOf ((made.map fun r => (E.ctx.heap.key? r).getD []).zip ys)) w) := by
  unfold fieldsetEntries
  rw [bind_ok obj_run]
  cases (w.at o).children with
  | some ys => rfl
  | none =>
    dsimp only
    cases instEntries E.ctx.heap E.depth (w.at o).ref.idx [] with
    | error e => rfl
    | ok p =>
      obtain ⟨made, listed⟩ := p
      dsimp only
      rw [bind_ok (a := List.range' w.objs.length made.length) (w' := (create (made.map fun r => { cls := .entry, ref := r, parent := some o }) w).2)]
      · rfl
      · simp [create]

/-- A listing of objects by their instructions. -/
theorem relist {made listed : List Ref} {a : Nat} {g : Nat → Ref} (hd : made.Nodup) (hm : ∀ r, r ∈ made ↔ r ∈ listed)
    (hg : ∀ k (h : k < made.length), g (a + k) = made[k]) :
    (listed.map fun r => (List.range' a made.length).getD (made.idxOf r) 0).map g = listed ∧
    (∀ y, y ∈ (listed.map fun r => (List.range' a made.length).getD (made.idxOf r) 0) ↔ y ∈ List.range' a made.length) ∧
    (listed.Nodup → (listed.map fun r => (List.range' a made.length).getD (made.idxOf r) 0).Nodup) ∧
    (List.range' a made.length) = made.map (fun r => (List.range' a made.length).getD (made.idxOf r) 0) := by
  have hid : ∀ r ∈ made, made.idxOf r < made.length := fun r hr => List.idxOf_lt_length_of_mem hr
  have hget : ∀ r ∈ made, (List.range' a made.length).getD (made.idxOf r) 0 = a + made.idxOf r := by
    intro r hr
    have := hid r hr
    simp [List.getD_eq_getElem?_getD, this]
  have hgr : ∀ r ∈ made, g (a + made.idxOf r) = r := by
    intro r hr
    rw [hg _ (hid r hr)]
    simp
  refine ⟨?_, ?_, ?_, ?_⟩
  · rw [List.map_map]
    have : listed.map (g ∘ fun r => (List.range' a made.length).getD (made.idxOf r) 0) = listed.map id :=
      List.map_congr_left fun r hr => by
        have := (hm r).2 hr
        rw [Function.comp, hget r this, hgr r this]; rfl
    rw [this, List.map_id]
  · intro y
    constructor
    · intro hy
      obtain ⟨r, hr, rfl⟩ := List.mem_map.1 hy
      have := (hm r).2 hr
      rw [hget r this, List.mem_range']
      exact ⟨_, hid r this, by omega⟩
    · intro hy
      obtain ⟨k, hk, rfl⟩ := List.mem_range'.1 hy
      refine List.mem_map.2 ⟨made[k], (hm _).1 (by simp), ?_⟩
      rw [hget _ (by simp), hd.idxOf_getElem]
      omega
  · intro hl
    unfold List.Nodup at hl ⊢
    rw [List.pairwise_map]
    refine hl.imp_of_mem fun {r s} hr hs hne e => hne ?_
    have hr := (hm r).2 hr
    have hs := (hm s).2 hs
    rw [hget r hr, hget s hs] at e
    rw [← hgr r hr, e, hgr s hs]
  · apply List.ext_getElem
    · simp
    · intro k h1 h2
      simp only [List.length_range'] at h1
      simp only [List.getElem_map]
      rw [hget _ (by simp), hd.idxOf_getElem]
      simp

theorem fieldsetEntries_keeps (V : EnvOk E) (I : Inv E w) (hx : IsA w o (.of .fieldset)) : Keeps E w (fieldsetEntries E o w).2 ∧
    ∀ ys w1, fieldsetEntries E o w = (.ok ys, w1) → (w1.at o).children = some ys ∧ KidsOk E w1 o ys := by
  obtain ⟨ho, hcls⟩ := hx
  rw [fieldsetEntries_run]
  cases hc : (w.at o).children with
  | some ys =>
    refine ⟨.refl I, fun ys' w1 h => ?_⟩
    change ((Except.ok ys : Except Exc _), w) = _ at h
    cases h
    exact ⟨hc, (I.objs o ho).kids ys hc⟩
  | none =>
    dsimp only
    cases hi : instEntries E.ctx.heap E.depth (w.at o).ref.idx [] with
    | error e => exact ⟨.refl I, fun _ _ h => by cases h⟩
    | ok p =>
      obtain ⟨made, listed⟩ := p
      dsimp only
      obtain ⟨made', e, M⟩ := instEntries_made _ _ _ _ _ hi
      rw [List.nil_append] at e
      subst e
      generalize hidx : indexOf ((made.map fun r => (E.ctx.heap.key? r).getD []).zip (List.range' w.objs.length made.length)) = index
      have hl : listed.Nodup := by
        rw [List.nodup_iff_count]
        intro r
        have h1 : listed.count r = (listed.filter fun x => decide (E.ctx.heap.key? x = E.ctx.heap.key? r)).count r := by
          rw [List.count_filter (by simp)]
        rw [h1, ← M.same, List.count_filter (by simp)]
        exact (List.nodup_iff_count.1 M.distinct) r
      have hat : ∀ zs k (h : k < made.length),
          ((withKids o (made.map fun r => { cls := .entry, ref := r, parent := some o }) zs index w).at (w.objs.length + k)) = { cls := .entry, ref := made[k], parent := some o } := by
        intro zs k h
        rw [at_withKids_new ho (by simpa using h)]
        simp
      have R := fun zs => relist (listed := listed) (a := w.objs.length)
        (g := fun y => ((withKids o (made.map fun r => { cls := .entry, ref := r, parent := some o }) zs index w).at y).ref) M.distinct (fun r => M.mem r)
        (fun k h => by rw [hat zs k h])
      generalize hzs : (listed.map fun r => (List.range' w.objs.length made.length).getD (made.idxOf r) 0) = zs at R
      obtain ⟨R1, R2, R3, R4⟩ := R zs
      have K : KidsOk E (withKids o (made.map fun r => { cls := .entry, ref := r, parent := some o }) zs index w) o zs := by
        refine ⟨?_, ?_, R3 hl, ?_⟩
        · intro y hy
          obtain ⟨h1, h2⟩ := mem_new ((R2 y).1 hy)
          obtain ⟨k, rfl⟩ : ∃ k, y = w.objs.length + k := ⟨y - w.objs.length, by omega⟩
          have hk : k < made.length := by omega
          refine ⟨by omega, by rw [len_withKids, List.length_map]; omega, ?_, ?_⟩
          · rw [hat zs k hk, at_withKids_self ho]; simp [hcls, childCls]
          · rw [hat zs k hk]
        · simp only [ChildRefs, at_withKids_self ho, hcls]
          exact ⟨made, by rw [hi, R1]⟩
        · intro _
          refine ⟨List.range' w.objs.length made.length, ?_, fun k => ?_⟩
          · rw [at_withKids_self ho]
            dsimp only
            refine hidx.symm.trans ?_
            congr 1
            apply List.ext_getElem
            · simp
            · intro k h1 h2
              have hk : k < made.length := by simpa using h1
              simp only [List.getElem_zip, List.getElem_map, List.getElem_range', Nat.one_mul]
              rw [keyAt, hat zs k hk]
              obtain ⟨i, j, e, _⟩ := M.actual made[k] (by simp)
              simp only [e, keyText]
          · have key : ∀ xs : List Ref, (∀ r ∈ xs, r ∈ made) → (xs.map fun r => (List.range' w.objs.length made.length).getD (made.idxOf r) 0).filter
                (fun z => decide (keyAt E (withKids o (made.map fun r => { cls := .entry, ref := r, parent := some o }) zs index w) z = k)) =
                (xs.filter fun r => decide ((E.ctx.heap.key? r).getD [] = k)).map fun r => (List.range' w.objs.length made.length).getD (made.idxOf r) 0 := by
              intro xs hxs
              rw [List.filter_map]
              congr 1
              refine List.filter_congr fun r hr => ?_
              have hm := hxs r hr
              have hid : made.idxOf r < made.length := List.idxOf_lt_length_of_mem hm
              have hget : (List.range' w.objs.length made.length).getD (made.idxOf r) 0 = w.objs.length + made.idxOf r := by
                simp [List.getD_eq_getElem?_getD, hid]
              have hgr : made[made.idxOf r] = r := by simp
              have hkt : keyAt E (withKids o (made.map fun r => { cls := .entry, ref := r, parent := some o }) zs index w)
                  ((List.range' w.objs.length made.length).getD (made.idxOf r) 0) = (E.ctx.heap.key? r).getD [] := by
                rw [keyAt, hget, hat zs _ hid, hgr]
                obtain ⟨i, j, e, _⟩ := M.actual r hm
                simp only [e, keyText]
              refine decide_eq_decide.2 ?_
              exact ⟨fun h => hkt.symm.trans h, fun h => hkt.trans h⟩
            have hsame : (made.filter fun r => decide ((E.ctx.heap.key? r).getD [] = k)) = listed.filter fun r => decide ((E.ctx.heap.key? r).getD [] = k) := by
              have hkey : ∀ r ∈ made, decide ((E.ctx.heap.key? r).getD [] = k) = decide (E.ctx.heap.key? r = some k) := by
                intro r hr
                obtain ⟨i, j, rfl, h⟩ := M.actual r hr
                obtain ⟨x, hx⟩ := Option.isSome_iff_exists.1 h
                obtain ⟨t, ht⟩ := Option.isSome_iff_exists.1 (V.keys i j x hx)
                simp [Heap.key?, hx, ht]
              rw [List.filter_congr hkey, List.filter_congr fun r hr => hkey r ((M.mem r).2 hr)]
              exact M.same (some k)
            have k1 := key listed (fun r hr => (M.mem r).2 hr)
            have k2 := key made (fun _ h => h)
            rw [hzs, ← hsame, ← k2, ← R4] at k1
            exact k1.symm
      refine ⟨keeps_withKids I ho hc (by rw [hcls]; rfl) ?_ K, fun ys' w1 h => ?_⟩
      · intro x hx
        obtain ⟨r, hr, rfl⟩ := List.mem_map.1 hx
        obtain ⟨j, k, rfl, h2⟩ := M.actual r hr
        exact ⟨rfl, by rw [hcls]; rfl, h2, rfl, rfl, rfl⟩
      · injection h with h1 h2
        cases h1
        rw [← h2]
        exact ⟨by rw [at_withKids_self ho], K⟩

/-! ## Sections -/

theorem sectionElements_run : sectionElements E o w = match (w.at o).children with
    | some ys => (.ok ys, w)
    | none =>
      let r := madeElements E.ctx.heap E.depth (w.at o).ref.idx []
      let ys := List.range' w.objs.length r.2.length
      (match r.1 with | some e => .error (.py e) | none => .ok ys,
        withKids o (r.2.map fun i => { cls := .sectionElement, ref := .elem i, parent := some o }) ys (indexOf ((r.2.map fun i => (E.ctx.heap.at i).key).zip ys)) w) := by
  unfold sectionElements
  rw [bind_ok obj_run]
  cases (w.at o).children with
  | some ys => rfl
  | none =>
    dsimp only
    obtain ⟨f, is⟩ := madeElements E.ctx.heap E.depth (w.at o).ref.idx []
    dsimp only
    rw [bind_ok (a := List.range' w.objs.length is.length) (w' := (create (is.map fun i => { cls := .sectionElement, ref := .elem i, parent := some o }) w).2)]
    · cases f with
      | none => rfl
      | some e => rfl
    · simp [create]

theorem sectionElements_keeps (V : EnvOk E) (I : Inv E w) (hx : IsA w o (.of .section)) : Keeps E w (sectionElements E o w).2 ∧
    ∃ ys, ((sectionElements E o w).2.at o).children = some ys ∧ KidsOk E (sectionElements E o w).2 o ys ∧ ∀ ys' w1, sectionElements E o w = (.ok ys', w1) → ys' = ys := by
  obtain ⟨ho, hcls⟩ := hx
  rw [sectionElements_run]
  cases hc : (w.at o).children with
  | some ys =>
    refine ⟨.refl I, ys, hc, (I.objs o ho).kids ys hc, fun ys' w1 h => ?_⟩
    injection h with h1 h2
    cases h1
    rfl
  | none =>
    dsimp only
    have A := madeElements_actual V E.depth (w.at o).ref.idx [] (by simp)
    generalize hm : madeElements E.ctx.heap E.depth (w.at o).ref.idx [] = r at A
    obtain ⟨f, is⟩ := r
    dsimp only at A ⊢
    generalize hidx : indexOf ((is.map fun i => (E.ctx.heap.at i).key).zip (List.range' w.objs.length is.length)) = index
    have hat : ∀ k (h : k < is.length), (withKids o (is.map fun i => { cls := .sectionElement, ref := .elem i, parent := some o }) (List.range' w.objs.length is.length) index w).at
        (w.objs.length + k) = { cls := .sectionElement, ref := .elem is[k], parent := some o } := by
      intro k h
      rw [at_withKids_new ho (by simpa using h)]
      simp
    have K : KidsOk E (withKids o (is.map fun i => { cls := .sectionElement, ref := .elem i, parent := some o }) (List.range' w.objs.length is.length) index w) o
        (List.range' w.objs.length is.length) := by
      refine ⟨?_, ?_, List.nodup_range', ?_⟩
      · intro y hy
        obtain ⟨h1, h2⟩ := mem_new hy
        obtain ⟨k, rfl⟩ : ∃ k, y = w.objs.length + k := ⟨y - w.objs.length, by omega⟩
        have hk : k < is.length := by omega
        refine ⟨by omega, by rw [len_withKids, List.length_map]; omega, ?_, ?_⟩
        · rw [hat k hk, at_withKids_self ho]; simp [hcls, childCls]
        · rw [hat k hk]
      · rw [new_refs (fun x => x.ref) ho]
        simp only [ChildRefs, at_withKids_self ho, hcls, hm]
      · intro _
        refine ⟨List.range' w.objs.length is.length, ?_, fun _ => rfl⟩
        rw [at_withKids_self ho]
        dsimp only
        refine hidx.symm.trans ?_
        congr 1
        apply List.ext_getElem
        · simp
        · intro k h1 h2
          have hk : k < is.length := by simpa using h1
          simp only [List.getElem_zip, List.getElem_map, List.getElem_range', Nat.one_mul]
          rw [keyAt, hat k hk]
          rfl
    refine ⟨keeps_withKids I ho hc (by rw [hcls]; rfl) ?_ K, _, by rw [at_withKids_self ho], K, fun ys' w1 h => ?_⟩
    · intro x hx
      obtain ⟨i, hi, rfl⟩ := List.mem_map.1 hx
      exact ⟨rfl, by rw [hcls]; rfl, A i hi, rfl, rfl, rfl⟩
    · injection h with h1 h2
      cases f with
      | some e => cases h1
      | none => cases h1; rfl

end Eno.El
