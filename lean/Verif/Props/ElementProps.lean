import Verif.Proofs.ElementSample

/-!
# Properties of elements, in any world that a program can reach

`E` holds the loaded document, `w` is the world after any program ran, `o` an object in it.
-/

namespace Eno.El

variable {α β : Type} {w w' w1 : World} {o y i : Nat} {E : Env} {input : Str} {xs : List Nat} {key : Option Str} {k k' : Kind} {want : Want} {required : Option Bool}

/-! ## C42 -/

/-- Accessors for one element, if there is none with the key: required access raises, optional access returns nothing, other access returns a missing object.
Access is also required if all elements of the section are. -/
theorem C42_none (hl : load input = .ok E.ctx) (hw : Reach E w) (hx : IsA w o (.of .section)) (hel : Elements E (w.at o) xs) (hk : withKey E.ctx.heap key xs = []) :
    (run E o (.one want key required) w).1 =
      if required = some true ∨ (w.at o).required = true then raised (missingElement E.o E.ctx key (w.at o).ref.idx (missingOf want))
      else if required = none then .ok (.missing (.under o (some want) key))
      else .ok .none := by
  have V := envOk_load hl
  obtain ⟨zs, w1, O, h1, h2, h4, h3⟩ := single_found V (hw.inv V) hx hel want key required
  rw [hk] at h1
  have : zs = [] := by simpa using h1
  subst this
  rw [one_run hx, h3, ← missing_eq]
  dsimp only
  by_cases c1 : required = some true ∨ (w.at o).required = true
  · rw [if_pos c1, if_pos c1]
    obtain ⟨e, he⟩ := raised_is (missingElement E.o E.ctx key (w.at o).ref.idx want.missing)
    rw [he, he]
  · rw [if_neg c1, if_neg c1]
    by_cases c2 : required = none
    · rw [if_pos c2, if_pos c2]
    · rw [if_neg c2, if_neg c2]

example : ∃ E input w o xs, load input = .ok E.ctx ∧ Reach E w ∧ IsA w o (.of .section) ∧ Elements E (w.at o) xs ∧ withKey E.ctx.heap (some (chars!"x")) xs = [] := by
  obtain ⟨E, S⟩ := sample
  exact ⟨E, sampleText, World.start, 0, _, S.loaded, start_reach, start_section, S.elements, S.x⟩

/-- If there are several, access raises an error about all of them. -/
theorem C42_several (hl : load input = .ok E.ctx) (hw : Reach E w) (hx : IsA w o (.of .section)) (hel : Elements E (w.at o) xs)
    (hk : 2 ≤ (withKey E.ctx.heap key xs).length) :
    (run E o (.one want key required) w).1 = raised (unexpectedMultipleElements E.o E.ctx key ((withKey E.ctx.heap key xs).map .elem) (singleOf want)) := by
  have V := envOk_load hl
  obtain ⟨zs, w1, O, h1, h2, h4, h3⟩ := single_found V (hw.inv V) hx hel want key required
  have hz : 2 ≤ zs.length := by
    have := congrArg List.length h1
    simp only [List.length_map] at this
    omega
  obtain ⟨a, b, t, rfl⟩ : ∃ a b t, zs = a :: b :: t := by
    match zs, hz with
    | a :: b :: t, _ => exact ⟨a, b, t, rfl⟩
  rw [one_run hx, h3, ← single_eq]
  dsimp only
  rw [h1]
  obtain ⟨e, he⟩ := raised_is (unexpectedMultipleElements E.o E.ctx key ((withKey E.ctx.heap key xs).map .elem) want.single)
  rw [he, he]

example : ∃ E input w o xs, load input = .ok E.ctx ∧ Reach E w ∧ IsA w o (.of .section) ∧ Elements E (w.at o) xs ∧ 2 ≤ (withKey E.ctx.heap (some (chars!"b")) xs).length := by
  obtain ⟨E, S⟩ := sample
  exact ⟨E, sampleText, World.start, 0, _, S.loaded, start_reach, start_section, S.elements, by rw [S.b]; decide⟩

/-- If there is exactly one, `element` returns its object. -/
theorem C42_element (hl : load input = .ok E.ctx) (hw : Reach E w) (hx : IsA w o (.of .section)) (hel : Elements E (w.at o) xs)
    (hk : withKey E.ctx.heap key xs = [i]) : ∃ y, (run E o (.one .any key required) w).1 = .ok (.obj y) ∧ ObjectFor (run E o (.one .any key required) w).2 o i y := by
  have V := envOk_load hl
  obtain ⟨zs, w1, O, h1, h2, h4, h3⟩ := single_found V (hw.inv V) hx hel .any key required
  rw [hk] at h1
  obtain ⟨y, rfl⟩ : ∃ y, zs = [y] := List.length_eq_one_iff.1 (by simpa using congrArg List.length h1)
  rw [one_run hx, h3]
  exact ⟨y, rfl, h2 y (by simp) i (by simpa using h1)⟩

example : ∃ E input w o xs, load input = .ok E.ctx ∧ Reach E w ∧ IsA w o (.of .section) ∧ Elements E (w.at o) xs ∧ withKey E.ctx.heap (some (chars!"a")) xs = [1] := by
  obtain ⟨E, S⟩ := sample
  exact ⟨E, sampleText, World.start, 0, _, S.loaded, start_reach, start_section, S.elements, S.a⟩

/-- If there is exactly one, and its kind does not fit, access raises an error about it. -/
theorem C42_other_kind (hl : load input = .ok E.ctx) (hw : Reach E w) (hx : IsA w o (.of .section)) (hel : Elements E (w.at o) xs)
    (hk : withKey E.ctx.heap key xs = [i]) (hf : ¬ Fits k (E.ctx.heap.at i).type) :
    (run E o (.one (.kind k) key required) w).1 = raised (unexpectedElementType E.o E.ctx key (.elem i) (expectedOf k)) := by
  rw [← expected_eq]
  have hf := not_fits.1 hf
  obtain ⟨y, w1, O, h1, uniq, h2⟩ := kind_found (k := k) (required := required) (envOk_load hl) (hw.inv (envOk_load hl)) hx hel hk
  rw [one_run hx, h2, map_run]
  unfold castTo
  rw [bind_ok obj_run, h1.ref]
  have : k.fits (E.ctx.heap.type (.elem i)) = false := hf
  rw [this, if_neg (by simp), validation_run]
  obtain ⟨e, he⟩ := raised_is (unexpectedElementType E.o E.ctx key (.elem i) k.expected)
  rw [he, he]

example : ∃ E input w o xs, load input = .ok E.ctx ∧ Reach E w ∧ IsA w o (.of .section) ∧ Elements E (w.at o) xs ∧ withKey E.ctx.heap (some (chars!"l")) xs = [4] ∧
    ¬ Fits .field (E.ctx.heap.at 4).type := by
  obtain ⟨E, S⟩ := sample
  exact ⟨E, sampleText, World.start, 0, _, S.loaded, start_reach, start_section, S.elements, S.l, not_fits.2 S.fieldL⟩

/-- Partial: it is left out that the element was yielded as another kind before. If there is exactly one and its kind fits, access returns an object of that kind
for the element. -/
theorem C42_partial (hl : load input = .ok E.ctx) (hw : Reach E w) (hx : IsA w o (.of .section)) (hel : Elements E (w.at o) xs)
    (hk : withKey E.ctx.heap key xs = [i]) (hf : Fits k (E.ctx.heap.at i).type) (hy : k = .section ∨ FreeFor w o i k) :
    ∃ z, (run E o (.one (.kind k) key required) w).1 = .ok (.obj z) ∧ IsA (run E o (.one (.kind k) key required) w).2 z (.of k) ∧
      ((run E o (.one (.kind k) key required) w).2.at z).ref = .elem i ∧ ((run E o (.one (.kind k) key required) w).2.at z).parent = some o := by
  obtain ⟨y, w1, O, h1, uniq, h2⟩ := kind_found (k := k) (required := required) (envOk_load hl) (hw.inv (envOk_load hl)) hx hel hk
  have hf' : k.fits (E.ctx.heap.type (w1.at y).ref) = true := by rw [h1.ref]; exact fits_iff.1 hf
  obtain ⟨z, w2, hz, _, K, A, R, P⟩ := cast_ok (key := key) (m := k.expected) O.keeps.inv h1.isA hf' (hy.imp id fun e k' hk' => by
    rcases O.before i y h1 with hn | ⟨hb, hyy, _⟩
    · rw [hn] at hk'; cases hk'
    · exact e y k' hb (by rw [← hyy]; exact hk'))
  have hr : run E o (.one (.kind k) key required) w = (.ok (.obj z), w2) := by rw [one_run hx, h2, map_run, hz]
  rw [hr]
  exact ⟨z, rfl, A, by rw [R]; exact h1.ref, by rw [P]; exact h1.parent⟩

example : ∃ E input w o xs, load input = .ok E.ctx ∧ Reach E w ∧ IsA w o (.of .section) ∧ Elements E (w.at o) xs ∧ withKey E.ctx.heap (some (chars!"a")) xs = [1] ∧
    Fits .field (E.ctx.heap.at 1).type ∧ FreeFor w o 1 .field := by
  obtain ⟨E, S⟩ := sample
  exact ⟨E, sampleText, World.start, 0, _, S.loaded, start_reach, start_section, S.elements, S.a, fits_iff.2 S.fieldA, start_free⟩

/-- The remaining case: the element was yielded as another kind. -/
theorem C42_yielded (hl : load input = .ok E.ctx) (hw : Reach E w) (hx : IsA w o (.of .section)) (hel : Elements E (w.at o) xs)
    (hk : withKey E.ctx.heap key xs = [i]) (hf : Fits k (E.ctx.heap.at i).type) (hs : k ≠ .section) (hy : ¬ FreeFor w o i k) :
    (run E o (.one (.kind k) key required) w).1 = .error (.py .typeError) := by
  obtain ⟨y, w1, O, h1, uniq, h2⟩ := kind_found (k := k) (required := required) (envOk_load hl) (hw.inv (envOk_load hl)) hx hel hk
  have V := envOk_load hl
  have I := hw.inv V
  have hf' : k.fits (E.ctx.heap.type (w1.at y).ref) = true := by rw [h1.ref]; exact fits_iff.1 hf
  obtain ⟨y', k', hb, hq, hne⟩ : ∃ y' k', ObjectFor w o i y' ∧ (w.at y').yielded = some k' ∧ k' ≠ k := by
    apply Classical.byContradiction
    intro hn
    exact hy fun y' k' a b => Classical.byContradiction fun c => hn ⟨y', k', a, b, c⟩
  have same : y' = y := uniq y' (hb.later O.keeps.later hx.1)
  subst same
  have hq1 : (w1.at y').yielded = some k' := (O.keeps.later.obj y' hb.isA.1).yielded k' hq
  have hm : (w1.at y').made k = none := by
    cases hm : (w1.at y').made k with
    | none => rfl
    | some z =>
      have := ((O.keeps.inv.objs y' h1.isA.1).yielded k).2 (by rw [hm]; rfl)
      rw [hq1] at this
      cases this
      exact absurd rfl hne
  rw [one_run hx, h2, map_run]
  unfold castTo
  rw [bind_ok obj_run, if_pos hf', to_run, hm]
  dsimp only
  rw [if_pos ⟨hs, by rw [hq1]; rfl⟩]

example : ∃ E input w o xs, load input = .ok E.ctx ∧ Reach E w ∧ IsA w o (.of .section) ∧ Elements E (w.at o) xs ∧ withKey E.ctx.heap (some (chars!"a")) xs = [1] ∧
    Fits .field (E.ctx.heap.at 1).type ∧ ¬ FreeFor w o 1 .field := by
  obtain ⟨E, S⟩ := sample
  obtain ⟨h1, h2, h3, h4, h5, h6, h7, h8⟩ := S.yielded
  have hel : Elements E ((sampleYielded E).at 0) [1, 2, 3, 4, 5] := by unfold Elements; rw [h8]; exact S.elements
  refine ⟨E, sampleText, sampleYielded E, 0, _, S.loaded, yielded_reach, ⟨Nat.lt_trans (by decide) h6, h7⟩, hel, S.a, fits_iff.2 S.fieldA, fun h => ?_⟩
  cases h 1 .list ⟨⟨_, h1, by decide⟩, ⟨h6, h2⟩, h3, h4⟩ h5

/-- The claim is false of the code for an element that was yielded as another kind before: `field(key)` raises `TypeError`, not a validation error, though the kind fits. -/
theorem C42_refuted : ∃ E w, load sampleText = .ok E.ctx ∧ Reach E w ∧ IsA w 0 (.of .section) ∧ Elements E (w.at 0) [1, 2, 3, 4, 5] ∧
    withKey E.ctx.heap (some (chars!"a")) [1, 2, 3, 4, 5] = [1] ∧ Fits .field (E.ctx.heap.at 1).type ∧
    (run E 0 (.one (.kind .field) (some (chars!"a")) none) w).1 = .error (.py .typeError) := by
  obtain ⟨E, S⟩ := sample
  obtain ⟨h1, h2, h3, h4, h5, h6, h7, h8⟩ := S.yielded
  have hel : Elements E ((sampleYielded E).at 0) [1, 2, 3, 4, 5] := by unfold Elements; rw [h8]; exact S.elements
  exact ⟨E, sampleYielded E, S.loaded, yielded_reach, ⟨Nat.lt_trans (by decide) h6, h7⟩, hel, S.a, fits_iff.2 S.fieldA, isTypeError_iff.1 S.refused⟩

/-! ## C43 -/

/-- `elements` returns the objects of the elements with the key, in order. -/
theorem C43_elements (hl : load input = .ok E.ctx) (hw : Reach E w) (hx : IsA w o (.of .section)) (hel : Elements E (w.at o) xs) :
    ∃ zs, (run E o (.many .any key) w).1 = .ok (.objs zs) ∧
      zs.map (fun y => ((run E o (.many .any key) w).2.at y).ref) = (withKey E.ctx.heap key xs).map .elem ∧
      ∀ z ∈ zs, IsA (run E o (.many .any key) w).2 z .sectionElement ∧ ((run E o (.many .any key) w).2.at z).parent = some o := by
  have V := envOk_load hl
  obtain ⟨zs, w1, O, h1, h2, h3⟩ := several_found V (hw.inv V) hx hel .any key
  have hr : run E o (.many .any key) w = (.ok (.objs zs), w1) := by rw [many_run hx (by simp), map_run, h3]
  rw [hr]
  refine ⟨zs, rfl, h1, fun z hz => ?_⟩
  have : (w1.at z).ref ∈ (withKey E.ctx.heap key xs).map .elem := by rw [← h1]; exact List.mem_map.2 ⟨z, hz, rfl⟩
  obtain ⟨i, _, hi⟩ := List.mem_map.1 this
  exact ⟨(h2 z hz i hi.symm).isA, (h2 z hz i hi.symm).parent⟩

example : ∃ E input w o xs, load input = .ok E.ctx ∧ Reach E w ∧ IsA w o (.of .section) ∧ Elements E (w.at o) xs ∧ withKey E.ctx.heap (some (chars!"b")) xs = [2, 3] := by
  obtain ⟨E, S⟩ := sample
  exact ⟨E, sampleText, World.start, 0, _, S.loaded, start_reach, start_section, S.elements, S.b⟩

/-- `elements()` returns the same objects whenever it is called, and `elements(key)` those of them with the key, whatever happens in between. -/
theorem C43_same {ys : List Nat} {c : Char} {n : Str} (hl : load input = .ok E.ctx) (hw : Reach E w) (hx : IsA w o (.of .section))
    (hr : (run E o (.many .any none) w).1 = .ok (.objs ys)) (hw' : Leads E (run E o (.many .any none) w).2 w') :
    (run E o (.many .any none) w').1 = .ok (.objs ys) ∧
    (run E o (.many .any (some (c :: n))) w').1 = .ok (.objs (ys.filter fun y => (E.ctx.heap.at (w'.at y).ref.idx).key = c :: n)) := by
  have V := envOk_load hl
  have I := hw.inv V
  have K0 : Keeps E w (setTouched o w).2 := keeps_touched I
  have hx0 := hx.later K0.later
  rw [many_run hx (by simp), map_run] at hr hw'
  have hs : several E .any o none w = sectionElements E o (setTouched o w).2 := by
    unfold several
    rw [bind_ok (m := setTouched o) (a := ()) (w' := (setTouched o w).2) rfl]
    change (sectionElements E o >>= pure) _ = _
    rw [bind_run]
    generalize sectionElements E o (setTouched o w).2 = r
    obtain ⟨a, b⟩ := r
    cases a <;> rfl
  rw [hs] at hr hw'
  have KE := (sectionElements_keeps V K0.inv hx0).1
  cases hq : sectionElements E o (setTouched o w).2 with
  | mk a w1 =>
    cases a with
    | error e => rw [hq] at hr; cases hr
    | ok zs =>
      rw [hq] at hr hw' KE
      obtain ⟨h1, h2, h3⟩ := elements_of V K0.inv hx0 hq
      have e : zs = ys := by
        have : (Val.objs zs) = Val.objs ys := by injection hr
        simp only [Val.objs, Val.list.injEq] at this
        exact List.map_inj_right (f := Val.obj) (fun a b h => by injection h) |>.1 this
      subst e
      have K := Leads.keeps V KE.inv hw'
      have hxw := (hx0.later KE.later).later K.later
      have hc : (w'.at o).children = some zs := ((K.later.obj o (hx0.later KE.later).1).children zs h2).1
      refine ⟨(elements_stay K.inv hxw hc none).2, ?_⟩
      rw [(elements_stay K.inv hxw hc (some (c :: n))).1]
      congr 2
      apply List.filter_congr
      intro y hy
      have R := h1.members y hy
      have hcl := (K.inv.objs y (Nat.lt_of_lt_of_le R.2.1 K.later.len)).ref
      rw [(K.later.obj y R.2.1).cls, R.2.2.1, (hx0.later KE.later).2] at hcl
      unfold asked keyAt
      cases hr : (w'.at y).ref with
      | elem i => rfl
      | item i j => rw [hr] at hcl; exact hcl.elim
      | entry i j => rw [hr] at hcl; exact hcl.elim

example : ∃ E input w o ys, load input = .ok E.ctx ∧ Reach E w ∧ IsA w o (.of .section) ∧ (run E o (.many .any none) w).1 = .ok (.objs ys) ∧ ys.length = 5 ∧
    Leads E (run E o (.many .any none) w).2 (run E o (.many .any none) w).2 := by
  obtain ⟨E, S⟩ := sample
  obtain ⟨zs, h1, h2, _⟩ := C43_elements (key := none) S.loaded start_reach start_section S.elements
  refine ⟨E, sampleText, World.start, 0, zs, S.loaded, start_reach, start_section, h1, ?_, ⟨0, .done⟩⟩
  simpa [withKey] using congrArg List.length h2

theorem kinds_found (V : EnvOk E) (I : Inv E w) (hx : IsA w o (.of .section)) (hel : Elements E (w.at o) xs) (he : k ≠ .empty) :
    ∃ zs w1, Opened E w o w1 ∧ zs.map (fun y => (w1.at y).ref) = (withKey E.ctx.heap key xs).map .elem ∧ (∀ z ∈ zs, ∃ i ∈ withKey E.ctx.heap key xs, ObjectFor w1 o i z) ∧
      run E o (.many (.kind k) key) w = (Val.objs <$> each (castTo E k key k.expectedMany) zs : Api Val) w1 := by
  obtain ⟨zs, w1, O, h1, h2, h3⟩ := several_found V I hx hel (.kind k) key
  refine ⟨zs, w1, O, h1, fun z hz => ?_, ?_⟩
  · have : (w1.at z).ref ∈ (withKey E.ctx.heap key xs).map .elem := by rw [← h1]; exact List.mem_map.2 ⟨z, hz, rfl⟩
    obtain ⟨i, hi, e⟩ := List.mem_map.1 this
    exact ⟨i, hi, h2 z hz i e.symm⟩
  · rw [many_run hx (by simpa using he), map_run, h3, map_run]

theorem opened_free {O : Opened E w o w1} {z : Nat} (hz : ObjectFor w1 o i z) (hf : FreeFor w o i k) : ∀ k', (w1.at z).yielded = some k' → k' = k := by
  intro k' hk'
  rcases O.before i z hz with hn | ⟨hb, hyy, _⟩
  · rw [hn] at hk'; cases hk'
  · exact hf z k' hb (by rw [← hyy]; exact hk')

/-- `fields`, `fieldsets`, `lists` and `sections` return objects of that kind for the elements with the key, in order, if the kind of all fits and none was yielded as
another kind. -/
theorem C43_kinds (hl : load input = .ok E.ctx) (hw : Reach E w) (hx : IsA w o (.of .section)) (hel : Elements E (w.at o) xs) (he : k ≠ .empty)
    (hf : ∀ i ∈ withKey E.ctx.heap key xs, Fits k (E.ctx.heap.at i).type) (hy : k = .section ∨ ∀ i ∈ withKey E.ctx.heap key xs, FreeFor w o i k) :
    ∃ zs, (run E o (.many (.kind k) key) w).1 = .ok (.objs zs) ∧
      zs.map (fun z => ((run E o (.many (.kind k) key) w).2.at z).ref) = (withKey E.ctx.heap key xs).map .elem ∧
      ∀ z ∈ zs, IsA (run E o (.many (.kind k) key) w).2 z (.of k) := by
  have V := envOk_load hl
  obtain ⟨ys, w1, O, h1, h2, h3⟩ := kinds_found (key := key) V (hw.inv V) hx hel he
  obtain ⟨zs, w2, e, K, R, A, _⟩ := casts_ok (key := key) (m := k.expectedMany) ys w1 O.keeps.inv (fun y hy => (h2 y hy).elim fun _ h => h.2.isA)
    (fun y hy => by obtain ⟨i, hi, h⟩ := h2 y hy; rw [h.ref]; exact fits_iff.1 (hf i hi))
    (hy.imp id fun e y hy => by obtain ⟨i, hi, h⟩ := h2 y hy; exact opened_free (O := O) h (e i hi))
  rw [h3, map_run, e]
  exact ⟨zs, rfl, R.trans h1, A⟩

example : ∃ E input w o xs, load input = .ok E.ctx ∧ Reach E w ∧ IsA w o (.of .section) ∧ Elements E (w.at o) xs ∧ Kind.field ≠ .empty ∧
    (∀ i ∈ withKey E.ctx.heap (some (chars!"b")) xs, Fits .field (E.ctx.heap.at i).type) ∧ withKey E.ctx.heap (some (chars!"b")) xs ≠ [] ∧
    ∀ i ∈ withKey E.ctx.heap (some (chars!"b")) xs, FreeFor w o i .field := by
  obtain ⟨E, S⟩ := sample
  refine ⟨E, sampleText, World.start, 0, _, S.loaded, start_reach, start_section, S.elements, by decide, fun i hi => ?_, by rw [S.b]; decide, fun _ _ => start_free⟩
  rw [S.b] at hi
  rcases List.mem_cons.1 hi with rfl | hi
  · exact fits_iff.2 S.fieldB.1
  · rcases List.mem_cons.1 hi with rfl | hi
    · exact fits_iff.2 S.fieldB.2
    · cases hi

/-- The first one whose kind does not fit is the one that they raise an error about. -/
theorem C43_other_kind {pre post : List Nat} (hl : load input = .ok E.ctx) (hw : Reach E w) (hx : IsA w o (.of .section)) (hel : Elements E (w.at o) xs) (he : k ≠ .empty)
    (hk : withKey E.ctx.heap key xs = pre ++ i :: post) (hf : ∀ j ∈ pre, Fits k (E.ctx.heap.at j).type) (hy : k = .section ∨ ∀ j ∈ pre, FreeFor w o j k)
    (hi : ¬ Fits k (E.ctx.heap.at i).type) :
    (run E o (.many (.kind k) key) w).1 = raised (unexpectedElementType E.o E.ctx key (.elem i) (expectedAllOf k)) := by
  rw [← expectedMany_eq]
  have hi := not_fits.1 hi
  have V := envOk_load hl
  obtain ⟨ys, w1, O, h1, h2, h3⟩ := kinds_found (key := key) V (hw.inv V) hx hel he
  rw [hk, List.map_append, List.map_cons] at h1
  obtain ⟨as, bs, rfl, ha, hb⟩ := List.map_eq_append_iff.1 h1
  obtain ⟨y, cs, rfl, hyr, _⟩ := List.map_eq_cons_iff.1 hb
  have mem : ∀ a ∈ as, ∃ j ∈ pre, ObjectFor w1 o j a := fun a haa => by
    have : (w1.at a).ref ∈ pre.map .elem := by rw [← ha]; exact List.mem_map.2 ⟨a, haa, rfl⟩
    obtain ⟨j, hj, e⟩ := List.mem_map.1 this
    obtain ⟨j', _, h⟩ := h2 a (by simp [haa])
    have : j' = j := by have := h.ref; rw [← e] at this; cases this; rfl
    exact ⟨j, hj, this ▸ h⟩
  obtain ⟨zs, w2, e, K, R, A, _⟩ := casts_ok (key := key) (m := k.expectedMany) as w1 O.keeps.inv (fun y hy => (mem y hy).elim fun _ h => h.2.isA)
    (fun y hy => by obtain ⟨i, hi, h⟩ := mem y hy; rw [h.ref]; exact fits_iff.1 (hf i hi))
    (hy.imp id fun e y hy => by obtain ⟨i, hi, h⟩ := mem y hy; exact opened_free (O := O) h (e i hi))
  rw [h3, map_run, each_append as (y :: cs) w1 zs e]
  have hc : castTo E k key k.expectedMany y w2 = (raised (unexpectedElementType E.o E.ctx key (.elem i) k.expectedMany), w2) := by
    obtain ⟨_, _, h⟩ := h2 y (by simp)
    unfold castTo
    rw [bind_ok obj_run, (K.later.obj y h.isA.1).ref, hyr, if_neg, validation_run]
    change ¬ (k.fits (E.ctx.heap.at i).type = true)
    rw [hi]; simp
  obtain ⟨err, he⟩ := raised_is (unexpectedElementType E.o E.ctx key (.elem i) k.expectedMany)
  rw [he] at hc
  unfold each
  rw [bind_error hc, he]

example : ∃ E input w o xs, load input = .ok E.ctx ∧ Reach E w ∧ IsA w o (.of .section) ∧ Elements E (w.at o) xs ∧ withKey E.ctx.heap (some (chars!"l")) xs = [] ++ 4 :: [] ∧
    ¬ Fits .field (E.ctx.heap.at 4).type := by
  obtain ⟨E, S⟩ := sample
  exact ⟨E, sampleText, World.start, 0, _, S.loaded, start_reach, start_section, S.elements, S.l, not_fits.2 S.fieldL⟩

/-! ## C47 -/

theorem to_call (hx : IsA w o .sectionElement ∨ IsA w o .element) : run E o (.to k) w = (Val.obj <$> to E k o : Api Val) w := by
  unfold run
  rw [bind_ok obj_run]
  rcases hx with h | h <;> rw [h.2]

/-- Yielding an element again as the same kind returns the same object, whatever happened in between. -/
theorem C47_same (hl : load input = .ok E.ctx) (hw : Reach E w) (hx : IsA w o .sectionElement ∨ IsA w o .element) (hy : (run E o (.to k) w).1 = .ok (.obj y))
    (hw' : Leads E (run E o (.to k) w).2 w') : run E o (.to k) w' = (.ok (.obj y), w') := by
  have V := envOk_load hl
  obtain ⟨K, T⟩ := to_keeps (E := E) k (hw.inv V) hx
  rw [to_call hx, map_run] at hy hw'
  cases ht : to E k o w with
  | mk r w1 =>
    rw [ht] at hy hw' K
    cases r with
    | error e => cases hy
    | ok z =>
      have hzy : z = y := by
        have : (Except.ok (Val.obj z) : Except Exc Val) = .ok (.obj y) := hy
        cases this; rfl
      subst hzy
      have ho : o < w1.objs.length := by rcases hx with h | h <;> exact (h.later K.later).1
      have K' := Leads.keeps V K.inv hw'
      have hm : (w'.at o).made k = some z := (K'.later.obj o ho).made k z (T z w1 ht)
      rw [to_call (hx.imp (fun h => (h.later K.later).later K'.later) (fun h => (h.later K.later).later K'.later)), map_run, to_run, hm]

example : ∃ E input w o y, load input = .ok E.ctx ∧ Reach E w ∧ IsA w o .sectionElement ∧ (run E o (.to .field) w).1 = .ok (.obj y) := by
  obtain ⟨E, S⟩ := sample
  exact ⟨E, sampleText, sampleOpen E, 1, _, S.loaded, open_reach, ⟨S.opened.2.2.2.1, S.opened.2.1⟩, gotObj_iff.1 S.to⟩

/-- Yielding it as another kind raises a type error. -/
theorem C47_other (hl : load input = .ok E.ctx) (hw : Reach E w) (hx : IsA w o .sectionElement ∨ IsA w o .element) (hy : (run E o (.to k) w).1 = .ok (.obj y))
    (hw' : Leads E (run E o (.to k) w).2 w') (hk : k' ≠ k) (hs : k' ≠ .section) : run E o (.to k') w' = (.error (.py .typeError), w') := by
  have V := envOk_load hl
  obtain ⟨K, T⟩ := to_keeps (E := E) k (hw.inv V) hx
  rw [to_call hx, map_run] at hy hw'
  cases ht : to E k o w with
  | mk r w1 =>
    rw [ht] at hy hw' K
    cases r with
    | error e => cases hy
    | ok z =>
      have ho : o < w1.objs.length := by rcases hx with h | h <;> exact (h.later K.later).1
      have K' := Leads.keeps V K.inv hw'
      have hm : (w'.at o).made k = some z := (K'.later.obj o ho).made k z (T z w1 ht)
      have O := K'.inv.objs o (Nat.lt_of_lt_of_le ho K'.later.len)
      have hyd : (w'.at o).yielded = some k := (O.yielded k).2 (by rw [hm]; rfl)
      have hm' : (w'.at o).made k' = none := by
        cases hq : (w'.at o).made k' with
        | none => rfl
        | some q =>
          have := (O.yielded k').2 (by rw [hq]; rfl)
          rw [hyd] at this
          cases this
          exact absurd rfl hk
      rw [to_call (hx.imp (fun h => (h.later K.later).later K'.later) (fun h => (h.later K.later).later K'.later)), map_run, to_run, hm']
      dsimp only
      rw [if_pos ⟨hs, by rw [hyd]; rfl⟩]

example : ∃ E input w o y, load input = .ok E.ctx ∧ Reach E w ∧ IsA w o .sectionElement ∧ (run E o (.to .field) w).1 = .ok (.obj y) ∧ Kind.list ≠ .field ∧ Kind.list ≠ .section := by
  obtain ⟨E, S⟩ := sample
  exact ⟨E, sampleText, sampleOpen E, 1, _, S.loaded, open_reach, ⟨S.opened.2.2.2.1, S.opened.2.1⟩, gotObj_iff.1 S.to, by decide, by decide⟩

/-! ## C48 -/

/-- For an element that was not yielded, `yields_…` says whether `to_…` succeeds, which depends on the kind of the element. -/
theorem C48_yields (hl : load input = .ok E.ctx) (hw : Reach E w) (hx : IsA w o .sectionElement ∨ IsA w o .element) (hy : (w.at o).yielded = none) :
    ∃ b, run E o (.yields k) w = (.ok (.bool b), w) ∧ (b = true ↔ ∃ y, (run E o (.to k) w).1 = .ok (.obj y)) ∧ (b = true ↔ Fits k (E.ctx.heap.type (w.at o).ref)) := by
  refine ⟨k.fits (E.ctx.heap.type (w.at o).ref), ?_, ?_, fits_iff.symm⟩
  · unfold run
    rw [bind_ok obj_run]
    rcases hx with h | h <;> rw [h.2] <;> rfl
  · have ho : o < w.objs.length := by rcases hx with h | h <;> exact h.1
    have hm : (w.at o).made k = none := by
      cases hq : (w.at o).made k with
      | none => rfl
      | some q =>
        have := (((hw.inv (envOk_load hl)).objs o ho).yielded k).2 (by rw [hq]; rfl)
        rw [hy] at this; cases this
    rw [to_call hx, map_run, to_run, hm]
    dsimp only
    rw [if_neg (by rw [hy]; simp)]
    constructor
    · intro h
      rw [if_pos h]
      exact ⟨_, rfl⟩
    · rintro ⟨y, h⟩
      apply Classical.byContradiction
      intro hn
      rw [if_neg hn, validation_run] at h
      obtain ⟨e, he⟩ := raised_is (unexpectedElementType E.o E.ctx none (w.at o).ref k.expected)
      rw [he] at h
      cases h

example : ∃ E input w o, load input = .ok E.ctx ∧ Reach E w ∧ IsA w o .sectionElement ∧ (w.at o).yielded = none := by
  obtain ⟨E, S⟩ := sample
  exact ⟨E, sampleText, sampleOpen E, 1, S.loaded, open_reach, ⟨S.opened.2.2.2.1, S.opened.2.1⟩, S.opened.2.2.1⟩

/-- `yields_list_item` and `yields_fieldset_entry` say whether the object is made of an item or of an entry. -/
theorem C48_parts (hl : load input = .ok E.ctx) (hw : Reach E w) (hx : IsA w o .element) :
    (∃ b, run E o .yieldsItem w = (.ok (.bool b), w) ∧ (b = true ↔ ∃ i j, (w.at o).ref = .item i j)) ∧
    (∃ b, run E o .yieldsEntry w = (.ok (.bool b), w) ∧ (b = true ↔ ∃ i j, (w.at o).ref = .entry i j)) := by
  have V := envOk_load hl
  have R := ((hw.inv V).objs o hx.1).ref
  rw [hx.2] at R
  obtain ⟨_, _, S⟩ := loaded_all hl
  have hty : ∀ i, (w.at o).ref = .elem i → E.ctx.heap.type (.elem i) ≠ .listItem ∧ E.ctx.heap.type (.elem i) ≠ .fieldsetEntry := by
    intro i hi
    rw [hi] at R
    obtain ⟨R, hd⟩ | R := R.symm
    · cases R
      constructor <;> intro q <;> · change (E.ctx.heap.at 0).type = _ at q; rw [hd] at q; cases q
    have := S.types i R.1 R.2
    constructor <;> intro q <;> · change (E.ctx.heap.at i).type = _ at q; rw [q] at this; simp at this
  constructor
  · refine ⟨decide (E.ctx.heap.type (w.at o).ref = .listItem), ?_, ?_⟩
    · unfold run
      rw [bind_ok obj_run, hx.2]
      rfl
    · rw [decide_eq_true_iff]
      cases hr : (w.at o).ref with
      | elem i => simp [(hty i hr).1]
      | item i j => simp [Heap.type]
      | entry i j => simp [Heap.type]
  · refine ⟨decide (E.ctx.heap.type (w.at o).ref = .fieldsetEntry), ?_, ?_⟩
    · unfold run
      rw [bind_ok obj_run, hx.2]
      rfl
    · rw [decide_eq_true_iff]
      cases hr : (w.at o).ref with
      | elem i => simp [(hty i hr).2]
      | item i j => simp [Heap.type]
      | entry i j => simp [Heap.type]

example : ∃ E input w o, load input = .ok E.ctx ∧ Reach E w ∧ IsA w o .element := by
  obtain ⟨ctx, h0, h1, h2⟩ : ∃ ctx, load sampleText = .ok ctx ∧
      ((run ⟨{}, ctx, 99⟩ 0 (.assertAllTouched (some (.fn fun _ => pure [])) [] []) World.start).2.at 6).cls = .element ∧
      6 < (run ⟨{}, ctx, 99⟩ 0 (.assertAllTouched (some (.fn fun _ => pure [])) [] []) World.start).2.objs.length := by
    refine ⟨_, rfl, ?_, ?_⟩ <;> decide +kernel
  exact ⟨⟨{}, ctx, 99⟩, sampleText, _, 6, h0, (Leads.one (by exact fun _ _ => rfl) 0).reach, ⟨h2, h1⟩⟩

end Eno.El
