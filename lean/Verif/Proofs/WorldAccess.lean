import Verif.Proofs.WorldReach

/-! # What accessors find -/

namespace Eno.El

variable {α β : Type} {w w' w1 : World} {o y i : Nat} {E : Env} {xs : List Nat} {key : Option Str} {k : Kind} {want : Want} {required : Option Bool}

theorem fits_iff {t : Ty} : Fits k t ↔ k.fits t = true := by
  constructor
  · intro h; cases h <;> rfl
  · intro h; cases k <;> cases t <;> first | (cases h; done) | constructor

theorem not_fits {t : Ty} : ¬ Fits k t ↔ k.fits t = false := by rw [fits_iff]; simp

theorem expected_eq : k.expected = expectedOf k := by cases k <;> rfl

theorem expectedMany_eq : k.expectedMany = expectedAllOf k := by cases k <;> rfl

theorem missing_eq : want.missing = missingOf want := by rcases want with _ | k <;> (try cases k) <;> rfl

theorem single_eq : want.single = singleOf want := by rcases want with _ | k <;> (try cases k) <;> rfl

theorem concerns_iff {only skip : List Str} {k : Str} : Concerns only skip k ↔ skipped only skip k = false := by
  unfold Concerns skipped
  cases only with
  | nil => simp
  | cons a t => simp [Classical.or_iff_not_imp_left]

theorem validation_run {x : Except PyExc ErrObj} : (raiseValidation x : Api α) w = (raised x, w) := by cases x <;> rfl

theorem Elements.made (h : Elements E (w.at o) xs) : madeElements E.ctx.heap E.depth (w.at o).ref.idx [] = (none, xs) := by
  unfold Elements at h
  rw [madeElements_ok] at h
  generalize madeElements E.ctx.heap E.depth (w.at o).ref.idx [] = p at h
  obtain ⟨a, b⟩ := p
  cases a with
  | none => cases h; rfl
  | some e => cases h

theorem refs_run : ∀ (ys : List Nat), each (fun y => do pure (← obj y).ref) ys w = (.ok (ys.map fun y => (w.at y).ref), w)
  | [] => rfl
  | y :: ys => by
    unfold each
    have h : (do pure (← obj y).ref : Api Ref) w = (.ok (w.at y).ref, w) := rfl
    rw [bind_ok h, bind_ok (refs_run ys)]
    rfl

/-- The objects of a section are those of its elements. -/
theorem elements_found (V : EnvOk E) (I : Inv E w) (hx : IsA w o (.of .section)) (hel : Elements E (w.at o) xs) :
    ∃ ys w1, sectionElements E o w = (.ok ys, w1) ∧ Keeps E w w1 ∧ Unfolded w w1 ∧ KidsOk E w1 o ys ∧ (w1.at o).children = some ys ∧
      (∀ y ∈ ys, IsA w1 y .sectionElement) ∧ ys.map (fun y => (w1.at y).ref) = xs.map .elem := by
  have K := (sectionElements_keeps V I hx).1
  have U := sectionElements_unfolded (E := E) hx.1
  obtain ⟨ys, w1, h⟩ : ∃ ys w1, sectionElements E o w = (.ok ys, w1) := by
    rw [sectionElements_run, hel.made]
    cases (w.at o).children with
    | some ys => exact ⟨_, _, rfl⟩
    | none => exact ⟨_, _, rfl⟩
  obtain ⟨h1, h2, h3⟩ := elements_of V I hx h
  rw [h] at K U
  refine ⟨ys, w1, h, K, U, h1, h2, h3, ?_⟩
  have := h1.refs
  unfold ChildRefs at this
  rw [(hx.later K.later).2] at this
  dsimp only at this
  rw [this, (K.later.obj o hx.1).ref, hel.made]

theorem named_found (V : EnvOk E) (I : Inv E w) (hx : IsA w o (.of .section)) (hel : Elements E (w.at o) xs) (key : Option Str) :
    ∃ zs w1, named (sectionElements E o) o key w = (.ok zs, w1) ∧ Keeps E w w1 ∧ Unfolded w w1 ∧
      zs.map (fun y => (w1.at y).ref) = (withKey E.ctx.heap key xs).map .elem ∧ (∀ z ∈ zs, ∀ i, (w1.at z).ref = .elem i → ObjectFor w1 o i z) ∧
      ∀ i z, ObjectFor w1 o i z → i ∈ withKey E.ctx.heap key xs → z ∈ zs := by
  obtain ⟨ys, w1, h, K, U, h1, h2, h3, h4⟩ := elements_found V I hx hel
  refine ⟨_, w1, named_run h h1 (by rw [(hx.later K.later).2]; simp), K, U, ?_, ?_, ?_⟩
  · have all : ∀ l : List Nat, l.filter (fun _ => true) = l := fun l => List.filter_eq_self.2 fun _ _ => rfl
    rcases key with _ | _ | ⟨c, k⟩
    · unfold asked withKey; rw [all]; exact h4
    · unfold asked withKey; rw [all]; exact h4
    · unfold asked withKey
      dsimp only
      have rest : ∀ ys t : List Nat, ys.map (fun y => (w1.at y).ref) = t.map .elem →
          (ys.filter fun y => decide (keyAt E w1 y = c :: k)).map (fun y => (w1.at y).ref) = (t.filter fun i => decide ((E.ctx.heap.at i).key = c :: k)).map .elem := by
        intro ys
        induction ys with
        | nil => intro t ht; cases t with
          | nil => rfl
          | cons a t => simp at ht
        | cons y ys ih => intro t ht; cases t with
          | nil => simp at ht
          | cons a t =>
            simp only [List.map_cons, List.cons.injEq] at ht
            have ky : keyAt E w1 y = (E.ctx.heap.at a).key := by rw [keyAt, ht.1]; rfl
            rw [List.filter_cons, List.filter_cons, ky]
            split
            · rw [List.map_cons, List.map_cons, ht.1, ih t ht.2]
            · exact ih t ht.2
      exact rest ys xs h4
  · intro z hz i hi
    have hz := (List.mem_filter.1 hz).1
    exact ⟨⟨ys, h2, hz⟩, h3 z hz, hi, (h1.members z hz).2.2.2⟩
  · intro i z hz hi
    obtain ⟨ys', e, hy⟩ := hz.listed
    rw [h2] at e; cases e
    refine List.mem_filter.2 ⟨hy, ?_⟩
    rcases key with _ | _ | ⟨c, k⟩
    · rfl
    · rfl
    · have := (List.mem_filter.1 hi).2
      unfold asked
      dsimp only
      rw [keyAt, hz.ref]
      exact this

theorem ObjectFor.later (L : Later w w1) (ho : o < w.objs.length) (h : ObjectFor w o i y) : ObjectFor w1 o i y where
  listed := by
    obtain ⟨ys, h1, h2⟩ := h.listed
    exact ⟨ys, ((L.obj o ho).children ys h1).1, h2⟩
  isA := h.isA.later L
  ref := by rw [(L.obj y h.isA.1).ref]; exact h.ref
  parent := by rw [(L.obj y h.isA.1).parent]; exact h.parent

theorem at_touched (q : Nat) : ((setTouched o w).2.at q) = if q = o ∧ o < w.objs.length then { w.at q with touched := true } else w.at q := by
  unfold setTouched
  split
  · rename_i h
    rw [h.1, at_assign_self h.2]
  · rename_i h
    by_cases e : q = o
    · subst e
      have hn : ¬ q < w.objs.length := fun hq => h ⟨rfl, hq⟩
      rw [at_out (by rw [len_assign]; omega), at_out (by omega)]
    · rw [at_assign_ne e]

/-- Everything that accessors do before they decide: the section is touched, and its elements are made. -/
structure Opened (E : Env) (w : World) (o : Nat) (w1 : World) : Prop where
  keeps : Keeps E w w1
  touched : (w1.at o).touched = true
  same : (w1.at o).ref = (w.at o).ref ∧ (w1.at o).required = (w.at o).required
  before : ∀ i z, ObjectFor w1 o i z → (w1.at z).yielded = none ∨ (ObjectFor w o i z ∧ (w1.at z).yielded = (w.at z).yielded ∧ (w1.at z).made = (w.at z).made)

theorem opened (I : Inv E w) (ho : o < w.objs.length) (K : Keeps E (setTouched o w).2 w1) (U : Unfolded (setTouched o w).2 w1) : Opened E w o w1 := by
  have K0 : Keeps E w (setTouched o w).2 := keeps_touched I
  have ho' : o < (setTouched o w).2.objs.length := Nat.lt_of_lt_of_le ho K0.later.len
  refine ⟨K0.trans K, ?_, ⟨((K0.trans K).later.obj o ho).ref, ?_⟩, fun i z hz => ?_⟩
  · rw [(U.obj o ho').1, at_touched, if_pos ⟨rfl, ho⟩]
  · rw [(U.obj o ho').2.2.2, at_touched, if_pos ⟨rfl, ho⟩]
  · have len0 : (setTouched o w).2.objs.length = w.objs.length := len_assign
    obtain ⟨ys, hys, hy⟩ := hz.listed
    cases hc : ((setTouched o w).2.at o).children with
    | none =>
      left
      have hz' := U.kids o ho' hc ys hys z hy
      have hm := (U.fresh z hz').2
      cases hq : (w1.at z).yielded with
      | none => rfl
      | some k =>
        have := ((K.inv.objs z hz.isA.1).yielded k).1 hq
        rw [hm] at this; cases this
    | some zs =>
      right
      have e := ((U.later.obj o ho').children zs hc).1
      rw [hys] at e; cases e
      have hk := ((K0.inv.objs o ho').kids _ hc).members z hy
      have hne : ¬ (z = o ∧ o < w.objs.length) := by omega
      have hq := at_touched (o := o) (w := w) z
      rw [if_neg hne] at hq
      have hL := U.later.obj z hk.2.1
      have hc' : (w.at o).children = some ys := by rw [at_touched, if_pos ⟨rfl, ho⟩] at hc; exact hc
      refine ⟨⟨⟨ys, hc', hy⟩, ⟨by omega, ?_⟩, ?_, ?_⟩, ?_, ?_⟩
      · rw [← hq, ← hL.cls]; exact hz.isA.2
      · rw [← hq, ← hL.ref]; exact hz.ref
      · rw [← hq, ← hL.parent]; exact hz.parent
      · rw [(U.obj z hk.2.1).2.2.1, hq]
      · rw [(U.obj z hk.2.1).2.1, hq]

/-- The objects with a key, and what is done with them. -/
theorem single_found (V : EnvOk E) (I : Inv E w) (hx : IsA w o (.of .section)) (hel : Elements E (w.at o) xs) (want : Want) (key : Option Str) (required : Option Bool) :
    ∃ zs w1, Opened E w o w1 ∧ zs.map (fun y => (w1.at y).ref) = (withKey E.ctx.heap key xs).map .elem ∧ (∀ z ∈ zs, ∀ i, (w1.at z).ref = .elem i → ObjectFor w1 o i z) ∧
      (∀ i z, ObjectFor w1 o i z → i ∈ withKey E.ctx.heap key xs → z ∈ zs) ∧ single E want o key required w = match zs with
        | [] =>
          if required = some true ∨ (w.at o).required then (raised (missingElement E.o E.ctx key (w.at o).ref.idx want.missing), w1)
          else if required = none then (.ok (.missing (.under o (some want) key)), w1)
          else (.ok .none, w1)
        | [y] =>
          match want with
          | .any => (.ok (.obj y), w1)
          | .kind k => ((Got.obj <$> castTo E k key k.expected y : Api Got) w1)
        | _ => (raised (unexpectedMultipleElements E.o E.ctx key (zs.map fun y => (w1.at y).ref) want.single), w1) := by
  have K0 : Keeps E w (setTouched o w).2 := keeps_touched I
  have hel0 : Elements E ((setTouched o w).2.at o) xs := by unfold Elements; rw [(K0.later.obj o hx.1).ref]; exact hel
  obtain ⟨zs, w1, h, K, U, h1, h2, h4⟩ := named_found V K0.inv (hx.later K0.later) hel0 key
  have O := opened I hx.1 K U
  refine ⟨zs, w1, O, h1, h2, h4, ?_⟩
  unfold single
  rw [bind_ok (m := setTouched o) (a := ()) (w' := (setTouched o w).2) rfl, bind_ok h, bind_ok obj_run]
  match zs with
  | [] =>
    dsimp only
    rw [O.same.1, O.same.2]
    split
    · rw [validation_run]
    · split <;> rfl
  | [y] =>
    dsimp only
    cases want <;> rfl
  | a :: b :: t =>
    dsimp only
    rw [bind_ok (refs_run _), validation_run]

theorem one_run (hx : IsA w o (.of .section)) : run E o (.one want key required) w = match single E want o key required w with
    | (.ok .none, w') => (.ok .none, w')
    | (.ok (.obj y), w') => (.ok (.obj y), w')
    | (.ok (.missing m), w') => (.ok (.missing m), w')
    | (.error e, w') => (.error e, w') := by
  unfold run
  rw [bind_ok obj_run, hx.2]
  dsimp only
  rw [bind_run]
  generalize single E want o key required w = r
  obtain ⟨a, b⟩ := r
  cases a with
  | error e => rfl
  | ok g => cases g <;> rfl

theorem raised_is (x : Except PyExc ErrObj) : ∃ e, ∀ α, (raised x : Except Exc α) = .error e := by
  cases x with
  | ok e => exact ⟨_, fun _ => rfl⟩
  | error e => exact ⟨_, fun _ => rfl⟩

theorem kind_found (V : EnvOk E) (I : Inv E w) (hx : IsA w o (.of .section)) (hel : Elements E (w.at o) xs) (hk : withKey E.ctx.heap key xs = [i]) :
    ∃ y w1, Opened E w o w1 ∧ ObjectFor w1 o i y ∧ (∀ z, ObjectFor w1 o i z → z = y) ∧ single E (.kind k) o key required w = (Got.obj <$> castTo E k key k.expected y : Api Got) w1 := by
  obtain ⟨zs, w1, O, h1, h2, h4, h3⟩ := single_found V I hx hel (.kind k) key required
  rw [hk] at h1
  obtain ⟨y, rfl⟩ : ∃ y, zs = [y] := List.length_eq_one_iff.1 (by simpa using congrArg List.length h1)
  exact ⟨y, w1, O, h2 y (by simp) i (by simpa using h1), fun z hz => by simpa using h4 i z hz (by rw [hk]; simp), h3⟩

theorem many_run (hx : IsA w o (.of .section)) (hw : want ≠ .kind .empty) : run E o (.many want key) w = (Val.objs <$> several E want o key : Api Val) w := by
  unfold run
  rw [bind_ok obj_run, hx.2]
  cases want with
  | any => rfl
  | kind k => cases k <;> first | rfl | exact absurd rfl hw

theorem several_found (V : EnvOk E) (I : Inv E w) (hx : IsA w o (.of .section)) (hel : Elements E (w.at o) xs) (want : Want) (key : Option Str) :
    ∃ zs w1, Opened E w o w1 ∧ zs.map (fun y => (w1.at y).ref) = (withKey E.ctx.heap key xs).map .elem ∧ (∀ z ∈ zs, ∀ i, (w1.at z).ref = .elem i → ObjectFor w1 o i z) ∧
      several E want o key w = match want with
        | .any => (.ok zs, w1)
        | .kind k => each (castTo E k key k.expectedMany) zs w1 := by
  have K0 : Keeps E w (setTouched o w).2 := keeps_touched I
  have hel0 : Elements E ((setTouched o w).2.at o) xs := by unfold Elements; rw [(K0.later.obj o hx.1).ref]; exact hel
  obtain ⟨zs, w1, h, K, U, h1, h2, h4⟩ := named_found V K0.inv (hx.later K0.later) hel0 key
  refine ⟨zs, w1, opened I hx.1 K U, h1, h2, ?_⟩
  unfold several
  rw [bind_ok (m := setTouched o) (a := ()) (w' := (setTouched o w).2) rfl, bind_ok h]
  cases want <;> rfl

theorem elements_stay (I : Inv E w) (hx : IsA w o (.of .section)) {ys : List Nat} (h : (w.at o).children = some ys) (key : Option Str) :
    (run E o (.many .any key) w).1 = .ok (.objs (ys.filter (asked E w key))) ∧ (run E o (.many .any none) w).1 = .ok (.objs ys) := by
  have K0 : Keeps E w (setTouched o w).2 := keeps_touched I
  have hc : ((setTouched o w).2.at o).children = some ys := ((K0.later.obj o hx.1).children ys h).1
  have he : sectionElements E o (setTouched o w).2 = (.ok ys, (setTouched o w).2) := by rw [sectionElements_run, hc]
  have hk : ∀ key, several E .any o key w = (.ok (ys.filter (asked E (setTouched o w).2 key)), (setTouched o w).2) := fun key => by
    unfold several
    rw [bind_ok (m := setTouched o) (a := ()) (w' := (setTouched o w).2) rfl,
      bind_ok (named_run he ((K0.inv.objs o (hx.later K0.later).1).kids ys hc) (by rw [(hx.later K0.later).2]; simp))]
    rfl
  have ha : ∀ key, asked E (setTouched o w).2 key = asked E w key := fun key => by
    funext y
    have : keyAt E (setTouched o w).2 y = keyAt E w y := by
      unfold keyAt
      rw [at_touched]
      split <;> rfl
    unfold asked
    rw [this]
  constructor
  · rw [many_run hx (by simp), map_run, hk, ha]
  · rw [many_run hx (by simp), map_run, hk, ha]
    have : ys.filter (asked E w none) = ys := List.filter_eq_self.2 fun _ _ => rfl
    rw [this]

/-! ## Casts -/

/-- A cast yields as the kind, and nothing else. -/
theorem to_yielded {z q : Nat} (h : to E k y w = (.ok z, w1)) (hq : q < w.objs.length) : (w1.at q).yielded = (w.at q).yielded ∨ (w1.at q).yielded = some k := by
  rw [to_run] at h
  cases hm : (w.at y).made k with
  | some z' =>
    rw [hm] at h
    change ((Except.ok z' : Except Exc Nat), w) = _ at h
    cases h
    exact .inl rfl
  | none =>
    rw [hm] at h
    dsimp only at h
    split at h
    · cases h
    · split at h
      · cases h
        unfold yieldedAs
        by_cases e : q = y
        · subst e
          right
          rw [at_assign_self (by rw [len_create]; omega)]
        · left
          rw [at_assign_ne e, at_create_lt hq]
      · rw [validation_run] at h
        obtain ⟨e, he⟩ := raised_is (unexpectedElementType E.o E.ctx none (w.at y).ref k.expected)
        rw [he] at h
        cases h

/-- A cast that is possible. -/
theorem cast_ok (I : Inv E w) (hx : IsA w y .sectionElement) (hf : k.fits (E.ctx.heap.type (w.at y).ref) = true) (hy : k = .section ∨ ∀ k', (w.at y).yielded = some k' → k' = k)
    {m : MsgName} : ∃ z w1, castTo E k key m y w = (.ok z, w1) ∧ to E k y w = (.ok z, w1) ∧ Keeps E w w1 ∧ IsA w1 z (.of k) ∧ (w1.at z).ref = (w.at y).ref ∧ (w1.at z).parent = (w.at y).parent := by
  have hc : castTo E k key m y w = to E k y w := by
    unfold castTo
    rw [bind_ok obj_run, if_pos hf]
  obtain ⟨T1, T2⟩ := to_keeps (E := E) k I (.inl hx)
  obtain ⟨z, w2, hz⟩ : ∃ z w2, to E k y w = (.ok z, w2) := by
    rw [to_run]
    cases hm : (w.at y).made k with
    | some z => exact ⟨z, _, rfl⟩
    | none =>
      dsimp only
      rw [if_neg, if_pos hf]
      · exact ⟨_, _, rfl⟩
      · rintro ⟨n, hs⟩
        obtain ⟨k', hk'⟩ := Option.isSome_iff_exists.1 hs
        rcases hy with e | e
        · exact n e
        · have := e k' hk'
          subst this
          have := ((I.objs y hx.1).yielded k').1 hk'
          rw [hm] at this; cases this
  have hm := T2 z w2 hz
  rw [hz] at T1
  have M := ((T1.inv.objs y (Nat.lt_of_lt_of_le hx.1 T1.later.len)).made k z hm).2
  have L := T1.later.obj y hx.1
  exact ⟨z, w2, by rw [hc, hz], hz, T1, ⟨M.known, M.cls⟩, by rw [M.ref, L.ref], by rw [M.parent, L.parent]⟩

/-- Casts of several elements. -/
theorem casts_ok {m : MsgName} : ∀ (ys : List Nat) (w : World), Inv E w → (∀ y ∈ ys, IsA w y .sectionElement) → (∀ y ∈ ys, k.fits (E.ctx.heap.type (w.at y).ref) = true) →
    (k = .section ∨ ∀ y ∈ ys, ∀ k', (w.at y).yielded = some k' → k' = k) →
    ∃ zs w1, each (castTo E k key m) ys w = (.ok zs, w1) ∧ Keeps E w w1 ∧ zs.map (fun z => (w1.at z).ref) = ys.map (fun y => (w.at y).ref) ∧
      (∀ z ∈ zs, IsA w1 z (.of k)) ∧ zs.map (fun z => (w1.at z).parent) = ys.map (fun y => (w.at y).parent) ∧
      ∀ q, q < w.objs.length → (w1.at q).yielded = (w.at q).yielded ∨ (w1.at q).yielded = some k
  | [], w, I, _, _, _ => ⟨[], w, rfl, .refl I, rfl, (by simp), rfl, fun _ _ => .inl rfl⟩
  | y :: ys, w, I, hx, hf, hy => by
    obtain ⟨z, w1, h1, ht, K1, A1, R1, P1⟩ := cast_ok (key := key) (m := m) I (hx y (by simp)) (hf y (by simp)) (hy.imp id fun h => h y (by simp))
    have L1 := K1.later
    obtain ⟨zs, w2, h2, K2, R2, A2, P2, Y2⟩ := casts_ok (m := m) ys w1 K1.inv (fun q hq => (hx q (by simp [hq])).later L1)
      (fun q hq => by rw [(L1.obj q (hx q (by simp [hq])).1).ref]; exact hf q (by simp [hq]))
      (hy.imp id fun h q hq k' hk' => by
        rcases to_yielded ht (hx q (by simp [hq])).1 with e | e
        · rw [e] at hk'; exact h q (by simp [hq]) k' hk'
        · rw [e] at hk'; cases hk'; rfl)
    refine ⟨z :: zs, w2, ?_, K1.trans K2, ?_, ?_, ?_, ?_⟩
    · unfold each
      rw [bind_ok h1, bind_ok h2]
      rfl
    · rw [List.map_cons, List.map_cons, R2, (K2.later.obj z A1.1).ref, R1]
      congr 1
      exact List.map_congr_left fun q hq => (L1.obj q (hx q (by simp [hq])).1).ref
    · intro q hq
      rcases List.mem_cons.1 hq with e | e
      · rw [e]; exact A1.later K2.later
      · exact A2 q e
    · rw [List.map_cons, List.map_cons, P2, (K2.later.obj z A1.1).parent, P1]
      congr 1
      exact List.map_congr_left fun q hq => (L1.obj q (hx q (by simp [hq])).1).parent
    · intro q hq
      rcases Y2 q (Nat.lt_of_lt_of_le hq L1.len) with e | e
      · rw [e]; exact to_yielded ht hq
      · exact .inr e

theorem each_append {f : α → Api β} : ∀ (as bs : List α) (w : World) (xs : List β), each f as w = (.ok xs, w1) →
    each f (as ++ bs) w = match each f bs w1 with
      | (.ok ys, w2) => (.ok (xs ++ ys), w2)
      | (.error e, w2) => (.error e, w2)
  | [], bs, w, xs, h => by
    change ((Except.ok [] : Except Exc (List β)), w) = _ at h
    cases h
    simp only [List.nil_append]
    generalize each f bs w1 = r
    obtain ⟨a, b⟩ := r
    cases a <;> rfl
  | a :: as, bs, w, xs, h => by
    have cons : ∀ as, each f (a :: as) = (do let b ← f a; let bs ← each f as; pure (b :: bs)) := fun _ => rfl
    rw [cons] at h
    rw [List.cons_append, cons]
    cases h1 : f a w with
    | mk r w2 =>
      cases r with
      | error e => rw [bind_error h1] at h; cases h
      | ok b =>
        rw [bind_ok h1] at h ⊢
        cases h2 : each f as w2 with
        | mk r w3 =>
          cases r with
          | error e => rw [bind_error h2] at h; cases h
          | ok ys =>
            rw [bind_ok h2] at h
            change ((Except.ok (b :: ys) : Except Exc (List β)), w3) = _ at h
            cases h
            rw [bind_run, each_append as bs w2 ys h2]
            generalize each f bs w1 = r
            obtain ⟨c, d⟩ := r
            cases c <;> rfl

end Eno.El
