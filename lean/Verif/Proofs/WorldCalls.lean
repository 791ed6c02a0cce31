import Verif.Proofs.WorldSearch

/-! # Objects: every call keeps the invariant -/

namespace Eno.El

variable {α β : Type} {w w' w1 : World} {o y : Nat} {E : Env}

/-- A loader or a function that makes messages uses the objects like everyone does. -/
def Polite (E : Env) (f : α → Api β) : Prop := ∀ a w, Inv E w → Keeps E w (f a w).2

/-- A text or a polite function. -/
def MsgArg.Polite (E : Env) : MsgArg α → Prop
  | .text _ => True
  | .fn f => El.Polite E f

/-- The arguments are polite. -/
def Method.Polite (E : Env) : Method → Prop
  | .comment _ f => El.Polite E f
  | .commentError m => m.Polite E
  | .error m => m.Polite E
  | .key f => El.Polite E f
  | .keyError m => m.Polite E
  | .value _ f => El.Polite E f
  | .valueError m => m.Polite E
  | .values _ f => El.Polite E f
  | .assertAllTouched (some m) _ _ => m.Polite E
  | _ => True

theorem keeps_obj (I : Inv E w) : Keeps E w (obj o w).2 := .refl I

theorem keeps_get {a : Api α} {m : MsgArg α} (I : Inv E w) (ha : Keeps E w (a w).2) (hm : m.Polite E) : Keeps E w (m.get a w).2 := by
  cases m with
  | text s => exact .refl I
  | fn f => exact keeps_bind ha fun x w1 _ I1 _ => hm x w1 I1

theorem keeps_keyOf (I : Inv E w) : Keeps E w (keyOf E o w).2 := by
  unfold keyOf
  rw [bind_ok obj_run]
  cases (w.at o).ref with
  | item i k => exact .refl I
  | elem i =>
    dsimp only
    cases E.ctx.heap.key? (.elem i) <;> exact .refl I
  | entry i k =>
    dsimp only
    cases E.ctx.heap.key? (.entry i k) <;> exact .refl I

theorem keeps_commentOf (I : Inv E w) : Keeps E w (commentOf E o w).2 := by
  unfold commentOf
  rw [bind_ok obj_run]
  exact keeps_reading I (readComment_fresh I.cache) (.comment _ I.asked)

theorem keeps_valueOf (V : EnvOk E) (I : Inv E w) : Keeps E w (valueOf E o w).2 := by
  unfold valueOf
  rw [bind_ok obj_run]
  exact keeps_reading I (readValue_fresh V.values _ I.cache) (.value _ I.asked)

/-- Objects are made of what is in the document. -/
theorem actual_of (I : Inv E w) (o : Nat) : Actual E.ctx.heap (w.at o).ref ∨ (w.at o).ref = .elem 0 := by
  by_cases ho : o < w.objs.length
  · have O := (I.objs o ho).ref
    cases hr : (w.at o).ref with
    | elem i =>
      by_cases h0 : i = 0
      · exact .inr (by rw [h0])
      · refine .inl ⟨by omega, ?_⟩
        rw [hr] at O
        cases hc : (w.at o).cls <;> rw [hc] at O
        · exact O.1
        · exact O.2
        · rcases O with O | O
          · exact O.2
          · cases O.1; exact absurd rfl h0
        · exact O.elim
        · exact O.elim
    | item i k =>
      rw [hr] at O
      cases hc : (w.at o).cls <;> rw [hc] at O
      · exact O.elim
      · exact O.elim
      · exact .inl (O.resolve_right fun h => by cases h.1)
      · exact O.elim
      · exact .inl O
    | entry i k =>
      rw [hr] at O
      cases hc : (w.at o).cls <;> rw [hc] at O
      · exact O.elim
      · exact O.elim
      · exact .inl (O.resolve_right fun h => by cases h.1)
      · exact .inl O
      · exact O.elim
  · exact .inr (by rw [at_out (Nat.le_of_not_lt ho)]; rfl)

theorem keeps_rawOf (V : EnvOk E) (I : Inv E w) : Keeps E w (rawOf E o w).2 := by
  unfold rawOf
  rw [bind_ok obj_run]
  exact keeps_reading I (readRaw_fresh V.values _ I.cache) (.raw (actual_of I o) I.asked)

theorem keeps_comment {required : Bool} {loader : Str → Api α} (I : Inv E w) (hl : Polite E loader) : Keeps E w (comment E o required loader w).2 := by
  unfold comment
  refine keeps_bind (keeps_touched I) fun _ w1 _ I1 _ => ?_
  refine keeps_bind (keeps_commentOf I1) fun c w2 _ I2 _ => ?_
  rw [bind_ok obj_run]
  have hno : Keeps E w2 ((if required then raiseValidation (missingComment E.o E.ctx (w2.at o).ref) else (pure none : Api (Option α))) w2).2 := by
    split
    · exact keeps_validation I2
    · exact .refl I2
  rcases c with _ | _ | ⟨c, cs⟩
  · exact hno
  · exact hno
  · exact keeps_map (keeps_except (hl _ w2 I2) fun s w3 I3 _ => keeps_validation I3)

theorem keeps_value (V : EnvOk E) {required : Bool} {loader : Str → Api α} (I : Inv E w) (hl : Polite E loader) : Keeps E w (value E o required loader w).2 := by
  unfold value
  refine keeps_bind (keeps_touched I) fun _ w1 _ I1 _ => ?_
  refine keeps_bind (keeps_valueOf V I1) fun c w2 _ I2 _ => ?_
  rw [bind_ok obj_run]
  cases c with
  | none =>
    dsimp only
    split
    · exact keeps_validation I2
    · exact .refl I2
  | some c => exact keeps_map (keeps_except (hl _ w2 I2) fun s w3 I3 _ => keeps_validation I3)

theorem keeps_key {loader : Str → Api α} (I : Inv E w) (hl : Polite E loader) : Keeps E w (key E o loader w).2 := by
  unfold key
  refine keeps_bind (keeps_touched I) fun _ w1 _ I1 _ => ?_
  rw [bind_ok obj_run]
  exact keeps_except (keeps_bind (keeps_keyOf I1) fun k w2 _ I2 _ => hl k w2 I2) fun s w3 I3 _ => keeps_validation I3

theorem keeps_commentErrorOf {m : MsgArg (Option Str)} (I : Inv E w) (hm : m.Polite E) : Keeps E w (commentErrorOf E o m w).2 := by
  unfold commentErrorOf
  refine keeps_bind (keeps_get I (keeps_commentOf I) hm) fun s w1 _ I1 _ => ?_
  rw [bind_ok obj_run]
  exact keeps_makeError I1

theorem keeps_valueErrorOf (V : EnvOk E) {m : MsgArg (Option Str)} (I : Inv E w) (hm : m.Polite E) : Keeps E w (valueErrorOf E o m w).2 := by
  unfold valueErrorOf
  refine keeps_bind (keeps_get I (keeps_valueOf V I) hm) fun s w1 _ I1 _ => ?_
  rw [bind_ok obj_run]
  exact keeps_makeError I1

theorem keeps_errorOf {m : MsgArg Nat} (I : Inv E w) (hm : m.Polite E) : Keeps E w (errorOf E o m w).2 := by
  unfold errorOf
  refine keeps_bind (keeps_get I (.refl I) hm) fun s w1 _ I1 _ => ?_
  rw [bind_ok obj_run]
  exact keeps_makeError I1

theorem keeps_keyErrorOf {m : MsgArg Str} (I : Inv E w) (hm : m.Polite E) : Keeps E w (keyErrorOf E o m w).2 := by
  unfold keyErrorOf
  refine keeps_bind (keeps_get I (keeps_keyOf I) hm) fun s w1 _ I1 _ => ?_
  rw [bind_ok obj_run]
  exact keeps_makeError I1

/-! ## Lists and fieldsets -/

theorem keeps_values (V : EnvOk E) {required : Bool} {loader : Str → Api α} (I : Inv E w) (hx : IsA w o (.of .list)) (hl : Polite E loader) :
    Keeps E w (values E o required loader w).2 := by
  unfold values
  refine keeps_bind (keeps_touched I) fun _ w1 _ I1 L1 => ?_
  refine keeps_bind (listItems_keeps I1 (hx.later L1)).1 fun ys w2 _ I2 L2 => ?_
  exact keeps_each ys w2 I2 fun y _ w3 I3 _ => keeps_value V I3 hl

theorem keeps_touchList (I : Inv E w) (hx : IsA w o (.of .list)) : Keeps E w (touchList E o w).2 := by
  unfold touchList
  refine keeps_bind (keeps_touched I) fun _ w1 _ I1 L1 => ?_
  refine keeps_bind (listItems_keeps I1 (hx.later L1)).1 fun ys w2 _ I2 L2 => ?_
  exact keeps_bind (keeps_each ys w2 I2 fun y _ w3 I3 _ => keeps_touched I3) fun _ w3 _ I3 _ => .refl I3

theorem keeps_items (I : Inv E w) (hx : IsA w o (.of .list)) : Keeps E w (items E o w).2 := by
  unfold items
  exact keeps_bind (keeps_touched I) fun _ w1 _ I1 L1 => (listItems_keeps I1 (hx.later L1)).1

theorem keeps_itemCount (I : Inv E w) (hx : IsA w o (.of .list)) : Keeps E w (itemCount E o w).2 := by
  unfold itemCount
  refine keeps_bind (keeps_touched I) fun _ w1 _ I1 L1 => ?_
  exact keeps_bind (listItems_keeps I1 (hx.later L1)).1 fun ys w2 _ I2 L2 => .refl I2

theorem keeps_named {all : Api (List Nat)} {key : Option Str} (h : Keeps E w (all w).2) : Keeps E w (named all o key w).2 := by
  rcases key with _ | _ | ⟨c, k⟩
  · exact h
  · exact h
  · refine keeps_bind h fun _ w1 _ I1 _ => ?_
    rw [bind_ok obj_run]
    exact .refl I1

theorem keeps_refs (ys : List Nat) (I : Inv E w) : Keeps E w (each (fun y => do pure (← obj y).ref) ys w).2 :=
  keeps_each ys w I fun y _ w1 I1 _ => by rw [bind_ok obj_run]; exact .refl I1

theorem keeps_entry (V : EnvOk E) {key : Option Str} {required : Bool} (I : Inv E w) (hx : IsA w o (.of .fieldset)) : Keeps E w (entry E o key required w).2 := by
  unfold entry
  refine keeps_bind (keeps_touched I) fun _ w1 _ I1 L1 => ?_
  refine keeps_bind (keeps_named (fieldsetEntries_keeps V I1 (hx.later L1)).1) fun ys w2 _ I2 L2 => ?_
  rw [bind_ok obj_run]
  rcases ys with _ | ⟨y, _ | ⟨z, ys⟩⟩
  · dsimp only
    split
    · exact keeps_validation I2
    · exact .refl I2
  · exact .refl I2
  · exact keeps_bind (keeps_refs _ I2) fun rs w3 _ I3 _ => keeps_validation I3

theorem keeps_entries (V : EnvOk E) {key : Option Str} (I : Inv E w) (hx : IsA w o (.of .fieldset)) : Keeps E w (entries E o key w).2 := by
  unfold entries
  exact keeps_bind (keeps_touched I) fun _ w1 _ I1 L1 => keeps_named (fieldsetEntries_keeps V I1 (hx.later L1)).1

theorem keeps_touchFieldset (V : EnvOk E) (I : Inv E w) (hx : IsA w o (.of .fieldset)) : Keeps E w (touchFieldset E o w).2 := by
  unfold touchFieldset
  refine keeps_bind (keeps_touched I) fun _ w1 _ I1 L1 => ?_
  refine keeps_bind (fieldsetEntries_keeps V I1 (hx.later L1)).1 fun ys w2 _ I2 L2 => ?_
  exact keeps_bind (keeps_each ys w2 I2 fun y _ w3 I3 _ => keeps_touched I3) fun _ w3 _ I3 _ => .refl I3

theorem keeps_assertEntriesTouched (V : EnvOk E) {m : Option (MsgArg Nat)} {only skip : List Str} (I : Inv E w) (hx : IsA w o (.of .fieldset))
    (hm : ∀ x, m = some x → x.Polite E) : Keeps E w (assertEntriesTouched E o m only skip w).2 := by
  unfold assertEntriesTouched
  refine keeps_bind (fieldsetEntries_keeps V I hx).1 fun _ w1 _ I1 L1 => ?_
  rw [bind_ok obj_run]
  refine keeps_bind (keeps_first _ w1 I1 fun y _ w2 I2 _ => by rw [bind_ok obj_run]; exact .refl I2) fun y w2 _ I2 _ => ?_
  cases y with
  | none => exact .refl I2
  | some y =>
    rcases m with _ | (s | f)
    · exact .refl I2
    · exact .refl I2
    · exact keeps_bind (hm _ rfl y w2 I2) fun _ w3 _ I3 _ => .refl I3

/-! ## Sections -/

/-- The children of a section are section elements. -/
theorem elements_of (V : EnvOk E) (I : Inv E w) (hx : IsA w o (.of .section)) {ys : List Nat} (h : sectionElements E o w = (.ok ys, w1)) :
    KidsOk E w1 o ys ∧ (w1.at o).children = some ys ∧ ∀ y ∈ ys, IsA w1 y .sectionElement := by
  obtain ⟨K, zs, L1, L2, L3⟩ := sectionElements_keeps V I hx
  have := L3 ys w1 h
  subst this
  rw [h] at K L1 L2
  refine ⟨L2, L1, fun y hy => ?_⟩
  obtain ⟨h1, h2, h3, h4⟩ := L2.members y hy
  rw [(hx.later K.later).2] at h3
  exact ⟨h2, h3⟩

/-- The objects for a key. -/
def asked (E : Env) (w : World) (key : Option Str) (y : Nat) : Bool :=
  match key with
  | none | some [] => true
  | some k => keyAt E w y = k

theorem named_cons {all : Api (List Nat)} {c : Char} {k : Str} :
    named all o (some (c :: k)) = (do let _ ← all; let x ← obj o; pure ((x.index.lookup (c :: k)).getD [])) := rfl

/-- Keys select from the children. -/
theorem named_run {all : Api (List Nat)} {key : Option Str} {ys : List Nat} (h : all w = (.ok ys, w1)) (K : KidsOk E w1 o ys) (hc : (w1.at o).cls ≠ .of .list) :
    named all o key w = (.ok (ys.filter (asked E w1 key)), w1) := by
  have all' : ∀ l : List Nat, l.filter (fun _ => true) = l := fun l => List.filter_eq_self.2 fun _ _ => rfl
  rcases key with _ | _ | ⟨c, k⟩
  · change all w = _; rw [h]; unfold asked; rw [all']
  · change all w = _; rw [h]; unfold asked; rw [all']
  · rw [named_cons, bind_ok h, bind_ok obj_run]
    obtain ⟨zs, h1, h2⟩ := K.index hc
    rw [pure_run, h1, lookup_indexOf]
    congr 2
    have : ((zs.map fun z => (keyAt E w1 z, z)).filter fun p => p.1 = c :: k).map (·.2) = zs.filter fun z => keyAt E w1 z = c :: k := by
      rw [List.filter_map, List.map_map]
      have : ((fun p : Str × Nat => p.2) ∘ fun z => (keyAt E w1 z, z)) = id := rfl
      rw [this, List.map_id]
      rfl
    rw [this, h2]
    rfl

theorem keeps_castTo {k : Kind} {key : Option Str} {m : MsgName} (I : Inv E w) (hx : IsA w o .sectionElement) : Keeps E w (castTo E k key m o w).2 := by
  unfold castTo
  rw [bind_ok obj_run]
  split
  · exact (to_keeps k I (.inl hx)).1
  · exact keeps_validation I

/-- The children of a section for a key. -/
theorem named_elements (V : EnvOk E) (I : Inv E w) (hx : IsA w o (.of .section)) {key : Option Str} {zs : List Nat} (h : named (sectionElements E o) o key w = (.ok zs, w1)) :
    ∃ ys, sectionElements E o w = (.ok ys, w1) ∧ zs = ys.filter (asked E w1 key) ∧ ∀ y ∈ zs, IsA w1 y .sectionElement := by
  cases hm : sectionElements E o w with
  | mk r w2 =>
    have K := (sectionElements_keeps V I hx).1
    rw [hm] at K
    cases r with
    | error e =>
      exfalso
      rcases key with _ | _ | ⟨c, k⟩
      · change sectionElements E o w = _ at h; rw [hm] at h; cases h
      · change sectionElements E o w = _ at h; rw [hm] at h; cases h
      · rw [named_cons, bind_error hm] at h; cases h
    | ok ys =>
      obtain ⟨h1, h2, h3⟩ := elements_of V I hx hm
      rw [named_run hm h1 (by rw [(hx.later K.later).2]; simp)] at h
      cases h
      exact ⟨ys, rfl, rfl, fun y hy => h3 y (List.mem_filter.1 hy).1⟩

theorem keeps_single (V : EnvOk E) {want : Want} {key : Option Str} {required : Option Bool} (I : Inv E w) (hx : IsA w o (.of .section)) :
    Keeps E w (single E want o key required w).2 := by
  unfold single
  refine keeps_bind (keeps_touched I) fun _ w1 _ I1 L1 => ?_
  have hx1 := hx.later L1
  refine keeps_bind (keeps_named (sectionElements_keeps V I1 hx1).1) fun ys w2 h2 I2 L2 => ?_
  obtain ⟨_, _, _, hy⟩ := named_elements V I1 hx1 h2
  rw [bind_ok obj_run]
  rcases ys with _ | ⟨y, _ | ⟨z, ys⟩⟩
  · dsimp only
    split
    · exact keeps_validation I2
    · split <;> exact .refl I2
  · cases want with
    | any => exact .refl I2
    | kind k => exact keeps_bind (keeps_castTo I2 (hy y (by simp))) fun _ w3 _ I3 _ => .refl I3
  · exact keeps_bind (keeps_refs _ I2) fun rs w3 _ I3 _ => keeps_validation I3

theorem keeps_several (V : EnvOk E) {want : Want} {key : Option Str} (I : Inv E w) (hx : IsA w o (.of .section)) : Keeps E w (several E want o key w).2 := by
  unfold several
  refine keeps_bind (keeps_touched I) fun _ w1 _ I1 L1 => ?_
  have hx1 := hx.later L1
  refine keeps_bind (keeps_named (sectionElements_keeps V I1 hx1).1) fun ys w2 h2 I2 L2 => ?_
  obtain ⟨_, _, _, hy⟩ := named_elements V I1 hx1 h2
  cases want with
  | any => exact .refl I2
  | kind k => exact keeps_each ys w2 I2 fun y h w3 I3 L3 => keeps_castTo I3 ((hy y h).later L3)

theorem keeps_requireAll (V : EnvOk E) {required : Bool} : ∀ (n o : Nat) (w : World), Inv E w → IsA w o (.of .section) → Keeps E w (requireAll E n required o w).2
  | 0, _, _, I, _ => .refl I
  | n + 1, o, w, I, hx => by
    unfold requireAll
    refine keeps_bind (keeps_required I) fun _ w1 _ I1 L1 => ?_
    have hx1 := hx.later L1
    refine keeps_bind (sectionElements_keeps V I1 hx1).1 fun ys w2 h2 I2 L2 => ?_
    obtain ⟨_, _, hy⟩ := elements_of V I1 hx1 h2
    refine keeps_bind (keeps_each ys w2 I2 fun y h w3 I3 L3 => ?_) fun _ w3 _ I3 _ => .refl I3
    have hy3 := (hy y h).later L3
    rw [bind_ok obj_run]
    split
    · split
      · exact .refl I3
      · obtain ⟨K, hk⟩ := to_keeps .section I3 (.inl hy3)
        refine keeps_bind K fun z w4 h4 I4 L4 => ?_
        have M := ((I4.objs y (hy3.later L4).1).made _ z (hk z w4 h4)).2
        exact keeps_requireAll V n z w4 I4 ⟨M.known, M.cls⟩
    · split
      · split
        · exact .refl I3
        · exact keeps_bind (to_keeps .fieldset I3 (.inl hy3)).1 fun z w4 h4 I4 L4 => keeps_required I4
      · exact .refl I3

theorem keeps_touchElement (V : EnvOk E) {deeper : Nat → Api Unit} (I : Inv E w) (hx : IsA w o .sectionElement ∨ IsA w o .element)
    (hd : ∀ y w1, Inv E w1 → IsA w1 y (.of .section) → Keeps E w1 (deeper y w1).2) : Keeps E w (touchElement E deeper o w).2 := by
  have ho : o < w.objs.length := by rcases hx with h | h <;> exact h.1
  have M : ∀ k y, (w.at o).made k = some y → IsA w y (.of k) := fun k y h => ⟨((I.objs o ho).made k y h).2.known, ((I.objs o ho).made k y h).2.cls⟩
  unfold touchElement
  rw [bind_ok obj_run]
  generalize (w.at o).made = made at M
  split
  · exact .refl I
  · have opt : ∀ {k : Kind} {f : Nat → Api Unit} {w1 : World}, Inv E w1 → Later w w1 → (∀ y w2, Inv E w2 → IsA w2 y (.of k) → Keeps E w2 (f y w2).2) →
        Keeps E w1 (ifMade (made k) f w1).2 := by
      intro k f w1 I1 L1 hf
      cases h : made k with
      | none => exact .refl I1
      | some y => exact hf y w1 I1 ((M k y h).later L1)
    refine keeps_bind (opt I (.refl w) fun y w2 I2 _ => keeps_touched I2) fun _ w1 _ I1 L1 => ?_
    refine keeps_bind (opt I1 L1 fun y w2 I2 _ => keeps_touched I2) fun _ w2 _ I2 L2 => ?_
    refine keeps_bind (opt I2 (L1.trans L2) fun y w2 I2 h => keeps_touchFieldset V I2 h) fun _ w3 _ I3 L3 => ?_
    refine keeps_bind (opt I3 ((L1.trans L2).trans L3) fun y w2 I2 h => keeps_touchList I2 h) fun _ w4 _ I4 L4 => ?_
    exact opt I4 (((L1.trans L2).trans L3).trans L4) hd

theorem keeps_touchSection (V : EnvOk E) : ∀ (n o : Nat) (w : World), Inv E w → IsA w o (.of .section) → Keeps E w (touchSection E n o w).2
  | 0, _, _, I, _ => .refl I
  | n + 1, o, w, I, hx => by
    unfold touchSection
    refine keeps_bind (keeps_touched I) fun _ w1 _ I1 L1 => ?_
    have hx1 := hx.later L1
    refine keeps_bind (sectionElements_keeps V I1 hx1).1 fun ys w2 h2 I2 L2 => ?_
    obtain ⟨_, _, hy⟩ := elements_of V I1 hx1 h2
    exact keeps_bind (keeps_each ys w2 I2 fun y h w3 I3 L3 => keeps_touchElement V I3 (.inl ((hy y h).later L3)) fun z w4 I4 h4 => keeps_touchSection V n z w4 I4 h4)
      fun _ w3 _ I3 _ => .refl I3

/-- `Element` objects are made for messages. -/
theorem keeps_element {r : Ref} (I : Inv E w) (hx : IsA w o (.of .section)) (hr : Actual E.ctx.heap r) :
    Keeps E w (create [{ cls := .element, ref := r, parent := some o }] w).2 := by
  have L : Later w (create [{ cls := .element, ref := r, parent := some o }] w).2 := later_create _
  refine ⟨⟨present_later I L, fun q hq => ?_, I.cache, I.asked⟩, L⟩
  rw [len_create] at hq
  simp only [List.length_cons, List.length_nil] at hq
  by_cases h : q < w.objs.length
  · refine (I.objs q h).later L h ?_ ?_ ?_ <;> rw [at_create_lt h]
  · have : q = w.objs.length + 0 := by omega
    subst this
    have hat := at_create_ge (w := w) (xs := [{ cls := .element, ref := r, parent := some o }]) (k := 0) (by simp)
    simp only [List.getElem_cons_zero] at hat
    refine fresh_ok (p := o) (fun h => ?_) ?_ (by have := hx.1; omega) ?_ ?_ ?_ ?_ ?_ <;> (try rw [hat])
    · rw [hat] at h
      rw [show r = .elem 0 from h] at hr
      exact absurd hr.1 (Nat.lt_irrefl _)
    · rw [at_create_lt hx.1]; exact hx.2
    · exact .inl hr

/-- The elements that `assert_all_touched` looks at. -/
theorem index_mem {ys : List Nat} (K : KidsOk E w o ys) (hc : (w.at o).cls ≠ .of .list) {only skip : List Str} {y : Nat}
    (h : y ∈ ((w.at o).index.filter fun p => !skipped only skip p.1).flatMap (·.2)) : y ∈ ys := by
  obtain ⟨zs, h1, h2⟩ := K.index hc
  have h3 : y ∈ (w.at o).index.flatMap (·.2) := by
    obtain ⟨p, hp, hy⟩ := List.mem_flatMap.1 h
    exact List.mem_flatMap.2 ⟨p, (List.mem_filter.1 hp).1, hy⟩
  rw [h1, mem_indexOf] at h3
  simp only [List.map_map] at h3
  have h4 : y ∈ zs := by simpa using h3
  have h5 : y ∈ zs.filter (fun z => keyAt E w z = keyAt E w y) := by simp [h4]
  rw [h2] at h5
  exact (List.mem_filter.1 h5).1

/-- What `assert_all_touched` finds. -/
theorem assert_search (V : EnvOk E) (I : Inv E w) {zs : List Nat} (hz : ∀ z ∈ zs, IsA w z .sectionElement) :
    Search E w (firstSome (untouchedElement E (untouchedSection E (w.objs.length + 1))) zs w) (fun w' => ∀ z ∈ zs, UsedElement E w' z) (fun w' r => ∃ z ∈ zs, UnusedElement w' z r) := by
  refine firstSome_search (U := fun z w' => UsedElement E w' z) (N := fun z w' r => UnusedElement w' z r) zs w I ?_ ?_
  · intro z hz' w1 I1 u
    have h1 := (hz z hz').later u.later
    refine untouchedElement_search V I1 h1 fun y hy => ?_
    have B := I.bounded.unfolded u
    have M := ((I1.objs z h1.1).made _ y hy).2
    have := M.lt
    exact untouchedSection_search V _ y w1 I1 B ⟨M.known, M.cls⟩ (made_actual I1 h1.1 hy) (B z _ y hy) (by omega)
  · intro z hz' w1 w2 I1 I2 u v h
    exact (usedElement_iff I1 I2 v ((hz z hz').later u.later).1).2 h

theorem keeps_assertAllTouched (V : EnvOk E) {m : Option (MsgArg Nat)} {only skip : List Str} (I : Inv E w) (hx : IsA w o (.of .section))
    (hm : ∀ x, m = some x → x.Polite E) : Keeps E w (assertAllTouched E o m only skip w).2 := by
  unfold assertAllTouched
  refine keeps_bind (sectionElements_keeps V I hx).1 fun ys w1 h1 I1 L1 => ?_
  obtain ⟨K, _, hy⟩ := elements_of V I hx h1
  have hx1 := hx.later L1
  rw [bind_ok obj_run, bind_ok (m := objectCount) (w := w1) (w' := w1) (a := w1.objs.length) rfl]
  have S := assert_search V I1 (zs := ((w1.at o).index.filter fun p => !skipped only skip p.1).flatMap (·.2)) fun z hz => hy z (index_mem K (by rw [hx1.2]; simp) hz)
  refine keeps_bind ⟨S.inv, S.unf.later⟩ fun r w2 h2 I2 L2 => ?_
  rw [h2] at S
  cases r with
  | none => exact .refl I2
  | some r =>
    have hr := (S.dirty r rfl).2
    rcases m with _ | (s | f)
    · exact keeps_validation I2
    · exact keeps_validation I2
    · have hx2 := hx1.later L2
      refine keeps_bind (keeps_bind (keeps_element I2 hx2 hr) fun y w3 _ I3 _ => keeps_map (hm _ rfl _ w3 I3)) fun s w3 _ I3 _ => keeps_validation I3

/-! ## All methods -/

theorem keeps_touch (V : EnvOk E) (I : Inv E w) {c : Cls} (hx : IsA w o c) : Keeps E w (touch E c o w).2 := by
  unfold touch
  split
  · exact keeps_touchSection V _ o w I hx
  · exact keeps_touchFieldset V I hx
  · exact keeps_touchList I hx
  · exact keeps_touchElement V I (.inl hx) fun y w1 I1 h => keeps_touchSection V _ y w1 I1 h
  · exact keeps_touchElement V I (.inr hx) fun y w1 I1 h => keeps_touchSection V _ y w1 I1 h
  · exact keeps_touched I

theorem keeps_sectionParent (I : Inv E w) : Keeps E w (sectionParent E o w).2 := by
  unfold sectionParent
  rw [bind_ok obj_run]
  split
  · exact .refl I
  · cases (w.at o).parent <;> exact .refl I

/-- Sections are made for `parent`. -/
theorem keeps_orphan {s : Nat} (I : Inv E w) (hn : ¬ Parsed w) (h1 : s < E.ctx.heap.length) (h2 : 0 < s → (E.ctx.heap.at s).type = .section) :
    Keeps E w (create [Kind.new .section (.elem s) none false] w).2 := by
  have L : Later w (create [Kind.new .section (.elem s) none false] w).2 := later_create _
  refine ⟨⟨present_later I L, fun q hq => ?_, I.cache, I.asked⟩, L⟩
  rw [len_create] at hq
  simp only [List.length_cons, List.length_nil] at hq
  by_cases h : q < w.objs.length
  · refine (I.objs q h).later L h ?_ ?_ ?_ <;> rw [at_create_lt h]
  · have : q = w.objs.length + 0 := by omega
    subst this
    have hat := at_create_ge (w := w) (xs := [Kind.new .section (.elem s) none false]) (k := 0) (by simp)
    simp only [List.getElem_cons_zero] at hat
    refine fresh_orphan ?_ ?_ (fun q => ?_) ?_ ?_ ?_ ?_ <;> (try rw [hat])
    · rfl
    · exact .inr ⟨.section, rfl⟩
    · refine absurd ?_ hn
      unfold Parsed at q ⊢
      rw [(L.obj 0 I.present).cls] at q
      exact q
    · exact ⟨h1, fun _ => rfl, fun h => by rw [h2 h]; rfl⟩
    · rfl
    · rfl
    · rfl

/-- Fieldsets and lists have a section. -/
theorem owner_ok {k : Kind} (V : EnvOk E) (I : Inv E w) (hx : IsA w o (.of k)) (hk : k ≠ .section) :
    ∃ s, (E.ctx.heap.at (w.at o).ref.idx).parent = some s ∧ s < E.ctx.heap.length ∧ (0 < s → (E.ctx.heap.at s).type = .section) := by
  have R := (I.objs o hx.1).ref
  rw [hx.2] at R
  cases hr : (w.at o).ref with
  | elem i =>
    rw [hr] at R
    exact V.parents i (Nat.pos_of_ne_zero fun e => hk (R.2.1 e)) R.1
  | item i j => rw [hr] at R; exact R.elim
  | entry i j => rw [hr] at R; exact R.elim

theorem keeps_parentOf (V : EnvOk E) (I : Inv E w) : Keeps E w (parentOf E o w).2 := by
  unfold parentOf
  rw [bind_ok obj_run]
  cases hp : (w.at o).parent with
  | some p => exact .refl I
  | none =>
    dsimp only
    split
    · rename_i hc
      obtain ⟨s, h1, h2, h3⟩ : ∃ s, (E.ctx.heap.at (w.at o).ref.idx).parent = some s ∧ s < E.ctx.heap.length ∧ (0 < s → (E.ctx.heap.at s).type = .section) := by
        rcases hc with hc | hc
        · exact owner_ok V I ⟨known_of_cls hc (by simp), hc⟩ (by simp)
        · exact owner_ok V I ⟨known_of_cls hc (by simp), hc⟩ (by simp)
      rw [h1]
      refine keeps_orphan I (fun q => ?_) h2 h3
      have ho : o < w.objs.length := by rcases hc with hc | hc <;> exact known_of_cls hc (by simp)
      have := ((I.objs o ho).orphan hp).2 q
      subst this
      rw [show (w.at 0).cls = _ from q] at hc
      simp at hc
    · exact .refl I

theorem keeps_ownKey (I : Inv E w) : Keeps E w (ownKey E o w).2 := by
  unfold ownKey
  rw [bind_ok obj_run]
  cases E.ctx.heap.key? (w.at o).ref <;> exact .refl I

theorem keeps_printValue (V : EnvOk E) (I : Inv E w) : Keeps E w (printValue E o w).2 :=
  keeps_bind (keeps_valueOf V I) fun v w1 _ I1 _ => by rcases v with _ | _ | _ <;> exact .refl I1

theorem keeps_repr (V : EnvOk E) {c : Cls} (I : Inv E w) (hx : IsA w o c) : Keeps E w (repr E c o w).2 := by
  unfold repr
  rw [bind_ok obj_run]
  have key : ∀ {g : Str → Api Str}, (∀ k w1, Inv E w1 → Later w w1 → Keeps E w1 (g k w1).2) → Keeps E w ((ownKey E o >>= g) w).2 := fun h =>
    keeps_bind (keeps_ownKey I) fun k w1 _ I1 L1 => h k w1 I1 L1
  cases c with
  | of k =>
    cases k with
    | empty => exact key fun _ w1 I1 _ => .refl I1
    | field => exact key fun _ w1 I1 _ => keeps_bind (keeps_printValue V I1) fun _ w2 _ I2 _ => .refl I2
    | fieldset => exact key fun _ w1 I1 L1 => keeps_bind (fieldsetEntries_keeps V I1 (hx.later L1)).1 fun _ w2 _ I2 _ => .refl I2
    | list => exact key fun _ w1 I1 L1 => keeps_bind (listItems_keeps I1 (hx.later L1)).1 fun _ w2 _ I2 _ => .refl I2
    | «section» =>
      dsimp only
      split
      · exact keeps_bind (sectionElements_keeps V I hx).1 fun _ w2 _ I2 _ => .refl I2
      · exact key fun _ w1 I1 L1 => keeps_bind (sectionElements_keeps V I1 (hx.later L1)).1 fun _ w2 _ I2 _ => .refl I2
  | sectionElement => exact key fun _ w1 I1 _ => .refl I1
  | element => exact key fun _ w1 I1 _ => .refl I1
  | entry => exact key fun _ w1 I1 _ => keeps_bind (keeps_printValue V I1) fun _ w2 _ I2 _ => .refl I2
  | item => exact keeps_bind (keeps_printValue V I) fun _ w2 _ I2 _ => .refl I2

theorem run_keeps_known (V : EnvOk E) (I : Inv E w) (ho : o < w.objs.length) {m : Method} (hm : m.Polite E) : Keeps E w (run E o m w).2 := by
  unfold run
  rw [bind_ok obj_run]
  have hx : IsA w o (w.at o).cls := ⟨ho, rfl⟩
  generalize (w.at o).cls = c at hx
  cases m with
  | comment required loader => exact keeps_map (keeps_comment I hm)
  | commentError m => exact keeps_map (keeps_commentErrorOf I hm)
  | error m => exact keeps_map (keeps_errorOf I hm)
  | key loader => exact keeps_key I hm
  | keyError m => exact keeps_map (keeps_keyErrorOf I hm)
  | raw => exact keeps_map (keeps_rawOf V I)
  | repr => exact keeps_map (keeps_repr V I hx)
  | touch => exact keeps_bind (keeps_touch V I hx) fun _ w1 _ I1 _ => .refl I1
  | value required loader =>
    cases c with
    | of k => cases k <;> first | exact .refl I | exact keeps_map (keeps_value V I hm)
    | _ => first | exact .refl I | exact keeps_map (keeps_value V I hm)
  | valueError m =>
    cases c with
    | of k => cases k <;> first | exact .refl I | exact keeps_map (keeps_valueErrorOf V I hm)
    | _ => first | exact .refl I | exact keeps_map (keeps_valueErrorOf V I hm)
  | to k =>
    cases c with
    | sectionElement => exact keeps_map (to_keeps k I (.inl hx)).1
    | element => exact keeps_map (to_keeps k I (.inr hx)).1
    | _ => exact .refl I
  | yields k =>
    cases c with
    | sectionElement => exact .refl I
    | element => exact .refl I
    | _ => exact .refl I
  | toEntry => exact .refl I
  | toItem => exact .refl I
  | yieldsEntry => cases c <;> exact .refl I
  | yieldsItem => cases c <;> exact .refl I
  | items =>
    cases c with
    | of k => cases k <;> first | exact .refl I | exact keeps_map (keeps_items I hx)
    | _ => exact .refl I
  | length =>
    cases c with
    | of k => cases k <;> first | exact .refl I | exact keeps_map (keeps_itemCount I hx)
    | _ => exact .refl I
  | values required loader =>
    cases c with
    | of k => cases k <;> first | exact .refl I | exact keeps_map (keeps_values V I hx hm)
    | _ => exact .refl I
  | entries key =>
    cases c with
    | of k => cases k <;> first | exact .refl I | exact keeps_map (keeps_entries V I hx)
    | _ => exact .refl I
  | entry key required =>
    cases c with
    | of k => cases k <;> first | exact .refl I | exact keeps_map (keeps_entry V I hx)
    | _ => exact .refl I
  | allEntriesRequired required =>
    cases c with
    | of k => cases k <;> first | exact .refl I | exact keeps_bind (keeps_required I) fun _ w1 _ I1 _ => .refl I1
    | _ => exact .refl I
  | assertAllTouched message only skip =>
    have hm' : ∀ x, message = some x → x.Polite E := by rintro x rfl; exact hm
    cases c with
    | of k =>
      cases k <;> first
        | exact .refl I
        | exact keeps_bind (keeps_assertEntriesTouched V I hx hm') fun _ w1 _ I1 _ => .refl I1
        | exact keeps_bind (keeps_assertAllTouched V I hx hm') fun _ w1 _ I1 _ => .refl I1
    | _ => exact .refl I
  | one want key required =>
    cases c with
    | of k =>
      cases k <;> first
        | exact .refl I
        | exact keeps_bind (keeps_single V I hx) fun r w1 _ I1 _ => by cases r <;> exact .refl I1
    | _ => exact .refl I
  | many want key =>
    cases c with
    | of k =>
      cases k <;> first
        | (cases want with
            | any => first | exact .refl I | exact keeps_map (keeps_several V I hx)
            | kind k' => cases k' <;> first | exact .refl I | exact keeps_map (keeps_several V I hx))
    | _ => cases want with
      | any => exact .refl I
      | kind k' => cases k' <;> exact .refl I
  | allElementsRequired required =>
    cases c with
    | of k =>
      cases k <;> first
        | exact .refl I
        | exact keeps_bind (m := objectCount) (.refl I) fun n w1 h I1 L1 =>
            keeps_bind (keeps_requireAll V _ o w1 I1 (hx.later L1)) fun _ w2 _ I2 _ => .refl I2
    | _ => exact .refl I
  | parent =>
    cases c with
    | of k => cases k <;> first | exact keeps_map (keeps_sectionParent I) | exact keeps_map (keeps_parentOf V I)
    | sectionElement => exact .refl I
    | element => exact .refl I
    | entry => exact keeps_map (keeps_parentOf V I)
    | item => exact keeps_map (keeps_parentOf V I)

/-- A call of any method, whatever its result. -/
theorem run_keeps (V : EnvOk E) (I : Inv E w) (o : Nat) {m : Method} (hm : m.Polite E) : Keeps E w (run E o m w).2 := by
  by_cases ho : o < w.objs.length
  · exact run_keeps_known V I ho hm
  · unfold run
    rw [bind_ok obj_run]
    have hc : (w.at o).cls = .of .empty := by rw [at_out (Nat.le_of_not_lt ho)]; rfl
    rw [hc]
    cases m with
    | comment required loader => exact keeps_map (keeps_comment I hm)
    | commentError m => exact keeps_map (keeps_commentErrorOf I hm)
    | error m => exact keeps_map (keeps_errorOf I hm)
    | key loader => exact keeps_key I hm
    | keyError m => exact keeps_map (keeps_keyErrorOf I hm)
    | raw => exact keeps_map (keeps_rawOf V I)
    | repr => exact keeps_map (keeps_bind (m := obj o) (.refl I) fun _ w1 _ I1 _ => keeps_bind (keeps_ownKey I1) fun _ w2 _ I2 _ => .refl I2)
    | touch => exact keeps_bind (m := setTouched o) (keeps_touched I) fun _ w1 _ I1 _ => .refl I1
    | parent => exact keeps_map (keeps_parentOf V I)
    | many want key =>
      cases want with
      | any => exact .refl I
      | kind k' => cases k' <;> exact .refl I
    | _ => exact .refl I

/-! ## The beginning -/

theorem inv_start (V : EnvOk E) : Inv E World.start := by
  refine ⟨by simp [World.start], fun o ho => ?_, honest_empty, .start⟩
  have : o = 0 := by simp [World.start] at ho; exact ho
  subst this
  exact fresh_orphan rfl (.inr ⟨_, rfl⟩) (fun _ => rfl) ⟨V.present, fun _ => rfl, fun h => absurd h (by omega)⟩ rfl rfl rfl

theorem inv_found {r : Ref} (V : EnvOk E) (hr : Actual E.ctx.heap r ∨ r = .elem 0) : Inv E (World.found r) := by
  refine ⟨by simp [World.found], fun o ho => ?_, honest_empty, .start⟩
  have : o = 0 := by simp [World.found] at ho; exact ho
  subst this
  exact fresh_orphan rfl (.inl rfl) (fun _ => rfl) (hr.imp_right fun h => ⟨h, V.doc⟩) rfl rfl rfl

end Eno.El
