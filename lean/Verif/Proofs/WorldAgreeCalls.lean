import Verif.Proofs.WorldAgree

/-! # Objects: no call depends on the reporter and on the layout -/

namespace Eno.El

open Spec

variable {talk : Prop} {α β γ : Type} {w w' w1 : World} {o y : Nat} {E : Env} {E' : Env}

/-- Two functions use the objects like everyone does and agree. -/
def FnAgree (E : Env) (E' : Env) (R : β → γ → Prop) (f : α → Api β) (f' : α → Api γ) : Prop :=
  ∀ a w, Inv E w → Keeps E w (f a w).2 ∧ AgreeAt E E' R (f a) (f' a) w

/-- Two ways to make a message. -/
inductive MsgAgree (E : Env) (E' : Env) : MsgArg α → MsgArg α → Prop where
  | text {s} : MsgAgree E E' (.text s) (.text s)
  | fn {f f'} : FnAgree E E' Eq f f' → MsgAgree E E' (.fn f) (.fn f')

theorem FnAgree.polite {R : β → γ → Prop} {f : α → Api β} {f' : α → Api γ} (h : FnAgree E E' R f f') : Polite E f := fun a w I => (h a w I).1

theorem MsgAgree.polite {m m' : MsgArg α} (h : MsgAgree E E' m m') : m.Polite E := by
  cases h with
  | text => trivial
  | fn h => exact h.polite

/-! ## What objects stand for -/

theorem actual_first {h : Heap} {r : Ref} (a : Actual h r) : ∃ b, FirstLine h r b := by
  have out : ∀ {i}, ¬ i < h.length → h.at i = Elem.document := fun q => by simp [Heap.at, List.getD, List.getElem?_eq_none (Nat.le_of_not_lt q)]
  cases r with
  | elem i => exact ⟨_, .elem a.1 a.2⟩
  | item i k =>
    obtain ⟨x, hx⟩ := Option.isSome_iff_exists.1 a
    by_cases hi : i < h.length
    · cases hs : (h.at i).items with
      | none => simp [Heap.sub?, hs] at hx
      | some xs => exact ⟨_, .item hi hs (x := x) (by simpa [Heap.sub?, hs] using hx)⟩
    · have : (h.at i).items = none := by rw [out hi]; rfl
      simp [Heap.sub?, this] at hx
  | entry i k =>
    obtain ⟨x, hx⟩ := Option.isSome_iff_exists.1 a
    by_cases hi : i < h.length
    · cases hs : (h.at i).entries with
      | none => simp [Heap.sub?, hs] at hx
      | some xs => exact ⟨_, .entry hi hs (x := x) (by simpa [Heap.sub?, hs] using hx)⟩
    · have : (h.at i).entries = none := by rw [out hi]; rfl
      simp [Heap.sub?, this] at hx

theorem ref_first (I : Inv E w) : (w.at o).ref = .elem 0 ∨ ∃ b, FirstLine E.ctx.heap (w.at o).ref b := by
  by_cases ho : o < w.objs.length
  · have R := (I.objs o ho).ref
    revert R
    cases hc : (w.at o).cls with
    | of k =>
      cases hr : (w.at o).ref with
      | elem i =>
        intro R
        by_cases h0 : i = 0
        · left; rw [h0]
        · right; exact ⟨_, .elem (by omega) R.1⟩
      | item i k => intro R; exact R.elim
      | entry i k => intro R; exact R.elim
    | sectionElement =>
      cases hr : (w.at o).ref with
      | elem i => intro R; right; exact ⟨_, .elem R.1 R.2⟩
      | item i k => intro R; exact R.elim
      | entry i k => intro R; exact R.elim
    | element => intro R; exact R.symm.imp (·.1) actual_first
    | entry =>
      cases hr : (w.at o).ref with
      | entry i k => intro R; right; exact actual_first (r := .entry i k) R
      | item i k => intro R; exact R.elim
      | elem i => intro R; exact R.elim
    | item =>
      cases hr : (w.at o).ref with
      | item i k => intro R; right; exact actual_first (r := .item i k) R
      | entry i k => intro R; exact R.elim
      | elem i => intro R; exact R.elim
  · left
    rw [at_out (Nat.le_of_not_lt ho)]
    rfl

theorem idx_lt (V : EnvOk E) (I : Inv E w) : (w.at o).ref.idx < E.ctx.heap.length := by
  rcases ref_first (o := o) I with h | ⟨b, h⟩
  · rw [h]; exact V.present
  · generalize (w.at o).ref = r at h
    cases h <;> assumption

/-- Objects with values stand for something that can have one. -/
theorem value_ref (I : Inv E w) {c : Cls} (hx : IsA w o c) (hc : c = .of .field ∨ c = .entry ∨ c = .item) :
    (∃ b, FirstLine E.ctx.heap (w.at o).ref b) ∧ E.ctx.heap.type (w.at o).ref ∈ [Ty.field, .empty, .mlBegin, .listItem, .fieldsetEntry] := by
  have R := (I.objs o hx.1).ref
  rw [hx.2] at R
  rcases hc with rfl | rfl | rfl
  · cases hr : (w.at o).ref with
    | elem i =>
      rw [hr] at R
      have h0 : 0 < i := by
        rcases Nat.eq_zero_or_pos i with h | h
        · exact absurd (R.2.1 h) (by decide)
        · exact h
      refine ⟨⟨_, .elem h0 R.1⟩, ?_⟩
      have := R.2.2 h0
      simp only [Heap.type]
      cases ht : (E.ctx.heap.at i).type <;> rw [ht] at this <;> first | (simp; done) | cases this
    | item i k => rw [hr] at R; exact R.elim
    | entry i k => rw [hr] at R; exact R.elim
  · cases hr : (w.at o).ref with
    | entry i k => rw [hr] at R; exact ⟨actual_first (r := .entry i k) R, by simp [Heap.type]⟩
    | item i k => rw [hr] at R; exact R.elim
    | elem i => rw [hr] at R; exact R.elim
  · cases hr : (w.at o).ref with
    | item i k => rw [hr] at R; exact ⟨actual_first (r := .item i k) R, by simp [Heap.type]⟩
    | entry i k => rw [hr] at R; exact R.elim
    | elem i => rw [hr] at R; exact R.elim

theorem element_ref (I : Inv E w) {c : Cls} (hx : IsA w o c) (hc : c = .sectionElement ∨ c = .entry ∨ c = .item) : ∃ b, FirstLine E.ctx.heap (w.at o).ref b := by
  have R := (I.objs o hx.1).ref
  rw [hx.2] at R
  rcases hc with rfl | rfl | rfl
  · cases hr : (w.at o).ref with
    | elem i => rw [hr] at R; exact ⟨_, .elem R.1 R.2⟩
    | item i k => rw [hr] at R; exact R.elim
    | entry i k => rw [hr] at R; exact R.elim
  · exact (value_ref I hx (.inr (.inl rfl))).1
  · exact (value_ref I hx (.inr (.inr rfl))).1

/-! ## Methods of all classes -/

theorem agree_get {a : Api α} {m m' : MsgArg α} (K : Keeps E w (a w).2) (q : QuietAt a w) (hm : MsgAgree E E' m m') : AgreeAt E E' Eq (m.get a) (m'.get a) w := by
  cases hm with
  | text => exact agree_pure rfl
  | fn h => exact agree_bind K q.agree fun x x' w1 _ I1 _ e => by subst e; exact (h x w1 I1).2

/-- Optional results. -/
inductive Opt (R : α → β → Prop) : Option α → Option β → Prop where
  | none : Opt R none none
  | some {a b} : R a b → Opt R (some a) (some b)

theorem agree_comment (T : Setting talk E E') (ht : talk) {required : Bool} {R : α → β → Prop} {f : Str → Api α} {f' : Str → Api β} (I : Inv E w) (hf : FnAgree E E' R f f') :
    AgreeAt E E' (Opt R) (comment E o required f) (comment E' o required f') w := by
  unfold comment
  rw [T.commentOf ht]
  refine agree_bind (keeps_touched I) quiet_touched.agree fun _ _ w1 _ I1 _ _ => ?_
  refine agree_bind (keeps_commentOf I1) (quiet_commentOf (E := E)).agree fun c c' w2 _ I2 _ e => ?_
  subst e
  refine agree_bind (.refl I2) quiet_obj.agree fun x x' w3 hx _ _ e => ?_
  subst e
  rw [obj_run] at hx
  cases hx
  have hno : AgreeAt E E' (Opt R) (if required then raiseValidation (missingComment E.o E.ctx (w2.at o).ref) else (pure none : Api (Option α)))
      (if required then raiseValidation (missingComment E'.o E'.ctx (w2.at o).ref) else (pure none : Api (Option β))) w2 := by
    split
    · exact agree_raise T (v := .missingComment _) (ref_first I2)
    · exact agree_pure .none
  rcases c with _ | _ | ⟨c, cs⟩
  · exact hno
  · exact hno
  · exact agree_map (agree_except (hf _ w2 I2).1 (hf _ w2 I2).2 fun s w3 I3 _ => agree_raise T (v := .comment s _) (ref_first I2) (.inl ht)) fun _ _ h => .some h

theorem agree_value (T : Setting talk E E') {required : Bool} {R : α → β → Prop} {f : Str → Api α} {f' : Str → Api β} {c : Cls} (I : Inv E w) (hx : IsA w o c)
    (hc : c = .of .field ∨ c = .entry ∨ c = .item) (hf : FnAgree E E' R f f') : AgreeAt E E' (Opt R) (value E o required f) (value E' o required f') w := by
  unfold value
  rw [T.valueOf]
  refine agree_bind (keeps_touched I) quiet_touched.agree fun _ _ w1 _ I1 L1 _ => ?_
  refine agree_bind (keeps_valueOf T.env I1) (quiet_valueOf (E := E)).agree fun v v' w2 _ I2 L2 e => ?_
  subst e
  refine agree_bind (.refl I2) quiet_obj.agree fun x x' w3 hx' _ _ e => ?_
  subst e
  rw [obj_run] at hx'
  cases hx'
  have hp := value_ref I2 ((hx.later L1).later L2) hc
  cases v with
  | none =>
    dsimp only
    split
    · exact agree_raise T (v := .missingValue _) hp
    · exact agree_pure .none
  | some v => exact agree_map (agree_except (hf _ w2 I2).1 (hf _ w2 I2).2 fun s w3 I3 _ => agree_raise T (v := .value s _) hp) fun _ _ h => .some h

theorem agree_key (T : Setting talk E E') {R : α → β → Prop} {f : Str → Api α} {f' : Str → Api β} (I : Inv E w) (hf : FnAgree E E' R f f') :
    AgreeAt E E' R (key E o f) (key E' o f') w := by
  unfold key
  rw [T.keyOf]
  refine agree_bind (keeps_touched I) quiet_touched.agree fun _ _ w1 _ I1 L1 _ => ?_
  refine agree_bind (.refl I1) quiet_obj.agree fun x x' w3 hx' _ _ e => ?_
  subst e
  rw [obj_run] at hx'
  cases hx'
  refine agree_except (keeps_bind (keeps_keyOf I1) fun k w2 _ I2 _ => (hf k w2 I2).1) ?_ fun s w3 I3 _ => agree_raise T (v := .key s _) (ref_first I1)
  exact agree_bind (keeps_keyOf I1) (quiet_keyOf (E := E)).agree fun k k' w2 _ I2 _ e => by subst e; exact (hf k w2 I2).2

theorem agree_commentErrorOf (T : Setting talk E E') (ht : talk) {m m' : MsgArg (Option Str)} (I : Inv E w) (hm : MsgAgree E E' m m') :
    AgreeAt E E' (SameCause E E') (commentErrorOf E o m) (commentErrorOf E' o m') w := by
  unfold commentErrorOf
  rw [T.commentOf ht]
  refine agree_bind (keeps_get I (keeps_commentOf I) hm.polite) (agree_get (keeps_commentOf I) (quiet_commentOf (E := E)) hm) fun s s' w1 _ I1 _ e => ?_
  subst e
  rw [show ∀ f : Obj → Api ErrObj, (obj o >>= f) = fun w => f (w.at o) w from fun _ => rfl, show ∀ f : Obj → Api ErrObj, (obj o >>= f) = fun w => f (w.at o) w from fun _ => rfl]
  have A := agree_make T (w := w1) (v := .comment s (w1.at o).ref) (ref_first I1) (.inl ht)
  exact ⟨A.world, A.res⟩

theorem agree_valueErrorOf (T : Setting talk E E') {m m' : MsgArg (Option Str)} {c : Cls} (I : Inv E w) (hx : IsA w o c) (hc : c = .of .field ∨ c = .entry ∨ c = .item)
    (hm : MsgAgree E E' m m') : AgreeAt E E' (SameCause E E') (valueErrorOf E o m) (valueErrorOf E' o m') w := by
  unfold valueErrorOf
  rw [T.valueOf]
  refine agree_bind (keeps_get I (keeps_valueOf T.env I) hm.polite) (agree_get (keeps_valueOf T.env I) (quiet_valueOf (E := E)) hm) fun s s' w1 _ I1 L1 e => ?_
  subst e
  have A := agree_make T (w := w1) (v := .value s (w1.at o).ref) (value_ref I1 (hx.later L1) hc)
  exact ⟨A.world, A.res⟩

theorem agree_errorOf (T : Setting talk E E') {m m' : MsgArg Nat} (I : Inv E w) (hm : MsgAgree E E' m m') :
    AgreeAt E E' (SameCause E E') (errorOf E o m) (errorOf E' o m') w := by
  unfold errorOf
  refine agree_bind (keeps_get I (.refl I) hm.polite) (agree_get (.refl I) quiet_pure hm) fun s s' w1 _ I1 L1 e => ?_
  subst e
  have A := agree_make T (w := w1) (v := .element s (w1.at o).ref) (ref_first I1)
  exact ⟨A.world, A.res⟩

theorem agree_keyErrorOf (T : Setting talk E E') {m m' : MsgArg Str} (I : Inv E w) (hm : MsgAgree E E' m m') :
    AgreeAt E E' (SameCause E E') (keyErrorOf E o m) (keyErrorOf E' o m') w := by
  unfold keyErrorOf
  rw [T.keyOf]
  refine agree_bind (keeps_get I (keeps_keyOf I) hm.polite) (agree_get (keeps_keyOf I) (quiet_keyOf (E := E)) hm) fun s s' w1 _ I1 L1 e => ?_
  subst e
  have A := agree_make T (w := w1) (v := .key s (w1.at o).ref) (ref_first I1)
  exact ⟨A.world, A.res⟩

theorem agree_to (T : Setting talk E E') {k : Kind} (I : Inv E w) : AgreeAt E E' Eq (to E k o) (to E' k o) w := by
  by_cases h : k.fits (E.ctx.heap.type (w.at o).ref) = true
  · have hq := quiet_to (E := E) h
    have : to E' k o w = to E k o w := T.to h
    have A := hq.agree (E := E) (E' := E')
    exact ⟨by rw [this], by rw [this]; exact A.res⟩
  · have A := agree_raise T (w := w) (R := @Eq Nat) (v := .wrongType none (w.at o).ref k.expected) ⟨ref_first I, by cases k <;> decide, by cases k <;> decide⟩
    cases hm : (w.at o).made k with
    | some y => exact agree_of (x := .ok y) (y := .ok y) (w1 := w) (by rw [to_run, hm]) (by rw [to_run, hm]) (.ok rfl)
    | none =>
      by_cases hy : k ≠ Kind.section ∧ (w.at o).yielded.isSome
      · exact agree_of (x := .error (.py .typeError)) (y := .error (.py .typeError)) (w1 := w) (by rw [to_run, hm]; simp only [if_pos hy])
          (by rw [to_run, hm]; simp only [if_pos hy]) (.error .py)
      · have e1 : to E k o w = raiseValidation (unexpectedElementType E.o E.ctx none (w.at o).ref k.expected) w := by rw [to_run, hm]; simp only [if_neg hy, if_neg h]
        have e2 : to E' k o w = raiseValidation (unexpectedElementType E'.o E'.ctx none (w.at o).ref k.expected) w := by rw [to_run, hm, T.type]; simp only [if_neg hy, if_neg h]
        exact ⟨by rw [e1, e2]; exact A.world, by rw [e1, e2]; exact A.res⟩

/-! ## Lists and fieldsets -/

theorem agree_values (T : Setting talk E E') {required : Bool} {R : α → β → Prop} {f : Str → Api α} {f' : Str → Api β} (I : Inv E w) (hx : IsA w o (.of .list))
    (hf : FnAgree E E' R f f') : AgreeAt E E' (Both (Opt R)) (values E o required f) (values E' o required f') w := by
  unfold values
  rw [T.listItems]
  refine agree_bind (keeps_touched I) quiet_touched.agree fun _ _ w1 _ I1 L1 _ => ?_
  have hx1 := hx.later L1
  refine agree_bind (listItems_keeps I1 hx1).1 (quiet_listItems (E := E)).agree fun ys ys' w2 h2 I2 L2 e => ?_
  subst e
  have K := listItems_keeps I1 hx1
  refine agree_each ys w2 I2 fun y hy w3 I3 L3 => ?_
  have hi : IsA w3 y .item := by
    obtain ⟨q1, q2, q3, q4⟩ := (K.2 ys w2 h2).2.members y hy
    have : (w2.at o).cls = .of .list := (hx1.later L2).2
    rw [this] at q3
    exact IsA.later L3 ⟨q2, q3⟩
  exact ⟨keeps_value T.env I3 hf.polite, agree_value T I3 hi (.inr (.inr rfl)) hf⟩

theorem refs_runs (ys : List Nat) (w : World) : each (fun y => do pure (← obj y).ref) ys w = (.ok (ys.map fun y => (w.at y).ref), w) := by
  induction ys with
  | nil => rfl
  | cons y ys ih =>
    unfold each
    rw [bind_ok (m := (do pure (← obj y).ref : Api Ref)) (a := (w.at y).ref) (w' := w) rfl, bind_ok ih]
    rfl

/-- Complaints about several objects. -/
theorem agree_several (T : Setting talk E E') {R : α → β → Prop} {ys : List Nat} {key : Option Str} {n : MsgName} (hne : ys ≠ [])
    (hy : ∀ y ∈ ys, ∃ b, FirstLine E.ctx.heap (w.at y).ref b) (hn : n ≠ .expectedFieldsetEntry ∧ n ≠ .expectedListItem) :
    AgreeAt E E' R (do let rs ← each (fun y => do pure (← obj y).ref) ys; raiseValidation (unexpectedMultipleElements E.o E.ctx key rs n) : Api α)
      (do let rs ← each (fun y => do pure (← obj y).ref) ys; raiseValidation (unexpectedMultipleElements E'.o E'.ctx key rs n) : Api β) w := by
  have A := agree_raise T (w := w) (R := R) (v := .several key (ys.map fun y => (w.at y).ref) n) ⟨by simpa using hne, fun r hr => by
    obtain ⟨y, h1, rfl⟩ := List.mem_map.1 hr
    exact hy y h1, hn⟩
  exact ⟨by rw [bind_ok (refs_runs ys w), bind_ok (refs_runs ys w)]; exact A.world, by rw [bind_ok (refs_runs ys w), bind_ok (refs_runs ys w)]; exact A.res⟩

theorem named_entries (V : EnvOk E) (I : Inv E w) (hx : IsA w o (.of .fieldset)) {key : Option Str} {zs : List Nat} (h : named (fieldsetEntries E o) o key w = (.ok zs, w1)) :
    ∀ y ∈ zs, IsA w1 y .entry := by
  cases hm : fieldsetEntries E o w with
  | mk r w2 =>
    have K := fieldsetEntries_keeps V I hx
    cases r with
    | error e =>
      exfalso
      rcases key with _ | _ | ⟨c, k⟩
      · change fieldsetEntries E o w = _ at h; rw [hm] at h; cases h
      · change fieldsetEntries E o w = _ at h; rw [hm] at h; cases h
      · rw [named_cons, bind_error hm] at h; cases h
    | ok ys =>
      obtain ⟨k0, k3⟩ := K
      obtain ⟨k1, k2⟩ := k3 ys w2 hm
      rw [hm] at k0
      have hc : (w2.at o).cls = .of .fieldset := (hx.later k0.later).2
      rw [named_run hm k2 (by rw [hc]; simp)] at h
      cases h
      intro y hy
      obtain ⟨q1, q2, q3, q4⟩ := k2.members y (List.mem_filter.1 hy).1
      rw [hc] at q3
      exact ⟨q2, q3⟩

theorem agree_entry (T : Setting talk E E') {key : Option Str} {required : Bool} (I : Inv E w) (hx : IsA w o (.of .fieldset)) :
    AgreeAt E E' Eq (entry E o key required) (entry E' o key required) w := by
  unfold entry
  rw [T.fieldsetEntries]
  refine agree_bind (keeps_touched I) quiet_touched.agree fun _ _ w1 _ I1 L1 _ => ?_
  have hx1 := hx.later L1
  refine agree_bind (keeps_named (fieldsetEntries_keeps T.env I1 hx1).1) (quiet_named (quiet_fieldsetEntries (E := E))).agree fun ys ys' w2 h2 I2 L2 e => ?_
  subst e
  have hy := named_entries T.env I1 hx1 h2
  refine agree_bind (.refl I2) quiet_obj.agree fun x x' w3 hx' _ _ e => ?_
  subst e
  rw [obj_run] at hx'
  cases hx'
  rcases ys with _ | ⟨y, _ | ⟨z, ys⟩⟩
  · dsimp only
    split
    · exact agree_raise T (v := .missingElement key _ _) ⟨idx_lt T.env I2, by decide, by decide⟩
    · exact agree_pure rfl
  · exact agree_pure rfl
  · exact agree_several T (by simp) (fun y h => element_ref I2 (hy y h) (by simp)) (by decide)

theorem agree_assertEntries (T : Setting talk E E') {m m' : Option (MsgArg Nat)} {only skip : List Str} (I : Inv E w) (hx : IsA w o (.of .fieldset))
    (hm : Opt (MsgAgree E E') m m') : AgreeAt E E' Eq (assertEntriesTouched E o m only skip) (assertEntriesTouched E' o m' only skip) w := by
  unfold assertEntriesTouched
  rw [T.fieldsetEntries]
  refine agree_bind (fieldsetEntries_keeps T.env I hx).1 (quiet_fieldsetEntries (E := E)).agree fun _ _ w1 _ I1 L1 _ => ?_
  refine agree_bind (.refl I1) quiet_obj.agree fun x x' w3 hx' I3 _ e => ?_
  subst e
  refine agree_bind (keeps_first _ w3 I3 fun y _ w2 I2 _ => by rw [bind_ok obj_run]; exact .refl I2)
    (quiet_first _ w3 fun y _ w2 => quiet_bind quiet_obj fun _ _ _ => quiet_pure).agree fun y y' w2 _ I2 _ e => ?_
  subst e
  cases y with
  | none => exact agree_pure rfl
  | some y =>
    cases hm with
    | none => exact agree_py
    | some h =>
      cases h with
      | text => exact agree_py
      | fn h => exact agree_bind (h y w2 I2).1 (h y w2 I2).2 fun _ _ w3 _ I3 _ _ => agree_py

/-! ## Sections -/

theorem agree_castTo (T : Setting talk E E') {k : Kind} {key : Option Str} {n : MsgName} (hn : n ≠ .expectedFieldsetEntry ∧ n ≠ .expectedListItem) (I : Inv E w)
    (hx : IsA w o .sectionElement) : AgreeAt E E' Eq (castTo E k key n o) (castTo E' k key n o) w := by
  unfold castTo
  simp only [T.type]
  refine agree_bind (.refl I) quiet_obj.agree fun x x' w3 hx' I3 _ e => ?_
  subst e
  rw [obj_run] at hx'
  cases hx'
  split
  · exact agree_to T I
  · exact agree_raise T (v := .wrongType key _ n) ⟨.inr (element_ref I hx (.inl rfl)), hn⟩

theorem agree_single (T : Setting talk E E') {want : Want} {key : Option Str} {required : Option Bool} (I : Inv E w) (hx : IsA w o (.of .section)) :
    AgreeAt E E' Eq (single E want o key required) (single E' want o key required) w := by
  unfold single
  rw [T.sectionElements]
  refine agree_bind (keeps_touched I) quiet_touched.agree fun _ _ w1 _ I1 L1 _ => ?_
  have hx1 := hx.later L1
  refine agree_bind (keeps_named (sectionElements_keeps T.env I1 hx1).1) (quiet_named (quiet_sectionElements (E := E))).agree fun ys ys' w2 h2 I2 L2 e => ?_
  subst e
  obtain ⟨_, _, _, hy⟩ := named_elements T.env I1 hx1 h2
  refine agree_bind (.refl I2) quiet_obj.agree fun x x' w3 hx' _ _ e => ?_
  subst e
  rw [obj_run] at hx'
  cases hx'
  rcases ys with _ | ⟨y, _ | ⟨z, ys⟩⟩
  · dsimp only
    split
    · exact agree_raise T (v := .missingElement key _ _) ⟨idx_lt T.env I2, by rcases want with _ | k <;> (try cases k) <;> decide, by rcases want with _ | k <;> (try cases k) <;> decide⟩
    · split <;> exact agree_pure rfl
  · cases want with
    | any => exact agree_pure rfl
    | kind k =>
      exact agree_bind (keeps_castTo I2 (hy y (by simp))) (agree_castTo T (by cases k <;> decide) I2 (hy y (by simp))) fun a b w3 _ I3 _ e => by subst e; exact agree_pure rfl
  · exact agree_several T (by simp) (fun y h => element_ref I2 (hy y h) (by simp)) (by rcases want with _ | k <;> (try cases k) <;> decide)

theorem agree_many (T : Setting talk E E') {want : Want} {key : Option Str} (I : Inv E w) (hx : IsA w o (.of .section)) :
    AgreeAt E E' Eq (several E want o key) (several E' want o key) w := by
  unfold several
  rw [T.sectionElements]
  refine agree_bind (keeps_touched I) quiet_touched.agree fun _ _ w1 _ I1 L1 _ => ?_
  have hx1 := hx.later L1
  refine agree_bind (keeps_named (sectionElements_keeps T.env I1 hx1).1) (quiet_named (quiet_sectionElements (E := E))).agree fun ys ys' w2 h2 I2 L2 e => ?_
  subst e
  obtain ⟨_, _, _, hy⟩ := named_elements T.env I1 hx1 h2
  cases want with
  | any => exact agree_pure rfl
  | kind k =>
    exact (agree_each ys w2 I2 fun y h w3 I3 L3 => ⟨keeps_castTo I3 ((hy y h).later L3), agree_castTo T (by cases k <;> decide) I3 ((hy y h).later L3)⟩).mono
      fun _ _ h => both_eq h

theorem agree_assertAll (T : Setting talk E E') {m m' : Option (MsgArg Nat)} {only skip : List Str} (I : Inv E w) (hx : IsA w o (.of .section))
    (hm : Opt (MsgAgree E E') m m') : AgreeAt E E' Eq (assertAllTouched E o m only skip) (assertAllTouched E' o m' only skip) w := by
  unfold assertAllTouched
  rw [T.sectionElements]
  refine agree_bind (sectionElements_keeps T.env I hx).1 (quiet_sectionElements (E := E)).agree fun ys ys' w1 h1 I1 L1 _ => ?_
  obtain ⟨K, _, hy⟩ := elements_of T.env I hx h1
  have hx1 := hx.later L1
  refine agree_bind (.refl I1) quiet_obj.agree fun x x' w2 hx' _ _ e => ?_
  subst e
  rw [obj_run] at hx'
  cases hx'
  refine agree_bind (m := objectCount) (.refl I1) quiet_count.agree fun n n' w2 hx' _ _ e => ?_
  subst e
  obtain ⟨rfl, rfl⟩ : w1.objs.length = n ∧ w1 = w2 := by unfold objectCount at hx'; cases hx'; exact ⟨rfl, rfl⟩
  have S := assert_search T.env I1 (zs := ((w1.at o).index.filter fun p => !skipped only skip p.1).flatMap (·.2)) fun z hz => hy z (index_mem K (by rw [hx1.2]; simp) hz)
  rw [T.untouchedElement, T.untouchedSection]
  refine agree_bind ⟨S.inv, S.unf.later⟩ (quiet_first _ w1 fun y _ w3 => quiet_untouchedElement fun z w4 => quiet_untouchedSection _ z w4).agree fun r r' w2 h2 I2 L2 e => ?_
  subst e
  rw [h2] at S
  cases r with
  | none => exact agree_pure rfl
  | some r =>
    have hr := (S.dirty r rfl).2
    have hp : ∀ s, Likely E.ctx.heap (.unexpected s r) := fun s => .inr (actual_first hr)
    cases hm with
    | none => exact agree_raise T (v := .unexpected none r) (hp _)
    | some h =>
      cases h with
      | text => exact agree_raise T (v := .unexpected (some _) r) (hp _)
      | fn h =>
        have hx2 := hx1.later L2
        refine agree_bind (R := Eq) (keeps_bind (keeps_element I2 hx2 hr) fun y w3 _ I3 _ => keeps_map (h.polite _ w3 I3)) ?_ fun s s' w3 _ I3 _ e => ?_
        · refine agree_bind (keeps_element I2 hx2 hr) quiet_create.agree fun ys ys' w3 _ I3 _ e => ?_
          subst e
          exact agree_map (h _ w3 I3).2 fun _ _ e => by rw [e]
        · subst e
          exact agree_raise T (v := .unexpected s r) (hp _)

/-! ## All methods -/

/-- Two results are about the same. -/
def ValAgree (E : Env) (E' : Env) (v v' : Val) : Prop := (∀ look, (∀ e e', SameCause E E' e e' → look e' = look e) → v'.seen look = v.seen look) ∧ Both (SameCause E E') v.errors v'.errors

/-- Two calls with functions that agree. -/
inductive MethodAgree (talk : Prop) (E : Env) (E' : Env) : Method → Method → Prop where
  | raw : talk → MethodAgree talk E E' .raw .raw
  | repr : MethodAgree talk E E' .repr .repr
  | touch : MethodAgree talk E E' .touch .touch
  | to {k} : MethodAgree talk E E' (.to k) (.to k)
  | yields {k} : MethodAgree talk E E' (.yields k) (.yields k)
  | toEntry : MethodAgree talk E E' .toEntry .toEntry
  | toItem : MethodAgree talk E E' .toItem .toItem
  | yieldsEntry : MethodAgree talk E E' .yieldsEntry .yieldsEntry
  | yieldsItem : MethodAgree talk E E' .yieldsItem .yieldsItem
  | items : MethodAgree talk E E' .items .items
  | length : MethodAgree talk E E' .length .length
  | entries {k} : MethodAgree talk E E' (.entries k) (.entries k)
  | entry {k r} : MethodAgree talk E E' (.entry k r) (.entry k r)
  | allEntriesRequired {r} : MethodAgree talk E E' (.allEntriesRequired r) (.allEntriesRequired r)
  | one {x k r} : MethodAgree talk E E' (.one x k r) (.one x k r)
  | many {x k} : MethodAgree talk E E' (.many x k) (.many x k)
  | allElementsRequired {r} : MethodAgree talk E E' (.allElementsRequired r) (.allElementsRequired r)
  | parent : MethodAgree talk E E' .parent .parent
  | assertAllTouched {m m' only skip} : Opt (MsgAgree E E') m m' → MethodAgree talk E E' (.assertAllTouched m only skip) (.assertAllTouched m' only skip)
  | commentError {m m'} : talk → MsgAgree E E' m m' → MethodAgree talk E E' (.commentError m) (.commentError m')
  | error {m m'} : MsgAgree E E' m m' → MethodAgree talk E E' (.error m) (.error m')
  | keyError {m m'} : MsgAgree E E' m m' → MethodAgree talk E E' (.keyError m) (.keyError m')
  | valueError {m m'} : MsgAgree E E' m m' → MethodAgree talk E E' (.valueError m) (.valueError m')
  | comment {r f f'} : talk → FnAgree E E' (ValAgree E E') f f' → MethodAgree talk E E' (.comment r f) (.comment r f')
  | key {f f'} : FnAgree E E' (ValAgree E E') f f' → MethodAgree talk E E' (.key f) (.key f')
  | value {r f f'} : FnAgree E E' (ValAgree E E') f f' → MethodAgree talk E E' (.value r f) (.value r f')
  | values {r f f'} : FnAgree E E' (ValAgree E E') f f' → MethodAgree talk E E' (.values r f) (.values r f')

theorem MethodAgree.polite {m m' : Method} (h : MethodAgree talk E E' m m') : m.Polite E := by
  cases h with
  | assertAllTouched h =>
    cases h with
    | none => trivial
    | some h => exact h.polite
  | commentError _ h => exact h.polite
  | error h => exact h.polite
  | keyError h => exact h.polite
  | valueError h => exact h.polite
  | comment _ h => exact h.polite
  | key h => exact h.polite
  | value h => exact h.polite
  | values h => exact h.polite
  | _ => trivial

theorem valAgree_plain {v : Val} (h : v.errors = []) : ValAgree E E' v v := ⟨fun _ _ => rfl, by rw [h]; exact .nil⟩

theorem valAgree_error {e e' : ErrObj} (h : SameCause E E' e e') : ValAgree E E' (.error e) (.error e') :=
  ⟨fun look hk => by simp only [Val.seen, hk e e' h], .cons h .nil⟩

theorem valAgree_opt {a b : Option Val} (h : Opt (ValAgree E E') a b) : ValAgree E E' (.opt a) (.opt b) := by
  cases h with
  | none => exact valAgree_plain rfl
  | some h => exact h

theorem valAgree_list {as bs : List (Option Val)} (h : Both (Opt (ValAgree E E')) as bs) : ValAgree E E' (.list (as.map .opt)) (.list (bs.map .opt)) := by
  induction h with
  | nil => exact valAgree_plain rfl
  | cons r _ ih =>
    obtain ⟨h1, h2⟩ := valAgree_opt r
    obtain ⟨h3, h4⟩ := ih
    refine ⟨fun look hk => ?_, ?_⟩
    · have h3 := h3 look hk
      simp only [Val.seen, Val.list.injEq] at h3
      simp only [Val.seen, List.map_cons, Val.seenIn, h1 look hk, h3]
    · simp only [Val.errors, List.map_cons, Val.errorsIn] at h4 ⊢
      exact h2.append h4

theorem errors_objs (os : List Nat) : (Val.objs os).errors = [] := by
  unfold Val.objs
  simp only [Val.errors]
  induction os with
  | nil => rfl
  | cons y ys ih => simp only [List.map_cons, Val.errorsIn, Val.errors, ih, List.nil_append]

theorem agree_quiet {m : Api α} {g : α → Val} (h : QuietAt m w) (hg : ∀ a, (g a).errors = []) : AgreeAt E E' (ValAgree E E') (g <$> m) (g <$> m) w :=
  agree_map h.agree fun a b e => by subst e; exact valAgree_plain (hg a)

theorem agree_noMethod {R : α → β → Prop} : AgreeAt E E' R (noMethod : Api α) (noMethod : Api β) w := agree_py

theorem run_agree_known (T : Setting talk E E') (I : Inv E w) (ho : o < w.objs.length) {m m' : Method} (hm : MethodAgree talk E E' m m') :
    AgreeAt E E' (ValAgree E E') (run E o m) (run E' o m') w := by
  have V := T.env
  unfold run
  simp only [T.repr, T.yields, T.items, T.itemCount, T.entries, T.touch, T.sectionParent, T.parentOf, T.type]
  refine agree_bind (.refl I) quiet_obj.agree fun x x' w3 hx' _ _ e => ?_
  subst e
  rw [obj_run] at hx'
  cases hx'
  have hx : IsA w o (w.at o).cls := ⟨ho, rfl⟩
  generalize (w.at o) = x at hx
  obtain ⟨c, ref, _, _, _, _, _, _, _⟩ := x
  simp only at hx
  cases hm with
  | comment ht h => exact agree_map (agree_comment T ht I h) fun _ _ => valAgree_opt
  | commentError ht h => exact agree_map (agree_commentErrorOf T ht I h) fun _ _ => valAgree_error
  | error h => exact agree_map (agree_errorOf T I h) fun _ _ => valAgree_error
  | key h => exact agree_key T I h
  | keyError h => exact agree_map (agree_keyErrorOf T I h) fun _ _ => valAgree_error
  | raw ht => simp only [T.rawOf ht]; exact agree_quiet (quiet_rawOf (E := E)) fun _ => rfl
  | repr => exact agree_quiet (quiet_repr (E := E)) fun _ => rfl
  | touch =>
    exact agree_bind (keeps_touch V I hx) quiet_touch.agree fun _ _ w1 _ I1 _ _ => agree_pure (valAgree_plain rfl)
  | value h =>
    cases c with
    | of k => cases k <;> first | exact agree_noMethod | exact agree_map (agree_value T I hx (by simp) h) fun _ _ => valAgree_opt
    | _ => first | exact agree_noMethod | exact agree_map (agree_value T I hx (by simp) h) fun _ _ => valAgree_opt
  | valueError h =>
    cases c with
    | of k => cases k <;> first | exact agree_noMethod | exact agree_map (agree_valueErrorOf T I hx (by simp) h) fun _ _ => valAgree_error
    | _ => first | exact agree_noMethod | exact agree_map (agree_valueErrorOf T I hx (by simp) h) fun _ _ => valAgree_error
  | to =>
    cases c with
    | sectionElement => exact agree_map (agree_to T I) fun a b e => by subst e; exact valAgree_plain rfl
    | element => exact agree_map (agree_to T I) fun a b e => by subst e; exact valAgree_plain rfl
    | _ => exact agree_noMethod
  | yields =>
    cases c with
    | sectionElement => exact agree_quiet (m := yields E _ o) (quiet_bind quiet_obj fun _ _ _ => quiet_pure) fun _ => rfl
    | element => exact agree_quiet (m := yields E _ o) (quiet_bind quiet_obj fun _ _ _ => quiet_pure) fun _ => rfl
    | _ => exact agree_noMethod
  | toEntry => exact agree_noMethod
  | toItem => exact agree_noMethod
  | yieldsEntry => cases c <;> first | exact agree_noMethod | exact agree_pure (valAgree_plain rfl)
  | yieldsItem => cases c <;> first | exact agree_noMethod | exact agree_pure (valAgree_plain rfl)
  | items =>
    cases c with
    | of k => cases k <;> first | exact agree_noMethod | exact agree_quiet (m := items E o) (quiet_bind quiet_touched fun _ _ _ => quiet_listItems) errors_objs
    | _ => exact agree_noMethod
  | length =>
    cases c with
    | of k =>
      cases k <;> first
        | exact agree_noMethod
        | exact agree_quiet (m := itemCount E o) (quiet_bind quiet_touched fun _ _ _ => quiet_bind quiet_listItems fun _ _ _ => quiet_pure) fun _ => rfl
    | _ => exact agree_noMethod
  | values h =>
    cases c with
    | of k => cases k <;> first | exact agree_noMethod | exact agree_map (agree_values T I hx h) fun _ _ => valAgree_list
    | _ => exact agree_noMethod
  | entries =>
    cases c with
    | of k =>
      cases k <;> first
        | exact agree_noMethod
        | exact agree_quiet (m := entries E o _) (quiet_bind quiet_touched fun _ _ _ => quiet_named quiet_fieldsetEntries) errors_objs
    | _ => exact agree_noMethod
  | entry =>
    cases c with
    | of k => cases k <;> first | exact agree_noMethod | exact agree_map (agree_entry T I hx) fun a b e => by subst e; cases a <;> exact valAgree_plain rfl
    | _ => exact agree_noMethod
  | allEntriesRequired =>
    cases c with
    | of k => cases k <;> first | exact agree_noMethod | exact agree_bind (keeps_required I) quiet_assign.agree fun _ _ w1 _ I1 _ _ => agree_pure (valAgree_plain rfl)
    | _ => exact agree_noMethod
  | assertAllTouched h =>
    have hm' : ∀ {m m' : Option (MsgArg Nat)}, Opt (MsgAgree E E') m m' → ∀ x, m = some x → x.Polite E := by
      rintro m m' h x rfl
      cases h with
      | some h => exact h.polite
    cases c with
    | of k =>
      cases k <;> first
        | exact agree_noMethod
        | exact agree_bind (keeps_assertEntriesTouched V I hx (hm' h)) (agree_assertEntries T I hx h) fun _ _ w1 _ I1 _ _ => agree_pure (valAgree_plain rfl)
        | exact agree_bind (keeps_assertAllTouched V I hx (hm' h)) (agree_assertAll T I hx h) fun _ _ w1 _ I1 _ _ => agree_pure (valAgree_plain rfl)
    | _ => exact agree_noMethod
  | one =>
    cases c with
    | of k =>
      cases k <;> first
        | exact agree_noMethod
        | exact agree_bind (keeps_single V I hx) (agree_single T I hx) fun r r' w1 _ I1 _ e => by subst e; cases r <;> exact agree_pure (valAgree_plain rfl)
    | _ => exact agree_noMethod
  | @many want key =>
    have objs : ∀ a b, a = b → ValAgree E E' (Val.objs a) (Val.objs b) := fun a b e => by subst e; exact valAgree_plain (errors_objs a)
    cases c with
    | of k =>
      cases k <;> first
        | (cases want with
            | any => first | exact agree_noMethod | exact agree_map (agree_many T I hx) objs
            | kind k' => cases k' <;> first | exact agree_noMethod | exact agree_map (agree_many T I hx) objs)
    | _ => cases want with
      | any => exact agree_noMethod
      | kind k' => cases k' <;> exact agree_noMethod
  | allElementsRequired =>
    cases c with
    | of k =>
      cases k <;> first
        | exact agree_noMethod
        | exact agree_bind (m := objectCount) (.refl I) quiet_count.agree fun n n' w1 h I1 L1 e => by
            subst e
            simp only [T.requireAll]
            exact agree_bind (keeps_requireAll V _ o w1 I1 (hx.later L1)) (quiet_requireAll _ _ _).agree fun _ _ w2 _ I2 _ _ => agree_pure (valAgree_plain rfl)
    | _ => exact agree_noMethod
  | parent =>
    have p : ∀ a : Option Nat, (Val.opt (a.map .obj)).errors = [] := fun a => by cases a <;> rfl
    cases c with
    | of k => cases k <;> first | exact agree_quiet (m := sectionParent E o) quiet_sectionParent p | exact agree_quiet quiet_parentOf fun _ => rfl
    | sectionElement => exact agree_noMethod
    | element => exact agree_noMethod
    | entry => exact agree_quiet quiet_parentOf fun _ => rfl
    | item => exact agree_quiet quiet_parentOf fun _ => rfl

theorem run_agree (T : Setting talk E E') (I : Inv E w) (o : Nat) {m m' : Method} (hm : MethodAgree talk E E' m m') :
    AgreeAt E E' (ValAgree E E') (run E o m) (run E' o m') w := by
  by_cases ho : o < w.objs.length
  · exact run_agree_known T I ho hm
  · unfold run
    simp only [T.repr, T.yields, T.items, T.itemCount, T.entries, T.touch, T.sectionParent, T.parentOf]
    refine agree_bind (.refl I) quiet_obj.agree fun x x' w3 hx' _ _ e => ?_
    subst e
    rw [obj_run] at hx'
    cases hx'
    have hd : w.at o = default := at_out (Nat.le_of_not_lt ho)
    generalize hx : w.at o = x at hd
    subst hd
    cases hm with
    | comment ht h => exact agree_map (agree_comment T ht I h) fun _ _ => valAgree_opt
    | commentError ht h => exact agree_map (agree_commentErrorOf T ht I h) fun _ _ => valAgree_error
    | error h => exact agree_map (agree_errorOf T I h) fun _ _ => valAgree_error
    | key h => exact agree_key T I h
    | keyError h => exact agree_map (agree_keyErrorOf T I h) fun _ _ => valAgree_error
    | raw ht => simp only [T.rawOf ht]; exact agree_quiet (quiet_rawOf (E := E)) fun _ => rfl
    | repr => exact agree_quiet (quiet_repr (E := E)) fun _ => rfl
    | touch => exact agree_bind (m := setTouched o) (keeps_touched I) quiet_touched.agree fun _ _ w1 _ I1 _ _ => agree_pure (valAgree_plain rfl)
    | parent => exact agree_quiet quiet_parentOf fun _ => rfl
    | @many want key =>
      cases want with
      | any => exact agree_noMethod
      | kind k' => cases k' <;> exact agree_noMethod
    | _ => exact agree_noMethod

end Eno.El
