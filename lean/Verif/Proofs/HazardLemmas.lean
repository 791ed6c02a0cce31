import Verif.Proofs.WorldAgreeCalls
import Verif.Proofs.ComplaintLayout
import Verif.Props.ElementMoreProps
import Verif.Props.ReprProps
import Verif.Spec.Hazard

/-! # Objects: what calls can raise -/

namespace Eno.El

open Spec

variable {α β : Type} {w w' w1 : World} {o y : Nat} {E : Env} {input : Str} {ctx0 : Ctx} {P Q : PyExc → Prop}

/-- A document that was loaded, whose sections are not merged with themselves, read with a reporter that works. -/
structure Calm (E : Env) : Prop where
  env : EnvOk E
  nofail : NoFail E
  value : ∀ w o, Inv E w → o < w.objs.length → HasValue (w.at o).cls → ∃ v, ∀ c, Honest E.ctx.input E.ctx.heap c → (readValue E.ctx.input E.ctx.heap E.depth (w.at o).ref c).1 = .ok v
  comment : ∀ r, Readable (E.ctx.heap.comments r) → ∀ c, Honest E.ctx.input E.ctx.heap c → ∃ v, (readComment E.ctx.heap r c).1 = .ok v
  blank : ∀ r c x, Honest E.ctx.input E.ctx.heap c → (readComment E.ctx.heap r c).1 = .error x → ¬ Readable (E.ctx.heap.comments r) ∧ x = .keyError
  verdict : ∀ v, Likely E.ctx.heap v → Verdict E.ctx.heap v (v.raise E.o E.ctx)

/-! ## Combining -/

theorem RaisesAt.mono {m : Api α} (h : RaisesAt P m w) (hq : ∀ x, P x → Q x) : RaisesAt Q m w := fun x e => hq x (h x e)

theorem raises_ok {m : Api α} {a : α} (h : (m w).1 = .ok a) : RaisesAt P m w := fun x e => by rw [h] at e; cases e
theorem raises_pure {a : α} : RaisesAt P (pure a : Api α) w := fun _ h => by cases h
theorem raises_py {x : PyExc} (h : P x) : RaisesAt P (raise (.py x) : Api α) w := fun _ e => by cases e; exact h
theorem raises_obj : RaisesAt P (obj o) w := fun _ h => by cases h
theorem raises_assign {f : Obj → Obj} : RaisesAt P (assign o f) w := fun _ h => by cases h
theorem raises_touched : RaisesAt P (setTouched o) w := raises_assign
theorem raises_create {xs : List Obj} : RaisesAt P (create xs) w := fun _ h => by cases h

theorem raises_bind {m : Api α} {f : α → Api β} (h : RaisesAt P m w) (hf : ∀ a w1, m w = (.ok a, w1) → RaisesAt P (f a) w1) : RaisesAt P (m >>= f) w := by
  intro e
  cases hm : m w with
  | mk x w1 =>
    cases x with
    | ok a => rw [bind_ok hm]; exact hf a w1 hm e
    | error x =>
      rw [bind_error hm]
      intro q
      cases q
      exact h e (by rw [hm])

/-- With what is known of the world in between. -/
theorem raises_then {m : Api α} {f : α → Api β} (K : Keeps E w (m w).2) (h : RaisesAt P m w) (hf : ∀ a w1, m w = (.ok a, w1) → Inv E w1 → Later w w1 → RaisesAt P (f a) w1) :
    RaisesAt P (m >>= f) w := raises_bind h fun a w1 e => by rw [e] at K; exact hf a w1 e K.inv K.later

theorem raises_map {m : Api α} {f : α → β} (h : RaisesAt P m w) : RaisesAt P (f <$> m) w := by
  intro e
  rw [map_run]
  cases hm : m w with
  | mk x w1 =>
    cases x with
    | ok a => intro q; cases q
    | error x =>
      intro q
      cases q
      exact h e (by rw [hm])

theorem raises_reading {m : Read α} (h : ∀ x, (m w.cache).1 = .error x → P x) : RaisesAt P (reading m) w := by
  intro e
  unfold reading
  revert h
  rcases m w.cache with ⟨x | x, c⟩ <;> intro h q <;> cases q
  exact h _ rfl

theorem raises_each {f : α → Api β} : ∀ (as : List α) (w : World), Inv E w → (∀ a ∈ as, ∀ w1, Inv E w1 → Later w w1 → Keeps E w1 (f a w1).2 ∧ RaisesAt P (f a) w1) →
    RaisesAt P (each f as) w
  | [], _, _, _ => raises_pure
  | a :: as, w, I, h => by
    obtain ⟨k, g⟩ := h a (by simp) w I (.refl w)
    unfold each
    exact raises_then k g fun b w1 _ I1 L1 => raises_bind (raises_each as w1 I1 fun c hc w2 I2 L2 => h c (by simp [hc]) w2 I2 (L1.trans L2)) fun _ _ _ => raises_pure

theorem raises_except {m : Api α} {f : Str → Api α} (K : Keeps E w (m w).2) (h : RaisesAt P m w) (hf : ∀ s w1, Inv E w1 → Later w w1 → RaisesAt P (f s) w1) :
    RaisesAt P (exceptValueError m f) w := by
  intro x
  unfold exceptValueError
  cases hm : m w with
  | mk r w1 =>
    rw [hm] at K
    cases r with
    | ok a => intro q; cases q
    | error e =>
      cases e with
      | validation e => intro q; cases q
      | py e => intro q; cases q; exact h _ (by rw [hm])
      | valueError s => exact hf s w1 K.inv K.later x

/-- What a complaint raises if it cannot be made. -/
theorem Calm.raise (C : Calm E) {v : Complaint} (h : Likely E.ctx.heap v) : RaisesAt (Barred E.ctx.heap v) (raiseValidation (v.raise E.o E.ctx) : Api α) w := by
  intro x
  rcases C.verdict v h with ⟨y, b, e⟩ | ⟨_, z, e, _⟩
  · rw [e]; intro q; cases q; exact b
  · rw [e]; intro q; cases q

theorem Calm.make (C : Calm E) {v : Complaint} (h : Likely E.ctx.heap v) : RaisesAt (Barred E.ctx.heap v) (makeError (v.raise E.o E.ctx)) w := by
  intro x
  rcases C.verdict v h with ⟨y, b, e⟩ | ⟨_, z, e, _⟩
  · rw [e]; intro q; cases q; exact b
  · rw [e]; intro q; cases q

theorem raises_get {a : Api α} {m : MsgArg α} (K : Keeps E w (a w).2) (h : ∀ f, m = .fn f → RaisesAt P a w) (hm : m.Throws (Inv E) P) : RaisesAt P (m.get a) w := by
  cases m with
  | text s => exact raises_pure
  | fn f => exact raises_then K (h f rfl) fun x w1 _ I1 _ => hm x w1 I1

/-! ## Reading -/

theorem Calm.valueOf (C : Calm E) (I : Inv E w) (ho : o < w.objs.length) (hv : HasValue (w.at o).cls) : RaisesAt P (valueOf E o) w := by
  unfold El.valueOf
  refine raises_bind raises_obj fun x w1 h => ?_
  rw [obj_run] at h
  cases h
  refine raises_reading fun x e => ?_
  obtain ⟨v, h⟩ := C.value w o I ho hv
  rw [h _ I.cache] at e
  cases e

theorem Calm.commentOf (C : Calm E) (I : Inv E w) : RaisesAt (fun x => ¬ Readable (E.ctx.heap.comments (w.at o).ref) ∧ x = .keyError) (commentOf E o) w := by
  unfold El.commentOf
  refine raises_bind raises_obj fun x w1 h => ?_
  rw [obj_run] at h
  cases h
  exact raises_reading fun x e => C.blank _ _ x I.cache e

theorem ref_known (h0 : (w.at o).ref ≠ .elem 0) : o < w.objs.length := by
  refine Nat.lt_of_not_le fun h => h0 ?_
  rw [at_out h]
  rfl

theorem keyOf_raises (V : EnvOk E) (I : Inv E w) : RaisesAt (fun x => x = .keyError ∧ (w.at o).ref = .elem 0) (keyOf E o) w := by
  unfold keyOf
  refine raises_bind raises_obj fun x w1 h => ?_
  rw [obj_run] at h
  cases h
  by_cases h0 : (w.at o).ref = .elem 0
  · rw [h0]
    dsimp only
    cases E.ctx.heap.key? (.elem 0)
    · exact raises_py ⟨rfl, rfl⟩
    · exact raises_pure
  · have ho := ref_known h0
    obtain ⟨k, hk⟩ := key_there V I ho h0
    cases hq : (w.at o).ref with
    | item i j => exact raises_pure
    | elem i =>
      rw [hq] at hk
      obtain ⟨h1, rfl⟩ := hk
      have : E.ctx.heap.key? (.elem i) = some (E.ctx.heap.at i).key := if_neg (V.types i h1 (elem_lt I ho hq h1))
      dsimp only
      rw [this]
      exact raises_pure
    | entry i j =>
      rw [hq] at hk
      obtain ⟨x, h1, h2⟩ := hk
      have : E.ctx.heap.key? (.entry i j) = some k := by unfold Heap.key?; dsimp only; rw [h1]; exact h2
      dsimp only
      rw [this]
      exact raises_pure

/-! ## Methods of all classes -/

/-- Whatever happens to the object in the meantime. -/
def Ever (E : Env) (w : World) (o : Nat) (B : Obj → PyExc → Prop) (P : PyExc → Prop) : Prop := ∀ w1, Inv E w1 → Later w w1 → ∀ x, B (w1.at o) x → P x

theorem Ever.later {B : Obj → PyExc → Prop} (h : Ever E w o B P) (L : Later w w1) : Ever E w1 o B P := fun w2 I2 L2 => h w2 I2 (L.trans L2)

/-- What is said about the instruction does not change. -/
theorem ever_ref {B : Obj → PyExc → Prop} (ho : o < w.objs.length) (hB : ∀ z z' x, z'.ref = z.ref → B z' x → B z x) (h : ∀ x, B (w.at o) x → P x) : Ever E w o B P :=
  fun _ _ L x b => h x (hB _ _ x (L.obj o ho).ref b)

theorem commentOf_some (I : Inv E w) {t : Option Str} (h : commentOf E o w = (.ok t, w1)) (ht : t ≠ none) : E.ctx.heap.comments (w.at o).ref ≠ none := by
  intro hn
  unfold commentOf at h
  rw [bind_ok obj_run] at h
  have : (readComment E.ctx.heap (w.at o).ref w.cache).1 = .ok none := by rw [readComment_same I.cache, hn]; rfl
  rw [reading_run this] at h
  cases h
  exact ht rfl

theorem comment_raises (C : Calm E) {required : Bool} {f : Str → Api α} (I : Inv E w) (hf : Throws (Inv E) P f) (hk : Polite E f)
    (hP : Ever E w o (fun z x => x = .keyError ∧ (z.ref = .elem 0 ∨ ¬ Readable (E.ctx.heap.comments z.ref))) P) : RaisesAt P (comment E o required f) w := by
  unfold comment
  refine raises_then (keeps_touched I) raises_touched fun _ w1 _ I1 L1 => ?_
  refine raises_then (keeps_commentOf I1) ((C.commentOf I1).mono fun x h => hP w1 I1 L1 x ⟨h.2, .inr h.1⟩) fun c w2 h2 I2 L2 => ?_
  have hr : (w2.at o).ref = (w1.at o).ref := by
    unfold commentOf at h2
    rw [bind_ok obj_run] at h2
    have : w2.objs = w1.objs := by
      unfold reading at h2
      revert h2
      rcases readComment E.ctx.heap (w1.at o).ref w1.cache with ⟨x | x, c⟩ <;> intro h2 <;> cases h2
      rfl
    unfold World.at
    rw [this]
  have hn := commentOf_some I1 h2
  refine raises_bind raises_obj fun x w3 hx => ?_
  rw [obj_run] at hx
  cases hx
  have hno : RaisesAt P (if required then raiseValidation (missingComment E.o E.ctx (w2.at o).ref) else (pure none : Api (Option α))) w2 := by
    split
    · exact (C.raise (v := .missingComment _) (ref_first I2)).mono fun x h => hP w2 I2 (L1.trans L2) x ⟨h.1, .inl h.2⟩
    · exact raises_pure
  rcases c with _ | _ | ⟨c, cs⟩
  · exact hno
  · exact hno
  · refine raises_map (raises_except (hk _ w2 I2) (hf _ w2 I2) fun s w3 I3 L3 => (C.raise (v := .comment s _) (ref_first I2)).mono fun x h => hP w2 I2 (L1.trans L2) x ⟨h.1, ?_⟩)
    rcases h.2 with h | h
    · exact .inl h
    · rw [hr] at h; exact absurd h (hn (by simp))

theorem value_raises (C : Calm E) {required : Bool} {f : Str → Api α} {c : Cls} (I : Inv E w) (hx : IsA w o c) (hc : c = .of .field ∨ c = .entry ∨ c = .item)
    (hf : Throws (Inv E) P f) (hk : Polite E f) : RaisesAt P (value E o required f) w := by
  unfold value
  refine raises_then (keeps_touched I) raises_touched fun _ w1 _ I1 L1 => ?_
  have hx1 := hx.later L1
  refine raises_then (keeps_valueOf C.env I1) (C.valueOf I1 hx1.1 (by rw [hx1.2]; exact hc)) fun v w2 _ I2 L2 => ?_
  have hp := value_ref I2 (hx1.later L2) hc
  refine raises_bind raises_obj fun x w3 hx' => ?_
  rw [obj_run] at hx'
  cases hx'
  cases v with
  | none =>
    dsimp only
    split
    · exact (C.raise (v := .missingValue _) hp).mono fun x h => h.elim
    · exact raises_pure
  | some v => exact raises_map (raises_except (hk _ w2 I2) (hf _ w2 I2) fun s w3 I3 _ => (C.raise (v := .value s _) hp).mono fun x h => h.elim)

/-- About the document, or the key of an item. -/
def Keyless (z : Obj) (x : PyExc) : Prop := x = .keyError ∧ (z.ref = .elem 0 ∨ ∃ i k, z.ref = .item i k)

theorem key_raises (C : Calm E) {f : Str → Api α} (I : Inv E w) (hf : Throws (Inv E) P f) (hk : Polite E f) (hP : Ever E w o Keyless P) : RaisesAt P (key E o f) w := by
  unfold key
  refine raises_then (keeps_touched I) raises_touched fun _ w1 _ I1 L1 => ?_
  refine raises_bind raises_obj fun x w3 hx' => ?_
  rw [obj_run] at hx'
  cases hx'
  refine raises_except (keeps_bind (keeps_keyOf I1) fun k w2 _ I2 _ => hk k w2 I2) ?_ fun s w3 I3 _ =>
    (C.raise (v := .key s _) (ref_first I1)).mono fun x h => hP w1 I1 L1 x h
  exact raises_then (keeps_keyOf I1) ((keyOf_raises C.env I1).mono fun x h => hP w1 I1 L1 x ⟨h.1, .inl h.2⟩) fun k w2 _ I2 _ => hf k w2 I2

theorem commentErrorOf_raises (C : Calm E) {m : MsgArg (Option Str)} (I : Inv E w) (hm : m.Throws (Inv E) P) (hk : m.Polite E)
    (hP : Ever E w o (fun z x => x = .keyError ∧ (z.ref = .elem 0 ∨ E.ctx.heap.comments z.ref = none ∨ ((∃ f, m = .fn f) ∧ ¬ Readable (E.ctx.heap.comments z.ref)))) P) :
    RaisesAt P (commentErrorOf E o m) w := by
  unfold commentErrorOf
  refine raises_then (keeps_get I (keeps_commentOf I) hk)
    (raises_get (keeps_commentOf I) (fun f hf => (C.commentOf I).mono fun x h => hP w I (.refl w) x ⟨h.2, .inr (.inr ⟨⟨f, hf⟩, h.1⟩)⟩) hm) fun s w1 _ I1 L1 => ?_
  refine raises_bind raises_obj fun x w3 hx' => ?_
  rw [obj_run] at hx'
  cases hx'
  exact (C.make (v := .comment s (w1.at o).ref) (ref_first I1)).mono fun x h => hP w1 I1 L1 x ⟨h.1, h.2.imp id .inl⟩

theorem valueErrorOf_raises (C : Calm E) {m : MsgArg (Option Str)} {c : Cls} (I : Inv E w) (hx : IsA w o c) (hc : c = .of .field ∨ c = .entry ∨ c = .item)
    (hm : m.Throws (Inv E) P) (hk : m.Polite E) : RaisesAt P (valueErrorOf E o m) w := by
  unfold valueErrorOf
  refine raises_then (keeps_get I (keeps_valueOf C.env I) hk) (raises_get (keeps_valueOf C.env I) (fun f hf => C.valueOf I hx.1 (by rw [hx.2]; exact hc)) hm) fun s w1 _ I1 L1 => ?_
  refine raises_bind raises_obj fun x w3 hx' => ?_
  rw [obj_run] at hx'
  cases hx'
  exact (C.make (v := .value s (w1.at o).ref) (value_ref I1 (hx.later L1) hc)).mono fun x h => h.elim

/-- About the document, or an element in which tagging gets stuck. -/
def Untold (E : Env) (z : Obj) (x : PyExc) : Prop := (x = .keyError ∧ z.ref = .elem 0) ∨ (x = .typeError ∧ z.ref ≠ .elem 0 ∧ RefStuck E.ctx.heap z.ref)

theorem errorOf_raises (C : Calm E) {m : MsgArg Nat} (I : Inv E w) (hm : m.Throws (Inv E) P) (hk : m.Polite E) (hP : Ever E w o (Untold E) P) : RaisesAt P (errorOf E o m) w := by
  unfold errorOf
  refine raises_then (keeps_get I (.refl I) hk) (raises_get (E := E) (.refl I) (fun f hf => raises_pure) hm) fun s w1 _ I1 L1 => ?_
  refine raises_bind raises_obj fun x w3 hx' => ?_
  rw [obj_run] at hx'
  cases hx'
  exact (C.make (v := .element s (w1.at o).ref) (ref_first I1)).mono fun x h => hP w1 I1 L1 x h

theorem keyErrorOf_raises (C : Calm E) {m : MsgArg Str} (I : Inv E w) (hm : m.Throws (Inv E) P) (hk : m.Polite E) (hP : Ever E w o Keyless P) : RaisesAt P (keyErrorOf E o m) w := by
  unfold keyErrorOf
  refine raises_then (keeps_get I (keeps_keyOf I) hk) (raises_get (keeps_keyOf I) (fun f hf => (keyOf_raises C.env I).mono fun x h => hP w I (.refl w) x ⟨h.1, .inl h.2⟩) hm) fun s w1 _ I1 L1 => ?_
  refine raises_bind raises_obj fun x w3 hx' => ?_
  rw [obj_run] at hx'
  cases hx'
  exact (C.make (v := .key s (w1.at o).ref) (ref_first I1)).mono fun x h => hP w1 I1 L1 x h

/-- Yielding. -/
theorem to_raises (C : Calm E) {k : Kind} (I : Inv E w) (h1 : ∀ k', k ≠ .section → (w.at o).yielded = some k' → (w.at o).made k = none → P .typeError)
    (h2 : k.fits (E.ctx.heap.type (w.at o).ref) = false → ∀ x, Untold E (w.at o) x → P x) : RaisesAt P (to E k o) w := by
  intro x
  rw [to_run]
  cases hm : (w.at o).made k with
  | some y => intro q; cases q
  | none =>
    dsimp only
    split
    · rename_i h
      intro q
      cases q
      obtain ⟨k', hk'⟩ := Option.isSome_iff_exists.1 h.2
      exact h1 k' h.1 hk' hm
    · split
      · intro q; cases q
      · rename_i h
        exact ((C.raise (v := .wrongType none (w.at o).ref k.expected) ⟨ref_first I, by cases k <;> decide, by cases k <;> decide⟩).mono (h2 (by simpa using h))) x

/-- Another kind was yielded. -/
theorem other_kind (I : Inv E w) (ho : o < w.objs.length) {k k' : Kind} (h : (w.at o).yielded = some k') (hm : (w.at o).made k = none) : k' ≠ k := by
  rintro rfl
  have := ((I.objs o ho).yielded k').1 h
  rw [hm] at this
  cases this

/-! ## Lists and fieldsets -/

theorem Calm.listItems (C : Calm E) (I : Inv E w) (hx : IsA w o (.of .list)) : RaisesAt P (listItems E o) w := by
  obtain ⟨a, h⟩ := listItems_total I hx C.nofail
  exact raises_ok h

theorem Calm.fieldsetEntries (C : Calm E) (I : Inv E w) (hx : IsA w o (.of .fieldset)) : RaisesAt P (fieldsetEntries E o) w := by
  obtain ⟨a, h⟩ := fieldsetEntries_total I hx C.nofail
  exact raises_ok h

theorem Calm.sectionElements (C : Calm E) (I : Inv E w) (hx : IsA w o (.of .section)) : RaisesAt P (sectionElements E o) w := by
  obtain ⟨a, h⟩ := sectionElements_total I hx C.nofail
  exact raises_ok h

theorem raises_named {all : Api (List Nat)} {key : Option Str} (h : RaisesAt P all w) : RaisesAt P (named all o key) w := by
  rcases key with _ | _ | ⟨c, k⟩
  · exact h
  · exact h
  · rw [named_cons]
    exact raises_bind h fun _ _ _ => raises_bind raises_obj fun _ _ _ => raises_pure

theorem values_raises (C : Calm E) {required : Bool} {f : Str → Api α} (I : Inv E w) (hx : IsA w o (.of .list)) (hf : Throws (Inv E) P f) (hk : Polite E f) :
    RaisesAt P (values E o required f) w := by
  unfold values
  refine raises_then (keeps_touched I) raises_touched fun _ w1 _ I1 L1 => ?_
  have hx1 := hx.later L1
  have K := listItems_keeps I1 hx1
  refine raises_then K.1 (C.listItems I1 hx1) fun ys w2 h2 I2 L2 => ?_
  refine raises_each ys w2 I2 fun y hy w3 I3 L3 => ?_
  have hi : IsA w3 y .item := by
    obtain ⟨q1, q2, q3, q4⟩ := (K.2 ys w2 h2).2.members y hy
    have : (w2.at o).cls = .of .list := (hx1.later L2).2
    rw [this] at q3
    exact IsA.later L3 ⟨q2, q3⟩
  exact ⟨keeps_value C.env I3 hk, value_raises C I3 hi (.inr (.inr rfl)) hf hk⟩

/-- Complaints about several objects. -/
theorem several_raises (C : Calm E) {ys : List Nat} {key : Option Str} {n : MsgName} (hne : ys ≠ []) (hy : ∀ y ∈ ys, ∃ b, FirstLine E.ctx.heap (w.at y).ref b)
    (hn : n ≠ .expectedFieldsetEntry ∧ n ≠ .expectedListItem) :
    RaisesAt (fun x => x = .typeError ∧ ∃ y ∈ ys, RefStuck E.ctx.heap (w.at y).ref)
      (do let rs ← each (fun y => do pure (← obj y).ref) ys; raiseValidation (unexpectedMultipleElements E.o E.ctx key rs n) : Api α) w := by
  intro x
  rw [bind_ok (refs_runs ys w)]
  have A := C.raise (α := α) (w := w) (v := .several key (ys.map fun y => (w.at y).ref) n) ⟨by simpa using hne, fun r hr => by
    obtain ⟨y, h1, rfl⟩ := List.mem_map.1 hr
    exact hy y h1, hn⟩
  intro e
  obtain ⟨h0, r, h1, h2⟩ := A x e
  obtain ⟨y, h3, rfl⟩ := List.mem_map.1 h1
  exact ⟨h0, y, h3, h2⟩

theorem entry_raises (C : Calm E) {key : Option Str} {required : Bool} (I : Inv E w) (hx : IsA w o (.of .fieldset)) : RaisesAt P (entry E o key required) w := by
  unfold entry
  refine raises_then (keeps_touched I) raises_touched fun _ w1 _ I1 L1 => ?_
  have hx1 := hx.later L1
  refine raises_then (keeps_named (fieldsetEntries_keeps C.env I1 hx1).1) (raises_named (C.fieldsetEntries I1 hx1)) fun ys w2 h2 I2 L2 => ?_
  have hx2 := hx1.later L2
  have hy := named_entries C.env I1 hx1 h2
  refine raises_bind raises_obj fun x w3 hx' => ?_
  rw [obj_run] at hx'
  cases hx'
  rcases ys with _ | ⟨y, _ | ⟨z, ys⟩⟩
  · dsimp only
    split
    · refine (C.raise (v := .missingElement key _ _) ⟨idx_lt C.env I2, by decide, by decide⟩).mono fun x h => ?_
      exfalso
      have R := (I2.objs o hx2.1).ref
      rw [hx2.2] at R
      have ht := h.2.1
      cases hr : (w2.at o).ref with
      | item i k => rw [hr] at R; exact R
      | entry i k => rw [hr] at R; exact R
      | elem i =>
        rw [hr] at R ht
        change (E.ctx.heap.at i).type = .section at ht
        rcases Nat.eq_zero_or_pos i with h0 | h0
        · exact absurd (R.2.1 h0) (by decide)
        · have := R.2.2 h0
          rw [ht] at this
          cases this
    · exact raises_pure
  · exact raises_pure
  · refine (several_raises C (by simp) (fun y h => element_ref I2 (hy y h) (by simp)) (by decide)).mono fun x h => ?_
    obtain ⟨_, y, hy', hs⟩ := h
    have R := (I2.objs y (hy y hy').1).ref
    rw [(hy y hy').2] at R
    cases hr : (w2.at y).ref with
    | item i k => rw [hr] at R; exact R.elim
    | entry i k => rw [hr] at hs; exact hs.elim
    | elem i => rw [hr] at R; exact R.elim

/-- An entry of the fieldset was not touched. -/
def SomeUntouched (E : Env) (w : World) (o : Nat) : Prop :=
  (∃ ys y, (w.at o).children = some ys ∧ y ∈ ys ∧ (w.at y).touched = false) ∨ ((w.at o).children = none ∧ ∃ rs, Entries E (w.at o) rs ∧ rs ≠ [])

theorem assertEntries_raises (C : Calm E) {m : Option (MsgArg Nat)} {only skip : List Str} (I : Inv E w) (hx : IsA w o (.of .fieldset)) (hm : ∀ f, m = some (.fn f) → Throws (Inv E) P f)
    (hk : ∀ f, m = some (.fn f) → Polite E f) (hP : SomeUntouched E w o → P .typeError) : RaisesAt P (assertEntriesTouched E o m only skip) w := by
  obtain ⟨⟨is, rs⟩, hrs⟩ := C.nofail.entries w o I hx
  obtain ⟨ys, w1, h1, K1, U1, hk1, hc1, _, hys⟩ := entries_found (rs := rs) C.env I hx ⟨is, hrs⟩
  have hx1 := hx.later K1.later
  have I1 := K1.inv
  intro x
  unfold assertEntriesTouched
  rw [bind_ok h1, bind_ok obj_run]
  let g : Nat → Api (Option Nat) := fun y => do
    let c ← obj y
    pure (if c.touched then none else some y)
  let zs := ((w1.at o).index.filter fun p => !skipped only skip p.1).flatMap (·.2)
  have hg : ∀ (ys : List Nat), ∃ r, firstSome g ys w1 = (.ok r, w1) ∧ ∀ y, r = some y → y ∈ ys ∧ (w1.at y).touched = false := by
    intro ys
    induction ys with
    | nil => exact ⟨none, rfl, fun _ h => by cases h⟩
    | cons y ys ih =>
      unfold firstSome
      have e : g y w1 = (.ok (if (w1.at y).touched then none else some y), w1) := rfl
      rw [bind_ok e]
      by_cases ht : (w1.at y).touched = true
      · rw [if_pos ht]
        obtain ⟨r, h, hr⟩ := ih
        exact ⟨r, h, fun z hz => ⟨by simp [(hr z hz).1], (hr z hz).2⟩⟩
      · rw [if_neg ht]
        exact ⟨some y, rfl, fun z hz => by cases hz; exact ⟨by simp, by simpa using ht⟩⟩
  obtain ⟨r, hr, hr'⟩ := hg zs
  rw [show ∀ f, (firstSome g zs >>= f) w1 = f r w1 from fun f => bind_ok hr]
  cases r with
  | none => intro e; cases e
  | some y =>
    obtain ⟨hy, ht⟩ := hr' y rfl
    have hy2 : y ∈ ys := index_mem hk1 (by rw [hx1.2]; simp) hy
    have T : P .typeError := by
      refine hP ?_
      cases hc : (w.at o).children with
      | some ys' =>
        have : fieldsetEntries E o w = (.ok ys', w) := by rw [fieldsetEntries_run, hc]
        rw [this] at h1
        cases h1
        exact .inl ⟨_, y, hc, hy2, ht⟩
      | none =>
        refine .inr ⟨hc, rs, ⟨is, hrs⟩, ?_⟩
        rintro rfl
        rw [List.map_eq_nil_iff.1 hys] at hy2
        cases hy2
    cases m with
    | none => exact (raises_py (α := Unit) T : RaisesAt P _ w1) x
    | some m =>
      cases m with
      | text s => exact (raises_py (α := Unit) T : RaisesAt P _ w1) x
      | fn f => exact (raises_bind (m := f y) (f := fun _ => (raise (.py .typeError) : Api Unit)) (hm f rfl y w1 I1) fun _ _ _ => raises_py T) x

/-! ## Sections -/

theorem castTo_raises (C : Calm E) {k : Kind} {key : Option Str} {n : MsgName} (hn : n ≠ .expectedFieldsetEntry ∧ n ≠ .expectedListItem) (I : Inv E w) (hx : IsA w o .sectionElement)
    (h1 : ∀ k', k ≠ .section → (w.at o).yielded = some k' → k' ≠ k → P .typeError) (h2 : RefStuck E.ctx.heap (w.at o).ref → P .typeError) : RaisesAt P (castTo E k key n o) w := by
  unfold castTo
  refine raises_bind raises_obj fun x w3 hx' => ?_
  rw [obj_run] at hx'
  cases hx'
  split
  · rename_i hf
    exact to_raises C I (fun k' a b c => h1 k' a b (other_kind I hx.1 b c)) fun e => by rw [hf] at e; cases e
  · obtain ⟨b, hb⟩ := element_ref I hx (.inl rfl)
    refine (C.raise (v := .wrongType key _ n) ⟨.inr ⟨b, hb⟩, hn⟩).mono fun x h => ?_
    rcases h with ⟨_, h⟩ | ⟨rfl, _, h⟩
    · exact absurd h (first_not_document hb)
    · exact h2 h

theorem casts_raises (C : Calm E) {k : Kind} {key : Option Str} {n : MsgName} (hn : n ≠ .expectedFieldsetEntry ∧ n ≠ .expectedListItem) : ∀ (ys : List Nat) (w : World), Inv E w →
    (∀ y ∈ ys, IsA w y .sectionElement) → (∀ y ∈ ys, ∀ k', k ≠ .section → (w.at y).yielded = some k' → k' ≠ k → P .typeError) →
    (∀ y ∈ ys, RefStuck E.ctx.heap (w.at y).ref → P .typeError) → RaisesAt P (each (castTo E k key n) ys) w
  | [], _, _, _, _, _ => raises_pure
  | y :: ys, w, I, hx, h1, h2 => by
    unfold each
    have hy := hx y (by simp)
    refine raises_then (keeps_castTo I hy) (castTo_raises C hn I hy (h1 y (by simp)) (h2 y (by simp))) fun z w1 hz I1 L1 => ?_
    have ht : to E k y w = (.ok z, w1) := by
      unfold castTo at hz
      rw [bind_ok obj_run] at hz
      split at hz
      · exact hz
      · exfalso
        revert hz
        cases unexpectedElementType E.o E.ctx key (w.at y).ref n <;> intro hz <;> cases hz
    refine raises_bind (casts_raises C hn ys w1 I1 (fun q hq => (hx q (by simp [hq])).later L1) (fun q hq k' a b c => ?_) fun q hq => ?_) fun _ _ _ => raises_pure
    · rcases to_yielded ht (hx q (by simp [hq])).1 with h | h
      · rw [h] at b
        exact h1 q (by simp [hq]) k' a b c
      · rw [b] at h
        cases h
        exact absurd rfl c
    · rw [(L1.obj q (hx q (by simp [hq])).1).ref]
      exact h2 q (by simp [hq])

/-- An element of the section was yielded as something else. -/
def YieldedIn (w : World) (o : Nat) (k : Kind) : Prop := ∃ y k', (w.at y).parent = some o ∧ (w.at y).cls = .sectionElement ∧ (w.at y).yielded = some k' ∧ k' ≠ k

theorem child_yielded (C : Calm E) (I : Inv E w) (hx : IsA w o (.of .section)) {key : Option Str} {zs : List Nat} {w2 : World}
    (h : named (sectionElements E o) o key (setTouched o w).2 = (.ok zs, w2)) {k k' : Kind} (hy : y ∈ zs) (hk : (w2.at y).yielded = some k') (hn : k' ≠ k) : YieldedIn w o k := by
  have K1 : Keeps E w (setTouched o w).2 := keeps_touched I
  have hx1 := hx.later K1.later
  obtain ⟨ys, h2, rfl, _⟩ := named_elements C.env K1.inv hx1 h
  have U := sectionElements_unfolded (E := E) hx1.1
  have K2 := (sectionElements_keeps C.env K1.inv hx1).1
  rw [h2] at U K2
  obtain ⟨kk, _, ht⟩ := elements_of C.env K1.inv hx1 h2
  have hm := kk.members y (List.mem_filter.1 hy).1
  have hs := ht y (List.mem_filter.1 hy).1
  by_cases hl : y < w.objs.length
  · have L := (K1.later.trans K2.later).obj y hl
    have hl1 : y < (setTouched o w).2.objs.length := Nat.lt_of_lt_of_le hl K1.later.len
    have e : (w2.at y).yielded = (w.at y).yielded := by
      rw [(U.obj y hl1).2.2.1, at_touched]
      split <;> rfl
    exact ⟨y, k', by rw [← L.parent]; exact hm.2.2.2, by rw [← L.cls]; exact hs.2, by rw [← e]; exact hk, hn⟩
  · exfalso
    have hlen : (setTouched o w).2.objs.length = w.objs.length := by unfold setTouched; exact len_assign
    have F := U.fresh y (by omega)
    have := ((K2.inv.objs y hm.2.1).yielded k').1 hk
    rw [F.2] at this
    cases this

theorem stuck_elem {r : Ref} {h : Heap} (s : RefStuck h r) : ∃ i, Stuck h i := by
  cases r with
  | elem i => exact ⟨i, s⟩
  | item i k => exact s.elim
  | entry i k => exact s.elim

theorem single_raises (C : Calm E) {want : Want} {key : Option Str} {required : Option Bool} (I : Inv E w) (hx : IsA w o (.of .section))
    (h1 : ∀ k, want = .kind k → k ≠ .section → YieldedIn w o k → P .typeError) (h2 : (∃ i, Stuck E.ctx.heap i) → P .typeError) : RaisesAt P (single E want o key required) w := by
  unfold single
  refine raises_then (keeps_touched I) raises_touched fun _ w1 hw1 I1 L1 => ?_
  have hw1' : (setTouched o w).2 = w1 := by rw [hw1]
  have hx1 := hx.later L1
  refine raises_then (keeps_named (sectionElements_keeps C.env I1 hx1).1) (raises_named (C.sectionElements I1 hx1)) fun ys w2 hw2 I2 L2 => ?_
  obtain ⟨_, _, _, hy⟩ := named_elements C.env I1 hx1 hw2
  refine raises_bind raises_obj fun x w3 hx' => ?_
  rw [obj_run] at hx'
  cases hx'
  rcases ys with _ | ⟨y, _ | ⟨z, ys⟩⟩
  · dsimp only
    split
    · refine (C.raise (v := .missingElement key _ _) ⟨idx_lt C.env I2, by rcases want with _ | k <;> (try cases k) <;> decide, by rcases want with _ | k <;> (try cases k) <;> decide⟩).mono
        fun x h => ?_
      obtain ⟨rfl, _, pre, i, j, post, a, b, _⟩ := h
      exact h2 ⟨_, .here a b⟩
    · split <;> exact raises_pure
  · cases want with
    | any => exact raises_pure
    | kind k =>
      refine raises_bind (castTo_raises C (by cases k <;> decide) I2 (hy y (by simp)) (fun k' a b c => h1 k rfl a ?_) fun s => h2 (stuck_elem s)) fun _ _ _ => raises_pure
      rw [← hw1'] at hw2
      exact child_yielded C I hx hw2 (by simp) b c
  · refine (several_raises C (by simp) (fun y h => element_ref I2 (hy y h) (by simp)) (by rcases want with _ | k <;> (try cases k) <;> decide)).mono fun x h => ?_
    obtain ⟨rfl, y, _, s⟩ := h
    exact h2 (stuck_elem s)

theorem many_raises (C : Calm E) {want : Want} {key : Option Str} (I : Inv E w) (hx : IsA w o (.of .section))
    (h1 : ∀ k, want = .kind k → k ≠ .section → YieldedIn w o k → P .typeError) (h2 : (∃ i, Stuck E.ctx.heap i) → P .typeError) : RaisesAt P (several E want o key) w := by
  unfold several
  refine raises_then (keeps_touched I) raises_touched fun _ w1 hw1 I1 L1 => ?_
  have hw1' : (setTouched o w).2 = w1 := by rw [hw1]
  have hx1 := hx.later L1
  refine raises_then (keeps_named (sectionElements_keeps C.env I1 hx1).1) (raises_named (C.sectionElements I1 hx1)) fun ys w2 hw2 I2 L2 => ?_
  obtain ⟨_, _, _, hy⟩ := named_elements C.env I1 hx1 hw2
  cases want with
  | any => exact raises_pure
  | kind k =>
    refine casts_raises C (by cases k <;> decide) ys w2 I2 hy (fun y hy' k' a b c => h1 k rfl a ?_) fun y _ s => h2 (stuck_elem s)
    rw [← hw1'] at hw2
    exact child_yielded C I hx hw2 hy' b c

theorem assertAll_raises (C : Calm E) {m : Option (MsgArg Nat)} {only skip : List Str} (I : Inv E w) (hx : IsA w o (.of .section)) (hm : ∀ f, m = some (.fn f) → Throws (Inv E) P f)
    (h2 : (∃ i, Stuck E.ctx.heap i) → P .typeError) : RaisesAt P (assertAllTouched E o m only skip) w := by
  unfold assertAllTouched
  refine raises_then (sectionElements_keeps C.env I hx).1 (C.sectionElements I hx) fun ys w1 h1 I1 L1 => ?_
  obtain ⟨K, _, hy⟩ := elements_of C.env I hx h1
  have hx1 := hx.later L1
  refine raises_bind raises_obj fun x w2 hx' => ?_
  rw [obj_run] at hx'
  cases hx'
  refine raises_bind (m := objectCount) (fun _ h => by cases h) fun n w2 hx' => ?_
  obtain ⟨rfl, rfl⟩ : w1.objs.length = n ∧ w1 = w2 := by unfold objectCount at hx'; cases hx'; exact ⟨rfl, rfl⟩
  have S := assert_search C.env I1 (zs := ((w1.at o).index.filter fun p => !skipped only skip p.1).flatMap (·.2)) fun z hz => hy z (index_mem K (by rw [hx1.2]; simp) hz)
  obtain ⟨a, ha⟩ := S.total C.nofail
  refine raises_then ⟨S.inv, S.unf.later⟩ (raises_ok ha) fun r w2 hr I2 L2 => ?_
  rw [hr] at S
  cases r with
  | none => exact raises_pure
  | some r =>
    obtain ⟨b, hb⟩ := actual_first (S.dirty r rfl).2
    have hp : ∀ s w3, RaisesAt P (raiseValidation (unexpectedElement E.o E.ctx s r) : Api Unit) w3 := fun s w3 => (C.raise (v := .unexpected s r) (.inr ⟨b, hb⟩)).mono fun x h => by
      rcases h with ⟨_, h⟩ | ⟨rfl, _, h⟩
      · exact absurd h (first_not_document hb)
      · exact h2 (stuck_elem h)
    cases m with
    | none => exact hp none w2
    | some m =>
      cases m with
      | text s => exact hp (some s) w2
      | fn f =>
        refine raises_bind ?_ fun s w3 _ => hp s w3
        refine raises_then (keeps_element I2 (hx1.later L2) (S.dirty r rfl).2) raises_create fun ys w3 _ I3 _ => raises_map (hm f rfl _ w3 I3)

/-! ## Raw -/

/-- What `raw` can raise. -/
def RawFault (x : PyExc) : Prop := x = .keyError ∨ x = .typeError ∨ x = .recursionError

theorem readItems_fault {h : Heap} {x : PyExc} : ∀ (n i : Nat) (c : Cache), (readItems h n i c).1 = .error x → RawFault x
  | 0, _, _, e => by cases e; exact .inr (.inr rfl)
  | n + 1, i, c, e => by
    unfold readItems at e
    cases hm : (h.at i).mirror with
    | some m => rw [hm] at e; exact readItems_fault n m c e
    | none =>
      rw [hm] at e
      cases hx : (h.at i).extend with
      | none => rw [hx] at e; cases e
      | some t =>
        rw [hx] at e
        dsimp only at e
        cases hc : c.items i with
        | some xs => rw [hc] at e; cases e
        | none =>
          rw [hc] at e
          dsimp only at e
          have ih := readItems_fault (h := h) (x := x) n t c
          revert e ih
          rcases readItems h n t c with ⟨r | r, c1⟩
          · intro e ih; cases e; exact ih rfl
          · intro e _
            dsimp only at e
            cases ho : h.ownItems i with
            | none => rw [ho] at e; cases e; exact .inl rfl
            | some own => rw [ho] at e; cases e

theorem readEntries_fault {h : Heap} {x : PyExc} : ∀ (n i : Nat) (c : Cache), (readEntries h n i c).1 = .error x → RawFault x
  | 0, _, _, e => by cases e; exact .inr (.inr rfl)
  | n + 1, i, c, e => by
    unfold readEntries at e
    cases hm : (h.at i).mirror with
    | some m => rw [hm] at e; exact readEntries_fault n m c e
    | none =>
      rw [hm] at e
      dsimp only at e
      cases hc : c.entries i with
      | some xs => rw [hc] at e; cases e
      | none =>
        rw [hc] at e
        dsimp only at e
        cases ho : h.ownEntries i with
        | none => rw [ho] at e; cases e; exact .inl rfl
        | some own =>
          rw [ho] at e
          dsimp only at e
          cases hx : (h.at i).extend with
          | none => rw [hx] at e; cases e
          | some t =>
            rw [hx] at e
            dsimp only at e
            have ih := readEntries_fault (h := h) (x := x) n t { c with entries := upd c.entries i own }
            revert e ih
            rcases readEntries h n t { c with entries := upd c.entries i own } with ⟨r | r, c1⟩
            · intro e ih; cases e; exact ih rfl
            · intro e _; cases e

theorem readElements_fault {h : Heap} {x : PyExc} : ∀ (n i : Nat) (c : Cache), (readElements h n i c).1 = .error x → RawFault x
  | 0, _, _, e => by cases e; exact .inr (.inr rfl)
  | n + 1, i, c, e => by
    unfold readElements at e
    cases hm : (h.at i).mirror with
    | some m =>
      rw [hm] at e
      dsimp only at e
      have ih := readElements_fault (h := h) (x := x) n m c
      revert e ih
      rcases readElements h n m c with ⟨r | r, c1⟩
      · intro e ih; cases e; exact ih rfl
      · intro e _; cases e
    | none =>
      rw [hm] at e
      dsimp only at e
      cases hc : c.elements i with
      | some xs => rw [hc] at e; cases e
      | none =>
        rw [hc] at e
        dsimp only at e
        cases hx : (h.at i).extend with
        | none => rw [hx] at e; cases e
        | some t =>
          rw [hx] at e
          dsimp only at e
          have ih := readElements_fault (h := h) (x := x) n t { c with elements := upd c.elements i (h.at i).elements }
          revert e ih
          rcases readElements h n t { c with elements := upd c.elements i (h.at i).elements } with ⟨r | _ | r, c1⟩
          · intro e ih; cases e; exact ih rfl
          · intro e _; cases e; exact .inr (.inl rfl)
          · intro e _; cases e

theorem readValue_fault {h : Heap} {x : PyExc} (hv : ∀ r, ∃ v, computeValue input h r = .ok v) : ∀ (n : Nat) (r : Ref) (c : Cache), (readValue input h n r c).1 = .error x → RawFault x
  | 0, _, _, e => by cases e; exact .inr (.inr rfl)
  | n + 1, r, c, e => by
    unfold readValue at e
    cases hc : c.value r with
    | some v => rw [hc] at e; cases e
    | none =>
      rw [hc] at e
      dsimp only at e
      cases hm : h.mirror? r with
      | some m => rw [hm] at e; exact readValue_fault hv n _ c e
      | none =>
        rw [hm] at e
        dsimp only at e
        obtain ⟨v, q⟩ := hv r
        rw [q] at e
        cases e

theorem readAll_fault {f : Ref → Read α} {x : PyExc} (hf : ∀ r c, (f r c).1 = .error x → RawFault x) : ∀ (rs : List Ref) (c : Cache), (readAll f rs c).1 = .error x → RawFault x
  | [], _, e => by cases e
  | r :: rs, c, e => by
    unfold readAll at e
    have ih := hf r c
    revert e ih
    rcases f r c with ⟨y | y, c1⟩
    · intro e ih; cases e; exact ih rfl
    · intro e _
      dsimp only at e
      have ih := readAll_fault hf rs c1
      revert e ih
      rcases readAll f rs c1 with ⟨z | z, c2⟩
      · intro e ih; cases e; exact ih rfl
      · intro e _; cases e

/-- One line of a comment can only lack its text. -/
theorem computeComment_fault {cs : Option (List Comment)} {x : PyExc} (h : computeComment cs = .error x) : x = .keyError := by
  have indent : ∀ {c : Comment} {y : PyExc}, c.indent = .error y → y = .keyError := by
    intro c y e
    unfold Comment.indent at e
    split at e
    · cases e
    · cases e; rfl
  have scan : ∀ (cs : List Comment) (k : Nat) (r : Option Nat × Option Int × Option Nat) (y : PyExc), scanComments cs k r = .error y → y = .keyError := by
    intro cs
    induction cs with
    | nil => intro k r y e; cases e
    | cons c cs ih =>
      intro k r y e
      obtain ⟨a, b, d⟩ := r
      unfold scanComments at e
      split at e
      · split at e
        · rename_i q; cases e; exact indent q
        · exact ih _ _ _ e
      · exact ih _ _ _ e
  have all : ∀ (l : List (Except PyExc Str)) (y : PyExc), (∀ a ∈ l, ∀ z, a = .error z → z = .keyError) → allOk l = .error y → y = .keyError := by
    intro l
    induction l with
    | nil => intro y _ e; cases e
    | cons a l ih =>
      intro y hl e
      cases a with
      | error z => cases e; exact hl _ (by simp) _ rfl
      | ok a =>
        unfold allOk at e
        split at e
        · rename_i q; cases e; exact ih _ (fun b hb => hl b (by simp [hb])) q
        · cases e
  unfold computeComment at h
  split at h
  · cases h
  · split at h
    · cases h; rfl
    · cases h
  · split at h
    · rename_i q; cases h; exact scan _ _ _ _ q
    · split at h
      · rename_i q
        cases h
        refine all _ _ (fun a ha z hz => ?_) q
        obtain ⟨c, _, rfl⟩ := List.mem_map.1 ha
        unfold indented at hz
        split at hz
        · cases hz
        · split at hz
          · rename_i q; cases hz; exact indent q
          · split at hz <;> cases hz
      · cases h
    · cases h

theorem readCommentKey_fault {h : Heap} {r : Ref} {c : Cache} {x : PyExc} (e : (readCommentKey h r c).1 = .error x) : RawFault x := by
  unfold readCommentKey at e
  split at e
  · unfold readComment at e
    cases hc : c.comment r with
    | some v => rw [hc] at e; cases e
    | none =>
      rw [hc] at e
      dsimp only at e
      cases hv : computeComment (h.comments r) with
      | error y => rw [hv] at e; cases e; exact .inl (computeComment_fault hv)
      | ok v => rw [hv] at e; cases e
  · cases e

theorem readRaw_fault {h : Heap} {x : PyExc} (hv : ∀ r, ∃ v, computeValue input h r = .ok v) : ∀ (n : Nat) (r : Ref) (c : Cache), (readRaw input h n r c).1 = .error x → RawFault x
  | 0, _, _, e => by cases e; exact .inr (.inr rfl)
  | n + 1, r, c, e => by
    unfold readRaw at e
    have k := readCommentKey_fault (h := h) (r := r) (c := c) (x := x)
    revert e k
    rcases readCommentKey h r c with ⟨y | cm, c⟩
    · intro e k; cases e; exact k rfl
    · intro e _
      dsimp only at e
      have kids : ∀ (rs : List Ref) (c : Cache), (match readAll (readRaw input h n) rs c with
          | (.error e, c) => ((.error e : Except PyExc Raw), c)
          | (.ok l, c) => (.ok (.node (h.type r) cm (h.key? r) l), c)).1 = .error x → RawFault x := by
        intro rs c e
        have := readAll_fault (f := readRaw input h n) (x := x) (readRaw_fault hv n) rs c
        revert e this
        rcases readAll (readRaw input h n) rs c with ⟨z | z, c2⟩
        · intro e k; cases e; exact k rfl
        · intro e _; cases e
      have val : ∀ {ty : Ty}, (match readValue input h n r c with
          | (.error e, c) => ((.error e : Except PyExc Raw), c)
          | (.ok v, c) => (.ok (.leaf ty cm (h.key? r) (some v)), c)).1 = .error x → RawFault x := by
        intro ty e
        have := readValue_fault (x := x) hv n r c
        revert e this
        rcases readValue input h n r c with ⟨z | z, c2⟩
        · intro e k; cases e; exact k rfl
        · intro e _; cases e
      cases r with
      | item i k => exact val e
      | entry i k => exact val e
      | elem i =>
        dsimp only at e
        have sec : (match readElements h n i c with
            | (.error e, c) => ((.error e : Except PyExc Raw), c)
            | (.ok none, c) => (.error .typeError, c)
            | (.ok (some xs), c) => (match readAll (readRaw input h n) (xs.map .elem) c with
              | (.error e, c) => ((.error e : Except PyExc Raw), c)
              | (.ok l, c) => (.ok (.node (h.type (.elem i)) cm (h.key? (.elem i)) l), c))).1 = .error x → RawFault x := by
          intro e
          have := readElements_fault (h := h) (x := x) n i c
          revert e this
          rcases readElements h n i c with ⟨z | _ | z, c2⟩
          · intro e k; cases e; exact k rfl
          · intro e _; cases e; exact .inr (.inl rfl)
          · intro e _; exact kids _ _ e
        cases ht : (h.at i).type <;> rw [ht] at e <;> dsimp only at e
        case empty => cases e
        case list =>
          have := readItems_fault (h := h) (x := x) n i c
          revert e this
          rcases readItems h n i c with ⟨z | z, c2⟩
          · intro e k; cases e; exact k rfl
          · intro e _; exact kids _ _ e
        case fieldset =>
          have := readEntries_fault (h := h) (x := x) n i c
          revert e this
          rcases readEntries h n i c with ⟨z | z, c2⟩
          · intro e k; cases e; exact k rfl
          · intro e _; exact kids _ _ e
        case «section» => exact sec e
        case document => exact sec e
        all_goals exact val e

theorem raw_raises (V : EnvOk E) (hP : ∀ x, RawFault x → P x) : RaisesAt P (rawOf E o) w := by
  unfold rawOf
  refine raises_bind raises_obj fun x w1 _ => raises_reading fun x e => hP x (readRaw_fault V.values _ _ _ e)

end Eno.El
