import Verif.Proofs.HazardLemmas
import Verif.Proofs.ProgramAgree

/-! # Objects: what each call can raise -/

namespace Eno.El

open Spec

variable {α β : Type} {w w' w1 : World} {o y : Nat} {E : Env} {input : Str} {ctx0 : Ctx} {P Q : PyExc → Prop}

theorem Throws.mono {f : α → Api β} {W : World → Prop} (h : Throws W P f) (hq : ∀ x, P x → Q x) : Throws W Q f := fun a w hw => (h a w hw).mono hq

theorem MsgArg.Throws.mono {W : World → Prop} {m : MsgArg α} (h : m.Throws W P) (hq : ∀ x, P x → Q x) : m.Throws W Q := by
  cases m with
  | text _ => trivial
  | fn f => exact El.Throws.mono h hq

theorem raises_noMethod (h : P .attributeError) : RaisesAt P (noMethod : Api α) w := raises_py h

/-- Own keys are there, except for the document and items. -/
theorem ownKey_raises (C : Calm E) (I : Inv E w) (ho : o < w.objs.length) (h : ∀ x, Keyless (w.at o) x → P x) : RaisesAt P (ownKey E o) w := by
  by_cases h0 : (w.at o).ref = .elem 0 ∨ ∃ i k, (w.at o).ref = .item i k
  · intro x e
    refine h x ⟨?_, h0⟩
    unfold ownKey at e
    rw [bind_ok obj_run] at e
    cases hk : E.ctx.heap.key? (w.at o).ref with
    | some k => rw [hk] at e; cases e
    | none => rw [hk] at e; cases e; rfl
  · obtain ⟨k, hk⟩ := key_there C.env I ho fun h => h0 (.inl h)
    exact raises_ok (a := k) (by rw [ownKey_run C.env I ho hk fun i j h => h0 (.inr ⟨i, j, h⟩)])

theorem printValue_raises (C : Calm E) (I : Inv E w) (ho : o < w.objs.length) (hv : HasValue (w.at o).cls) : RaisesAt P (printValue E o) w := by
  unfold printValue
  refine raises_bind (C.valueOf I ho hv) fun v w1 _ => ?_
  rcases v with _ | _ | ⟨a, v⟩ <;> exact raises_pure

theorem repr_raises (C : Calm E) (I : Inv E w) (ho : o < w.objs.length) (h : (w.at o).cls = .element → ∀ x, Keyless (w.at o) x → P x) : RaisesAt P (repr E (w.at o).cls o) w := by
  have O := (I.objs o ho).ref
  have hx : IsA w o (w.at o).cls := ⟨ho, rfl⟩
  have key : (w.at o).cls ≠ .element → (w.at o).cls ≠ .item → (w.at o).cls ≠ .of .section ∨ (w.at o).ref ≠ .elem 0 → RaisesAt P (ownKey E o) w ∧ (ownKey E o w).2 = w := by
    intro n1 n2 n3
    have n4 : (w.at o).ref ≠ .elem 0 := by
      rcases n3 with n3 | n3
      · intro h0
        rw [h0] at O
        cases hc : (w.at o).cls with
        | of k => rw [hc] at O n3; exact n3 (by rw [O.2.1 rfl])
        | sectionElement => rw [hc] at O; exact absurd O.1 (by simp)
        | element => exact n1 hc
        | entry => rw [hc] at O; exact O.elim
        | item => exact n2 hc
      · exact n3
    have n5 : ∀ i k, (w.at o).ref ≠ .item i k := by
      intro i k h0
      rw [h0] at O
      cases hc : (w.at o).cls with
      | of k => rw [hc] at O; exact O.elim
      | sectionElement => rw [hc] at O; exact O.elim
      | element => exact n1 hc
      | entry => rw [hc] at O; exact O.elim
      | item => exact n2 hc
    obtain ⟨k, hk⟩ := key_there C.env I ho n4
    have := ownKey_run C.env I ho hk n5
    exact ⟨raises_ok (a := k) (by rw [this]), by rw [this]⟩
  have next : ∀ {f : Str → Api Str}, RaisesAt P (ownKey E o) w ∧ (ownKey E o w).2 = w → (∀ s, RaisesAt P (f s) w) → RaisesAt P (ownKey E o >>= f) w := fun h hf =>
    raises_bind h.1 fun s w1 e => by have h2 := h.2; rw [e] at h2; cases h2; exact hf s
  unfold repr
  refine raises_bind raises_obj fun x w3 hx' => ?_
  rw [obj_run] at hx'
  cases hx'
  cases hc : (w.at o).cls with
  | of k =>
    rw [hc] at hx
    cases k with
    | empty => exact next (key (by simp [hc]) (by simp [hc]) (by simp [hc])) fun s => raises_pure
    | field => exact next (key (by simp [hc]) (by simp [hc]) (by simp [hc])) fun s => raises_bind (printValue_raises C I ho (by rw [hc]; exact .inl rfl)) fun _ _ _ => raises_pure
    | fieldset => exact next (key (by simp [hc]) (by simp [hc]) (by simp [hc])) fun s => raises_bind (C.fieldsetEntries I hx) fun _ _ _ => raises_pure
    | list => exact next (key (by simp [hc]) (by simp [hc]) (by simp [hc])) fun s => raises_bind (C.listItems I hx) fun _ _ _ => raises_pure
    | «section» =>
      dsimp only
      split
      · exact raises_bind (C.sectionElements I hx) fun _ _ _ => raises_pure
      · rename_i hd
        exact next (key (by simp [hc]) (by simp [hc]) (.inr fun h0 => hd (by rw [h0]; exact C.env.doc))) fun s => raises_bind (C.sectionElements I hx) fun _ _ _ => raises_pure
  | sectionElement => exact next (key (by simp [hc]) (by simp [hc]) (by simp [hc])) fun s => raises_pure
  | element => exact raises_bind (ownKey_raises C I ho (h hc)) fun _ _ _ => raises_pure
  | entry => exact next (key (by simp [hc]) (by simp [hc]) (by simp [hc])) fun s => raises_bind (printValue_raises C I ho (by rw [hc]; exact .inr (.inl rfl))) fun _ _ _ => raises_pure
  | item => exact raises_bind (printValue_raises C I ho (by rw [hc]; exact .inr (.inr rfl))) fun _ _ _ => raises_pure

theorem touch_raises (C : Calm E) (I : Inv E w) (ho : o < w.objs.length) : RaisesAt P (touch E (w.at o).cls o) w := by
  by_cases hc : (w.at o).cls = .sectionElement ∨ (w.at o).cls = .element
  · have T := touches_element C.env (deeper := touchSection E (w.objs.length + 1)) I ho fun y hy => by
      have M := ((I.objs o ho).made _ y hy).2
      exact touches_section C.env (w.objs.length + 1) y w I I.bounded ⟨M.known, M.cls⟩ M.known (by have := M.lt; omega)
    have e : touch E (w.at o).cls o w = touchElement E (touchSection E (w.objs.length + 1)) o w := by rcases hc with h | h <;> rw [h] <;> rfl
    obtain ⟨a, h⟩ := T.total C.nofail
    exact raises_ok (a := a) (by rw [e]; exact h)
  · obtain ⟨a, h⟩ := (touch_marks C.env I ho ⟨fun h => hc (.inl h), fun h => hc (.inr h)⟩).total C.nofail
    exact raises_ok h

theorem requireAll_raises (C : Calm E) {b : Bool} (I : Inv E w) (hx : IsA w o (.of .section)) (hP : ¬ AllYielded E w o → P .attributeError) : RaisesAt P (requireAll E (w.objs.length + 1) b o) w := by
  have T := requires_section (b := b) C.env (w.objs.length + 1) o w I I.bounded hx hx.1 (by omega)
  by_cases h : AllYielded E w o
  · obtain ⟨a, h⟩ := T.good C.nofail h
    exact raises_ok h
  · intro x e
    rw [T.bad C.nofail h] at e
    cases e
    exact hP h

theorem sectionParent_raises (V : EnvOk E) (I : Inv E w) (hx : IsA w o (.of .section)) (hP : (w.at o).ref = .elem 0 → P .keyError) : RaisesAt P (sectionParent E o) w := by
  intro x e
  have O := (I.objs o hx.1).ref
  rw [hx.2] at O
  unfold sectionParent at e
  rw [bind_ok obj_run] at e
  by_cases h : (w.at o).ref = .elem 0
  · have : E.ctx.heap.type (w.at o).ref = .document := by rw [h]; exact V.doc
    rw [this, if_neg (by simp), (I.objs o hx.1).top h] at e
    cases e
    exact hP h
  · have : E.ctx.heap.type (w.at o).ref ≠ .document := by
      cases hq : (w.at o).ref with
      | elem i =>
        rw [hq] at O h
        exact V.types i (Nat.pos_of_ne_zero fun e => h (by rw [e])) O.1
      | item i j => simp [Heap.type]
      | entry i j => simp [Heap.type]
    rw [if_pos this] at e
    cases e

theorem parentOf_raises (V : EnvOk E) (I : Inv E w) (ho : o < w.objs.length) (hn : (w.at o).cls ≠ .element ∧ (w.at o).cls ≠ .of .section)
    (hP : ∀ k, (w.at o).cls = .of k → k ≠ .section → k ≠ .fieldset → k ≠ .list → (w.at o).parent = none → P .attributeError) : RaisesAt P (parentOf E o) w := by
  intro x e
  have O := I.objs o ho
  unfold parentOf at e
  rw [bind_ok obj_run] at e
  cases hp : (w.at o).parent with
  | some p => rw [hp] at e; cases e
  | none =>
    rw [hp] at e
    dsimp only at e
    obtain ⟨k, hk⟩ := (O.orphan hp).1.resolve_left hn.1
    have hR := O.ref
    by_cases hc : (w.at o).cls = .of .fieldset ∨ (w.at o).cls = .of .list
    · rw [if_pos hc] at e
      obtain ⟨i, hi⟩ : ∃ i, (w.at o).ref = .elem i := by
        cases hr : (w.at o).ref with
        | elem i => exact ⟨i, rfl⟩
        | item i j => rw [hk, hr] at hR; exact hR.elim
        | entry i j => rw [hk, hr] at hR; exact hR.elim
      rw [hk, hi] at hR
      have h0 : 0 < i := Nat.pos_of_ne_zero fun h => hn.2 (by rw [hk, hR.2.1 h])
      obtain ⟨p, h1, _⟩ := V.parents i h0 hR.1
      rw [hi] at e
      simp only [Ref.idx, h1] at e
      cases e
    · rw [if_neg hc] at e
      cases e
      exact hP k hk (fun h => hn.2 (by rw [hk, h])) (fun h => hc (.inl (by rw [hk, h]))) (fun h => hc (.inr (by rw [hk, h]))) hp

/-! ## All calls -/

theorem run_raises_known (C : Calm E) (I : Inv E w) (ho : o < w.objs.length) {m : Method} (hm : m.Throws (Inv E) P) (hk : m.Polite E) :
    RaisesAt (fun x => P x ∨ Hazard E w o m x) (run E o m) w := by
  have V := C.env
  have no : Offers (w.at o).cls m = false → RaisesAt (fun x => P x ∨ Hazard E w o m x) (noMethod : Api Val) w := fun h => raises_noMethod (.inr (.noMethod h))
  have e : ∃ c, (w.at o).cls = c := ⟨_, rfl⟩
  obtain ⟨c, hc⟩ := e
  have hx : IsA w o c := ⟨ho, hc⟩
  unfold run
  refine raises_bind raises_obj fun x w3 hx' => ?_
  rw [obj_run] at hx'
  cases hx'
  cases m with
  | comment r f =>
    exact raises_map (comment_raises C I (hm.mono fun _ => .inl) hk (ever_ref ho (fun z z' x e h => by rw [e] at h; exact h) fun x h => by
      obtain ⟨rfl, h | h⟩ := h
      · exact .inr (.document h rfl)
      · exact .inr (.blank h rfl)))
  | commentError a =>
    exact raises_map (commentErrorOf_raises C I (MsgArg.Throws.mono hm fun _ => .inl) hk (ever_ref ho (fun z z' x e h => by rw [e] at h; exact h) fun x h => by
      obtain ⟨rfl, h | h | ⟨⟨f, rfl⟩, h⟩⟩ := h
      · exact .inr (.document h rfl)
      · exact .inr (.noComment h)
      · exact .inr (.blank h rfl)))
  | error a =>
    exact raises_map (errorOf_raises C I (MsgArg.Throws.mono hm fun _ => .inl) hk (ever_ref ho (fun z z' x e h => by unfold Untold at *; rw [e] at h; exact h) fun x h => by
      rcases h with ⟨rfl, h⟩ | ⟨rfl, _, h⟩
      · exact .inr (.document h rfl)
      · exact .inr (.stuck h)))
  | key f =>
    exact key_raises C I (hm.mono fun _ => .inl) hk (ever_ref ho (fun z z' x e h => by unfold Keyless at *; rw [e] at h; exact h) fun x h => by
      obtain ⟨rfl, h | ⟨i, k, h⟩⟩ := h
      · exact .inr (.document h rfl)
      · exact .inr (.itemKey h rfl))
  | keyError a =>
    exact raises_map (keyErrorOf_raises C I (MsgArg.Throws.mono hm fun _ => .inl) hk (ever_ref ho (fun z z' x e h => by unfold Keyless at *; rw [e] at h; exact h) fun x h => by
      obtain ⟨rfl, h | ⟨i, k, h⟩⟩ := h
      · exact .inr (.document h rfl)
      · exact .inr (.itemKey h rfl)))
  | raw => exact raises_map (raw_raises V fun x h => .inr (.raw h))
  | repr =>
    refine raises_map (repr_raises C I ho fun hc x h => ?_)
    obtain ⟨rfl, h⟩ := h
    exact .inr (.noKey hc h)
  | touch => exact raises_bind (touch_raises C I ho) fun _ _ _ => raises_pure
  | value r f =>
    have go : c = .of .field ∨ c = .entry ∨ c = .item → RaisesAt (fun x => P x ∨ Hazard E w o (.value r f) x) (Val.opt <$> value E o r f) w := fun h =>
      raises_map (value_raises C I hx h (hm.mono fun _ => .inl) hk)
    rw [hc] at no ⊢
    cases c with
    | of k => cases k <;> first | exact no rfl | exact go (by simp)
    | _ => first | exact no rfl | exact go (by simp)
  | valueError a =>
    have go : c = .of .field ∨ c = .entry ∨ c = .item → RaisesAt (fun x => P x ∨ Hazard E w o (.valueError a) x) (Val.error <$> valueErrorOf E o a) w := fun h =>
      raises_map (valueErrorOf_raises C I hx h (MsgArg.Throws.mono hm fun _ => .inl) hk)
    rw [hc] at no ⊢
    cases c with
    | of k => cases k <;> first | exact no rfl | exact go (by simp)
    | _ => first | exact no rfl | exact go (by simp)
  | to k =>
    have go : RaisesAt (fun x => P x ∨ Hazard E w o (.to k) x) (Val.obj <$> to E k o) w := raises_map (to_raises C I
      (fun k' h1 h2 h3 => .inr (.yielded h2 (other_kind I ho h2 h3) h1))
      (fun h1 x h => by
        rcases h with ⟨rfl, h⟩ | ⟨rfl, _, h⟩
        · exact .inr (.document h rfl)
        · exact .inr (.stuckTo h h1)))
    rw [hc] at no ⊢
    cases c <;> first | exact no rfl | exact go
  | yields k =>
    have go : RaisesAt (fun x => P x ∨ Hazard E w o (.yields k) x) (Val.bool <$> yields E k o) w := raises_map (raises_bind raises_obj fun _ _ _ => raises_pure)
    rw [hc] at no ⊢
    cases c <;> first | exact no rfl | exact go
  | toEntry => exact no (by cases c <;> rfl)
  | toItem => exact no (by cases c <;> rfl)
  | yieldsEntry => rw [hc] at no ⊢; cases c <;> first | exact no rfl | exact raises_pure
  | yieldsItem => rw [hc] at no ⊢; cases c <;> first | exact no rfl | exact raises_pure
  | items =>
    rw [hc] at no ⊢
    cases c with
    | of k => cases k <;> first | exact no rfl | exact raises_map (m := items E o) (raises_then (keeps_touched I) raises_touched fun _ w1 _ I1 L1 => C.listItems I1 (hx.later L1))
    | _ => exact no rfl
  | length =>
    rw [hc] at no ⊢
    cases c with
    | of k =>
      cases k <;> first
        | exact no rfl
        | exact raises_map (m := itemCount E o) (raises_then (keeps_touched I) raises_touched fun _ w1 _ I1 L1 => raises_bind (C.listItems I1 (hx.later L1)) fun _ _ _ => raises_pure)
    | _ => exact no rfl
  | values r f =>
    rw [hc] at no ⊢
    cases c with
    | of k => cases k <;> first | exact no rfl | exact raises_map (values_raises C I hx (hm.mono fun _ => .inl) hk)
    | _ => exact no rfl
  | entries key =>
    rw [hc] at no ⊢
    cases c with
    | of k =>
      cases k <;> first
        | exact no rfl
        | exact raises_map (m := entries E o key) (raises_then (keeps_touched I) raises_touched fun _ w1 _ I1 L1 => raises_named (C.fieldsetEntries I1 (hx.later L1)))
    | _ => exact no rfl
  | entry key r =>
    rw [hc] at no ⊢
    cases c with
    | of k => cases k <;> first | exact no rfl | exact raises_map (entry_raises C I hx)
    | _ => exact no rfl
  | allEntriesRequired b =>
    rw [hc] at no ⊢
    cases c with
    | of k => cases k <;> first | exact no rfl | exact raises_bind raises_assign fun _ _ _ => raises_pure
    | _ => exact no rfl
  | assertAllTouched a only skip =>
    have hm' : ∀ f, a = some (.fn f) → Throws (Inv E) (fun x => P x ∨ Hazard E w o (.assertAllTouched a only skip) x) f := by
      rintro f rfl
      exact El.Throws.mono (P := P) hm fun _ => .inl
    have hk' : ∀ f, a = some (.fn f) → Polite E f := by
      rintro f rfl
      exact hk
    rw [hc] at no ⊢
    cases c with
    | of k =>
      cases k with
      | fieldset =>
        refine raises_bind (assertEntries_raises C I hx hm' hk' fun h => .inr ?_) fun _ _ _ => raises_pure
        rcases h with ⟨ys, y, h1, h2, h3⟩ | ⟨h1, rs, h2, h3⟩
        · exact .untouched hc h1 h2 h3
        · exact .unread hc h1 h2 h3
      | «section» => exact raises_bind (assertAll_raises C I hx hm' fun ⟨i, h⟩ => .inr (.stuckIn hc h rfl)) fun _ _ _ => raises_pure
      | _ => exact no rfl
    | _ => exact no rfl
  | one want key r =>
    rw [hc] at no ⊢
    cases c with
    | of k =>
      cases k with
      | «section» =>
        refine raises_bind (single_raises C I hx (fun k h1 h2 h => ?_) fun ⟨i, h⟩ => .inr (.stuckIn hc h rfl)) fun r w1 _ => by cases r <;> exact raises_pure
        subst h1
        obtain ⟨y, k', a1, a2, a3, a4⟩ := h
        exact .inr (.yieldedIn hc a1 a2 a3 a4 (by simp [YieldsAs, h2]))
      | _ => exact no rfl
    | _ => exact no rfl
  | many want key =>
    rw [hc] at no ⊢
    have go : (hc : (w.at o).cls = .of .section) → RaisesAt (fun x => P x ∨ Hazard E w o (.many want key) x) (Val.objs <$> several E want o key) w := fun hc => by
      refine raises_map (many_raises C I ⟨ho, hc⟩ (fun k h1 h2 h => ?_) fun ⟨i, h⟩ => .inr (.stuckIn hc h rfl))
      subst h1
      obtain ⟨y, k', a1, a2, a3, a4⟩ := h
      exact .inr (.yieldedIn hc a1 a2 a3 a4 (by simp [YieldsAs, h2]))
    cases c with
    | of k =>
      cases want with
      | any => cases k <;> first | exact no rfl | exact go hc
      | kind k' => cases k' <;> cases k <;> first | exact no rfl | exact go hc
    | _ => cases want with
      | any => exact no rfl
      | kind k' => cases k' <;> exact no rfl
  | allElementsRequired b =>
    rw [hc] at no ⊢
    cases c with
    | of k =>
      cases k with
      | «section» =>
        refine raises_bind (m := objectCount) (fun _ h => by cases h) fun n w1 h => ?_
        cases h
        exact raises_bind (requireAll_raises C I hx fun h => .inr (.unyielded hc h)) fun _ _ _ => raises_pure
      | _ => exact no rfl
    | _ => exact no rfl
  | parent =>
    have go : c ≠ .element ∧ c ≠ .of .section → RaisesAt (fun x => P x ∨ Hazard E w o .parent x) (Val.obj <$> parentOf E o) w := fun h =>
      raises_map (parentOf_raises V I ho (by rw [hc]; exact h) fun k h1 h2 h3 h4 h5 => .inr (.foundParent h1 h2 h3 h4 h5))
    rw [hc] at no ⊢
    cases c with
    | of k =>
      cases k with
      | «section» => exact raises_map (sectionParent_raises V I hx fun h => .inr (.documentParent h hc))
      | _ => exact go (by simp)
    | sectionElement => exact no rfl
    | element => exact no rfl
    | entry => exact go (by simp)
    | item => exact go (by simp)

/-- Complaints about what is missing. -/
theorem missingError_raises (C : Calm E) (I : Inv E w) : ∀ x : Missing,
    RaisesAt (fun e => e = .typeError ∧ (E.ctx.heap.at (w.at x.section).ref.idx).type = .section ∧ StuckAbove E.ctx.heap (w.at x.section).ref.idx) (missingError E x : Api α) w
  | .inside p _ _ => by unfold missingError; exact missingError_raises C I p
  | .under s want key => by
    unfold missingError
    refine raises_bind raises_obj fun x w3 hx' => ?_
    rw [obj_run] at hx'
    cases hx'
    have A := C.raise (α := α) (w := w) (v := .missingElement key (w.at s).ref.idx (match want with
      | some (.kind .field) => .missingField
      | some (.kind .fieldset) => .missingFieldset
      | some (.kind .list) => .missingList
      | some (.kind .section) => .missingSection
      | _ => .missingElement)) ⟨idx_lt C.env I, missing_name_ok _ _ (.inl rfl), missing_name_ok _ _ (.inr rfl)⟩
    exact A.mono fun x h => h

theorem runMissing_raises (C : Calm E) (I : Inv E w) (x : Missing) (hx : IsA w x.section (.of .section)) (m : Method) : RaisesAt (MissingHazard E w x m) (runMissing E x m) w := by
  have O := (I.objs _ hx.1).ref
  rw [hx.2] at O
  have go : RaisesAt (MissingHazard E w x m) (missingError E x : Api Val) w := (missingError_raises C I x).mono fun e h => by
    obtain ⟨rfl, h1, h2⟩ := h
    cases hr : (w.at x.section).ref with
    | elem i => rw [hr] at h1 h2; exact .stuck hr h1 h2
    | item i k => rw [hr] at O; exact O.elim
    | entry i k => rw [hr] at O; exact O.elim
  have no : MissingOffers x.want m = false → RaisesAt (MissingHazard E w x m) (noMethod : Api Val) w := fun h => raises_noMethod (.noMethod h)
  generalize hw : x.want = want at no
  unfold runMissing
  rw [hw]
  cases m with
  | comment r f => dsimp only; split <;> first | exact go | exact raises_pure
  | key f => exact go
  | raw => exact raises_pure
  | repr => exact raises_pure
  | many k key =>
    rcases want with _ | _ | k'
    · rcases k with _ | k
      · exact no rfl
      · cases k <;> exact no rfl
    · rcases k with _ | k
      · exact no rfl
      · cases k <;> exact no rfl
    · rcases k with _ | k
      · cases k' <;> first | exact no rfl | exact raises_pure
      · cases k <;> cases k' <;> first | exact no rfl | exact raises_pure
  | _ =>
    rcases want with _ | _ | k' <;> (try cases k') <;> first
      | exact no rfl
      | exact raises_pure
      | (dsimp only; split <;> first | exact go | exact raises_pure)

/-- A document that was loaded. -/
theorem calm_load (ha : analyze input = .ok ctx0) (hl : load input = .ok E.ctx) (hd : E.ctx.heap.length + 1 ≤ E.depth) (nc : NoCircles ctx0.heap) (hr : E.o.reporter ≠ .terminal) : Calm E where
  env := envOk_load hl
  nofail := noFail_load ha hl (Nat.le_of_succ_le hd) (finite_load ha hl (Nat.le_of_succ_le hd) nc)
  value w o I ho hv := by
    obtain ⟨v, _, h⟩ := value_said ha hl hd I ho hv
    exact ⟨v, h⟩
  comment r h c hc := ⟨_, comment_said ha hl h c hc⟩
  blank r c x hc e := by
    refine ⟨fun h => ?_, ?_⟩
    · rw [comment_said ha hl h c hc] at e; cases e
    · rw [readComment_same hc] at e; exact computeComment_fault e
  verdict v h := verdict hl hr h

end Eno.El
