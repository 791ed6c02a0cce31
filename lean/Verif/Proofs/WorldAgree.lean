import Verif.Proofs.ComplaintAgree
import Verif.Proofs.WorldReach
import Verif.Proofs.HushLoad

/-! # Objects: what is done does not depend on the reporter and on the layout -/

namespace Eno.El

open Spec

variable {talk : Prop} {α β γ : Type} {w w' w1 : World} {o y : Nat} {E : Env} {E' : Env}

/-- Two errors that are about the same. -/
def SameCause (E : Env) (E' : Env) (e e' : ErrObj) : Prop := ∃ v : Complaint, v.Proper E.ctx.heap ∧ v.raise E.o E.ctx = .ok e ∧ v.raise E'.o E'.ctx = .ok e'

/-- Two exceptions that are about the same. -/
inductive ExcAgree (E : Env) (E' : Env) : Exc → Exc → Prop where
  | validation {e e'} : SameCause E E' e e' → ExcAgree E E' (.validation e) (.validation e')
  | py {x} : ExcAgree E E' (.py x) (.py x)
  | valueError {s} : ExcAgree E E' (.valueError s) (.valueError s)

/-- Two results. -/
inductive ResAgree (E : Env) (E' : Env) (R : α → β → Prop) : Except Exc α → Except Exc β → Prop where
  | ok {a b} : R a b → ResAgree E E' R (.ok a) (.ok b)
  | error {x y} : ExcAgree E E' x y → ResAgree E E' R (.error x) (.error y)

/-- Two calls do the same and return results that are about the same. -/
structure AgreeAt (E : Env) (E' : Env) (R : α → β → Prop) (m : Api α) (m' : Api β) (w : World) : Prop where
  world : (m' w).2 = (m w).2
  res : ResAgree E E' R (m w).1 (m' w).1

/-- No validation errors are raised. -/
def QuietAt (m : Api α) (w : World) : Prop := ∀ e, (m w).1 ≠ .error (.validation e)

theorem QuietAt.agree {m : Api α} (h : QuietAt m w) : AgreeAt E E' Eq m m w := by
  refine ⟨rfl, ?_⟩
  cases hm : (m w).1 with
  | ok a => exact .ok rfl
  | error x =>
    cases x with
    | validation e => exact absurd hm (h e)
    | py x => exact .error .py
    | valueError s => exact .error .valueError

theorem agree_of {R : α → β → Prop} {m : Api α} {m' : Api β} {x : Except Exc α} {y : Except Exc β} (h : m w = (x, w1)) (h' : m' w = (y, w1)) (r : ResAgree E E' R x y) :
    AgreeAt E E' R m m' w := ⟨by rw [h, h'], by rw [h, h']; exact r⟩

theorem AgreeAt.mono {R S : α → β → Prop} {m : Api α} {m' : Api β} (h : AgreeAt E E' R m m' w) (hs : ∀ a b, R a b → S a b) : AgreeAt E E' S m m' w := by
  refine ⟨h.world, ?_⟩
  have := h.res
  revert this
  generalize (m w).1 = x
  generalize (m' w).1 = y
  intro r
  cases r with
  | ok r => exact .ok (hs _ _ r)
  | error r => exact .error r

theorem agree_bind {δ : Type} {R : α → β → Prop} {S : γ → δ → Prop} {m : Api α} {m' : Api β} {f : α → Api γ} {f' : β → Api δ} (K : Keeps E w (m w).2)
    (h : AgreeAt E E' R m m' w) (hf : ∀ a b w1, m w = (.ok a, w1) → Inv E w1 → Later w w1 → R a b → AgreeAt E E' S (f a) (f' b) w1) : AgreeAt E E' S (m >>= f) (m' >>= f') w := by
  obtain ⟨h1, h2⟩ := h
  cases hm : m w with
  | mk x w1 =>
    cases hm' : m' w with
    | mk y w2 =>
      rw [hm, hm'] at h1 h2
      simp only at h1 h2
      subst h1
      rw [hm] at K
      cases h2 with
      | ok r =>
        obtain ⟨k1, k2⟩ := hf _ _ _ hm K.inv K.later r
        exact ⟨by rw [bind_ok hm, bind_ok hm']; exact k1, by rw [bind_ok hm, bind_ok hm']; exact k2⟩
      | error r => exact agree_of (bind_error hm) (bind_error hm') (.error r)

theorem agree_map {δ : Type} {R : α → β → Prop} {S : γ → δ → Prop} {m : Api α} {m' : Api β} {f : α → γ} {f' : β → δ}
    (h : AgreeAt E E' R m m' w) (hf : ∀ a b, R a b → S (f a) (f' b)) : AgreeAt E E' S (f <$> m) (f' <$> m') w := by
  obtain ⟨h1, h2⟩ := h
  refine ⟨?_, ?_⟩
  · rw [map_run, map_run]
    revert h1 h2
    generalize m w = x
    generalize m' w = y
    rcases x with ⟨x | x, w1⟩ <;> rcases y with ⟨y | y, w2⟩ <;> intro h1 h2 <;> first | exact h1 | cases h2
  · rw [map_run, map_run]
    revert h1 h2
    generalize m w = x
    generalize m' w = y
    rcases x with ⟨x | x, w1⟩ <;> rcases y with ⟨y | y, w2⟩ <;> intro h1 h2 <;> cases h2
    · rename_i r; exact .error r
    · rename_i r; exact .ok (hf _ _ r)

theorem agree_pure {R : α → β → Prop} {a : α} {b : β} (h : R a b) : AgreeAt E E' R (pure a : Api α) (pure b : Api β) w := ⟨rfl, .ok h⟩

theorem agree_py {R : α → β → Prop} {x : PyExc} : AgreeAt E E' R (raise (.py x) : Api α) (raise (.py x) : Api β) w := ⟨rfl, .error .py⟩

/-- Not about what a comment says. -/
def _root_.Eno.Spec.Complaint.Aside : Complaint → Prop
  | .comment .. => False
  | _ => True

/-- What is needed of the documents and of the reporters; comments need to be the same only if the program reads them (`talk`). -/
structure Setting (talk : Prop) (E E' : Env) : Prop where
  env : EnvOk E
  depth : E'.depth = E.depth
  heap : SameHeap E.ctx.input E'.ctx.input (Heap.hush E.ctx.heap) (Heap.hush E'.ctx.heap)
  loud : talk → SameHeap E.ctx.input E'.ctx.input E.ctx.heap E'.ctx.heap
  alike : ∀ v : Complaint, talk ∨ v.Aside → Likely E.ctx.heap v → (∃ e e', v.raise E.o E.ctx = .ok e ∧ v.raise E'.o E'.ctx = .ok e') ∨ ∃ x, v.raise E.o E.ctx = .error x ∧ v.raise E'.o E'.ctx = .error x

theorem Setting.cause (T : Setting talk E E') {v : Complaint} (hv : talk ∨ v.Aside) (h : Likely E.ctx.heap v) :
    (∃ e e', v.raise E.o E.ctx = .ok e ∧ v.raise E'.o E'.ctx = .ok e' ∧ SameCause E E' e e') ∨ ∃ x, v.raise E.o E.ctx = .error x ∧ v.raise E'.o E'.ctx = .error x := by
  rcases T.alike v hv h with ⟨e, e', h1, h2⟩ | h
  · exact .inl ⟨e, e', h1, h2, v, likely_proper T.env.doc h h1, h1, h2⟩
  · exact .inr h

theorem agree_raise (T : Setting talk E E') {R : α → β → Prop} {v : Complaint} (h : Likely E.ctx.heap v) (hv : talk ∨ v.Aside := by exact .inr trivial) :
    AgreeAt E E' R (raiseValidation (v.raise E.o E.ctx) : Api α) (raiseValidation (v.raise E'.o E'.ctx) : Api β) w := by
  rcases T.cause hv h with ⟨e, e', h1, h2, h3⟩ | ⟨x, h1, h2⟩
  · rw [h1, h2]; exact ⟨rfl, .error (.validation h3)⟩
  · rw [h1, h2]; exact ⟨rfl, .error .py⟩

theorem agree_make (T : Setting talk E E') {v : Complaint} (h : Likely E.ctx.heap v) (hv : talk ∨ v.Aside := by exact .inr trivial) :
    AgreeAt E E' (SameCause E E') (makeError (v.raise E.o E.ctx)) (makeError (v.raise E'.o E'.ctx)) w := by
  rcases T.cause hv h with ⟨e, e', h1, h2, h3⟩ | ⟨x, h1, h2⟩
  · rw [h1, h2]; exact ⟨rfl, .ok h3⟩
  · rw [h1, h2]; exact ⟨rfl, .error .py⟩

theorem agree_except {R : α → β → Prop} {m : Api α} {m' : Api β} {f : Str → Api α} {f' : Str → Api β} (K : Keeps E w (m w).2) (h : AgreeAt E E' R m m' w)
    (hf : ∀ s w1, Inv E w1 → Later w w1 → AgreeAt E E' R (f s) (f' s) w1) : AgreeAt E E' R (exceptValueError m f) (exceptValueError m' f') w := by
  obtain ⟨h1, h2⟩ := h
  have key : ∀ s, (m w).1 = .error (.valueError s) → AgreeAt E E' R (f s) (f' s) (m w).2 := fun s _ => hf s _ K.inv K.later
  have e : ∀ {γ : Type} (m : Api γ) f, exceptValueError m f w = match m w with
    | (.error (.valueError s), w) => f s w
    | r => r := fun _ _ => rfl
  constructor
  · rw [e, e]
    revert h1 h2 key
    generalize m w = x
    generalize m' w = y
    rcases x with ⟨x, w1⟩
    rcases y with ⟨y, w2⟩
    intro h1 h2 key
    simp only at h1 h2 key
    subst h1
    cases h2 with
    | ok r => rfl
    | error r =>
      cases r with
      | validation r => rfl
      | py => rfl
      | valueError => exact (key _ rfl).world
  · rw [e, e]
    revert h1 h2 key
    generalize m w = x
    generalize m' w = y
    rcases x with ⟨x, w1⟩
    rcases y with ⟨y, w2⟩
    intro h1 h2 key
    simp only at h1 h2 key
    subst h1
    cases h2 with
    | ok r => exact .ok r
    | error r =>
      cases r with
      | validation r => exact .error (.validation r)
      | py => exact .error .py
      | valueError => exact (key _ rfl).res

/-- Lists of results. -/
inductive Both (R : α → β → Prop) : List α → List β → Prop where
  | nil : Both R [] []
  | cons {a b as bs} : R a b → Both R as bs → Both R (a :: as) (b :: bs)

theorem Both.append {R : α → β → Prop} {as as' : List α} {bs bs' : List β} (h : Both R as bs) (h' : Both R as' bs') : Both R (as ++ as') (bs ++ bs') := by
  induction h with
  | nil => exact h'
  | cons r _ ih => exact .cons r ih

theorem Both.get {R : α → β → Prop} {as : List α} {bs : List β} (h : Both R as bs) (n : Nat) : (∃ a b, as[n]? = some a ∧ bs[n]? = some b ∧ R a b) ∨ (as[n]? = none ∧ bs[n]? = none) := by
  induction h generalizing n with
  | nil => right; simp
  | cons r _ ih =>
    cases n with
    | zero => left; exact ⟨_, _, rfl, rfl, r⟩
    | succ n => simpa using ih n

theorem both_eq {as bs : List α} (h : Both Eq as bs) : as = bs := by
  induction h with
  | nil => rfl
  | cons r _ ih => rw [r, ih]

theorem agree_each {R : α → β → Prop} {f f' : γ → Api _} : ∀ (as : List γ) (w : World), Inv E w → (∀ a ∈ as, ∀ w1, Inv E w1 → Later w w1 → Keeps E w1 (f a w1).2 ∧ AgreeAt E E' R (f a) (f' a) w1) →
    AgreeAt E E' (Both R) (each f as) (each f' as) w
  | [], w, I, _ => agree_pure .nil
  | a :: as, w, I, h => by
    obtain ⟨k, g⟩ := h a (by simp) w I (.refl w)
    unfold each
    refine agree_bind k g fun b b' w1 _ I1 L1 r => ?_
    refine agree_bind (keeps_each as w1 I1 fun c hc w2 I2 L2 => (h c (by simp [hc]) w2 I2 (L1.trans L2)).1)
      (agree_each as w1 I1 fun c hc w2 I2 L2 => h c (by simp [hc]) w2 I2 (L1.trans L2)) fun bs bs' w2 _ _ _ rs => ?_
    exact agree_pure (.cons r rs)

/-! ## What raises no validation errors -/

theorem quiet_pure {a : α} : QuietAt (pure a : Api α) w := fun _ h => by cases h
theorem quiet_py {x : PyExc} : QuietAt (raise (.py x) : Api α) w := fun _ h => by cases h
theorem quiet_obj : QuietAt (obj o) w := fun _ h => by cases h
theorem quiet_assign {f : Obj → Obj} : QuietAt (assign o f) w := fun _ h => by cases h
theorem quiet_touched : QuietAt (setTouched o) w := quiet_assign
theorem quiet_create {xs : List Obj} : QuietAt (create xs) w := fun _ h => by cases h

theorem quiet_bind {m : Api α} {f : α → Api β} (h : QuietAt m w) (hf : ∀ a w1, m w = (.ok a, w1) → QuietAt (f a) w1) : QuietAt (m >>= f) w := by
  intro e
  cases hm : m w with
  | mk x w1 =>
    cases x with
    | ok a => rw [bind_ok hm]; exact hf a w1 hm e
    | error x =>
      rw [bind_error hm]
      intro q
      cases q
      exact h e (by rw [hm])

theorem quiet_map {m : Api α} {f : α → β} (h : QuietAt m w) : QuietAt (f <$> m) w := by
  intro e
  rw [map_run]
  cases hm : m w with
  | mk x w1 =>
    cases x with
    | ok a => intro q; cases q
    | error x =>
      intro q
      cases q
      exact h e (by rw [hm])

theorem quiet_reading {m : Read α} : QuietAt (reading m) w := by
  intro e
  unfold reading
  rcases m w.cache with ⟨x | x, c⟩ <;> intro q <;> cases q

theorem quiet_each {f : α → Api β} : ∀ (as : List α) (w : World), (∀ a ∈ as, ∀ w1, QuietAt (f a) w1) → QuietAt (each f as) w
  | [], _, _ => quiet_pure
  | a :: as, w, h => by
    unfold each
    exact quiet_bind (h a (by simp) w) fun b w1 _ => quiet_bind (quiet_each as w1 fun c hc => h c (by simp [hc])) fun _ _ _ => quiet_pure

theorem quiet_first {f : α → Api (Option β)} : ∀ (as : List α) (w : World), (∀ a ∈ as, ∀ w1, QuietAt (f a) w1) → QuietAt (firstSome f as) w
  | [], _, _ => quiet_pure
  | a :: as, w, h => by
    unfold firstSome
    refine quiet_bind (h a (by simp) w) fun b w1 _ => ?_
    cases b with
    | some b => exact quiet_pure
    | none => exact quiet_first as w1 fun c hc => h c (by simp [hc])

theorem quiet_keyOf : QuietAt (keyOf E o) w := by
  unfold keyOf
  refine quiet_bind quiet_obj fun x w1 _ => ?_
  cases x.ref with
  | item i k => exact quiet_pure
  | elem i => dsimp only; cases E.ctx.heap.key? (.elem i) <;> first | exact quiet_pure | exact quiet_py
  | entry i k => dsimp only; cases E.ctx.heap.key? (.entry i k) <;> first | exact quiet_pure | exact quiet_py

theorem quiet_commentOf : QuietAt (commentOf E o) w := quiet_bind quiet_obj fun _ _ _ => quiet_reading
theorem quiet_valueOf : QuietAt (valueOf E o) w := quiet_bind quiet_obj fun _ _ _ => quiet_reading
theorem quiet_rawOf : QuietAt (rawOf E o) w := quiet_bind quiet_obj fun _ _ _ => quiet_reading

theorem quiet_ownKey : QuietAt (ownKey E o) w := by
  unfold ownKey
  refine quiet_bind quiet_obj fun x w1 _ => ?_
  cases E.ctx.heap.key? x.ref
  · exact quiet_py
  · exact quiet_pure

theorem quiet_printValue : QuietAt (printValue E o) w := quiet_bind quiet_valueOf fun v _ _ => by rcases v with _ | _ | _ <;> exact quiet_pure

theorem quiet_listItems : QuietAt (listItems E o) w := by
  unfold listItems
  refine quiet_bind quiet_obj fun x w1 _ => ?_
  cases x.children with
  | some ys => exact quiet_pure
  | none =>
    dsimp only
    cases instItems E.ctx.heap E.depth x.ref.idx with
    | error e => exact quiet_py
    | ok rs => exact quiet_bind quiet_create fun _ _ _ => quiet_bind quiet_assign fun _ _ _ => quiet_pure

theorem quiet_fieldsetEntries : QuietAt (fieldsetEntries E o) w := by
  unfold fieldsetEntries
  refine quiet_bind quiet_obj fun x w1 _ => ?_
  cases x.children with
  | some ys => exact quiet_pure
  | none =>
    dsimp only
    cases instEntries E.ctx.heap E.depth x.ref.idx [] with
    | error e => exact quiet_py
    | ok rs => exact quiet_bind quiet_create fun _ _ _ => quiet_bind quiet_assign fun _ _ _ => quiet_pure

theorem quiet_sectionElements : QuietAt (sectionElements E o) w := by
  unfold sectionElements
  refine quiet_bind quiet_obj fun x w1 _ => ?_
  cases x.children with
  | some ys => exact quiet_pure
  | none =>
    dsimp only
    refine quiet_bind quiet_create fun _ _ _ => quiet_bind quiet_assign fun _ _ _ => ?_
    cases (madeElements E.ctx.heap E.depth x.ref.idx []).1 with
    | some e => exact quiet_py
    | none => exact quiet_pure

theorem quiet_repr {c : Cls} : QuietAt (repr E c o) w := by
  unfold repr
  refine quiet_bind quiet_obj fun x w1 _ => ?_
  have key : ∀ {g : Str → Api Str}, (∀ k w2, QuietAt (g k) w2) → QuietAt (ownKey E o >>= g) w1 := fun h => quiet_bind quiet_ownKey fun k w2 _ => h k w2
  cases c with
  | of k =>
    cases k with
    | empty => exact key fun _ _ => quiet_pure
    | field => exact key fun _ _ => quiet_bind quiet_printValue fun _ _ _ => quiet_pure
    | fieldset => exact key fun _ _ => quiet_bind quiet_fieldsetEntries fun _ _ _ => quiet_pure
    | list => exact key fun _ _ => quiet_bind quiet_listItems fun _ _ _ => quiet_pure
    | «section» =>
      dsimp only
      split
      · exact quiet_bind quiet_sectionElements fun _ _ _ => quiet_pure
      · exact key fun _ _ => quiet_bind quiet_sectionElements fun _ _ _ => quiet_pure
  | sectionElement => exact key fun _ _ => quiet_pure
  | element => exact key fun _ _ => quiet_pure
  | entry => exact key fun _ _ => quiet_bind quiet_printValue fun _ _ _ => quiet_pure
  | item => exact quiet_bind quiet_printValue fun _ _ _ => quiet_pure

theorem quiet_named {all : Api (List Nat)} {key : Option Str} (h : QuietAt all w) : QuietAt (named all o key) w := by
  rcases key with _ | _ | ⟨c, k⟩
  · exact h
  · exact h
  · exact quiet_bind h fun _ _ _ => quiet_bind quiet_obj fun _ _ _ => quiet_pure

theorem quiet_untouchedIn (ys : List Nat) : QuietAt (untouchedIn ys) w := quiet_first ys w fun _ _ _ => quiet_bind quiet_obj fun _ _ _ => quiet_pure

theorem quiet_untouchedList : QuietAt (untouchedList E o) w := by
  unfold untouchedList
  refine quiet_bind quiet_obj fun x w1 _ => ?_
  split
  · exact quiet_bind quiet_listItems fun ys _ _ => quiet_untouchedIn ys
  · exact quiet_pure

theorem quiet_untouchedFieldset : QuietAt (untouchedFieldset E o) w := by
  unfold untouchedFieldset
  refine quiet_bind quiet_obj fun x w1 _ => ?_
  split
  · exact quiet_bind quiet_fieldsetEntries fun ys _ _ => quiet_untouchedIn ys
  · exact quiet_pure

theorem quiet_untouchedElement {deeper : Nat → Api (Option Ref)} (hd : ∀ y w1, QuietAt (deeper y) w1) : QuietAt (untouchedElement E deeper o) w := by
  unfold untouchedElement
  refine quiet_bind quiet_obj fun x w1 _ => ?_
  split
  · exact quiet_pure
  · refine quiet_bind quiet_obj fun e w2 _ => quiet_bind quiet_obj fun f w3 _ => ?_
    split
    · exact quiet_pure
    · split
      · exact quiet_pure
      · split
        · exact quiet_untouchedFieldset
        · exact quiet_untouchedList
        · exact hd _ _
        · exact quiet_pure

theorem quiet_untouchedSection : ∀ (n o : Nat) (w : World), QuietAt (untouchedSection E n o) w
  | 0, _, _ => quiet_py
  | n + 1, o, w => by
    unfold untouchedSection
    refine quiet_bind quiet_obj fun x w1 _ => ?_
    split
    · exact quiet_bind quiet_sectionElements fun ys _ _ => quiet_first ys _ fun y _ w2 => quiet_untouchedElement fun z w3 => quiet_untouchedSection n z w3
    · exact quiet_pure

theorem quiet_touchList : QuietAt (touchList E o) w :=
  quiet_bind quiet_touched fun _ _ _ => quiet_bind quiet_listItems fun _ _ _ => quiet_bind (quiet_each _ _ fun _ _ _ => quiet_touched) fun _ _ _ => quiet_pure

theorem quiet_touchFieldset : QuietAt (touchFieldset E o) w :=
  quiet_bind quiet_touched fun _ _ _ => quiet_bind quiet_fieldsetEntries fun _ _ _ => quiet_bind (quiet_each _ _ fun _ _ _ => quiet_touched) fun _ _ _ => quiet_pure

theorem quiet_ifMade {made : Option Nat} {f : Nat → Api Unit} (h : ∀ y w1, QuietAt (f y) w1) : QuietAt (ifMade made f) w := by
  cases made with
  | none => exact quiet_pure
  | some y => exact h y w

theorem quiet_touchElement {deeper : Nat → Api Unit} (hd : ∀ y w1, QuietAt (deeper y) w1) : QuietAt (touchElement E deeper o) w := by
  unfold touchElement
  refine quiet_bind quiet_obj fun x w1 _ => ?_
  split
  · exact quiet_pure
  · exact quiet_bind (quiet_ifMade fun _ _ => quiet_touched) fun _ _ _ => quiet_bind (quiet_ifMade fun _ _ => quiet_touched) fun _ _ _ =>
      quiet_bind (quiet_ifMade fun _ _ => quiet_touchFieldset) fun _ _ _ => quiet_bind (quiet_ifMade fun _ _ => quiet_touchList) fun _ _ _ => quiet_ifMade hd

theorem quiet_touchSection : ∀ (n o : Nat) (w : World), QuietAt (touchSection E n o) w
  | 0, _, _ => quiet_py
  | n + 1, o, w => by
    unfold touchSection
    exact quiet_bind quiet_touched fun _ _ _ => quiet_bind quiet_sectionElements fun ys _ _ =>
      quiet_bind (quiet_each ys _ fun y _ w2 => quiet_touchElement fun z w3 => quiet_touchSection n z w3) fun _ _ _ => quiet_pure

theorem quiet_count : QuietAt objectCount w := fun _ h => by cases h

theorem quiet_touch {c : Cls} : QuietAt (touch E c o) w := by
  unfold touch
  split
  · exact quiet_bind quiet_count fun _ _ _ => quiet_touchSection _ _ _
  · exact quiet_touchFieldset
  · exact quiet_touchList
  · exact quiet_bind quiet_count fun _ _ _ => quiet_touchElement fun _ _ => quiet_touchSection _ _ _
  · exact quiet_bind quiet_count fun _ _ _ => quiet_touchElement fun _ _ => quiet_touchSection _ _ _
  · exact quiet_touched

theorem quiet_to {k : Kind} (h : k.fits (E.ctx.heap.type (w.at o).ref) = true) : QuietAt (to E k o) w := by
  intro e
  rw [to_run]
  cases (w.at o).made k with
  | some y => intro q; cases q
  | none =>
    dsimp only
    split
    · intro q; cases q
    · intro q; cases q

theorem quiet_requireAll {b : Bool} : ∀ (n o : Nat) (w : World), QuietAt (requireAll E n b o) w
  | 0, _, _ => quiet_py
  | n + 1, o, w => by
    unfold requireAll
    refine quiet_bind quiet_assign fun _ _ _ => quiet_bind quiet_sectionElements fun ys _ _ => quiet_bind (quiet_each ys _ fun y _ w2 => ?_) fun _ _ _ => quiet_pure
    refine quiet_bind quiet_obj fun c w3 hc => ?_
    rw [obj_run] at hc
    cases hc
    split
    · rename_i ht
      split
      · exact quiet_py
      · exact quiet_bind (quiet_to (by rw [ht]; rfl)) fun z w4 _ => quiet_requireAll n z w4
    · split
      · rename_i ht
        split
        · exact quiet_py
        · exact quiet_bind (quiet_to (by rw [ht]; rfl)) fun z w4 _ => quiet_assign
      · exact quiet_pure

theorem quiet_sectionParent : QuietAt (sectionParent E o) w := by
  unfold sectionParent
  refine quiet_bind quiet_obj fun x w1 _ => ?_
  split
  · exact quiet_pure
  · cases x.parent <;> first | exact quiet_pure | exact quiet_py

theorem quiet_parentOf : QuietAt (parentOf E o) w := by
  unfold parentOf
  refine quiet_bind quiet_obj fun x w1 _ => ?_
  cases x.parent with
  | some p => exact quiet_pure
  | none =>
    dsimp only
    split
    · split
      · exact quiet_bind quiet_create fun _ _ _ => quiet_pure
      · exact quiet_py
    · exact quiet_py

/-! ## What is the same -/

theorem same_instItems {i i' : Str} {h h' : Heap} (H : SameHeap i i' h h') : ∀ (n k : Nat), instItems h' n k = instItems h n k
  | 0, _ => rfl
  | n + 1, k => by
    unfold instItems
    simp only [(H.at k).mirror, (H.at k).extend, same_ownItems H, same_instItems H n]

theorem same_instEntries {i i' : Str} {h h' : Heap} (H : SameHeap i i' h h') : ∀ (n k : Nat) (l : List Ref), instEntries h' n k l = instEntries h n k l
  | 0, _, _ => rfl
  | n + 1, k, l => by
    unfold instEntries
    simp only [(H.at k).mirror, (H.at k).extend, same_ownEntries H, funext (same_key H), same_instEntries H n]

theorem same_madeElements {i i' : Str} {h h' : Heap} (H : SameHeap i i' h h') : ∀ (n k : Nat) (l : List Nat), madeElements h' n k l = madeElements h n k l
  | 0, _, _ => rfl
  | n + 1, k, l => by
    unfold madeElements
    simp only [(H.at _).mirror, (H.at _).extend, (H.at _).elements, (H.at _).key, same_madeElements H n]

theorem hush_instItems {h : Heap} : ∀ (n k : Nat), instItems (Heap.hush h) n k = instItems h n k
  | 0, _ => rfl
  | n + 1, k => by
    unfold instItems
    simp only [hush_mirror, hush_extend, hush_ownItems, hush_instItems n]

theorem hush_instEntries {h : Heap} : ∀ (n k : Nat) (l : List Ref), instEntries (Heap.hush h) n k l = instEntries h n k l
  | 0, _, _ => rfl
  | n + 1, k, l => by
    unfold instEntries
    simp only [hush_mirror, hush_extend, hush_ownEntries, funext (hush_key? (h := h)), hush_instEntries n]

theorem hush_madeElements {h : Heap} : ∀ (n k : Nat) (l : List Nat), madeElements (Heap.hush h) n k l = madeElements h n k l
  | 0, _, _ => rfl
  | n + 1, k, l => by
    unfold madeElements
    simp only [hush_mirror, hush_extend, hush_elements, hush_key, hush_madeElements n]

theorem Setting.refKey (T : Setting talk E E') (r : Ref) : E'.ctx.heap.key? r = E.ctx.heap.key? r := by
  rw [← hush_key? (h := E'.ctx.heap), ← hush_key? (h := E.ctx.heap)]; exact same_key T.heap r

theorem Setting.type (T : Setting talk E E') (r : Ref) : E'.ctx.heap.type r = E.ctx.heap.type r := by
  rw [← hush_typeOf (h := E'.ctx.heap), ← hush_typeOf (h := E.ctx.heap)]; exact same_type T.heap r

theorem Setting.elemKey (T : Setting talk E E') (k : Nat) : (E'.ctx.heap.at k).key = (E.ctx.heap.at k).key := by
  rw [← hush_key (h := E'.ctx.heap), ← hush_key (h := E.ctx.heap)]; exact (T.heap.at k).key

theorem Setting.elemParent (T : Setting talk E E') (k : Nat) : (E'.ctx.heap.at k).parent = (E.ctx.heap.at k).parent := by
  rw [← hush_parent (h := E'.ctx.heap), ← hush_parent (h := E.ctx.heap)]; exact (T.heap.at k).parent

theorem Setting.readValue (T : Setting talk E E') (n : Nat) (r : Ref) : Eno.readValue E'.ctx.input E'.ctx.heap n r = Eno.readValue E.ctx.input E.ctx.heap n r := by
  rw [← hush_readValue (h := E'.ctx.heap), ← hush_readValue (h := E.ctx.heap)]; exact same_readValue T.heap n r

theorem Setting.instItems (T : Setting talk E E') (n k : Nat) : Eno.instItems E'.ctx.heap n k = Eno.instItems E.ctx.heap n k := by
  rw [← hush_instItems (h := E'.ctx.heap), ← hush_instItems (h := E.ctx.heap)]; exact same_instItems T.heap n k

theorem Setting.instEntries (T : Setting talk E E') (n k : Nat) (l : List Ref) : Eno.instEntries E'.ctx.heap n k l = Eno.instEntries E.ctx.heap n k l := by
  rw [← hush_instEntries (h := E'.ctx.heap), ← hush_instEntries (h := E.ctx.heap)]; exact same_instEntries T.heap n k l

theorem Setting.madeElements (T : Setting talk E E') (n k : Nat) (l : List Nat) : El.madeElements E'.ctx.heap n k l = El.madeElements E.ctx.heap n k l := by
  rw [← hush_madeElements (h := E'.ctx.heap), ← hush_madeElements (h := E.ctx.heap)]; exact same_madeElements T.heap n k l

theorem Setting.keyOf (T : Setting talk E E') : keyOf E' = keyOf E := by
  funext o
  unfold El.keyOf
  simp only [T.refKey, T.elemKey]

theorem Setting.commentOf (T : Setting talk E E') (ht : talk) : commentOf E' = commentOf E := by
  funext o
  unfold El.commentOf
  simp only [same_readComment (T.loud ht)]

theorem Setting.valueOf (T : Setting talk E E') : valueOf E' = valueOf E := by
  funext o
  unfold El.valueOf
  simp only [T.readValue, T.depth]

theorem Setting.rawOf (T : Setting talk E E') (ht : talk) : rawOf E' = rawOf E := by
  funext o
  unfold El.rawOf
  simp only [same_readRaw (T.loud ht), T.depth]

theorem Setting.ownKey (T : Setting talk E E') : ownKey E' = ownKey E := by
  funext o
  unfold El.ownKey
  simp only [T.refKey]

theorem Setting.printValue (T : Setting talk E E') : printValue E' = printValue E := by
  funext o
  unfold El.printValue
  simp only [T.valueOf]

theorem Setting.listItems (T : Setting talk E E') : listItems E' = listItems E := by
  funext o
  unfold El.listItems
  simp only [T.instItems, T.depth]

theorem Setting.fieldsetEntries (T : Setting talk E E') : fieldsetEntries E' = fieldsetEntries E := by
  funext o
  unfold El.fieldsetEntries
  simp only [T.instEntries, T.refKey, T.depth]

theorem Setting.sectionElements (T : Setting talk E E') : sectionElements E' = sectionElements E := by
  funext o
  unfold El.sectionElements
  simp only [T.madeElements, T.elemKey, T.depth]

theorem Setting.repr (T : Setting talk E E') : repr E' = repr E := by
  funext c o
  unfold El.repr
  simp only [T.type, T.ownKey, T.printValue, T.fieldsetEntries, T.listItems, T.sectionElements]

theorem Setting.yields (T : Setting talk E E') : yields E' = yields E := by
  funext k o
  unfold El.yields
  simp only [T.type]

theorem Setting.items (T : Setting talk E E') : items E' = items E := by
  funext o
  unfold El.items
  simp only [T.listItems]

theorem Setting.itemCount (T : Setting talk E E') : itemCount E' = itemCount E := by
  funext o
  unfold El.itemCount
  simp only [T.listItems]

theorem Setting.entries (T : Setting talk E E') : entries E' = entries E := by
  funext o k
  unfold El.entries
  simp only [T.fieldsetEntries]

theorem Setting.untouchedList (T : Setting talk E E') : untouchedList E' = untouchedList E := by
  funext o
  unfold El.untouchedList
  simp only [T.listItems]

theorem Setting.untouchedFieldset (T : Setting talk E E') : untouchedFieldset E' = untouchedFieldset E := by
  funext o
  unfold El.untouchedFieldset
  simp only [T.fieldsetEntries]

theorem Setting.untouchedElement (T : Setting talk E E') : untouchedElement E' = untouchedElement E := by
  funext f o
  unfold El.untouchedElement
  simp only [T.untouchedList, T.untouchedFieldset]

theorem Setting.untouchedSection (T : Setting talk E E') : ∀ n, untouchedSection E' n = untouchedSection E n
  | 0 => rfl
  | n + 1 => by
    funext o
    unfold El.untouchedSection
    simp only [T.sectionElements, T.untouchedElement, T.untouchedSection n]

theorem Setting.touchList (T : Setting talk E E') : touchList E' = touchList E := by
  funext o
  unfold El.touchList
  simp only [T.listItems]

theorem Setting.touchFieldset (T : Setting talk E E') : touchFieldset E' = touchFieldset E := by
  funext o
  unfold El.touchFieldset
  simp only [T.fieldsetEntries]

theorem Setting.touchElement (T : Setting talk E E') : touchElement E' = touchElement E := by
  funext f o
  unfold El.touchElement
  simp only [T.touchList, T.touchFieldset]

theorem Setting.touchSection (T : Setting talk E E') : ∀ n, touchSection E' n = touchSection E n
  | 0 => rfl
  | n + 1 => by
    funext o
    unfold El.touchSection
    simp only [T.sectionElements, T.touchElement, T.touchSection n]

theorem Setting.touch (T : Setting talk E E') : touch E' = touch E := by
  funext c o
  unfold El.touch
  simp only [T.touchList, T.touchFieldset, T.touchElement, T.touchSection]

theorem Setting.to (T : Setting talk E E') {k : Kind} (h : k.fits (E.ctx.heap.type (w.at o).ref) = true) : to E' k o w = to E k o w := by
  rw [to_run, to_run, T.type, if_pos h, if_pos h]

theorem Setting.requireAll (T : Setting talk E E') {b : Bool} : ∀ n, requireAll E' n b = requireAll E n b
  | 0 => rfl
  | n + 1 => by
    funext o
    unfold El.requireAll
    rw [T.requireAll n, T.sectionElements]
    congr 1
    funext _
    have : ∀ {f f' : Nat → Api Unit} {xs : Api (List Nat)}, f = f' → (do let _ ← each f (← xs) : Api Unit) = (do let _ ← each f' (← xs)) := by rintro f _ xs rfl; rfl
    refine this ?_
    funext y w
    rw [bind_ok obj_run, bind_ok obj_run, T.type]
    split
    · rename_i ht
      split
      · rfl
      · rw [bind_run, bind_run, T.to (by rw [ht]; rfl)]
    · split
      · rename_i ht
        split
        · rfl
        · rw [bind_run, bind_run, T.to (by rw [ht]; rfl)]
      · rfl

theorem Setting.sectionParent (T : Setting talk E E') : sectionParent E' = sectionParent E := by
  funext o
  unfold El.sectionParent
  simp only [T.type]

theorem Setting.parentOf (T : Setting talk E E') : parentOf E' = parentOf E := by
  funext o
  unfold El.parentOf
  simp only [T.elemParent]

end Eno.El
