import Verif.Proofs.WorldMarks

/-! # Objects: `all_elements_required` -/

namespace Eno.El

variable {α β : Type} {w w' w'' w1 : World} {o y z p s i : Nat} {E : Env} {input : Str} {xs : List Nat} {b : Bool}

/-- What setting the flags does: `S` are the objects whose flag is set, `C` is what it needs. -/
structure Requires (E : Env) (b : Bool) (w : World) (p : Except Exc α × World) (S : World → Nat → Prop) (C : World → Prop) : Prop where
  keeps : Keeps E w p.2
  frame : Frame w p.2
  touched : ∀ q, (p.2.at q).touched = (w.at q).touched
  marks : (∃ a, p.1 = .ok a) → ∀ q, q < w.objs.length → (S w q → (p.2.at q).required = b) ∧ (¬ S w q → (p.2.at q).required = (w.at q).required)
  good : NoFail E → C w → ∃ a, p.1 = .ok a
  bad : NoFail E → ¬ C w → p.1 = .error (.py .attributeError)

theorem requires_self (I : Inv E w) (ho : o < w.objs.length) : Requires E b w (assign o (fun x => { x with required := b }) w) (fun _ q => q = o) (fun _ => True) where
  keeps := keeps_required I
  frame := frame_required
  touched q := by
    by_cases hq : q < w.objs.length
    · by_cases e : q = o
      · subst e; rw [at_assign_self hq]
      · rw [at_assign_ne e]
    · rw [at_out (w := w) (by omega), at_out (by rw [len_assign]; omega)]
  marks _ q hq := by
    constructor
    · rintro rfl
      rw [at_assign_self hq]
    · intro e
      rw [at_assign_ne e]
  good _ _ := ⟨_, rfl⟩
  bad _ h := absurd trivial h

theorem requires_none (I : Inv E w) {a : α} : Requires E b w (.ok a, w) (fun _ _ => False) (fun _ => True) :=
  ⟨.refl I, .refl w, fun _ => rfl, fun _ _ _ => ⟨False.elim, fun _ => rfl⟩, fun _ _ => ⟨_, rfl⟩, fun _ h => absurd trivial h⟩

theorem requires_unfolded {p : Except Exc α × World} (K : Keeps E w p.2) (U : Unfolded w p.2) (hw : NoFail E → ∃ a, p.1 = .ok a) :
    Requires E b w p (fun _ _ => False) fun _ => True where
  keeps := K
  frame := U.frame
  touched q := by
    by_cases hq : q < w.objs.length
    · rw [(U.obj q hq).1]
    · rw [(U.fresh q (by omega)).1, at_out (by omega)]; rfl
  marks _ q hq := ⟨False.elim, fun _ => (U.obj q hq).2.2.2⟩
  good h _ := hw h
  bad _ h := absurd trivial h

theorem requires_bind {m : Api α} {f : α → Api β} {S S' : World → Nat → Prop} {C C' : World → Prop} (T : Requires E b w (m w) S C)
    (hf : ∀ a w1, m w = (.ok a, w1) → Requires E b w1 (f a w1) S' C')
    (hS : ∀ a w1, m w = (.ok a, w1) → Keeps E w w1 → Frame w w1 → (C' w1 ↔ C' w) ∧ ∀ q, q < w.objs.length → (S' w1 q ↔ S' w q)) :
    Requires E b w ((m >>= f) w) (fun w' q => S w' q ∨ S' w' q) (fun w' => C w' ∧ C' w') := by
  rw [bind_run]
  cases hm : m w with
  | mk r w1 =>
    rw [hm] at T
    cases r with
    | error e =>
      refine ⟨T.keeps, T.frame, T.touched, ?_, fun N h => ?_, fun N h => ?_⟩
      · rintro ⟨_, h⟩; cases h
      · obtain ⟨_, h⟩ := T.good N h.1; cases h
      · by_cases c : C w
        · obtain ⟨_, h⟩ := T.good N c; cases h
        · have := T.bad N c
          cases this
          rfl
    | ok a =>
      have R := hf a w1 hm
      dsimp only
      generalize f a w1 = p at R ⊢
      obtain ⟨c1, c2⟩ := hS a w1 hm T.keeps T.frame
      refine ⟨T.keeps.trans R.keeps, T.frame.trans R.frame, fun q => (R.touched q).trans (T.touched q), fun h q hq => ?_, fun N h => R.good N (c1.2 h.2), fun N h => ?_⟩
      · obtain ⟨h1, h2⟩ := R.marks h q (Nat.lt_of_lt_of_le hq T.keeps.later.len)
        obtain ⟨h3, h4⟩ := T.marks ⟨_, rfl⟩ q hq
        dsimp only at h3 h4
        rw [c2 q hq] at h1 h2
        constructor
        · intro hs
          by_cases e : S' w q
          · exact h1 e
          · rw [h2 e]
            exact h3 (hs.resolve_right e)
        · intro hs
          rw [h2 fun e => hs (.inr e), h4 fun e => hs (.inl e)]
      · by_cases c : C w
        · exact R.bad N fun c' => h ⟨c, c1.1 c'⟩
        · have := T.bad N c
          cases this

theorem Requires.change {p : Except Exc α × World} {S S' : World → Nat → Prop} {C C' : World → Prop} (T : Requires E b w p S C)
    (h : (∃ a, p.1 = .ok a) → ∀ q, q < w.objs.length → (S w q ↔ S' w q)) (hc : NoFail E → (C w ↔ C' w)) : Requires E b w p S' C' where
  keeps := T.keeps
  frame := T.frame
  touched := T.touched
  marks ok q hq := by
    have := T.marks ok q hq
    rw [h ok q hq] at this
    exact this
  good N c := T.good N ((hc N).2 c)
  bad N c := T.bad N fun c' => c ((hc N).1 c')

theorem requires_each {f : α → Api β} {S : α → World → Nat → Prop} {C : α → World → Prop} : ∀ (as : List α) (w : World), Inv E w →
    (∀ a ∈ as, ∀ w1, Keeps E w w1 → Frame w w1 → Requires E b w1 (f a w1) (S a) (C a)) →
    (∀ a ∈ as, ∀ w1 w2, Keeps E w w1 → Frame w w1 → Keeps E w1 w2 → Frame w1 w2 → (C a w2 ↔ C a w1) ∧ ∀ q, q < w1.objs.length → (S a w2 q ↔ S a w1 q)) →
    Requires E b w (each f as w) (fun w' q => ∃ a ∈ as, S a w' q) (fun w' => ∀ a ∈ as, C a w')
  | [], w, I, _, _ => (requires_none I).change (fun _ q _ => by simp) (fun _ => by simp)
  | a :: as, w, I, hf, hS => by
    unfold each
    have T := hf a (by simp) w (.refl I) (.refl w)
    have R := requires_bind (f := fun x => (do let xs ← each f as; pure (x :: xs) : Api (List β))) T (S' := fun w' q => ∃ a ∈ as, S a w' q) (C' := fun w' => ∀ a ∈ as, C a w')
      (fun x w1 h => ?_) (fun x w1 h K F => ?_)
    · refine R.change (fun _ q _ => by simp) (fun _ => by simp)
    · have K1 : Keeps E w w1 := by have := T.keeps; rw [h] at this; exact this
      have F1 : Frame w w1 := by have := T.frame; rw [h] at this; exact this
      have R := requires_each as w1 K1.inv (fun x hx w2 K F => hf x (by simp [hx]) w2 (K1.trans K) (F1.trans F))
        (fun x hx w2 w3 K F => hS x (by simp [hx]) w2 w3 (K1.trans K) (F1.trans F))
      have Q := requires_bind (m := each f as) (f := fun xs => (pure (x :: xs) : Api (List β))) R (S' := fun _ _ => False) (C' := fun _ => True)
        (fun xs w2 h2 => requires_none (by have := R.keeps; rw [h2] at this; exact this.inv)) (fun _ _ _ _ _ => ⟨Iff.rfl, fun _ _ => Iff.rfl⟩)
      exact Q.change (fun _ q _ => by simp) (fun _ => by simp)
    · have := fun x (hx : x ∈ as) => hS x (by simp [hx]) w w1 (.refl I) (.refl w) K F
      constructor
      · exact ⟨fun g x hx => (this x hx).1.1 (g x hx), fun g x hx => (this x hx).1.2 (g x hx)⟩
      · exact fun q hq => ⟨fun ⟨x, hx, g⟩ => ⟨x, hx, ((this x hx).2 q hq).1 g⟩, fun ⟨x, hx, g⟩ => ⟨x, hx, ((this x hx).2 q hq).2 g⟩⟩

/-! ## The flags -/

theorem required_frame (I : Inv E w) (F : Frame w w') (ho : o < w.objs.length) (hp : p < w.objs.length) : Required E w' o p ↔ Required E w o p := by
  unfold Required
  rw [within_frame I F ho, (F.later.obj p hp).ref]

theorem yielded_none (I : Inv E w) (ho : o < w.objs.length) (h : (w.at o).made = fun _ => none) : (w.at o).yielded = none := by
  cases hy : (w.at o).yielded with
  | none => rfl
  | some k =>
    have := ((I.objs o ho).yielded k).1 hy
    rw [h] at this
    cases this

/-- Which objects there are for the elements of a section that are yielded. -/
theorem objectFor_frame (I : Inv E w) (I' : Inv E w') (F : Frame w w') (hs : s < w.objs.length) :
    ObjectFor w' s i y ∧ (w'.at y).yielded ≠ none ↔ ObjectFor w s i y ∧ (w.at y).yielded ≠ none := by
  have L := F.later.obj s hs
  constructor
  · rintro ⟨O, hy⟩
    obtain ⟨ys, hys, hm⟩ := O.listed
    cases hq : (w.at s).children with
    | none =>
      have := F.kids s hs hq ys hys y hm
      exact absurd (yielded_none I' O.isA.1 (F.fresh y this)) hy
    | some zs =>
      have := (L.children zs hq).1
      rw [hys] at this; cases this
      have K := ((I.objs s hs).kids _ hq).members y hm
      have Ly := F.later.obj y K.2.1
      refine ⟨⟨⟨ys, hq, hm⟩, ⟨K.2.1, ?_⟩, ?_, ?_⟩, ?_⟩
      · rw [← Ly.cls]; exact O.isA.2
      · rw [← Ly.ref]; exact O.ref
      · rw [← Ly.parent]; exact O.parent
      · rw [← (F.obj y K.2.1).2]; exact hy
  · rintro ⟨O, hy⟩
    obtain ⟨ys, hys, hm⟩ := O.listed
    have Ly := F.later.obj y O.isA.1
    refine ⟨⟨⟨ys, (L.children ys hys).1, hm⟩, O.isA.later F.later, ?_, ?_⟩, ?_⟩
    · rw [Ly.ref]; exact O.ref
    · rw [Ly.parent]; exact O.parent
    · rw [(F.obj y O.isA.1).2]; exact hy

theorem objectFor_later (L : Later w w') (hs : s < w.objs.length) (O : ObjectFor w s i y) : ObjectFor w' s i y := by
  obtain ⟨ys, hys, hm⟩ := O.listed
  have Ly := L.obj y O.isA.1
  exact ⟨⟨ys, ((L.obj s hs).children ys hys).1, hm⟩, O.isA.later L, by rw [Ly.ref]; exact O.ref, by rw [Ly.parent]; exact O.parent⟩

theorem allYielded_frame (I : Inv E w) (I' : Inv E w') (F : Frame w w') (ho : o < w.objs.length) : AllYielded E w' o ↔ AllYielded E w o := by
  constructor
  · intro h s xs hs hc hx i hi hg
    have hsl := (hs.known I ho).2
    have L := F.later.obj s hsl
    have hx' : Elements E (w'.at s) xs := by unfold Elements; rw [L.ref]; exact hx
    obtain ⟨⟨y, O⟩, h2⟩ := h s xs ((within_frame I F ho).2 hs) (by rw [L.cls]; exact hc) hx' i hi hg
    exact ⟨⟨y, ((objectFor_frame I I' F hsl).1 ⟨O, h2 y O⟩).1⟩, fun z Oz =>
      ((objectFor_frame I I' F hsl).1 ⟨objectFor_later F.later hsl Oz, h2 z (objectFor_later F.later hsl Oz)⟩).2⟩
  · intro h s xs hs hc hx i hi hg
    have hs' := (within_frame I F ho).1 hs
    have hsl := (hs'.known I ho).2
    have L := F.later.obj s hsl
    have hx' : Elements E (w.at s) xs := by unfold Elements at hx ⊢; rw [L.ref] at hx; exact hx
    obtain ⟨⟨y, O⟩, h2⟩ := h s xs hs' (by rw [← L.cls]; exact hc) hx' i hi hg
    refine ⟨⟨y, objectFor_later F.later hsl O⟩, fun z Oz => ?_⟩
    obtain ⟨ys, hys, hm⟩ := O.listed
    obtain ⟨zs, hzs, hm'⟩ := Oz.listed
    rw [(L.children ys hys).1] at hzs; cases hzs
    have K := ((I.objs s hsl).kids _ hys).members z hm'
    have Lz := F.later.obj z K.2.1
    have Oz' : ObjectFor w s i z := ⟨⟨ys, hys, hm'⟩, ⟨K.2.1, by rw [← Lz.cls]; exact Oz.isA.2⟩, by rw [← Lz.ref]; exact Oz.ref, by rw [← Lz.parent]; exact Oz.parent⟩
    rw [(F.obj z K.2.1).2]
    exact h2 z Oz'

/-- The element is a section or fieldset, and something was made of it that has everything. -/
def ElementYielded (E : Env) (w : World) (y : Nat) : Prop :=
  IsGroup (E.ctx.heap.type (w.at y).ref) → (w.at y).yielded ≠ none ∧ ∀ k z, (w.at y).made k = some z → AllYielded E w z

def ElementRequired (E : Env) (w : World) (y q : Nat) : Prop := IsGroup (E.ctx.heap.type (w.at y).ref) ∧ ∃ k z, (w.at y).made k = some z ∧ Required E w z q

theorem elementYielded_frame (I : Inv E w) (I' : Inv E w') (F : Frame w w') (ho : o < w.objs.length) : ElementYielded E w' o ↔ ElementYielded E w o := by
  unfold ElementYielded
  rw [(F.later.obj o ho).ref, (F.obj o ho).1, (F.obj o ho).2]
  refine imp_congr_right fun _ => and_congr_right fun _ => ?_
  constructor
  · intro h k z hz; exact (allYielded_frame I I' F ((I.objs o ho).made k z hz).2.known).1 (h k z hz)
  · intro h k z hz; exact (allYielded_frame I I' F ((I.objs o ho).made k z hz).2.known).2 (h k z hz)

theorem elementRequired_frame (I : Inv E w) (F : Frame w w') (ho : o < w.objs.length) (hp : p < w.objs.length) : ElementRequired E w' o p ↔ ElementRequired E w o p := by
  unfold ElementRequired
  rw [(F.later.obj o ho).ref, (F.obj o ho).1]
  refine and_congr_right fun _ => ?_
  constructor
  · rintro ⟨k, z, hz, h⟩; exact ⟨k, z, hz, (required_frame I F ((I.objs o ho).made k z hz).2.known hp).1 h⟩
  · rintro ⟨k, z, hz, h⟩; exact ⟨k, z, hz, (required_frame I F ((I.objs o ho).made k z hz).2.known hp).2 h⟩

/-- Only sections and fieldsets are made of sections and fieldsets. -/
theorem made_group (I : Inv E w) (ho : o < w.objs.length) {k : Kind} (h : (w.at o).made k = some y) (hc : (w.at o).cls = .sectionElement) :
    (IsGroup (E.ctx.heap.type (w.at o).ref) → k = .section ∧ E.ctx.heap.type (w.at o).ref = .section ∨ k = .fieldset ∧ E.ctx.heap.type (w.at o).ref = .fieldset) ∧
    (k = .section → E.ctx.heap.type (w.at o).ref = .section) := by
  have M := ((I.objs o ho).made k y h).2
  have R := (I.objs y M.known).ref
  have Q := (I.objs o ho).ref
  rw [M.cls, M.ref] at R
  rw [hc] at Q
  revert R Q
  cases (w.at o).ref with
  | item _ _ => intro _ Q; exact Q.elim
  | entry _ _ => intro _ Q; exact Q.elim
  | elem i =>
    intro R Q
    have F := fits_iff.2 (R.2.2 Q.1)
    change (IsGroup (E.ctx.heap.at i).type → k = .section ∧ (E.ctx.heap.at i).type = .section ∨ k = .fieldset ∧ (E.ctx.heap.at i).type = .fieldset) ∧ (k = .section → (E.ctx.heap.at i).type = .section)
    generalize (E.ctx.heap.at i).type = t at F
    unfold IsGroup
    cases F <;> simp

theorem allYielded_other (hc : (w.at o).cls ≠ .of .section) : AllYielded E w o := by
  intro s xs hs h
  rw [within_other hc] at hs
  subst hs
  exact absurd h hc

theorem allYielded_section (I : Inv E w) {ys : List Nat} (hx : IsA w o (.of .section)) (hch : (w.at o).children = some ys) (hel : Elements E (w.at o) xs)
    : AllYielded E w o ↔ ∀ y ∈ ys, ElementYielded E w y := by
  have KO := (I.objs o hx.1).kids ys hch
  have refs : ys.map (fun y => (w.at y).ref) = xs.map .elem := by
    have := KO.refs
    unfold ChildRefs at this
    rw [hx.2] at this
    dsimp only at this
    rw [this, hel.made]
  have mem := fun y hy => KO.members y hy
  constructor
  · intro h y hy hg
    have hm : (w.at y).ref ∈ xs.map Ref.elem := by rw [← refs]; exact List.mem_map.2 ⟨y, hy, rfl⟩
    obtain ⟨i, hi, hr⟩ := List.mem_map.1 hm
    constructor
    · rw [← hr] at hg
      obtain ⟨h1, h2, h3, h4⟩ := mem y hy
      rw [hx.2] at h3
      exact (h o xs .self hx.2 hel i hi hg).2 y ⟨⟨ys, hch, hy⟩, ⟨h2, h3⟩, hr.symm, h4⟩
    · intro k z hz s xs' hs
      exact h s xs' ((within_section hx.2 hch).2 (.inr ⟨y, hy, k, z, hz, hs⟩))
  · intro h s xs' hs hc hel' i hi hg
    rcases (within_section hx.2 hch).1 hs with rfl | ⟨y, hy, k, x, hm, hsx⟩
    · have : xs' = xs := by unfold Elements at hel hel'; rw [hel] at hel'; cases hel'; rfl
      subst this
      have hm : Ref.elem i ∈ ys.map (fun y => (w.at y).ref) := by rw [refs]; exact List.mem_map.2 ⟨i, hi, rfl⟩
      obtain ⟨y, hy, hr⟩ := List.mem_map.1 hm
      obtain ⟨h1, h2, h3, h4⟩ := mem y hy
      rw [hx.2] at h3
      refine ⟨⟨y, ⟨⟨ys, hch, hy⟩, ⟨h2, h3⟩, hr, h4⟩⟩, fun z O => ?_⟩
      obtain ⟨zs, hzs, hm'⟩ := O.listed
      rw [hch] at hzs; cases hzs
      exact (h z hm' (by rw [O.ref]; exact hg)).1
    · obtain ⟨h1, h2, h3, h4⟩ := mem y hy
      rw [hx.2] at h3
      by_cases hk : k = .section
      · have t := (made_group I h2 hm h3).2 hk
        exact (h y hy (.inl t)).2 k x hm s xs' hsx hc hel' i hi hg
      · have M := ((I.objs y h2).made k x hm).2
        have := allYielded_other (E := E) (w := w) (o := x) (by rw [M.cls]; simpa using hk)
        exact this s xs' hsx hc hel' i hi hg

theorem required_section {ys : List Nat} (I : Inv E w) (hx : IsA w o (.of .section)) (hch : (w.at o).children = some ys) :
    Required E w o p ↔ p = o ∨ ∃ y ∈ ys, ElementRequired E w y p := by
  have KO := (I.objs o hx.1).kids ys hch
  unfold Required ElementRequired
  rw [within_section hx.2 hch]
  constructor
  · rintro ⟨rfl | ⟨y, hy, k, x, hm, hw⟩, h⟩
    · exact .inl rfl
    · rcases h with h | h
      · exact .inl h
      · refine .inr ⟨y, hy, ?_, k, x, hm, hw, .inr h⟩
        obtain ⟨h1, h2, h3, h4⟩ := KO.members y hy
        rw [hx.2] at h3
        have M := ((I.objs y h2).made k x hm).2
        by_cases hk : k = .section
        · exact .inl ((made_group I h2 hm h3).2 hk)
        · rw [within_other (by rw [M.cls]; simpa using hk)] at hw
          subst hw
          rw [M.ref] at h
          exact h
  · rintro (rfl | ⟨y, hy, hg, k, x, hm, hw, h⟩)
    · exact ⟨.inl rfl, .inl rfl⟩
    · refine ⟨.inr ⟨y, hy, k, x, hm, hw⟩, .inr ?_⟩
      rcases h with rfl | h
      · have M := ((I.objs y (KO.members y hy).2.1).made k p hm).2
        rw [M.ref]
        exact hg
      · exact h

/-- One element. -/
def requireElement (E : Env) (deeper : Nat → Api Unit) (b : Bool) (y : Nat) : Api Unit := do
  let c ← obj y
  if E.ctx.heap.type c.ref = .section then
    if c.yielded.isNone then raise (.py .attributeError)
    else do deeper (← to E .section y)
  else if E.ctx.heap.type c.ref = .fieldset then
    if c.yielded.isNone then raise (.py .attributeError)
    else do assign (← to E .fieldset y) fun x => { x with required := b }
  else pure ()

theorem requireAll_succ {n : Nat} : requireAll E (n + 1) b o = (do
    assign o fun x => { x with required := b }
    let _ ← each (requireElement E (requireAll E n b) b) (← sectionElements E o) : Api Unit) := rfl

theorem requires_element {deeper : Nat → Api Unit} (I : Inv E w) (hx : IsA w o .sectionElement)
    (hd : ∀ y, (w.at o).made .section = some y → Requires E b w (deeper y w) (fun w' q => Required E w' y q) (fun w' => AllYielded E w' y)) :
    Requires E b w (requireElement E deeper b o w) (fun w' q => ElementRequired E w' o q) (fun w' => ElementYielded E w' o) := by
  have O := I.objs o hx.1
  unfold requireElement
  rw [bind_ok obj_run]
  have made_of : (w.at o).yielded ≠ none → ∃ k y, (w.at o).made k = some y := by
    intro h
    cases hy : (w.at o).yielded with
    | none => exact absurd hy h
    | some k =>
      obtain ⟨y, hk⟩ := Option.isSome_iff_exists.1 ((O.yielded k).1 hy)
      exact ⟨k, y, hk⟩
  have lift : ∀ {k y} {p : Except Exc Unit × World}, IsGroup (E.ctx.heap.type (w.at o).ref) → (w.at o).made k = some y →
      Requires E b w p (fun w' q => Required E w' y q) (fun w' => AllYielded E w' y) →
      Requires E b w p (fun w' q => ElementRequired E w' o q) (fun w' => ElementYielded E w' o) := by
    intro k y p hg hk T
    refine T.change (fun _ q _ => ?_) (fun _ => ?_)
    · constructor
      · intro h; exact ⟨hg, k, y, hk, h⟩
      · rintro ⟨_, k', y', hk', h⟩
        rw [(made_unique I hx.1 hk hk').2]
        exact h
    · constructor
      · intro h _
        refine ⟨?_, fun k' y' hk' => ?_⟩
        · rw [(O.yielded k).2 (by rw [hk]; rfl)]; simp
        · rw [← (made_unique I hx.1 hk hk').2]; exact h
      · intro h; exact (h hg).2 k y hk
  have fail : IsGroup (E.ctx.heap.type (w.at o).ref) → (w.at o).yielded = none →
      Requires E b w ((raise (.py .attributeError) : Api Unit) w) (fun w' q => ElementRequired E w' o q) (fun w' => ElementYielded E w' o) := by
    intro hg hy
    refine ⟨.refl I, .refl w, fun _ => rfl, ?_, fun _ h => absurd hy (h hg).1, fun _ _ => rfl⟩
    rintro ⟨_, h⟩; cases h
  split
  · rename_i t
    split
    · rename_i hy
      exact fail (.inl t) (by simpa using hy)
    · rename_i hy
      obtain ⟨k, y, hk⟩ := made_of (by simpa using hy)
      rcases (made_group I hx.1 hk hx.2).1 (.inl t) with ⟨rfl, _⟩ | ⟨_, t'⟩
      · refine lift (.inl t) hk ?_
        rw [bind_ok (a := y) (w' := w) (by rw [to_run, hk])]
        exact hd y hk
      · rw [t] at t'; cases t'
  · rename_i nt
    split
    · rename_i t
      split
      · rename_i hy
        exact fail (.inr t) (by simpa using hy)
      · rename_i hy
        obtain ⟨k, y, hk⟩ := made_of (by simpa using hy)
        rcases (made_group I hx.1 hk hx.2).1 (.inr t) with ⟨_, t'⟩ | ⟨rfl, _⟩
        · rw [t] at t'; cases t'
        · refine lift (.inr t) hk ?_
          rw [bind_ok (a := y) (w' := w) (by rw [to_run, hk])]
          have M := (O.made _ y hk).2
          have hns : (w.at y).cls ≠ .of .section := by rw [M.cls]; simp
          refine (requires_self I M.known).change (fun _ q _ => ?_) (fun _ => ?_)
          · unfold Required
            rw [within_other hns]
            exact ⟨fun h => ⟨h, .inl h⟩, fun h => h.1⟩
          · exact ⟨fun _ => allYielded_other hns, fun _ => trivial⟩
    · rename_i nt'
      have ng : ¬ IsGroup (E.ctx.heap.type (w.at o).ref) := by exact fun h => h.elim nt nt'
      exact (requires_none I).change (fun _ q _ => ⟨False.elim, fun h => ng h.1⟩) (fun _ => ⟨fun _ h => absurd h ng, fun _ => trivial⟩)

theorem requires_section (V : EnvOk E) {N : Nat} : ∀ (n o : Nat) (w : World), Inv E w → Bounded N w → IsA w o (.of .section) → o < N → N < o + n →
    Requires E b w (requireAll E n b o w) (fun w' q => Required E w' o q) (fun w' => AllYielded E w' o)
  | 0, o, w, _, _, _, h1, h2 => by omega
  | n + 1, o, w, I, B, hx, hN, hn => by
    rw [requireAll_succ]
    have K0 := keeps_required (o := o) (b := b) I
    have F0 := frame_required (w := w) (o := o) (b := b)
    have hx1 := hx.later K0.later
    have stable : ∀ {w w' : World}, Inv E w → IsA w o (.of .section) → Keeps E w w' → Frame w w' →
        (AllYielded E w' o ↔ AllYielded E w o) ∧ ∀ q, q < w.objs.length → (Required E w' o q ∧ q ≠ o ↔ Required E w o q ∧ q ≠ o) :=
      fun I h K F => ⟨allYielded_frame I K.inv F h.1, fun q hq => by rw [required_frame I F h.1 hq]⟩
    have T := requires_bind (f := fun _ => (do let _ ← each (requireElement E (requireAll E n b) b) (← sectionElements E o) : Api Unit)) (requires_self (b := b) I hx.1)
      (S' := fun w' q => Required E w' o q ∧ q ≠ o) (C' := fun w' => AllYielded E w' o) (fun _ w1 h1 => ?_) (fun _ _ _ K F => stable I hx K F)
    · refine T.change (fun _ q _ => ?_) (fun _ => by simp)
      by_cases e : q = o
      · subst e; exact ⟨fun _ => ⟨.self, .inl rfl⟩, fun _ => .inl rfl⟩
      · simp [e]
    · have e : w1 = (assign o (fun x => { x with required := b }) w).2 := by rw [h1]
      subst e
      clear h1
      generalize (assign o (fun x => { x with required := b }) w).2 = w1 at K0 F0 hx1
      have T := requires_bind (m := sectionElements E o) (f := fun ys => (do let _ ← each (requireElement E (requireAll E n b) b) ys : Api Unit)) (b := b)
        (requires_unfolded (sectionElements_keeps V K0.inv hx1).1 (sectionElements_unfolded hx1.1) (sectionElements_total K0.inv hx1))
        (S' := fun w' q => Required E w' o q ∧ q ≠ o) (C' := fun w' => AllYielded E w' o) (fun ys w2 h6 => ?_) (fun _ _ _ K F => stable K0.inv hx1 K F)
      · exact T.change (fun _ q _ => by simp) (fun _ => by simp)
      · obtain ⟨h7, h8, h9⟩ := elements_of V K0.inv hx1 h6
        have K2 : Keeps E w1 w2 := by have := (sectionElements_keeps V K0.inv hx1).1; rw [h6] at this; exact this
        have U2 : Unfolded w1 w2 := by have := sectionElements_unfolded (E := E) hx1.1; rw [h6] at this; exact this
        have F2 := F0.trans U2.frame
        have hx2 := hx1.later K2.later
        have R := requires_each (b := b) (f := requireElement E (requireAll E n b) b) (S := fun y w' q => ElementRequired E w' y q) (C := fun y w' => ElementYielded E w' y)
          ys w2 K2.inv
          (fun y hy w3 K3 F3 => by
            have h3 := (h9 y hy).later K3.later
            refine requires_element K3.inv h3 fun z hz => ?_
            have M := ((K3.inv.objs y h3.1).made _ z hz).2
            have B3 := B.frame (F2.trans F3)
            have hzN := B3 y _ z hz
            have := M.lt
            have := (h7.members y hy).1
            exact requires_section V n z w3 K3.inv B3 ⟨M.known, M.cls⟩ hzN (by omega))
          (fun y hy w3 w4 K3 F3 K4 F4 => ⟨elementYielded_frame K3.inv K4.inv F4 ((h9 y hy).later K3.later).1, fun q hq => elementRequired_frame K3.inv F4 ((h9 y hy).later K3.later).1 hq⟩)
        have T := requires_bind (m := each (requireElement E (requireAll E n b) b) ys) (f := fun _ => (pure () : Api Unit)) R (S' := fun _ _ => False) (C' := fun _ => True)
          (fun _ w3 h => requires_none (by have := R.keeps; rw [h] at this; exact this.inv)) (fun _ _ _ _ _ => ⟨Iff.rfl, fun _ _ => Iff.rfl⟩)
        refine T.change (fun _ q _ => ?_) (fun NF => ?_)
        · rw [required_section K2.inv hx2 h8]
          constructor
          · rintro (⟨y, hy, h⟩ | h)
            · refine ⟨.inr ⟨y, hy, h⟩, ?_⟩
              obtain ⟨_, k, z, hz, hq⟩ := h
              have M := ((K2.inv.objs y (h9 y hy).1).made k z hz).2
              have := (hq.1.known K2.inv M.known).1
              have := M.lt
              have := (h7.members y hy).1
              omega
            · exact h.elim
          · rintro ⟨rfl | h, hne⟩
            · exact absurd rfl hne
            · exact .inl h
        · obtain ⟨xs, hel⟩ : ∃ xs, Elements E (w2.at o) xs := by
            have := NF.elements w2 o K2.inv hx2
            unfold Elements
            rw [madeElements_ok]
            generalize madeElements E.ctx.heap E.depth (w2.at o).ref.idx [] = p at this
            obtain ⟨a, b⟩ := p
            dsimp only at this
            subst this
            exact ⟨b, rfl⟩
          rw [allYielded_section K2.inv hx2 h8 hel]
          simp

end Eno.El
