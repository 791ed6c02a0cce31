import Verif.Proofs.WorldTouch
import Verif.Spec.Marks

/-! # Objects: walks through everything that was made -/

namespace Eno.El

variable {α β : Type} {w w' w'' w1 : World} {o y z p s i : Nat} {E : Env} {input : Str} {xs : List Nat}

/-- Nothing happened but that children were made, and that objects were touched or required. -/
structure Frame (w w' : World) : Prop where
  later : Later w w'
  obj : ∀ o, o < w.objs.length → (w'.at o).made = (w.at o).made ∧ (w'.at o).yielded = (w.at o).yielded
  kids : ∀ o, o < w.objs.length → (w.at o).children = none → ∀ ys, (w'.at o).children = some ys → ∀ y ∈ ys, w.objs.length ≤ y
  fresh : ∀ o, w.objs.length ≤ o → (w'.at o).made = fun _ => none

theorem Unfolded.frame (U : Unfolded w w') : Frame w w' := ⟨U.later, fun o h => ⟨(U.obj o h).2.1, (U.obj o h).2.2.1⟩, U.kids, fun o h => (U.fresh o h).2⟩

theorem Frame.refl (w : World) : Frame w w := (Unfolded.refl w).frame

theorem Frame.trans (a : Frame w w') (b : Frame w' w'') : Frame w w'' where
  later := a.later.trans b.later
  obj o ho := by
    obtain ⟨h1, h2⟩ := a.obj o ho
    obtain ⟨g1, g2⟩ := b.obj o (Nat.lt_of_lt_of_le ho a.later.len)
    exact ⟨g1.trans h1, g2.trans h2⟩
  kids o ho hn ys hys y hy := by
    have hl := a.later.len
    cases hc : (w'.at o).children with
    | none => exact Nat.le_trans hl (b.kids o (by omega) hc ys hys y hy)
    | some zs =>
      have := (b.later.obj o (by omega)).children zs hc
      rw [this.1] at hys
      cases hys
      exact a.kids o ho hn _ hc y hy
  fresh o ho := by
    by_cases h : o < w'.objs.length
    · exact (b.obj o h).1.trans (a.fresh o ho)
    · exact b.fresh o (by omega)

theorem frame_assign {f : Obj → Obj} (h : ∀ x, x.Later (f x) ∧ (f x).children = x.children ∧ (f x).made = x.made ∧ (f x).yielded = x.yielded) : Frame w (assign o f w).2 where
  later := later_assign fun _ => (h _).1
  obj q hq := by
    by_cases e : q = o
    · subst e; rw [at_assign_self hq]; exact ⟨(h _).2.2.1, (h _).2.2.2⟩
    · rw [at_assign_ne e]; exact ⟨rfl, rfl⟩
  kids q hq hn ys hys := by
    exfalso
    by_cases e : q = o
    · subst e; rw [at_assign_self hq, (h _).2.1, hn] at hys; cases hys
    · rw [at_assign_ne e, hn] at hys; cases hys
  fresh q hq := by rw [at_out (by rw [len_assign]; exact hq)]; rfl

theorem frame_touched : Frame w (setTouched o w).2 :=
  frame_assign fun _ => ⟨⟨rfl, rfl, rfl, fun _ => rfl, fun _ h => ⟨h, rfl⟩, fun _ _ h => h, fun _ h => h⟩, rfl, rfl, rfl⟩

theorem frame_required {b : Bool} : Frame w (assign o (fun x => { x with required := b }) w).2 :=
  frame_assign fun _ => ⟨⟨rfl, rfl, rfl, fun h => h, fun _ h => ⟨h, rfl⟩, fun _ _ h => h, fun _ h => h⟩, rfl, rfl, rfl⟩

theorem Bounded.frame {N : Nat} (B : Bounded N w) (U : Frame w w') : Bounded N w' := by
  intro q k y h
  by_cases hq : q < w.objs.length
  · rw [(U.obj q hq).1] at h; exact B q k y h
  · rw [U.fresh q (by omega)] at h; cases h

/-! ## `Within` -/

theorem Within.known (I : Inv E w) (ho : o < w.objs.length) (h : Within w o z) : o ≤ z ∧ z < w.objs.length := by
  induction h with
  | self => exact ⟨Nat.le_refl _, ho⟩
  | @made s ys y k z _ _ hch hy hm ih =>
    have K := ((I.objs s ih.2).kids ys hch).members y hy
    have M := ((I.objs y K.2.1).made k z hm).2
    have := M.lt
    exact ⟨by omega, M.known⟩

theorem Within.trans (a : Within w o y) (b : Within w y z) : Within w o z := by
  induction b with
  | self => exact a
  | made _ h1 h2 h3 h4 ih => exact .made ih h1 h2 h3 h4

/-- Making children does not change what is in an object. -/
theorem within_frame (I : Inv E w) (F : Frame w w') (ho : o < w.objs.length) : Within w' o z ↔ Within w o z := by
  constructor
  · intro h
    induction h with
    | self => exact .self
    | @made s ys y k z _ hc hch hy hm ih =>
      have hs := (ih.known I ho).2
      have L := F.later.obj s hs
      cases hq : (w.at s).children with
      | none =>
        have := F.kids s hs hq ys hch y hy
        rw [F.fresh y this] at hm; cases hm
      | some zs =>
        have := (L.children zs hq).1
        rw [hch] at this; cases this
        have K := ((I.objs s hs).kids _ hq).members y hy
        rw [(F.obj y K.2.1).1] at hm
        exact .made ih (by rw [← L.cls]; exact hc) hq hy hm
  · intro h
    induction h with
    | self => exact .self
    | @made s ys y k z hw hc hch hy hm ih =>
      have hs := (hw.known I ho).2
      have L := F.later.obj s hs
      have K := ((I.objs s hs).kids _ hch).members y hy
      exact .made ih (by rw [L.cls]; exact hc) (L.children ys hch).1 hy (by rw [(F.obj y K.2.1).1]; exact hm)

/-- What is in a section. -/
theorem within_section {ys : List Nat} (hc : (w.at o).cls = .of .section) (hch : (w.at o).children = some ys) :
    Within w o z ↔ z = o ∨ ∃ y ∈ ys, ∃ k x, (w.at y).made k = some x ∧ Within w x z := by
  constructor
  · intro h
    induction h with
    | self => exact .inl rfl
    | @made s zs y k z _ hc' hch' hy hm ih =>
      right
      rcases ih with rfl | ⟨y', hy', k', x, hx, hwx⟩
      · rw [hch] at hch'; cases hch'
        exact ⟨y, hy, k, z, hm, .self⟩
      · exact ⟨y', hy', k', x, hx, .made hwx hc' hch' hy hm⟩
  · rintro (rfl | ⟨y, hy, k, x, hm, hx⟩)
    · exact .self
    · exact (Within.made .self hc hch hy hm).trans hx

/-- In other objects there is nothing else. -/
theorem within_other (hc : (w.at o).cls ≠ .of .section) : Within w o z ↔ z = o := by
  constructor
  · intro h
    induction h with
    | self => rfl
    | made _ h1 _ _ _ ih => subst ih; exact absurd h1 hc
  · rintro rfl; exact .self

/-! ## Touching -/

/-- The lists and fieldsets in an object have items and entries. -/
def Unrolled (w : World) (o : Nat) : Prop := ∀ z, Within w o z → (w.at z).cls = .of .list ∨ (w.at z).cls = .of .fieldset → ∃ ys, (w.at z).children = some ys

theorem unrolled_frame (I : Inv E w) (F : Frame w w') (ho : o < w.objs.length) (h : Unrolled w o) : Unrolled w' o := by
  intro z hz hc
  have hz' := (within_frame I F ho).1 hz
  have L := F.later.obj z (hz'.known I ho).2
  rw [L.cls] at hc
  obtain ⟨ys, hy⟩ := h z hz' hc
  exact ⟨ys, (L.children ys hy).1⟩

theorem inside_frame (I : Inv E w) (F : Frame w w') (ho : o < w.objs.length) (h : Unrolled w o) : Inside w' o p ↔ Inside w o p := by
  unfold Inside
  rw [within_frame I F ho]
  apply or_congr_right
  constructor
  · rintro ⟨z, ys, hz, hc, hch, hp⟩
    have hz' := (within_frame I F ho).1 hz
    have L := F.later.obj z (hz'.known I ho).2
    rw [L.cls] at hc
    obtain ⟨zs, hy⟩ := h z hz' hc
    have := (L.children zs hy).1
    rw [hch] at this; cases this
    exact ⟨z, ys, hz', hc, hy, hp⟩
  · rintro ⟨z, ys, hz, hc, hch, hp⟩
    have L := F.later.obj z (hz.known I ho).2
    exact ⟨z, ys, (within_frame I F ho).2 hz, by rw [L.cls]; exact hc, (L.children ys hch).1, hp⟩

/-- What touching does: `S` are the objects that it touches. -/
structure Touches (E : Env) (w : World) (p : Except Exc α × World) (S : World → Nat → Prop) (D : World → Prop) : Prop where
  keeps : Keeps E w p.2
  frame : Frame w p.2
  marks : (∃ a, p.1 = .ok a) → ∀ q, (p.2.at q).touched = true ↔ (w.at q).touched = true ∨ S p.2 q
  done : (∃ a, p.1 = .ok a) → D p.2
  total : NoFail E → ∃ a, p.1 = .ok a

theorem touches_self (I : Inv E w) (ho : o < w.objs.length) : Touches E w (setTouched o w) (fun _ q => q = o) fun _ => True where
  keeps := keeps_touched I
  frame := frame_touched
  marks _ q := by
    rw [at_touched]
    by_cases e : q = o
    · rw [if_pos ⟨e, ho⟩]; simp [e]
    · rw [if_neg (fun h => e h.1)]; simp [e]
  done _ := trivial
  total _ := ⟨_, rfl⟩

theorem touches_none (I : Inv E w) {a : α} : Touches E w (.ok a, w) (fun _ _ => False) fun _ => True :=
  ⟨.refl I, .refl w, fun _ q => by simp, fun _ => trivial, fun _ => ⟨_, rfl⟩⟩

theorem touches_each {f : α → Api β} {S : α → World → Nat → Prop} {D : α → World → Prop} : ∀ (as : List α) (w : World), Inv E w →
    (∀ a ∈ as, ∀ w1, Keeps E w w1 → Frame w w1 → Touches E w1 (f a w1) (S a) (D a)) →
    (∀ a ∈ as, ∀ w1 w2, Keeps E w w1 → Frame w w1 → Keeps E w1 w2 → Frame w1 w2 → D a w1 → D a w2 ∧ ∀ q, S a w2 q ↔ S a w1 q) →
    Touches E w (each f as w) (fun w' q => ∃ a ∈ as, S a w' q) (fun w' => ∀ a ∈ as, D a w')
  | [], w, I, _, _ => ⟨.refl I, .refl w, fun _ q => by simp [each, pure_run], fun _ a h => by simp at h, fun _ => ⟨_, rfl⟩⟩
  | a :: as, w, I, hf, hS => by
    have T := hf a (by simp) w (.refl I) (.refl w)
    unfold each
    rw [bind_run]
    cases hm : f a w with
    | mk r w1 =>
      rw [hm] at T
      cases r with
      | error e =>
        refine ⟨T.keeps, T.frame, ?_, ?_, fun h => ?_⟩
        · rintro ⟨_, h⟩; cases h
        · rintro ⟨_, h⟩; cases h
        · obtain ⟨_, h⟩ := T.total h; cases h
      | ok b =>
        have R := touches_each as w1 T.keeps.inv (fun x hx w2 K F => hf x (by simp [hx]) w2 (T.keeps.trans K) (T.frame.trans F))
          (fun x hx w2 w3 K F => hS x (by simp [hx]) w2 w3 (T.keeps.trans K) (T.frame.trans F))
        dsimp only
        rw [bind_run]
        cases hq : each f as w1 with
        | mk r w2 =>
          rw [hq] at R
          obtain ⟨d1, d2⟩ : D a w2 ∧ ∀ q, S a w2 q ↔ S a w1 q := hS a (by simp) w1 w2 T.keeps T.frame R.keeps R.frame (T.done ⟨_, rfl⟩)
          cases r with
          | error e =>
            refine ⟨T.keeps.trans R.keeps, T.frame.trans R.frame, ?_, ?_, fun h => ?_⟩
            · rintro ⟨_, h⟩; cases h
            · rintro ⟨_, h⟩; cases h
            · obtain ⟨_, h⟩ := R.total h; cases h
          | ok bs =>
            refine ⟨T.keeps.trans R.keeps, T.frame.trans R.frame, fun _ q => ?_, fun _ x hx => ?_, fun _ => ⟨_, rfl⟩⟩
            · have h1 := R.marks ⟨_, rfl⟩ q
              have h2 := T.marks ⟨_, rfl⟩ q
              dsimp only [pure_run] at h1 h2 ⊢
              rw [h1, h2]
              constructor
              · rintro ((h | h) | ⟨x, hx, h⟩)
                · exact .inl h
                · exact .inr ⟨a, by simp, (d2 q).2 h⟩
                · exact .inr ⟨x, by simp [hx], h⟩
              · rintro (h | ⟨x, hx, h⟩)
                · exact .inl (.inl h)
                · rcases List.mem_cons.1 hx with rfl | hx
                  · exact .inl (.inr ((d2 q).1 h))
                  · exact .inr ⟨x, hx, h⟩
            · rcases List.mem_cons.1 hx with rfl | hx
              · exact d1
              · exact R.done ⟨_, rfl⟩ x hx

theorem touches_bind {m : Api α} {f : α → Api β} {S S' : World → Nat → Prop} {D D' : World → Prop} (T : Touches E w (m w) S D)
    (hf : ∀ a w1, m w = (.ok a, w1) → Touches E w1 (f a w1) S' D')
    (hS : ∀ w1 w2, Keeps E w w1 → Frame w w1 → Keeps E w1 w2 → Frame w1 w2 → D w1 → D w2 ∧ ∀ q, S w2 q ↔ S w1 q) :
    Touches E w ((m >>= f) w) (fun w' q => S w' q ∨ S' w' q) (fun w' => D w' ∧ D' w') := by
  rw [bind_run]
  cases hm : m w with
  | mk r w1 =>
    rw [hm] at T
    cases r with
    | error e =>
      refine ⟨T.keeps, T.frame, ?_, ?_, fun h => ?_⟩
      · rintro ⟨_, h⟩; cases h
      · rintro ⟨_, h⟩; cases h
      · obtain ⟨_, h⟩ := T.total h; cases h
    | ok a =>
      have R := hf a w1 hm
      dsimp only
      generalize f a w1 = p at R ⊢
      obtain ⟨d1, d2⟩ := hS w1 p.2 T.keeps T.frame R.keeps R.frame (T.done ⟨_, rfl⟩)
      refine ⟨T.keeps.trans R.keeps, T.frame.trans R.frame, fun h q => ?_, fun h => ⟨d1, R.done h⟩, R.total⟩
      have h1 := R.marks h q
      have h2 := T.marks ⟨_, rfl⟩ q
      dsimp only at h1 h2 ⊢
      rw [h1, h2, d2, or_assoc]

theorem Touches.change {p : Except Exc α × World} {S S' : World → Nat → Prop} {D D' : World → Prop} (T : Touches E w p S D)
    (h : Keeps E w p.2 → Frame w p.2 → D p.2 → D' p.2 ∧ ∀ q, S p.2 q ↔ S' p.2 q) : Touches E w p S' D' where
  keeps := T.keeps
  frame := T.frame
  marks ok q := by rw [T.marks ok, (h T.keeps T.frame (T.done ok)).2]
  done ok := (h T.keeps T.frame (T.done ok)).1
  total := T.total

theorem touches_unfolded {p : Except Exc α × World} (K : Keeps E w p.2) (U : Unfolded w p.2) (hw : NoFail E → ∃ a, p.1 = .ok a) :
    Touches E w p (fun _ _ => False) fun _ => True where
  keeps := K
  frame := U.frame
  marks _ q := by
    by_cases hq : q < w.objs.length
    · rw [(U.obj q hq).1]; simp
    · rw [(U.fresh q (by omega)).1, at_out (by omega)]; simp
      rfl
  done _ := trivial
  total := hw

theorem listItems_total (I : Inv E w) (hx : IsA w o (.of .list)) (N : NoFail E) : ∃ a, (listItems E o w).1 = .ok a := by
  obtain ⟨rs, e⟩ := N.items w o I hx
  rw [listItems_run]
  cases (w.at o).children with
  | some ys => exact ⟨_, rfl⟩
  | none => rw [e]; exact ⟨_, rfl⟩

theorem fieldsetEntries_total (I : Inv E w) (hx : IsA w o (.of .fieldset)) (N : NoFail E) : ∃ a, (fieldsetEntries E o w).1 = .ok a := by
  obtain ⟨rs, e⟩ := N.entries w o I hx
  rw [fieldsetEntries_run]
  cases (w.at o).children with
  | some ys => exact ⟨_, rfl⟩
  | none => rw [e]; exact ⟨_, rfl⟩

theorem sectionElements_total (I : Inv E w) (hx : IsA w o (.of .section)) (N : NoFail E) : ∃ a, (sectionElements E o w).1 = .ok a := by
  have e := N.elements w o I hx
  rw [sectionElements_run]
  cases (w.at o).children with
  | some ys => exact ⟨_, rfl⟩
  | none => dsimp only; rw [e]; exact ⟨_, rfl⟩

/-- Lists and fieldsets. -/
theorem touches_parts {m : Api (List Nat)} {c : Cls} (hc : c = .of .list ∨ c = .of .fieldset) (I : Inv E w) (hx : IsA w o c)
    (hm : ∀ w1, Inv E w1 → IsA w1 o c → Keeps E w1 (m w1).2 ∧ Unfolded w1 (m w1).2 ∧ (NoFail E → ∃ a, (m w1).1 = .ok a) ∧
      ∀ ys w2, m w1 = (.ok ys, w2) → (w2.at o).children = some ys ∧ KidsOk E w2 o ys) :
    Touches E w ((do setTouched o; let _ ← each setTouched (← m) : Api Unit) w) (fun w' q => Inside w' o q) (fun w' => Unrolled w' o) := by
  have T := touches_bind (f := fun _ => (do let _ ← each setTouched (← m) : Api Unit)) (touches_self I hx.1)
    (S' := fun w' q => ∃ ys, (w'.at o).children = some ys ∧ q ∈ ys) (D' := fun w' => ∃ ys, (w'.at o).children = some ys) (fun _ w1 h1 => ?_) (fun _ _ _ _ _ _ _ => ⟨trivial, fun _ => Iff.rfl⟩)
  · refine T.change fun K F d => ?_
    obtain ⟨ys, hys⟩ := d.2
    have hcl : ((((do setTouched o; let _ ← each setTouched (← m) : Api Unit) w)).2.at o).cls = c := by rw [(K.later.obj o hx.1).cls]; exact hx.2
    generalize ((do setTouched o; let _ ← each setTouched (← m) : Api Unit) w) = p at hys hcl ⊢
    have hns : (p.2.at o).cls ≠ .of .section := by rw [hcl]; rcases hc with h | h <;> rw [h] <;> simp
    constructor
    · intro z hz _
      rw [within_other hns] at hz
      subst hz
      exact ⟨ys, hys⟩
    · intro q
      unfold Inside
      rw [within_other hns]
      apply or_congr_right
      constructor
      · rintro ⟨zs, h1, h2⟩
        exact ⟨o, zs, .self, by rw [hcl]; exact hc, h1, h2⟩
      · rintro ⟨z, zs, hz, _, h1, h2⟩
        rw [within_other hns] at hz
        subst hz
        exact ⟨zs, h1, h2⟩
  · have e : w1 = (setTouched o w).2 := by rw [h1]
    subst e
    have K := keeps_touched (o := o) I
    have hx1 := hx.later K.later
    obtain ⟨h2, h3, h4, h5⟩ := hm _ K.inv hx1
    have T := touches_bind (m := m) (f := fun ys => (do let _ ← each setTouched ys : Api Unit)) (touches_unfolded h2 h3 h4)
      (S' := fun w' q => ∃ ys, (w'.at o).children = some ys ∧ q ∈ ys) (D' := fun w' => ∃ ys, (w'.at o).children = some ys) (fun ys w2 h6 => ?_) (fun _ _ _ _ _ _ _ => ⟨trivial, fun _ => Iff.rfl⟩)
    · exact T.change fun _ _ d => ⟨d.2, fun q => by simp⟩
    · obtain ⟨h7, h8⟩ := h5 ys w2 h6
      have K2 : Keeps E (setTouched o w).2 w2 := by rw [h6] at h2; exact h2
      have T := touches_bind (m := each setTouched ys) (f := fun _ => (pure () : Api Unit)) (touches_each (S := fun a _ q => q = a) (D := fun _ _ => True) ys w2 K2.inv
        (fun y hy w3 K3 _ => touches_self K3.inv (Nat.lt_of_lt_of_le (h8.members y hy).2.1 K3.later.len)) (fun _ _ _ _ _ _ _ _ _ => ⟨trivial, fun _ => Iff.rfl⟩))
        (fun _ w3 h9 => touches_none (a := ()) ?_) (fun _ _ _ _ _ _ _ => ⟨fun _ _ => trivial, fun _ => Iff.rfl⟩)
      · refine T.change fun K F _ => ?_
        have hch := ((F.later.obj o (hx1.later K2.later).1).children ys h7).1
        refine ⟨⟨ys, hch⟩, fun q => ?_⟩
        rw [hch]
        simp
      · have K9 := keeps_each (f := setTouched) ys w2 K2.inv fun y _ w3 I3 _ => keeps_touched I3
        rw [h9] at K9
        exact K9.inv

theorem touches_list (I : Inv E w) (hx : IsA w o (.of .list)) : Touches E w (touchList E o w) (fun w' q => Inside w' o q) (fun w' => Unrolled w' o) :=
  touches_parts (.inl rfl) I hx fun _ I1 h1 => ⟨(listItems_keeps I1 h1).1, listItems_unfolded h1.1, listItems_total I1 h1, (listItems_keeps I1 h1).2⟩

theorem touches_fieldset (V : EnvOk E) (I : Inv E w) (hx : IsA w o (.of .fieldset)) : Touches E w (touchFieldset E o w) (fun w' q => Inside w' o q) (fun w' => Unrolled w' o) :=
  touches_parts (.inr rfl) I hx fun _ I1 h1 => ⟨(fieldsetEntries_keeps V I1 h1).1, fieldsetEntries_unfolded V I1 h1, fieldsetEntries_total I1 h1, (fieldsetEntries_keeps V I1 h1).2⟩

theorem inside_leaf (h : (w.at o).cls ≠ .of .section ∧ (w.at o).cls ≠ .of .list ∧ (w.at o).cls ≠ .of .fieldset) : Inside w o p ↔ p = o := by
  unfold Inside
  rw [within_other h.1]
  constructor
  · rintro (h | ⟨z, ys, hz, hc, _⟩)
    · exact h
    · rw [within_other h.1] at hz
      subst hz
      rcases hc with hc | hc
      · exact absurd hc h.2.1
      · exact absurd hc h.2.2
  · exact .inl

theorem unrolled_leaf (h : (w.at o).cls ≠ .of .section ∧ (w.at o).cls ≠ .of .list ∧ (w.at o).cls ≠ .of .fieldset) : Unrolled w o := by
  intro z hz hc
  rw [within_other h.1] at hz
  subst hz
  rcases hc with hc | hc
  · exact absurd hc h.2.1
  · exact absurd hc h.2.2

theorem touches_leaf (I : Inv E w) (ho : o < w.objs.length) (h : (w.at o).cls ≠ .of .section ∧ (w.at o).cls ≠ .of .list ∧ (w.at o).cls ≠ .of .fieldset) :
    Touches E w (setTouched o w) (fun w' q => Inside w' o q) (fun w' => Unrolled w' o) := by
  refine (touches_self I ho).change fun K _ _ => ?_
  have h' : ((setTouched o w).2.at o).cls ≠ .of .section ∧ ((setTouched o w).2.at o).cls ≠ .of .list ∧ ((setTouched o w).2.at o).cls ≠ .of .fieldset := by
    rw [(K.later.obj o ho).cls]; exact h
  exact ⟨unrolled_leaf h', fun q => (inside_leaf h').symm⟩

/-- Only one of them does anything. -/
theorem touchElement_run (I : Inv E w) (ho : o < w.objs.length) {deeper : Nat → Api Unit} : touchElement E deeper o w =
    match (w.at o).yielded with
    | none => (.ok (), w)
    | some k => ifMade ((w.at o).made k) (match k with | .empty | .field => setTouched | .fieldset => touchFieldset E | .list => touchList E | .section => deeper) w := by
  unfold touchElement
  rw [bind_ok obj_run]
  have O := I.objs o ho
  cases hy : (w.at o).yielded with
  | none => rfl
  | some k =>
    obtain ⟨y, hk⟩ := Option.isSome_iff_exists.1 ((O.yielded k).1 hy)
    have hother : ∀ k', k' ≠ k → (w.at o).made k' = none := by
      intro k' hne
      cases hk' : (w.at o).made k' with
      | none => rfl
      | some y' => exact absurd (made_unique I ho hk' hk).1 hne
    have one : ∀ m : Api Unit, (do m; pure ()) w = m w := by
      intro m
      rw [bind_run]
      cases hm : m w with
      | mk r w1 => cases r <;> rfl
    rw [if_neg (by simp)]
    dsimp only
    cases k with
    | empty =>
      rw [hk, hother .field (by simp), hother .fieldset (by simp), hother .list (by simp), hother .section (by simp)]
      exact one (setTouched y)
    | field =>
      rw [hk, hother .empty (by simp), hother .fieldset (by simp), hother .list (by simp), hother .section (by simp)]
      exact one (setTouched y)
    | fieldset =>
      rw [hk, hother .empty (by simp), hother .field (by simp), hother .list (by simp), hother .section (by simp)]
      exact one (touchFieldset E y)
    | list =>
      rw [hk, hother .empty (by simp), hother .field (by simp), hother .fieldset (by simp), hother .section (by simp)]
      exact one (touchList E y)
    | «section» =>
      rw [hk, hother .empty (by simp), hother .field (by simp), hother .fieldset (by simp), hother .list (by simp)]
      rfl

/-- What was made of an element, and what is in it. -/
def InsideElement (w : World) (o p : Nat) : Prop := ∃ k z, (w.at o).made k = some z ∧ Inside w z p

theorem touches_element (V : EnvOk E) {deeper : Nat → Api Unit} (I : Inv E w) (ho : o < w.objs.length)
    (hd : ∀ y, (w.at o).made .section = some y → Touches E w (deeper y w) (fun w' q => Inside w' y q) (fun w' => Unrolled w' y)) :
    Touches E w (touchElement E deeper o w) (fun w' q => InsideElement w' o q) (fun w' => ∀ k z, (w'.at o).made k = some z → Unrolled w' z) := by
  have O := I.objs o ho
  rw [touchElement_run I ho]
  cases hy : (w.at o).yielded with
  | none =>
    refine (touches_none I).change fun _ _ _ => ?_
    have no : ∀ k z, (w.at o).made k = some z → False := by
      intro k z h
      have := (O.yielded k).2 (by rw [h]; rfl)
      rw [hy] at this
      cases this
    exact ⟨fun k z h => (no k z h).elim, fun q => ⟨False.elim, fun ⟨k, z, h, _⟩ => no k z h⟩⟩
  | some k =>
    obtain ⟨y, hk⟩ := Option.isSome_iff_exists.1 ((O.yielded k).1 hy)
    have M := (O.made k y hk).2
    have lift : ∀ {p : Except Exc Unit × World}, Touches E w p (fun w' q => Inside w' y q) (fun w' => Unrolled w' y) →
        Touches E w p (fun w' q => InsideElement w' o q) (fun w' => ∀ k z, (w'.at o).made k = some z → Unrolled w' z) := by
      intro p T
      refine T.change fun K F d => ?_
      have hmade := (F.obj o ho).1
      constructor
      · intro k' z hz
        rw [hmade] at hz
        rw [← (made_unique I ho hk hz).2]
        exact d
      · intro q
        constructor
        · intro h; exact ⟨k, y, by rw [hmade]; exact hk, h⟩
        · rintro ⟨k', z, hz, h⟩
          rw [hmade] at hz
          rw [(made_unique I ho hk hz).2]
          exact h
    apply lift
    dsimp only
    rw [hk]
    have hcl := M.cls
    cases k with
    | empty => exact touches_leaf I M.known (by rw [hcl]; simp)
    | field => exact touches_leaf I M.known (by rw [hcl]; simp)
    | fieldset => exact touches_fieldset V I ⟨M.known, hcl⟩
    | list => exact touches_list I ⟨M.known, hcl⟩
    | «section» => exact hd y hk

theorem inside_section {ys : List Nat} (hc : (w.at o).cls = .of .section) (hch : (w.at o).children = some ys) :
    Inside w o p ↔ p = o ∨ ∃ y ∈ ys, InsideElement w y p := by
  unfold InsideElement Inside
  constructor
  · rintro (h | ⟨z, zs, hz, hcz, hzs, hp⟩)
    · rcases (within_section hc hch).1 h with h | ⟨y, hy, k, x, hm, hx⟩
      · exact .inl h
      · exact .inr ⟨y, hy, k, x, hm, .inl hx⟩
    · rcases (within_section hc hch).1 hz with rfl | ⟨y, hy, k, x, hm, hx⟩
      · rw [hc] at hcz; simp at hcz
      · exact .inr ⟨y, hy, k, x, hm, .inr ⟨z, zs, hx, hcz, hzs, hp⟩⟩
  · rintro (rfl | ⟨y, hy, k, x, hm, hx | ⟨z, zs, hx, hcz, hzs, hp⟩⟩)
    · exact .inl .self
    · exact .inl ((within_section hc hch).2 (.inr ⟨y, hy, k, x, hm, hx⟩))
    · exact .inr ⟨z, zs, (within_section hc hch).2 (.inr ⟨y, hy, k, x, hm, hx⟩), hcz, hzs, hp⟩

theorem unrolled_section {ys : List Nat} (hc : (w.at o).cls = .of .section) (hch : (w.at o).children = some ys)
    (h : ∀ y ∈ ys, ∀ k z, (w.at y).made k = some z → Unrolled w z) : Unrolled w o := by
  intro z hz hcz
  rcases (within_section hc hch).1 hz with rfl | ⟨y, hy, k, x, hm, hx⟩
  · rw [hc] at hcz; simp at hcz
  · exact h y hy k x hm z hx hcz

theorem insideElement_frame (I : Inv E w) (F : Frame w w') (ho : o < w.objs.length) (h : ∀ k z, (w.at o).made k = some z → Unrolled w z) :
    (∀ k z, (w'.at o).made k = some z → Unrolled w' z) ∧ ∀ q, InsideElement w' o q ↔ InsideElement w o q := by
  have hmade := (F.obj o ho).1
  unfold InsideElement
  rw [hmade]
  refine ⟨fun k z hz => unrolled_frame I F ((I.objs o ho).made k z hz).2.known (h k z hz), fun q => ?_⟩
  constructor
  · rintro ⟨k, z, hz, hi⟩
    exact ⟨k, z, hz, (inside_frame I F ((I.objs o ho).made k z hz).2.known (h k z hz)).1 hi⟩
  · rintro ⟨k, z, hz, hi⟩
    exact ⟨k, z, hz, (inside_frame I F ((I.objs o ho).made k z hz).2.known (h k z hz)).2 hi⟩

theorem touches_section (V : EnvOk E) {N : Nat} : ∀ (n o : Nat) (w : World), Inv E w → Bounded N w → IsA w o (.of .section) → o < N → N < o + n →
    Touches E w (touchSection E n o w) (fun w' q => Inside w' o q) (fun w' => Unrolled w' o)
  | 0, o, w, _, _, _, h1, h2 => by omega
  | n + 1, o, w, I, B, hx, hN, hn => by
    unfold touchSection
    have K0 := keeps_touched (o := o) I
    have F0 := frame_touched (w := w) (o := o)
    have T := touches_bind (f := fun _ => (do let _ ← each (touchElement E (touchSection E n)) (← sectionElements E o) : Api Unit)) (touches_self I hx.1)
      (S' := fun w' q => ∃ ys, (w'.at o).children = some ys ∧ ∃ y ∈ ys, InsideElement w' y q)
      (D' := fun w' => ∃ ys, (w'.at o).children = some ys ∧ ∀ y ∈ ys, ∀ k z, (w'.at y).made k = some z → Unrolled w' z)
      (fun _ w1 h1 => ?_) (fun _ _ _ _ _ _ _ => ⟨trivial, fun _ => Iff.rfl⟩)
    · refine T.change fun K F d => ?_
      obtain ⟨ys, hys, hd⟩ := d.2
      have hcl := (K.later.obj o hx.1).cls.trans hx.2
      refine ⟨unrolled_section hcl hys hd, fun q => ?_⟩
      rw [inside_section hcl hys, hys]
      simp
    · have e : w1 = (setTouched o w).2 := by rw [h1]
      subst e
      have hx1 := hx.later K0.later
      have T := touches_bind (m := sectionElements E o) (f := fun ys => (do let _ ← each (touchElement E (touchSection E n)) ys : Api Unit))
        (touches_unfolded (sectionElements_keeps V K0.inv hx1).1 (sectionElements_unfolded hx1.1) (sectionElements_total K0.inv hx1))
        (S' := fun w' q => ∃ ys, (w'.at o).children = some ys ∧ ∃ y ∈ ys, InsideElement w' y q)
        (D' := fun w' => ∃ ys, (w'.at o).children = some ys ∧ ∀ y ∈ ys, ∀ k z, (w'.at y).made k = some z → Unrolled w' z)
        (fun ys w2 h6 => ?_) (fun _ _ _ _ _ _ _ => ⟨trivial, fun _ => Iff.rfl⟩)
      · exact T.change fun _ _ d => ⟨d.2, fun q => by simp⟩
      · obtain ⟨h7, h8, h9⟩ := elements_of V K0.inv hx1 h6
        have K2 : Keeps E (setTouched o w).2 w2 := by have := (sectionElements_keeps V K0.inv hx1).1; rw [h6] at this; exact this
        have U2 : Unfolded (setTouched o w).2 w2 := by have := sectionElements_unfolded (E := E) hx1.1; rw [h6] at this; exact this
        have F2 := F0.trans U2.frame
        have R := touches_each (f := touchElement E (touchSection E n)) (S := fun y w' q => InsideElement w' y q) (D := fun y w' => ∀ k z, (w'.at y).made k = some z → Unrolled w' z)
          ys w2 K2.inv
          (fun y hy w3 K3 F3 => by
            have h3 := (h9 y hy).later K3.later
            refine touches_element V K3.inv h3.1 fun z hz => ?_
            have M := ((K3.inv.objs y h3.1).made _ z hz).2
            have B3 := B.frame (F2.trans F3)
            have hzN := B3 y _ z hz
            have := M.lt
            have := (h7.members y hy).1
            exact touches_section V n z w3 K3.inv B3 ⟨M.known, M.cls⟩ hzN (by omega))
          (fun y hy w3 w4 K3 F3 K4 F4 d => insideElement_frame K3.inv F4 ((h9 y hy).later K3.later).1 d)
        have T := touches_bind (m := each (touchElement E (touchSection E n)) ys) (f := fun _ => (pure () : Api Unit)) R
          (fun _ w3 h => touches_none (a := ()) (by have := R.keeps; rw [h] at this; exact this.inv))
          (fun w3 w4 K3 F3 K4 F4 d => by
            have := fun y hy => insideElement_frame K3.inv F4 ((h9 y hy).later K3.later).1 (d y hy)
            exact ⟨fun y hy => (this y hy).1, fun q => ⟨fun ⟨y, hy, h⟩ => ⟨y, hy, ((this y hy).2 q).1 h⟩, fun ⟨y, hy, h⟩ => ⟨y, hy, ((this y hy).2 q).2 h⟩⟩⟩)
        refine T.change fun K F d => ?_
        have hch := ((F.later.obj o (hx1.later K2.later).1).children ys h8).1
        refine ⟨⟨ys, hch, d.1⟩, fun q => ?_⟩
        rw [hch]
        simp

end Eno.El
