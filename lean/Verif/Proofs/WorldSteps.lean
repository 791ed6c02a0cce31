import Verif.Proofs.WorldInv

/-! # Objects: every call keeps the invariant -/

namespace Eno.El

variable {α β : Type} {w w' w1 : World} {o y : Nat} {E : Env}

theorem KidsOk.later {ys : List Nat} (L : Later w w') (ho : o < w.objs.length) (hc : (w.at o).children = some ys) (K : KidsOk E w o ys) : KidsOk E w' o ys where
  members y hy := by
    obtain ⟨h1, h2, h3, h4⟩ := K.members y hy
    refine ⟨h1, Nat.lt_of_lt_of_le h2 L.len, ?_, ?_⟩
    · rw [(L.obj y h2).cls, (L.obj o ho).cls]; exact h3
    · rw [(L.obj y h2).parent]; exact h4
  refs := by
    have h1 : (ys.map fun y => (w'.at y).ref) = ys.map fun y => (w.at y).ref := by
      refine List.map_congr_left fun y hy => ?_
      exact (L.obj y (K.members y hy).2.1).ref
    rw [h1]
    have := K.refs
    unfold ChildRefs at this ⊢
    rw [(L.obj o ho).cls, (L.obj o ho).ref]
    exact this
  distinct := K.distinct
  index hl := by
    rw [(L.obj o ho).cls] at hl
    obtain ⟨zs, h1, h2⟩ := K.index hl
    have hz : ∀ z ∈ zs, z ∈ ys := by
      intro z hz
      have : z ∈ zs.filter (fun x => keyAt E w x = keyAt E w z) := by simp [hz]
      rw [h2] at this
      exact (List.mem_filter.1 this).1
    have hk : ∀ z ∈ ys, keyAt E w' z = keyAt E w z := by
      intro z hz
      unfold keyAt
      rw [(L.obj z (K.members z hz).2.1).ref]
    refine ⟨zs, ?_, fun k => ?_⟩
    · rw [((L.obj o ho).children ys hc).2, h1]
      congr 1
      exact List.map_congr_left fun z hz' => by rw [hk z (hz z hz')]
    · have h3 := h2 k
      rw [List.filter_congr (q := fun z => decide (keyAt E w z = k)) (fun z hz' => by rw [hk z (hz z hz')]),
        List.filter_congr (l := ys) (q := fun z => decide (keyAt E w z = k)) (fun z hz' => by rw [hk z hz'])]
      exact h3

theorem MadeOk.later {k : Kind} (L : Later w w') (ho : o < w.objs.length) (M : MadeOk E w o k y) : MadeOk E w' o k y where
  lt := M.lt
  known := Nat.lt_of_lt_of_le M.known L.len
  cls := by rw [(L.obj y M.known).cls]; exact M.cls
  ref := by rw [(L.obj y M.known).ref, (L.obj o ho).ref]; exact M.ref
  parent := by rw [(L.obj y M.known).parent, (L.obj o ho).parent]; exact M.parent
  fits := by rw [(L.obj o ho).ref]; exact M.fits

theorem ObjOk.later (L : Later w w') (ho : o < w.objs.length) (h : ObjOk E w o) (hc : (w'.at o).children = (w.at o).children) (hm : (w'.at o).made = (w.at o).made)
    (hy : (w'.at o).yielded = (w.at o).yielded) : ObjOk E w' o where
  parent p hp := by
    rw [(L.obj o ho).parent] at hp
    obtain ⟨h1, h2⟩ := h.parent p hp
    refine ⟨h1, ?_⟩
    rw [(L.obj o ho).cls, (L.obj p (by omega)).cls]; exact h2
  orphan hp := by
    rw [(L.obj o ho).parent] at hp
    rw [(L.obj o ho).cls]
    refine ⟨(h.orphan hp).1, fun q => (h.orphan hp).2 ?_⟩
    unfold Parsed at q ⊢
    rw [(L.obj 0 (by omega)).cls] at q
    exact q
  top hr := by
    rw [(L.obj o ho).ref] at hr
    rw [(L.obj o ho).parent]
    exact h.top hr
  ref := by rw [(L.obj o ho).cls, (L.obj o ho).ref]; exact h.ref
  kids ys hys := by
    rw [hc] at hys
    exact (h.kids ys hys).later L ho hys
  made k y hk := by
    rw [hm] at hk
    obtain ⟨h1, h2⟩ := h.made k y hk
    refine ⟨?_, h2.later L ho⟩
    rw [(L.obj o ho).cls]; exact h1
  yielded k := by rw [hm, hy]; exact h.yielded k

/-- The invariant still holds, and everything is still there. -/
structure Keeps (E : Env) (w w' : World) : Prop where
  inv : Inv E w'
  later : Later w w'

theorem Keeps.refl (I : Inv E w) : Keeps E w w := ⟨I, .refl w⟩

theorem Keeps.trans (a : Keeps E w w1) (b : Keeps E w1 w') : Keeps E w w' := ⟨b.inv, a.later.trans b.later⟩

theorem present_later (I : Inv E w) (L : Later w w') : 0 < w'.objs.length := Nat.lt_of_lt_of_le I.present L.len

/-- Attributes that do not matter. -/
theorem keeps_assign {f : Obj → Obj} (I : Inv E w) (h : ∀ x, (x.Later (f x)) ∧ (f x).children = x.children ∧ (f x).made = x.made ∧ (f x).yielded = x.yielded) :
    Keeps E w (assign o f w).2 := by
  have L : Later w (assign o f w).2 := later_assign fun _ => (h _).1
  refine ⟨⟨present_later I L, fun y hy => ?_, I.cache, I.asked⟩, L⟩
  rw [len_assign] at hy
  by_cases e : y = o
  · subst e
    refine (I.objs y hy).later L hy ?_ ?_ ?_ <;> rw [at_assign_self hy]
    · exact (h _).2.1
    · exact (h _).2.2.1
    · exact (h _).2.2.2
  · refine (I.objs y hy).later L hy ?_ ?_ ?_ <;> rw [at_assign_ne e]

theorem keeps_touched (I : Inv E w) : Keeps E w (setTouched o w).2 :=
  keeps_assign I fun _ => ⟨⟨rfl, rfl, rfl, fun _ => rfl, fun _ h => ⟨h, rfl⟩, fun _ _ h => h, fun _ h => h⟩, rfl, rfl, rfl⟩

theorem keeps_required {b : Bool} (I : Inv E w) : Keeps E w (assign o (fun x => { x with required := b }) w).2 :=
  keeps_assign I fun _ => ⟨⟨rfl, rfl, rfl, fun h => h, fun _ h => ⟨h, rfl⟩, fun _ _ h => h, fun _ h => h⟩, rfl, rfl, rfl⟩

theorem keeps_cache {c : Cache} (I : Inv E w) (f : Honest E.ctx.input E.ctx.heap c) (a : Asked E c) : Keeps E w { w with cache := c } :=
  have L : Later w { w with cache := c } := ⟨Nat.le_refl _, fun _ _ => .refl _⟩
  ⟨⟨I.present, fun o ho => ObjOk.later L ho (I.objs o ho) rfl rfl rfl, f, a⟩, L⟩

theorem keeps_reading {m : Read α} (I : Inv E w) (f : Honest E.ctx.input E.ctx.heap (m w.cache).2) (a : Asked E (m w.cache).2) : Keeps E w (reading m w).2 := by
  unfold reading
  split <;> rename_i e <;> rw [e] at f a <;> exact keeps_cache I f a

theorem keeps_bind {m : Api α} {f : α → Api β} (h1 : Keeps E w (m w).2)
    (h2 : ∀ a w1, m w = (.ok a, w1) → Inv E w1 → Later w w1 → Keeps E w1 (f a w1).2) : Keeps E w ((m >>= f) w).2 := by
  rw [bind_run]
  cases hm : m w with
  | mk r w1 =>
    rw [hm] at h1
    cases r with
    | error e => exact h1
    | ok a => exact h1.trans (h2 a w1 hm h1.inv h1.later)

theorem keeps_map {m : Api α} {f : α → β} (h1 : Keeps E w (m w).2) : Keeps E w ((f <$> m) w).2 := by
  rw [map_run]
  cases hm : m w with
  | mk r w1 =>
    rw [hm] at h1
    cases r with
    | error e => exact h1
    | ok a => exact h1

theorem keeps_validation {x : Except PyExc ErrObj} (I : Inv E w) : Keeps E w ((raiseValidation x : Api α) w).2 := by
  cases x <;> exact .refl I

theorem keeps_makeError {x : Except PyExc ErrObj} (I : Inv E w) : Keeps E w ((makeError x) w).2 := by
  cases x <;> exact .refl I

theorem keeps_except {m : Api α} {f : Str → Api α} (h1 : Keeps E w (m w).2) (h2 : ∀ s w1, Inv E w1 → Later w w1 → Keeps E w1 (f s w1).2) :
    Keeps E w (exceptValueError m f w).2 := by
  unfold exceptValueError
  cases hm : m w with
  | mk r w1 =>
    rw [hm] at h1
    cases r with
    | ok a => exact h1
    | error e =>
      cases e with
      | valueError s => exact h1.trans (h2 s w1 h1.inv h1.later)
      | validation e => exact h1
      | py e => exact h1

theorem keeps_each {f : α → Api β} : ∀ (as : List α) (w : World), Inv E w → (∀ a ∈ as, ∀ w1, Inv E w1 → Later w w1 → Keeps E w1 (f a w1).2) → Keeps E w (each f as w).2
  | [], w, I, _ => .refl I
  | a :: as, w, I, h => by
    unfold each
    refine keeps_bind (h a (by simp) w I (.refl w)) fun b w1 _ I1 L1 => ?_
    refine keeps_bind (keeps_each as w1 I1 fun x hx w2 I2 L2 => h x (by simp [hx]) w2 I2 (L1.trans L2)) fun bs w2 _ I2 _ => .refl I2

theorem keeps_first {f : α → Api (Option β)} : ∀ (as : List α) (w : World), Inv E w → (∀ a ∈ as, ∀ w1, Inv E w1 → Later w w1 → Keeps E w1 (f a w1).2) →
    Keeps E w (firstSome f as w).2
  | [], w, I, _ => .refl I
  | a :: as, w, I, h => by
    unfold firstSome
    refine keeps_bind (h a (by simp) w I (.refl w)) fun b w1 _ I1 L1 => ?_
    cases b with
    | some b => exact .refl I1
    | none => exact keeps_first as w1 I1 fun x hx w2 I2 L2 => h x (by simp [hx]) w2 I2 (L1.trans L2)

/-! ## New objects -/

/-- An object that was just made. -/
theorem fresh_ok {p : Nat} (ht : (w.at o).ref ≠ .elem 0) (hp : (w.at o).parent = some p) (hlt : p < o) (hcls : (w.at p).cls = parentCls (w.at o).cls) (href : RefOk E.ctx.heap (w.at o).cls (w.at o).ref)
    (hc : (w.at o).children = none) (hm : (w.at o).made = fun _ => none) (hy : (w.at o).yielded = none) : ObjOk E w o where
  parent q hq := by rw [hp] at hq; cases hq; exact ⟨hlt, hcls⟩
  orphan h := by rw [hp] at h; cases h
  top h := absurd h ht
  ref := href
  kids ys h := by rw [hc] at h; cases h
  made k y h := by rw [hm] at h; cases h
  yielded k := by rw [hm, hy]; simp

/-- An object without a parent that was just made. -/
theorem fresh_orphan (hp : (w.at o).parent = none) (hcls : (w.at o).cls = .element ∨ ∃ k, (w.at o).cls = .of k) (h0 : Parsed w → o = 0) (href : RefOk E.ctx.heap (w.at o).cls (w.at o).ref)
    (hc : (w.at o).children = none) (hm : (w.at o).made = fun _ => none) (hy : (w.at o).yielded = none) : ObjOk E w o where
  parent q hq := by rw [hp] at hq; cases hq
  orphan _ := ⟨hcls, h0⟩
  top _ := hp
  ref := href
  kids ys h := by rw [hc] at h; cases h
  made k y h := by rw [hm] at h; cases h
  yielded k := by rw [hm, hy]; simp

theorem known_of_cls {c : Cls} (h : (w.at o).cls = c) (hc : c ≠ .of .empty) : o < w.objs.length := by
  apply Classical.byContradiction
  intro hn
  rw [at_out (by omega)] at h
  exact hc h.symm

theorem fits_exclusive {k k' : Kind} {t : Ty} (h : k.fits t = true) (h' : k'.fits t = true) (hs : k = .section) : k' = .section := by
  subst hs
  cases t <;> simp [Kind.fits] at h
  cases k' <;> simp [Kind.fits] at h' ⊢

/-- The world after something was made of an element. -/
def yieldedAs (k : Kind) (o : Nat) (w : World) : World :=
  (assign o (fun x => { x with made := upd x.made k w.objs.length, yielded := some k })
    (create [k.new (w.at o).ref (w.at o).parent ((w.at o).parent.isSome && (w.at ((w.at o).parent.getD 0)).required)] w).2).2

theorem to_run (k : Kind) : to E k o w = match (w.at o).made k with
    | some y => (.ok y, w)
    | none =>
      if k ≠ Kind.section ∧ (w.at o).yielded.isSome then (.error (.py .typeError), w)
      else if k.fits (E.ctx.heap.type (w.at o).ref) then (.ok w.objs.length, yieldedAs k o w)
      else raiseValidation (unexpectedElementType E.o E.ctx none (w.at o).ref k.expected) w := by
  unfold to
  rw [bind_ok obj_run]
  cases (w.at o).made k with
  | some y => rfl
  | none =>
    dsimp only
    split
    · rfl
    · split
      · rfl
      · rfl

/-- `to_…`: what it returns is of the kind. -/
theorem to_keeps (k : Kind) (I : Inv E w) (hx : IsA w o .sectionElement ∨ IsA w o .element) : Keeps E w (to E k o w).2 ∧
    ∀ y w1, to E k o w = (.ok y, w1) → (w1.at o).made k = some y := by
  have ho : o < w.objs.length := by rcases hx with h | h <;> exact h.1
  have hcls : (w.at o).cls = .sectionElement ∨ (w.at o).cls = .element := hx.imp (·.2) (·.2)
  have O := I.objs o ho
  rw [to_run]
  cases hk : (w.at o).made k with
  | some y =>
    refine ⟨.refl I, fun y' w1 h => ?_⟩
    change ((Except.ok y : Except Exc Nat), w) = _ at h
    cases h
    exact hk
  | none =>
    dsimp only
    split
    · exact ⟨.refl I, fun _ _ h => by cases h⟩
    · rename_i hy
      split
      · rename_i hf
        -- nothing was made of it before
        have hnone : (w.at o).yielded = none ∧ (w.at o).made = fun _ => none := by
          have hn : ∀ k', (w.at o).made k' = none := by
            intro k'
            cases hk' : (w.at o).made k' with
            | none => rfl
            | some y' =>
              have hy' := (O.yielded k').2 (by rw [hk']; rfl)
              by_cases hs : k = .section
              · have M := (O.made k' y' hk').2
                have R := (I.objs y' M.known).ref
                rw [M.cls, M.ref] at R
                have hk2 : k' = .section := by
                  cases hr : (w.at o).ref with
                  | elem i =>
                    rw [hr] at R hf
                    by_cases h0 : i = 0
                    · exact R.2.1 h0
                    · exact fits_exclusive hf (R.2.2 (by omega)) hs
                  | item i j => rw [hr] at R; exact R.elim
                  | entry i j => rw [hr] at R; exact R.elim
                rw [hk2] at hk'
                rw [hs] at hk
                rw [hk] at hk'; cases hk'
              · exact absurd ⟨hs, by rw [hy']; rfl⟩ hy
          refine ⟨?_, funext hn⟩
          cases hq : (w.at o).yielded with
          | none => rfl
          | some k' =>
            have := (O.yielded k').1 hq
            rw [hn] at this; cases this
        generalize hn : k.new (w.at o).ref (w.at o).parent ((w.at o).parent.isSome && (w.at ((w.at o).parent.getD 0)).required) = x
        have x1 : x.cls = .of k := by rw [← hn]; rfl
        have x2 : x.ref = (w.at o).ref := by rw [← hn]; rfl
        have x3 : x.parent = (w.at o).parent := by rw [← hn]; rfl
        have x4 : x.children = none := by rw [← hn]; rfl
        have x5 : x.made = fun _ => none := by rw [← hn]; rfl
        have x6 : x.yielded = none := by rw [← hn]; rfl
        unfold yieldedAs
        rw [hn]
        generalize hw1 : (create [x] w).2 = w1
        have L1 : Later w w1 := by rw [← hw1]; exact later_create _
        have len1 : w1.objs.length = w.objs.length + 1 := by rw [← hw1, len_create]; rfl
        have at1 : ∀ q, q < w.objs.length → w1.at q = w.at q := fun q hq => by rw [← hw1]; exact at_create_lt hq
        have atx : w1.at w.objs.length = x := by rw [← hw1]; exact at_create_ge (k := 0) (by simp)
        have ho1 : o < w1.objs.length := by omega
        generalize hw2 : (assign o (fun x => { x with made := upd x.made k w.objs.length, yielded := some k }) w1).2 = w2
        have hat : w2.at o = { w1.at o with made := upd (w1.at o).made k w.objs.length, yielded := some k } := by rw [← hw2, at_assign_self ho1]
        have hne : ∀ q, q ≠ o → w2.at q = w1.at q := fun q hq => by rw [← hw2, at_assign_ne hq]
        have len2 : w2.objs.length = w1.objs.length := by rw [← hw2, len_assign]
        have L2 : Later w1 w2 := by
          rw [← hw2]
          refine later_assign fun _ => ⟨rfl, rfl, rfl, id, fun _ h => ⟨h, rfl⟩, fun k' y' h => ?_, fun k' h => ?_⟩
          · rw [at1 o ho, hnone.2] at h; cases h
          · rw [at1 o ho, hnone.1] at h; cases h
        have L := L1.trans L2
        have hxlen : w2.at w.objs.length = x := by rw [hne _ (by omega), atx]
        refine ⟨⟨⟨present_later I L, fun q hq => ?_, by rw [← hw2, ← hw1]; exact I.cache, by rw [← hw2, ← hw1]; exact I.asked⟩, L⟩, fun y' w3 h => ?_⟩
        · rw [len2, len1] at hq
          by_cases e1 : q = o
          · subst e1
            refine ⟨?_, ?_, ?_, ?_, ?_, ?_, ?_⟩
            · intro r hr
              rw [hat] at hr
              rw [at1 q ho] at hr
              obtain ⟨h1, h2⟩ := O.parent r hr
              refine ⟨h1, ?_⟩
              rw [hne r (by omega), at1 r (by omega), hat, at1 q ho]; exact h2
            · intro h
              rw [hat, at1 q ho] at h ⊢
              refine ⟨(O.orphan h).1, fun q' => (O.orphan h).2 ?_⟩
              unfold Parsed at q' ⊢
              rw [(L.obj 0 I.present).cls] at q'
              exact q'
            · intro h
              rw [hat, at1 q ho] at h ⊢
              exact O.top h
            · rw [hat, at1 q ho]; exact O.ref
            · intro ys hys
              rw [hat, at1 q ho] at hys
              exact (O.kids ys hys).later L ho hys
            · intro k' y' h
              rw [hat, at1 q ho] at h
              simp only [hnone.2, upd] at h
              split at h
              · rename_i ek
                cases h
                refine ⟨by rw [hat, at1 q ho]; exact hcls, by omega, by omega, ?_, ?_, ?_, ?_⟩
                · rw [hxlen, x1, ek]
                · rw [hxlen, x2, hat, at1 q ho]
                · rw [hxlen, x3, hat, at1 q ho]
                · rw [hat, at1 q ho, ek]; exact hf
              · cases h
            · intro k'
              rw [hat, at1 q ho]
              simp only [hnone.2, upd]
              constructor
              · intro h
                cases h
                rw [if_pos rfl]
                rfl
              · intro h
                split at h
                · rename_i ek; rw [ek]
                · cases h
          · by_cases e2 : q = w.objs.length
            · subst e2
              have href : RefOk E.ctx.heap (w2.at w.objs.length).cls (w2.at w.objs.length).ref := by
                rw [hxlen, x1, x2]
                have R := O.ref
                cases hr : (w.at o).ref with
                | elem i =>
                  rw [hr] at R hf
                  have h01 : 0 < i ∧ i < E.ctx.heap.length := by
                    rcases hcls with h | h <;> rw [h] at R
                    · exact R
                    · rcases R with R | ⟨R1, R2⟩
                      · exact R
                      · cases R1
                        rw [show E.ctx.heap.type (.elem 0) = .document from R2] at hf
                        revert hf; cases k <;> simp [Kind.fits]
                  exact ⟨h01.2, fun h => by omega, fun _ => hf⟩
                | item i j => rw [hr] at hf; revert hf; cases k <;> simp [Heap.type, Kind.fits]
                | entry i j => rw [hr] at hf; revert hf; cases k <;> simp [Heap.type, Kind.fits]
              cases hp : (w.at o).parent with
              | none => exact fresh_orphan (by rw [hxlen, x3, hp]) (.inr ⟨k, by rw [hxlen, x1]⟩) (fun q => by
                  exfalso
                  unfold Parsed at q
                  rw [(L.obj 0 I.present).cls] at q
                  have := (O.orphan hp).2 q
                  subst this
                  rcases hcls with h | h <;> rw [q] at h <;> cases h) href (by rw [hxlen, x4]) (by rw [hxlen, x5]) (by rw [hxlen, x6])
              | some p =>
                obtain ⟨hp1, hp2⟩ := O.parent p hp
                have hp3 : (w.at p).cls = .of .section := by rw [hp2]; rcases hcls with h | h <;> rw [h] <;> rfl
                refine fresh_ok (p := p) (fun h => ?_) ?_ (by omega) ?_ href ?_ ?_ ?_
                · rw [hxlen, x2] at h
                  rw [O.top h] at hp
                  cases hp
                · rw [hxlen, x3, hp]
                · rw [hxlen, x1, hne p (by omega), at1 p (by omega)]; exact hp3
                · rw [hxlen, x4]
                · rw [hxlen, x5]
                · rw [hxlen, x6]
            · have hq' : q < w.objs.length := by omega
              refine (I.objs q hq').later L hq' ?_ ?_ ?_ <;> rw [hne q e1, at1 q hq']
        · injection h with h1 h2
          cases h1
          rw [← h2, hat]
          simp [upd]
      · exact ⟨keeps_validation I, fun _ _ h => by
          cases hv : unexpectedElementType E.o E.ctx none (w.at o).ref k.expected <;> rw [hv] at h <;> cases h⟩

end Eno.El
