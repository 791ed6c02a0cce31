import Verif.Spec.Objects

/-! # Objects: what calls keep -/

namespace Eno.El

variable {α β : Type} {w w' w'' : World} {o y : Nat} {E : Env}

/-! ## Calls -/

theorem pure_run (a : α) : (pure a : Api α) w = (.ok a, w) := rfl

theorem bind_run (m : Api α) (f : α → Api β) : (m >>= f) w = match m w with
    | (.ok a, w) => f a w
    | (.error e, w) => (.error e, w) := rfl

theorem map_run (m : Api α) (f : α → β) : (f <$> m) w = match m w with
    | (.ok a, w) => (.ok (f a), w)
    | (.error e, w) => (.error e, w) := rfl

theorem bind_ok {m : Api α} {f : α → Api β} {a : α} (h : m w = (.ok a, w')) : (m >>= f) w = f a w' := by rw [bind_run, h]

theorem bind_error {m : Api α} {f : α → Api β} {e : Exc} (h : m w = (.error e, w')) : (m >>= f) w = (.error e, w') := by rw [bind_run, h]

theorem obj_run : obj o w = (.ok (w.at o), w) := rfl

/-! ## Objects after changes -/

theorem at_assign_self {f : Obj → Obj} (h : o < w.objs.length) : (assign o f w).2.at o = f (w.at o) := by
  simp [assign, World.at, h]

theorem at_assign_ne {f : Obj → Obj} (h : y ≠ o) : (assign o f w).2.at y = w.at y := by
  simp [assign, World.at, Ne.symm h]

theorem len_assign {f : Obj → Obj} : (assign o f w).2.objs.length = w.objs.length := by simp [assign]

theorem len_create {xs : List Obj} : (create xs w).2.objs.length = w.objs.length + xs.length := by simp [create]

theorem at_create_lt {xs : List Obj} (h : o < w.objs.length) : (create xs w).2.at o = w.at o := by
  simp only [create, World.at, List.getD_eq_getElem?_getD]
  rw [List.getElem?_append_left h]

theorem at_create_ge {xs : List Obj} {k : Nat} (h : k < xs.length) : (create xs w).2.at (w.objs.length + k) = xs[k] := by
  simp [create, World.at, h]

theorem at_out (h : w.objs.length ≤ o) : w.at o = default := by
  simp [World.at, List.getElem?_eq_none h]

/-! ## Later -/

theorem Obj.Later.refl (x : Obj) : x.Later x := ⟨rfl, rfl, rfl, id, fun _ h => ⟨h, rfl⟩, fun _ _ h => h, fun _ h => h⟩

theorem Obj.Later.trans {x y z : Obj} (a : x.Later y) (b : y.Later z) : x.Later z where
  cls := b.cls.trans a.cls
  ref := b.ref.trans a.ref
  parent := b.parent.trans a.parent
  touched h := b.touched (a.touched h)
  children ys h := by
    obtain ⟨h1, h2⟩ := a.children ys h
    obtain ⟨h3, h4⟩ := b.children ys h1
    exact ⟨h3, h4.trans h2⟩
  made k o h := b.made k o (a.made k o h)
  yielded k h := b.yielded k (a.yielded k h)

theorem Later.refl (w : World) : Later w w := ⟨Nat.le_refl _, fun _ _ => .refl _⟩

theorem Later.trans (a : Later w w') (b : Later w' w'') : Later w w'' where
  len := Nat.le_trans a.len b.len
  obj o h := (a.obj o h).trans (b.obj o (Nat.lt_of_lt_of_le h a.len))

theorem IsA.later {c : Cls} (L : Later w w') (h : IsA w o c) : IsA w' o c := ⟨Nat.lt_of_lt_of_le h.1 L.len, by rw [(L.obj o h.1).cls]; exact h.2⟩

theorem later_assign {f : Obj → Obj} (h : o < w.objs.length → (w.at o).Later (f (w.at o))) : Later w (assign o f w).2 where
  len := by rw [len_assign]; omega
  obj y hy := by
    by_cases e : y = o
    · subst e; rw [at_assign_self hy]; exact h hy
    · rw [at_assign_ne e]; exact .refl _

theorem later_create (xs : List Obj) : Later w (create xs w).2 where
  len := by rw [len_create]; omega
  obj y hy := by rw [at_create_lt hy]; exact .refl _

end Eno.El
