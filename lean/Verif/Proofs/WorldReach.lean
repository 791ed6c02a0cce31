import Verif.Proofs.WorldLoad
import Verif.Spec.Access

/-! # Whatever a program does, the invariant holds -/

namespace Eno.El

variable {w w' : World} {o : Nat} {E : Env} {input : Str}

theorem fair_polite {R : World → World → Prop} (hR : ∀ w w', Inv E w → R w w' → Keeps E w w') {m : Method} (h : m.Fair R) : m.Polite E := by
  have arg : ∀ {α} {m : MsgArg α}, m.Fair R → m.Polite E := fun {_ m} h => by
    cases m with
    | text s => trivial
    | fn f => exact fun a w I => hR _ _ I (h a w)
  cases m with
  | assertAllTouched m only skip =>
    cases m with
    | none => trivial
    | some m => exact arg (m := m) h
  | comment r f => exact fun a w I => hR _ _ I (h a w)
  | key f => exact fun a w I => hR _ _ I (h a w)
  | value r f => exact fun a w I => hR _ _ I (h a w)
  | values r f => exact fun a w I => hR _ _ I (h a w)
  | commentError m => exact arg (m := m) h
  | error m => exact arg (m := m) h
  | keyError m => exact arg (m := m) h
  | valueError m => exact arg (m := m) h
  | _ => trivial

theorem calls_keeps (V : EnvOk E) {R : World → World → Prop} (hR : ∀ w w', Inv E w → R w w' → Keeps E w w') (I : Inv E w) (h : Calls E R w w') : Keeps E w w' := by
  induction h with
  | done => exact .refl I
  | call o m _ hm ih => exact ih.trans (run_keeps V ih.inv o (fair_polite hR hm))

theorem steps_keeps (V : EnvOk E) : ∀ (n : Nat) (w w' : World), Inv E w → Steps E n w w' → Keeps E w w'
  | 0, _, _, I, h => calls_keeps V (fun _ _ I e => by subst e; exact .refl I) I h
  | n + 1, _, _, I, h => calls_keeps V (steps_keeps V n) I h

theorem Leads.keeps (V : EnvOk E) (I : Inv E w) (h : Leads E w w') : Keeps E w w' := h.elim fun n h => steps_keeps V n w w' I h

theorem Begun.inv (V : EnvOk E) (h : Begun E w) : Inv E w := by
  cases h with
  | parsed => exact inv_start V
  | found h => exact inv_found V (V.found _ _ _ _ h)

theorem Reach.inv (V : EnvOk E) (h : Reach E w) : Inv E w := by
  obtain ⟨w0, h0, h⟩ := h
  exact (Leads.keeps V (h0.inv V) h).inv

theorem Calls.mono {R S : World → World → Prop} (hRS : ∀ w w', R w w' → S w w') (h : Calls E R w w') : Calls E S w w' := by
  induction h with
  | done => exact .done
  | call o m _ hm ih =>
    refine .call o m ih ?_
    have arg : ∀ {α} {m : MsgArg α}, m.Fair R → m.Fair S := fun {_ m} h => by
      cases m with
      | text s => trivial
      | fn f => exact fun a w => hRS _ _ (h a w)
    cases m with
    | assertAllTouched m only skip =>
      cases m with
      | none => trivial
      | some m => exact arg (m := m) hm
    | comment r f => exact fun a w => hRS _ _ (hm a w)
    | key f => exact fun a w => hRS _ _ (hm a w)
    | value r f => exact fun a w => hRS _ _ (hm a w)
    | values r f => exact fun a w => hRS _ _ (hm a w)
    | commentError m => exact arg (m := m) hm
    | error m => exact arg (m := m) hm
    | keyError m => exact arg (m := m) hm
    | valueError m => exact arg (m := m) hm
    | _ => trivial

theorem Steps.step : ∀ (n : Nat) (w w' : World), Steps E n w w' → Steps E (n + 1) w w'
  | 0, _, _, h => Calls.mono (fun _ _ e => by subst e; exact .done) h
  | n + 1, _, _, h => Calls.mono (Steps.step n) h

theorem Steps.le {n m : Nat} (hn : n ≤ m) (h : Steps E n w w') : Steps E m w w' := by
  induction hn with
  | refl => exact h
  | step _ ih => exact Steps.step _ _ _ ih

theorem Calls.trans {R : World → World → Prop} {w1 : World} (a : Calls E R w w1) (b : Calls E R w1 w') : Calls E R w w' := by
  induction b with
  | done => exact a
  | call o m _ hm ih => exact .call o m ih hm

theorem Steps.trans {n : Nat} {w1 : World} (a : Steps E n w w1) (b : Steps E n w1 w') : Steps E n w w' := by
  cases n <;> exact Calls.trans a b

theorem Leads.trans {w1 : World} (a : Leads E w w1) (b : Leads E w1 w') : Leads E w w' := by
  obtain ⟨n, a⟩ := a
  obtain ⟨m, b⟩ := b
  exact ⟨max n m, (a.le (Nat.le_max_left n m)).trans (b.le (Nat.le_max_right n m))⟩

theorem Leads.refl (w : World) : Leads E w w := ⟨0, .done⟩

theorem Reach.leads (a : Reach E w) (b : Leads E w w') : Reach E w' := by
  obtain ⟨w0, h0, a⟩ := a
  exact ⟨w0, h0, Leads.trans a b⟩

/-- After `parse`. -/
theorem Leads.reach (a : Leads E World.start w) : Reach E w := ⟨_, .parsed, a⟩

theorem AfterParse.reach (a : AfterParse E w) : Reach E w := ⟨_, .parsed, a⟩

theorem AfterParse.leads (a : AfterParse E w) (b : Leads E w w') : AfterParse E w' := Leads.trans a b

/-- The document is the first object. -/
theorem AfterParse.root (V : EnvOk E) (a : AfterParse E w) : 0 < w.objs.length ∧ (w.at 0).cls = .of .section ∧ (w.at 0).ref = .elem 0 ∧ (w.at 0).parent = none := by
  have K := Leads.keeps V (inv_start V) a
  have L := K.later.obj 0 (by simp [World.start])
  exact ⟨K.inv.present, L.cls, L.ref, L.parent⟩

/-- A call with functions that do nothing but return or raise. -/
theorem Leads.one {m : Method} (hm : m.Fair Eq) (o : Nat) : Leads E w (run E o m w).2 := ⟨0, .call o m .done hm⟩

end Eno.El
