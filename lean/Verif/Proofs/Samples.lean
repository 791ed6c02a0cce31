import Verif.Spec.Structure
import Verif.Spec.Lines

/-!
# Computing the specifications on samples

`Trace`, `AllLegal` and `NoNl` are propositions; the functions here compute them. They serve the concrete cases that stand beside the
theorems.
-/

namespace Eno
open Spec

/-- The opening line of a multiline field. -/
def multiOf : Body → Option (Cap × Cap)
  | .multiline op key => some (op, key)
  | _ => none

/-- `Trace`, computed (with a bound on the number of instructions). -/
def traceOf (input : Str) : Nat → Nat → Nat → Option (List Event × Ending)
  | 0, _, _ => none
  | f + 1, i, n =>
    if input.length ≤ i then some ([], .finished n) else
    match scan i (input.drop i) with
    | none => some ([], .invalid n i)
    | some t =>
      match multiOf t.body with
      | none => (traceOf input f (t.fin + 1) (n + 1)).map fun p => (.line n i t :: p.1, p.2)
      | some (op, key) =>
        match findTerminator op.text key.text t.fin (input.drop t.fin) with
        | none => some ([], .unterminated n i t.fin op key)
        | some T =>
          (traceOf input f (T.fin + 1) (n + (mlBody input n t.fin T.start).length + 2)).map
            fun p => (.multi n i t.fin op key (mlBody input n t.fin T.start) T :: p.1, p.2)

theorem traceOf_sound {input : Str} : ∀ {f i n : Nat} {es : List Event} {r : Ending}, traceOf input f i n = some (es, r) → Trace input i n es r
  | 0, _, _, _, _, h => by cases h
  | f + 1, i, n, es, r, h => by
    rw [traceOf] at h
    split at h
    · next hi =>
      cases h
      exact .done hi
    · next hi =>
      have hi : i < input.length := by omega
      split at h
      · next hs =>
        cases h
        exact .bad hi hs
      · next t hs =>
        split at h
        · next hm =>
          obtain ⟨p, hp, hq⟩ := Option.map_eq_some_iff.1 h
          cases hq
          refine .line hi hs ?_ (traceOf_sound hp)
          intro op key hb
          rw [hb] at hm
          cases hm
        · next op key hm =>
          have hb : t = ⟨t.fin, .multiline op key⟩ := by
            obtain ⟨fin, body⟩ := t
            cases body <;> simp only [multiOf] at hm <;> cases hm
            rfl
          rw [hb] at hs
          split at h
          · next ht =>
            cases h
            exact .unterminated hi hs ht
          · next T ht =>
            obtain ⟨p, hp, hq⟩ := Option.map_eq_some_iff.1 h
            cases hq
            exact .multi hi hs ht (traceOf_sound hp)

/-- `Legal`, computed. -/
def legalB (es : List Event) (e : Event) : Bool :=
  match e.role with
  | .item => match (blocks es).getLast? with
    | some b => decide (kindOf b ∈ [Ty.list, .empty])
    | none => false
  | .entry => match (blocks es).getLast? with
    | some b => decide (kindOf b ∈ [Ty.fieldset, .empty])
    | none => false
  | .continuation => match (blocks es).getLast? with
    | some b => decide (kindOf b ∈ [Ty.field, .empty, .list, .fieldset] ∧ b.map Event.role ≠ [.copy])
    | none => false
  | .heading d => decide (d ≤ depthOf es + 1)
  | _ => true

theorem legalB_iff {es : List Event} {e : Event} : legalB es e = true ↔ Legal es e := by
  unfold legalB Legal
  cases e.role <;> cases (blocks es).getLast? <;> simp

/-- `AllLegal`, computed. -/
def allLegalB (es : List Event) : Bool := (List.range es.length).all fun k => (es[k]?).all fun e => legalB (es.take k) e

theorem allLegalB_sound {es : List Event} (h : allLegalB es = true) : AllLegal es := by
  intro pre ev post he
  have hk : pre.length < es.length := by rw [he]; simp
  have := List.all_eq_true.1 h pre.length (List.mem_range.2 hk)
  rw [he] at this
  simp only [List.getElem?_append_right (Nat.le_refl _), Nat.sub_self, List.getElem?_cons_zero, Option.all_some, List.take_left'] at this
  exact legalB_iff.1 (by simpa using this)

/-- A sample of a whole reading. -/
theorem traceSample {input : Str} (f : Nat) {p : List Event → Ending → Bool} (h : (traceOf input f 0 0).any (fun x => p x.1 x.2) = true) :
    ∃ es r, Trace input 0 0 es r ∧ p es r = true := by
  cases ht : traceOf input f 0 0 with
  | none => rw [ht] at h; cases h
  | some x => rw [ht] at h; exact ⟨x.1, x.2, traceOf_sound ht, h⟩

/-- A sample of an instruction with what comes before it. -/
theorem traceCut {input : Str} (f k : Nat) {p : List Event → Event → Bool}
    (h : (traceOf input f 0 0).any (fun x => (x.1[k]?).any fun ev => allLegalB (x.1.take k) && p (x.1.take k) ev) = true) :
    ∃ pre ev post r, Trace input 0 0 (pre ++ ev :: post) r ∧ AllLegal pre ∧ p pre ev = true := by
  cases ht : traceOf input f 0 0 with
  | none => rw [ht] at h; cases h
  | some x =>
    rw [ht] at h
    simp only [Option.any_some] at h
    cases hk : x.1[k]? with
    | none => rw [hk] at h; cases h
    | some ev =>
      rw [hk] at h
      simp only [Option.any_some, Bool.and_eq_true] at h
      refine ⟨x.1.take k, ev, x.1.drop (k + 1), x.2, ?_, allLegalB_sound h.1, h.2⟩
      obtain ⟨hl, hg⟩ := List.getElem?_eq_some_iff.1 hk
      have : x.1.take k ++ ev :: x.1.drop (k + 1) = x.1 := by
        rw [← hg, List.getElem_cons_drop, List.take_append_drop]
      rw [this]
      exact traceOf_sound ht

/-- `NoNl`, computed. -/
theorem noNl_of {input : Str} {b e : Nat} (h : '\n' ∉ (input.take e).drop b) : NoNl input b e := by
  intro k h1 h2 hk
  apply h
  rw [List.mem_iff_getElem?]
  refine ⟨k - b, ?_⟩
  rw [List.getElem?_drop, List.getElem?_take, show b + (k - b) = k by omega, if_pos h2]
  exact hk

end Eno
