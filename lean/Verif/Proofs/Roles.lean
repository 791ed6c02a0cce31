import Verif.Proofs.StructureLemmas

/-! # Legal sequences of instructions, line by line -/

namespace Eno

open Spec

/-- What a next line can be added to. -/
inductive Lead where
  | closed | fresh | copied | field | list | fieldset
deriving DecidableEq

/-- After one more line. -/
def Spec.Role.next : Role → Nat × Lead → Option (Nat × Lead)
  | .blank, m => some m
  | .comment, m => some m
  | .element true, m => some (m.1, .field)
  | .element false, m => some (m.1, .fresh)
  | .copy, m => some (m.1, .copied)
  | .multiline, m => some (m.1, .closed)
  | .heading d, m => if 0 < d ∧ d ≤ m.1 + 1 then some (d, .closed) else none
  | .item, m => if m.2 = .fresh ∨ m.2 = .copied ∨ m.2 = .list then some (m.1, .list) else none
  | .entry, m => if m.2 = .fresh ∨ m.2 = .copied ∨ m.2 = .fieldset then some (m.1, .fieldset) else none
  | .continuation, m =>
    if m.2 = .fresh then some (m.1, .field)
    else if m.2 = .field ∨ m.2 = .list ∨ m.2 = .fieldset then some m
    else none

/-- After many lines. -/
def roles : Nat × Lead → List Role → Option (Nat × Lead)
  | m, [] => some m
  | m, r :: rs =>
    match r.next m with
    | none => none
    | some m' => roles m' rs

theorem roles_append (a b : List Role) (m : Nat × Lead) : roles m (a ++ b) = match roles m a with | none => none | some m' => roles m' b := by
  induction a generalizing m with
  | nil => rfl
  | cons r a ih =>
    simp only [List.cons_append, roles]
    cases r.next m with
    | none => rfl
    | some m' => exact ih m'

/-- The same, read off the blocks. -/
def leadOf (es : List Event) : Lead :=
  match (blocks es).getLast? with
  | none => .closed
  | some b =>
    match kindOf b with
    | .field => .field
    | .list => .list
    | .fieldset => .fieldset
    | .empty => if b.map Event.role = [.copy] then .copied else .fresh
    | _ => .closed

variable {es : List Event} {ev : Event}

/-- The last block. -/
theorem final_block : (blocks es).getLast? = none ∨ ∃ gs b, blocks es = gs ++ [b] ∧ (blocks es).getLast? = some b ∧ ∃ e r, b = e :: r ∧ e.role.starts = true := by
  rcases List.eq_nil_or_concat (blocks es) with h | ⟨gs, b, h⟩
  · left; rw [h]; rfl
  · right
    rw [List.concat_eq_append] at h
    refine ⟨gs, b, h, by rw [h]; simp, ?_⟩
    obtain ⟨e, r, h1, h2, _⟩ := blocks_spec (es := es) (b := b) (by rw [h]; simp)
    exact ⟨e, r, h1, h2⟩

theorem leadOf_skip (hc : ev.role.content = false) : leadOf (es ++ [ev]) = leadOf es := by
  unfold leadOf
  rw [blocks_snoc_skip hc]

theorem leadOf_starts (h : ev.role.starts = true) : leadOf (es ++ [ev]) =
    match ev.role with | .element true => .field | .element false => .fresh | .copy => .copied | _ => .closed := by
  unfold leadOf
  rw [blocks_snoc_starts h]
  cases hr : ev.role <;> rw [hr] at h <;> simp [Role.starts] at h <;> simp [kindOf, hr]
  rename_i v
  cases v <;> rfl

/-- The kind of a block with one more line. -/
theorem kindOf_more {e : Event} {r : List Event} : kindOf ((e :: r) ++ [ev]) =
    if r = [] ∧ kindOf [e] = .empty then (match ev.role with | .item => .list | .entry => .fieldset | .continuation => .field | _ => .empty) else kindOf (e :: r) := by
  cases r with
  | nil =>
    simp only [kindOf, List.cons_append, List.nil_append, List.head?_cons, Option.map_some, List.head?_nil, Option.map_none, true_and]
    cases h : e.role with
    | element v => cases v <;> cases h' : ev.role <;> simp
    | _ => first | (cases h' : ev.role <;> simp; done) | simp
  | cons x r =>
    simp only [kindOf, List.cons_append, List.head?_cons, reduceCtorEq, false_and, if_false]

theorem kind_of_one {e : Event} :
    kindOf [e] = match e.role with | .heading _ => .section | .multiline => .mlBegin | .element true => .field | _ => .empty := by
  simp only [kindOf, List.head?_nil, Option.map_none]
  cases e.role <;> rfl

theorem next_legal (hd : ∀ d, ev.role = .heading d → 0 < d) :
    (Legal es ev ∧ ev.role.next (depthOf es, leadOf es) = some (depthOf (es ++ [ev]), leadOf (es ++ [ev]))) ∨
    (¬ Legal es ev ∧ ev.role.next (depthOf es, leadOf es) = none) := by
  by_cases hc : ev.role.content = false
  · left
    rw [leadOf_skip hc, depthOf_snoc]
    cases hr : ev.role <;> rw [hr] at hc <;> simp [Role.content] at hc <;> simp [Role.next, Legal, hr]
  by_cases hs : ev.role.starts = true
  · rw [leadOf_starts hs, depthOf_snoc]
    cases hr : ev.role <;> rw [hr] at hs <;> simp [Role.starts] at hs
    · rename_i v; left; cases v <;> simp [Role.next, Legal, hr]
    · left; simp [Role.next, Legal, hr]
    · rename_i d
      have := hd d hr
      by_cases h : d ≤ depthOf es + 1
      · left; simp [Role.next, Legal, hr, h, this]
      · right; simp [Role.next, Legal, hr]; omega
    · left; simp [Role.next, Legal, hr]
  have hcc : ev.role.content = true := by simpa using hc
  have hss : ev.role.starts = false := by simpa using hs
  rw [depthOf_snoc]
  rcases final_block (es := es) with hn | ⟨gs, b, hb, hl, e, r, rfl, he⟩
  · right
    have : leadOf es = .closed := by unfold leadOf; rw [hn]
    rw [this]
    cases hr : ev.role <;> rw [hr] at hcc hss <;> simp [Role.content, Role.starts] at hcc hss <;> simp [Role.next, Legal, hr, hn]
  · have e2 : leadOf (es ++ [ev]) = (match kindOf ((e :: r) ++ [ev]) with
        | .field => .field
        | .list => .list
        | .fieldset => .fieldset
        | .empty => if ((e :: r) ++ [ev]).map Event.role = [.copy] then .copied else .fresh
        | _ => .closed) := by
      conv => lhs; unfold leadOf
      rw [blocks_snoc_joins hcc hss hb]
      simp
    have e1 : leadOf es = (match kindOf (e :: r) with
        | .field => .field
        | .list => .list
        | .fieldset => .fieldset
        | .empty => if (e :: r).map Event.role = [.copy] then .copied else .fresh
        | _ => .closed) := by
      conv => lhs; unfold leadOf
      rw [hl]
    rw [e2, e1, kindOf_more]
    by_cases hr0 : r = []
    · subst hr0
      rw [kind_of_one]
      cases hr : ev.role <;> rw [hr] at hcc hss <;> simp [Role.content, Role.starts] at hcc hss <;>
        cases hq : e.role <;> rw [hq] at he <;> simp [Role.starts] at he <;>
        (try (rename_i v; cases v)) <;> simp [Role.next, Legal, hr, hl, kind_of_one, hq]
    · have hk : kindOf (e :: r) ≠ .empty := by
        obtain ⟨_, _, h1, _, h3⟩ := blocks_spec (es := es) (b := e :: r) (by rw [hb]; simp)
        injection h1 with h1 h1'; subst h1 h1'
        cases r with
        | nil => exact absurd rfl hr0
        | cons x r =>
          have := h3 x (by simp)
          unfold kindOf
          simp only [List.head?_cons, Option.map_some]
          cases hq : e.role with
          | element v => cases v <;> rcases this with h | h | h <;> simp [h]
          | _ => rcases this with h | h | h <;> simp [h]
      simp only [hr0, false_and, if_false]
      cases hr : ev.role <;> rw [hr] at hcc hss <;> simp [Role.content, Role.starts] at hcc hss <;>
        cases hq : kindOf (e :: r) <;> simp [Role.next, Legal, hr, hl, hq] <;> first | exact absurd hq hk | exact fun h => absurd h hr0

theorem allLegal_snoc_iff : AllLegal (es ++ [ev]) ↔ AllLegal es ∧ Legal es ev := by
  constructor
  · intro h
    refine ⟨?_, h es ev [] rfl⟩
    intro pre x post hx
    exact h pre x (post ++ [ev]) (by rw [hx]; simp)
  · rintro ⟨h1, h2⟩ pre x post h
    rcases List.eq_nil_or_concat post with hp | ⟨p', y, hp⟩
    · subst hp
      obtain ⟨rfl, hx⟩ := List.append_inj' h rfl
      simp at hx; subst hx; exact h2
    · subst hp
      rw [List.concat_eq_append, ← List.cons_append, ← List.append_assoc] at h
      exact h1 pre x p' (List.append_inj' h rfl).1

/-- All lines are legal if and only if line after line can be added. -/
theorem roles_legal (hd : ∀ ev ∈ es, ∀ d, ev.role = .heading d → 0 < d) :
    (AllLegal es ∧ roles (0, .closed) (es.map Event.role) = some (depthOf es, leadOf es)) ∨
    (¬ AllLegal es ∧ roles (0, .closed) (es.map Event.role) = none) := by
  induction es using snoc_induction with
  | h0 => left; exact ⟨by intro pre ev post h; simp at h, rfl⟩
  | h1 es ev ih =>
    rw [List.map_append, List.map_singleton, roles_append, allLegal_snoc_iff]
    rcases ih (fun e he => hd e (by simp [he])) with ⟨h1, h2⟩ | ⟨h1, h2⟩
    · rw [h2]
      simp only [roles]
      rcases next_legal (hd ev (by simp)) with ⟨h3, h4⟩ | ⟨h3, h4⟩ <;> rw [h4]
      · exact .inl ⟨⟨h1, h3⟩, rfl⟩
      · exact .inr ⟨fun h => h3 h.2, rfl⟩
    · rw [h2]
      exact .inr ⟨fun h => h1 h.1, rfl⟩

end Eno
