import Verif.Spec.Aside
import Verif.Proofs.WorldAgreeCalls

/-! # No program depends on the reporter and on the layout -/

namespace Eno.El

open Spec

variable {talk : Prop} {w : World} {o : Nat} {E : Env} {E' : Env} {got got' : List ErrObj} {look : ErrObj → ErrObj}

theorem resAgree_seen (hk : ∀ e e', SameCause E E' e e' → look e' = look e) {r r' : Except Exc Val} (h : ResAgree E E' (ValAgree E E') r r') :
    seenResult look r' = seenResult look r ∧ Both (SameCause E E') (errorsOf r) (errorsOf r') := by
  cases h with
  | ok h => exact ⟨congrArg Except.ok (h.1 look hk), h.2⟩
  | error h =>
    cases h with
    | validation h => exact ⟨by simp only [seenResult, Exc.seen, hk _ _ h], .cons h .nil⟩
    | py => exact ⟨rfl, .nil⟩
    | valueError => exact ⟨rfl, .nil⟩

theorem missing_name_ok (want : Option Want) (n : MsgName) (hn : n = .expectedFieldsetEntry ∨ n = .expectedListItem) : (match want with
      | some (.kind .field) => MsgName.missingField
      | some (.kind .fieldset) => .missingFieldset
      | some (.kind .list) => .missingList
      | some (.kind .section) => .missingSection
      | _ => .missingElement) ≠ n := by
  rcases hn with rfl | rfl <;> rcases want with _ | _ | k <;> (try cases k) <;> decide

theorem missingError_agree {α β : Type} {R : α → β → Prop} (T : Setting talk E E') (I : Inv E w) : ∀ x : Missing, AgreeAt E E' R (missingError E x : Api α) (missingError E' x : Api β) w
  | .inside p _ _ => by unfold missingError; exact missingError_agree T I p
  | .under s want key => by
    unfold missingError
    have A := agree_raise T (w := w) (R := R) (v := .missingElement key (w.at s).ref.idx (match want with
      | some (.kind .field) => .missingField
      | some (.kind .fieldset) => .missingFieldset
      | some (.kind .list) => .missingList
      | some (.kind .section) => .missingSection
      | _ => .missingElement)) ⟨idx_lt T.env I, missing_name_ok _ _ (.inl rfl), missing_name_ok _ _ (.inr rfl)⟩
    exact ⟨A.world, A.res⟩

/-- A call that does nothing. -/
def Idle {α : Type} (m : Api α) : Prop := ∀ w, (m w).2 = w

theorem missingError_idle {α : Type} : ∀ x : Missing, Idle (missingError E x : Api α)
  | .inside p _ _ => by unfold missingError; exact missingError_idle p
  | .under s want key => by
    intro w
    unfold missingError
    rw [bind_ok obj_run]
    generalize missingElement E.o E.ctx key (w.at s).ref.idx _ = x
    cases x <;> rfl

theorem runMissing_idle (x : Missing) (m : Method) : Idle (runMissing E x m) := by
  have e := missingError_idle (E := E) (α := Val) x
  have p : ∀ v : Val, Idle (pure v : Api Val) := fun _ _ => rfl
  have n : Idle (noMethod : Api Val) := fun _ => rfl
  unfold runMissing
  split <;> first
    | exact n
    | exact p _
    | exact e
    | (split <;> first | exact p _ | exact e)

theorem runMissing_world (x : Missing) (m : Method) : (runMissing E x m w).2 = w := runMissing_idle x m w

theorem runMissing_agree (T : Setting talk E E') (I : Inv E w) (x : Missing) (m : Method) :
    AgreeAt E E' (ValAgree E E') (runMissing E x m) (runMissing E' x m) w := by
  have e := missingError_agree (R := ValAgree E E') T I x
  have p : ∀ {v : Val}, v.errors = [] → AgreeAt E E' (ValAgree E E') (pure v) (pure v) w := fun h => agree_pure (valAgree_plain h)
  unfold runMissing
  split <;> first
    | exact agree_noMethod
    | exact p rfl
    | exact e
    | (split <;> first | exact e | exact p rfl)

theorem asMessage_agree {m m' : Api Val} (h : Keeps E w (m w).2 ∧ AgreeAt E E' (ValAgree E E') m m' w) :
    Keeps E w (asMessage m w).2 ∧ AgreeAt E E' Eq (asMessage m) (asMessage m') w := by
  unfold asMessage
  refine ⟨keeps_bind h.1 fun v w1 _ I1 _ => ?_, agree_bind h.1 h.2 fun v v' w1 _ I1 _ r => ?_⟩
  · cases v <;> exact .refl I1
  · have h1 := r.1 (fun _ => ⟨.missingComment, [], ⟨⟨0, 0, 0⟩, ⟨0, 0, 0⟩⟩⟩) fun _ _ _ => rfl
    cases v <;> cases v' <;> first
      | exact agree_py
      | (simp only [Val.seen] at h1; cases h1; exact agree_pure rfl)
      | (simp only [Val.seen] at h1; cases h1)

mutual
theorem exec_agree (T : Setting talk E E') (hk : ∀ e e', SameCause E E' e e' → look e' = look e) : ∀ (p : Program), talk ∨ p.Aside → ∀ (got got' : List ErrObj), Both (SameCause E E') got got' → ∀ w, Inv E w →
    Keeps E w (p.execSeen look E got w).2 ∧ AgreeAt E E' (ValAgree E E') (p.execSeen look E got) (p.execSeen look E' got') w
  | .ret v, _, got, got', _, w, I => by
    unfold Program.execSeen
    by_cases h : v.errors = []
    · exact ⟨by rw [if_pos h]; exact .refl I, by rw [if_pos h], by rw [if_pos h]; exact .ok (valAgree_plain h)⟩
    · exact ⟨by rw [if_neg h]; exact .refl I, by rw [if_neg h], by rw [if_neg h]; exact .error .py⟩
  | .give n, _, got, got', hg, w, I => by
    unfold Program.execSeen
    rcases hg.get n with ⟨a, b, h1, h2, h3⟩ | ⟨h1, h2⟩
    · exact ⟨by rw [h1]; exact .refl I, by rw [h1, h2], by rw [h1, h2]; exact .ok (valAgree_error h3)⟩
    · exact ⟨by rw [h1]; exact .refl I, by rw [h1, h2], by rw [h1, h2]; exact .error .py⟩
  | .raise e, _, got, got', _, w, I => by unfold Program.execSeen; exact ⟨.refl I, rfl, .error .py⟩
  | .reject s, _, got, got', _, w, I => by unfold Program.execSeen; exact ⟨.refl I, rfl, .error .valueError⟩
  | .again n, _, got, got', hg, w, I => by
    unfold Program.execSeen
    rcases hg.get n with ⟨a, b, h1, h2, h3⟩ | ⟨h1, h2⟩
    · exact ⟨by rw [h1]; exact .refl I, by rw [h1, h2], by rw [h1, h2]; exact .error (.validation h3)⟩
    · exact ⟨by rw [h1]; exact .refl I, by rw [h1, h2], by rw [h1, h2]; exact .error .py⟩
  | .call o m next, ha, got, got', hg, w, I => by
    unfold Program.execSeen
    have hm := method_agree T hk m (ha.imp id fun q => q.1) got got' hg
    have K := run_keeps T.env I o hm.polite
    obtain ⟨A1, A2⟩ := run_agree T I o hm
    obtain ⟨B1, B2⟩ := resAgree_seen hk A2
    obtain ⟨k, a⟩ := exec_agree T hk (next (seenResult look (run E o (m.method look E got) w).1)) (ha.imp id fun q => q.2 _) _ _ (hg.append B2) _ K.inv
    refine ⟨K.trans k, ?_, ?_⟩
    · simp only [B1, A1]; exact a.world
    · simp only [B1, A1]; exact a.res
  | .missing x m next, ha, got, got', hg, w, I => by
    unfold Program.execSeen
    obtain ⟨A1, A2⟩ := runMissing_agree T I x m
    obtain ⟨B1, B2⟩ := resAgree_seen hk A2
    have I2 : Inv E (runMissing E x m w).2 := by rw [runMissing_world]; exact I
    obtain ⟨k, a⟩ := exec_agree T hk (next (seenResult look (runMissing E x m w).1)) (ha.imp id fun q => q _) _ _ (hg.append B2) _ I2
    refine ⟨?_, ?_, ?_⟩
    · rw [runMissing_world] at k; simp only [runMissing_world]; exact k
    · simp only [B1, A1]; exact a.world
    · simp only [B1, A1]; exact a.res

theorem method_agree (T : Setting talk E E') (hk : ∀ e e', SameCause E E' e e' → look e' = look e) : ∀ (m : Act), talk ∨ m.Aside → ∀ (got got' : List ErrObj), Both (SameCause E E') got got' → MethodAgree talk E E' (m.method look E got) (m.method look E' got')
  | .raw, ha, _, _, _ => .raw (ha.elim id False.elim)
  | .repr, _, _, _, _ => .repr
  | .touch, _, _, _, _ => .touch
  | .to _, _, _, _, _ => .to
  | .yields _, _, _, _, _ => .yields
  | .toEntry, _, _, _, _ => .toEntry
  | .toItem, _, _, _, _ => .toItem
  | .yieldsEntry, _, _, _, _ => .yieldsEntry
  | .yieldsItem, _, _, _, _ => .yieldsItem
  | .items, _, _, _, _ => .items
  | .length, _, _, _, _ => .length
  | .entries _, _, _, _, _ => .entries
  | .entry _ _, _, _, _, _ => .entry
  | .allEntriesRequired _, _, _, _, _ => .allEntriesRequired
  | .one _ _ _, _, _, _, _ => .one
  | .many _ _, _, _, _, _ => .many
  | .allElementsRequired _, _, _, _, _ => .allElementsRequired
  | .parent, _, _, _, _ => .parent
  | .assertAllTouched none _ _, _, _, _, _ => .assertAllTouched .none
  | .assertAllTouched (some _) _ _, _, _, _, _ => .assertAllTouched (.some .text)
  | .commentError _, ha, _, _, _ => .commentError (ha.elim id False.elim) .text
  | .error _, _, _, _, _ => .error .text
  | .keyError _, _, _, _, _ => .keyError .text
  | .valueError _, _, _, _, _ => .valueError .text
  | .comment _ f, ha, got, got', hg => .comment (ha.elim id False.elim) fun s w I => exec_agree T hk (f s) (ha.imp id False.elim) got got' hg w I
  | .key f, ha, got, got', hg => .key fun s w I => exec_agree T hk (f s) (ha.imp id fun q => q s) got got' hg w I
  | .value _ f, ha, got, got', hg => .value fun s w I => exec_agree T hk (f s) (ha.imp id fun q => q s) got got' hg w I
  | .values _ f, ha, got, got', hg => .values fun s w I => exec_agree T hk (f s) (ha.imp id fun q => q s) got got' hg w I
  | .assertAllTouchedBy f _ _, ha, got, got', hg => .assertAllTouched (.some (.fn fun y w I => asMessage_agree (exec_agree T hk (f y) (ha.imp id fun q => q y) got got' hg w I)))
  | .commentErrorBy f, ha, got, got', hg => .commentError (ha.elim id False.elim) (.fn fun s w I => asMessage_agree (exec_agree T hk (f s) (ha.imp id False.elim) got got' hg w I))
  | .errorBy f, ha, got, got', hg => .error (.fn fun s w I => asMessage_agree (exec_agree T hk (f s) (ha.imp id fun q => q s) got got' hg w I))
  | .keyErrorBy f, ha, got, got', hg => .keyError (.fn fun s w I => asMessage_agree (exec_agree T hk (f s) (ha.imp id fun q => q s) got got' hg w I))
  | .valueErrorBy f, ha, got, got', hg => .valueError (.fn fun s w I => asMessage_agree (exec_agree T hk (f s) (ha.imp id fun q => q s) got got' hg w I))
end

end Eno.El
