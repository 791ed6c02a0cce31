import Verif.Proofs.SaysLemmas

/-! # The resolver: what is resolved does not depend on the layout -/

namespace Eno

open Spec

variable {i i' : Str} {h h' : Heap}

/-- What goes wrong, without places. -/
inductive BareFail where
  | cyclicDependency (copy : Nat) (chain : List Nat)
  | missingListForListItem (item : BareSub)
  | missingFieldsetForFieldsetEntry (entry : BareSub)
  | nonSectionElementNotFound (copy : Nat)
  | sectionNotFound (copy : Nat)
  | twoOrMoreTemplatesFound (copy first second : Nat)

def RFail.bare : RFail → BareFail
  | .cyclicDependency c l => .cyclicDependency c l
  | .missingListForListItem x => .missingListForListItem x.bare
  | .missingFieldsetForFieldsetEntry x => .missingFieldsetForFieldsetEntry x.bare
  | .nonSectionElementNotFound c => .nonSectionElementNotFound c
  | .sectionNotFound c => .sectionNotFound c
  | .twoOrMoreTemplatesFound c a b => .twoOrMoreTemplatesFound c a b

/-- Exceptions that only differ in the places. -/
inductive SameExc (i i' : Str) : RExc → RExc → Prop where
  | parse {k k' : RFail} {h h' : Heap} : k'.bare = k.bare → SameHeap i i' h h' → SameExc i i' (.parse k h) (.parse k' h')
  | py (e : PyExc) : SameExc i i' (.py e) (.py e)

/-- Results that only differ in the places. -/
inductive SameRes (i i' : Str) : Except RExc Heap → Except RExc Heap → Prop where
  | ok {h h' : Heap} : SameHeap i i' h h' → SameRes i i' (.ok h) (.ok h')
  | error {x x' : RExc} : SameExc i i' x x' → SameRes i i' (.error x) (.error x')

/-- The same for results that are equal apart from the exceptions. -/
inductive SameVal {α : Type} (i i' : Str) : Except RExc α → Except RExc α → Prop where
  | ok (a : α) : SameVal i i' (.ok a) (.ok a)
  | error {x x' : RExc} : SameExc i i' x x' → SameVal i i' (.error x) (.error x')

/-- Two calls that continue on the results of two others. -/
theorem SameRes.bind {x x' : Except RExc Heap} {f f' : Heap → Except RExc Heap} (R : SameRes i i' x x') (hf : ∀ h h', SameHeap i i' h h' → SameRes i i' (f h) (f' h')) :
    SameRes i i' (match (generalizing := false) x with | .error e => .error e | .ok h => f h) (match (generalizing := false) x' with | .error e => .error e | .ok h => f' h) := by
  cases R with
  | ok H => exact hf _ _ H
  | error E => exact .error E

theorem SameRes.foldlM {α : Type} {f f' : Heap → α → Except RExc Heap} (hf : ∀ a h h', SameHeap i i' h h' → SameRes i i' (f h a) (f' h' a)) :
    ∀ (l : List α) (h h' : Heap), SameHeap i i' h h' → SameRes i i' (l.foldlM f h) (l.foldlM f' h')
  | [], h, h', H => .ok H
  | a :: l, h, h', H => by
    simp only [List.foldlM_cons]
    have R := hf a h h' H
    cases e : f h a <;> cases e' : f' h' a <;> rw [e, e'] at R <;> cases R
    · rename_i E; exact .error E
    · rename_i H; exact SameRes.foldlM hf l _ _ H

theorem SameVal.foldlM {α β : Type} {f f' : β → α → Except RExc β} (hf : ∀ b a, SameVal i i' (f b a) (f' b a)) :
    ∀ (l : List α) (b : β), SameVal i i' (l.foldlM f b) (l.foldlM f' b)
  | [], b => .ok b
  | a :: l, b => by
    simp only [List.foldlM_cons]
    have R := hf b a
    cases e : f b a <;> cases e' : f' b a <;> rw [e, e'] at R <;> cases R
    · rename_i E; exact .error E
    · exact SameVal.foldlM hf l _

/-! ## The single steps -/

theorem same_mirrorTo (H : SameHeap i i' h h') (a b : Nat) : SameHeap i i' (mirrorTo h a b) (mirrorTo h' a b) := by
  unfold mirrorTo
  rw [(H.at b).mirror]
  cases (h.at b).mirror <;>
    exact H.modify a fun E => .ext E.type E.key E.value E.template E.comments E.continuations E.items E.entries E.elements E.parent E.text E.deepCopy E.deepResolve E.copy rfl E.extend

theorem same_setType (H : SameHeap i i' h h') (a : Nat) (t : Ty) : SameHeap i i' (setType h a t) (setType h' a t) :=
  H.modify a fun E => .ext rfl E.key E.value E.template E.comments E.continuations E.items E.entries E.elements E.parent E.text E.deepCopy E.deepResolve E.copy E.mirror E.extend

theorem same_extend (H : SameHeap i i' h h') (a b : Nat) : SameHeap i i' (h.modify a fun e => { e with extend := some b }) (h'.modify a fun e => { e with extend := some b }) :=
  H.modify a fun E => .ext E.type E.key E.value E.template E.comments E.continuations E.items E.entries E.elements E.parent E.text E.deepCopy E.deepResolve E.copy E.mirror rfl

theorem same_uncopy (H : SameHeap i i' h h') (a : Nat) : SameHeap i i' (h.modify a fun e => { e with copy := none }) (h'.modify a fun e => { e with copy := none }) :=
  H.modify a fun E => .ext E.type E.key E.value E.template E.comments E.continuations E.items E.entries E.elements E.parent E.text E.deepCopy E.deepResolve rfl E.mirror E.extend

theorem same_resolved (H : SameHeap i i' h h') (a : Nat) : SameHeap i i' (h.modify a fun e => { e with deepResolve := false }) (h'.modify a fun e => { e with deepResolve := false }) :=
  H.modify a fun E => .ext E.type E.key E.value E.template E.comments E.continuations E.items E.entries E.elements E.parent E.text E.deepCopy rfl E.copy E.mirror E.extend

theorem SameElem.comments_some {e e' : Elem} (E : SameElem i i' e e') : e'.comments.isSome = e.comments.isSome := by
  have := E.comments
  cases h1 : e.comments <;> cases h2 : e'.comments <;> rw [h1, h2] at this <;> simp at this ⊢

theorem same_inherit (H : SameHeap i i' h h') (a b : Nat) : SameHeap i i' (inheritComments h a b) (inheritComments h' a b) := by
  unfold inheritComments
  have ha := (H.at a).comments_some
  have hb := (H.at b).comments_some
  have q : ((h'.at b).comments.isSome ∧ (h'.at a).comments = none) ↔ ((h.at b).comments.isSome ∧ (h.at a).comments = none) := by
    rw [hb, ← Option.not_isSome_iff_eq_none, ha, Option.not_isSome_iff_eq_none]
  split
  · rename_i c
    rw [if_pos (q.2 c)]
    exact H.modify a fun E => .ext E.type E.key E.value E.template (H.at b).comments E.continuations E.items E.entries E.elements E.parent E.text E.deepCopy E.deepResolve E.copy E.mirror E.extend
  · rename_i c
    rw [if_neg (fun x => c (q.1 x))]
    exact H

/-- The first of two lists that only differ in the places. -/
theorem same_subs {l l' : Option (List Sub)} (E : l'.map (·.map Sub.bare) = l.map (·.map Sub.bare)) (H : SameHeap i i' h h') {f : Sub → RFail} (hf : ∀ x x', x'.bare = x.bare → (f x').bare = (f x).bare) :
    SameRes i i' (match (generalizing := false) l with | none => .error (.py .keyError) | some [] => .error (.py .indexError) | some (x :: _) => .error (.parse (f x) h))
      (match (generalizing := false) l' with | none => .error (.py .keyError) | some [] => .error (.py .indexError) | some (x :: _) => .error (.parse (f x) h')) := by
  rcases l with _ | _ | ⟨x, l⟩ <;> rcases l' with _ | _ | ⟨x', l'⟩ <;> simp only [Option.map_none, Option.map_some, List.map_nil, List.map_cons, reduceCtorEq, Option.some.injEq, List.cons.injEq] at E
  · exact .error (.py _)
  · exact .error (.py _)
  · exact .error (.parse (hf _ _ E.1) H)

theorem same_consolidateNonSection (H : SameHeap i i' h h') (a b : Nat) : SameRes i i' (consolidateNonSection h a b) (consolidateNonSection h' a b) := by
  unfold consolidateNonSection
  have K := same_inherit H a b
  simp only
  rw [(K.at a).type, (K.at b).type]
  generalize inheritComments h a b = k at *
  generalize inheritComments h' a b = k' at *
  have R1 := same_subs (K.at a).entries K (f := .missingFieldsetForFieldsetEntry) (fun x x' e => by simp [RFail.bare, e])
  have R2 := same_subs (K.at a).items K (f := .missingListForListItem) (fun x x' e => by simp [RFail.bare, e])
  have M := fun t => same_mirrorTo (same_setType K a t) a b
  have X := same_extend K a b
  split
  · iterate 4 (split; exact .ok (M _))
    exact .ok K
  split
  · split
    · exact .ok X
    split
    · exact R1
    · exact .ok K
  split
  · split
    · exact .ok X
    split
    · exact R2
    · exact .ok K
  · exact .ok K

theorem same_mergeOwn (H : SameHeap i i' h h') (l : List Nat) : mergeOwn h' l = mergeOwn h l := by
  unfold mergeOwn
  simp only [(H.at _).type, (H.at _).key]

theorem same_mergeTemplate (H : SameHeap i i' h h') (l : List Nat) (m : List (Str × Merger)) : mergeTemplate h' l m = mergeTemplate h l m := by
  unfold mergeTemplate
  simp only [(H.at _).type, (H.at _).key]

theorem same_consolidateSections : ∀ (n : Nat) (h h' : Heap) (a b : Nat) (deep : Bool), SameHeap i i' h h' →
    SameRes i i' ((consolidateSections n h a b deep).mapError .py) ((consolidateSections n h' a b deep).mapError .py)
  | 0, h, h', a, b, deep, H => .error (.py _)
  | n + 1, h, h', a, b, deep, H => by
    unfold consolidateSections
    have K := same_inherit H a b
    simp only
    rw [(K.at a).elements]
    generalize inheritComments h a b = k at *
    generalize inheritComments h' a b = k' at *
    have M := same_extend K a b
    split
    · exact .ok (same_mirrorTo K _ _)
    split
    · exact .ok M
    · rw [(M.at b).elements, (M.at a).elements, same_mergeOwn M, same_mergeTemplate M]
      have lift : ∀ (f : Heap → Str × Merger → Except PyExc Heap) (l : List (Str × Merger)) (h : Heap), (l.foldlM f h).mapError RExc.py = l.foldlM (fun h a => (f h a).mapError RExc.py) h := by
        intro f l
        induction l with
        | nil => intro h; rfl
        | cons a l ih =>
          intro h
          simp only [List.foldlM_cons]
          cases f h a with
          | error e => rfl
          | ok h => exact ih h
      rw [lift, lift]
      refine SameRes.foldlM ?_ _ _ _ M
      rintro ⟨key, m⟩ g g' G
      simp only
      split
      · exact same_consolidateSections n _ _ _ _ _ G
      · exact .ok G

theorem same_cyclic (H : SameHeap i i' h h') (e : Nat) (l : List Nat) : SameExc i i' (cyclicDependency h e l) (cyclicDependency h' e l) := by
  unfold cyclicDependency
  simp only
  split
  · rw [(H.at _).template, (H.at _).template]
    split
    · exact .parse rfl H
    split
    · exact .parse rfl H
    · exact .py _
  · exact .py _

theorem same_templateOf {d : Copies} {e e' : Elem} (E : SameElem i i' e e') : templateOf d e' = templateOf d e := by unfold templateOf; rw [E.copy]

theorem same_pending {e e' : Elem} (E : SameElem i i' e e') : e'.pending = e.pending := by unfold Elem.pending; rw [E.copy, E.deepResolve]

theorem same_resolveNonSection (d : Copies) : ∀ (n : Nat) (h h' : Heap) (e : Nat) (prev : List Nat), SameHeap i i' h h' →
    SameRes i i' (resolveNonSection d n h e prev) (resolveNonSection d n h' e prev)
  | 0, h, h', e, prev, H => .error (.py _)
  | n + 1, h, h', e, prev, H => by
    unfold resolveNonSection
    split
    · exact .error (same_cyclic H _ _)
    rw [same_templateOf (H.at e)]
    split
    · exact .error (.py _)
    · rename_i t _
      refine SameRes.bind ?_ ?_
      · rw [(H.at t).copy]
        split
        · exact same_resolveNonSection d n _ _ _ _ H
        · exact .ok H
      · intro g g' G
        exact (same_consolidateNonSection G e t).bind fun k k' K => .ok (same_uncopy K e)

theorem same_resolveSection (d : Copies) : ∀ (n : Nat) (h h' : Heap) (s : Nat) (prev : List Nat), SameHeap i i' h h' →
    SameRes i i' (resolveSection d n h s prev) (resolveSection d n h' s prev)
  | 0, h, h', s, prev, H => .error (.py _)
  | n + 1, h, h', s, prev, H => by
    unfold resolveSection
    split
    · exact .error (same_cyclic H _ _)
    refine SameRes.bind ?_ ?_
    · rw [(H.at s).deepResolve]
      split
      · refine SameRes.bind ?_ fun k k' K => .ok (same_resolved K s)
        rw [(H.at s).elements]
        refine SameRes.foldlM ?_ _ _ _ H
        intro c g g' G
        rw [(G.at c).type, same_pending (G.at c)]
        split
        · exact same_resolveSection d n _ _ _ _ G
        · exact .ok G
      · exact .ok H
    · intro g g' G
      rw [(G.at s).copy, same_templateOf (G.at s)]
      split
      · split
        · exact .error (.py _)
        · rename_i t _
          refine SameRes.bind ?_ ?_
          · rw [same_pending (G.at t)]
            split
            · exact same_resolveSection d n _ _ _ _ G
            · exact .ok G
          · intro k k' K
            rw [(K.at s).deepCopy, K.length]
            have R := same_consolidateSections (i := i) (i' := i') (k.length + 1) k k' s t (k.at s).deepCopy K
            revert R
            generalize consolidateSections (k.length + 1) k s t (k.at s).deepCopy = x
            generalize consolidateSections (k.length + 1) k' s t (k.at s).deepCopy = x'
            intro R
            cases x <;> cases x' <;> simp only [Except.mapError] at R <;> cases R
            · rename_i E; cases E; exact .error (.py _)
            · rename_i E; exact .ok (same_uncopy E s)
      · exact .ok G

theorem same_register (H : SameHeap i i' h h') (d : Copies) (a : Nat) : SameVal i i' (register h d a) (register h' d a) := by
  unfold register
  rw [(H.at a).key, (H.at a).template]
  split
  · exact .ok _
  split
  · exact .ok _
  split
  · split
    · exact .error (.py _)
    · exact .error (.parse rfl H)
  · exact .ok _

theorem same_indexSection (H : SameHeap i i' h h') : ∀ (n s : Nat) (d : Copies × Copies), SameVal i i' (indexSection h n s d) (indexSection h' n s d)
  | 0, s, d => .error (.py _)
  | n + 1, s, d => by
    unfold indexSection
    rw [(H.at s).elements]
    refine SameVal.foldlM ?_ _ _
    intro d a
    rw [(H.at a).type]
    split
    · have R := same_indexSection H n a d
      revert R
      generalize indexSection h n a d = x
      generalize indexSection h' n a d = x'
      intro R
      cases R with
      | error E => exact .error E
      | ok d =>
        have R := same_register H d.1 a
        revert R
        simp only
        generalize register h d.1 a = x
        generalize register h' d.1 a = x'
        intro R
        cases R with
        | error E => exact .error E
        | ok d => exact .ok _
    · have R := same_register H d.2 a
      revert R
      generalize register h d.2 a = x
      generalize register h' d.2 a = x'
      intro R
      cases R with
      | error E => exact .error E
      | ok d => exact .ok _

theorem same_resolveAll {notFound : Nat → RFail} {one one' : Heap → Nat → Except RExc Heap} (ho : ∀ h h' k, SameHeap i i' h h' → SameRes i i' (one h k) (one' h' k)) (d : Copies) (H : SameHeap i i' h h') :
    SameRes i i' (resolveAll notFound one d h) (resolveAll notFound one' d h') := by
  unfold resolveAll
  refine SameRes.foldlM ?_ _ _ _ H
  intro c g g' G
  split
  · split
    · exact .error (.py _)
    · exact .error (.parse rfl G)
  · refine SameRes.foldlM ?_ _ _ _ G
    intro c g g' G
    rw [(G.at c).copy]
    split
    · exact ho _ _ _ G
    · exact .ok G

/-! ## The documents -/

/-- Documents that only differ in the places. -/
structure SameCtx (i i' : Str) (c c' : Ctx) : Prop where
  heap : SameHeap i i' c.heap c'.heap
  copySections : c'.copySections = c.copySections
  copyNonSections : c'.copyNonSections = c.copyNonSections
  input : c.input = i
  input' : c'.input = i'

end Eno
