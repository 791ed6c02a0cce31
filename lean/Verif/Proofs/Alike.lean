import Verif.Proofs.HeapLemmas
import Verif.Proofs.AnalyzerSteps
import Verif.Context
import Verif.Spec.Sayings

/-! # The analyzer: what is recorded does not depend on the layout -/

namespace Eno

open Spec

variable {i i' : Str} {s s' : AS} {h h' : Heap}

/-- A comment without its place. -/
def Comment.bare (c : Comment) : Option Str × Except PyExc Int := (c.comment, c.indent)

/-- A continuation without its place. -/
def Cont.bare (c : Cont) : Bool × Option Str := (c.spaced, c.value)

/-- An item or entry without its place. -/
structure BareSub where
  isEntry : Bool
  key : Option Str
  value : Option Str
  comments : Option (List (Option Str × Except PyExc Int))
  continuations : Option (List (Bool × Option Str))

def Sub.bare (x : Sub) : BareSub := ⟨x.isEntry, x.key, x.value, x.comments.map (·.map Comment.bare), x.continuations.map (·.map Cont.bare)⟩

/-- The value of a multiline field. -/
def verbatimOf (input : Str) : Option (List Base) → Except PyExc (Option Str)
  | none => .ok none
  | some ls =>
    match ls.head?, ls.getLast? with
    | some a, some b =>
      match a.range? .line, b.range? .line with
      | some (x, _), some (_, y) => .ok (some ((input.take y).drop x))
      | _, _ => .error .keyError
    | _, _ => .error .indexError

/-- An element without its place. -/
structure Bare where
  type : Ty
  key : Str
  value : Option Str
  template : Option Str
  comments : Option (List (Option Str × Except PyExc Int))
  continuations : Option (List (Bool × Option Str))
  items : Option (List BareSub)
  entries : Option (List BareSub)
  elements : List Nat
  parent : Option Nat
  text : Except PyExc (Option Str)
  deepCopy : Bool
  deepResolve : Bool
  copy : Option Str
  mirror : Option Nat
  extend : Option Nat

def Elem.bare (input : Str) (e : Elem) : Bare :=
  ⟨e.type, e.key, e.value, e.template, e.comments.map (·.map Comment.bare), e.continuations.map (·.map Cont.bare), e.items.map (·.map Sub.bare),
    e.entries.map (·.map Sub.bare), e.elements, e.parent, verbatimOf input e.lines, e.deepCopy, e.deepResolve, e.copy, e.mirror, e.extend⟩

/-- Two heaps that only differ in the places. -/
def SameHeap (i i' : Str) (h h' : Heap) : Prop := h.map (Elem.bare i) = h'.map (Elem.bare i')

/-- The same for elements. -/
def SameElem (i i' : Str) (e e' : Elem) : Prop := e.bare i = e'.bare i'

theorem SameHeap.length (H : SameHeap i i' h h') : h'.length = h.length := by
  have := congrArg List.length H
  simpa using this.symm

theorem SameHeap.at (H : SameHeap i i' h h') (k : Nat) : SameElem i i' (h.at k) (h'.at k) := by
  have := congrArg (·[k]?) H
  simp only [List.getElem?_map] at this
  unfold SameElem Heap.at List.getD
  cases h1 : h[k]? <;> cases h2 : h'[k]? <;> rw [h1, h2] at this <;> simp at this ⊢
  · rfl
  · exact this

theorem SameHeap.modify (H : SameHeap i i' h h') {f g : Elem → Elem} (k : Nat) (hf : SameElem i i' (h.at k) (h'.at k) → SameElem i i' (f (h.at k)) (g (h'.at k))) :
    SameHeap i i' (h.modify k f) (h'.modify k g) := by
  unfold SameHeap
  apply List.ext_getElem?
  intro n
  have hn := congrArg (·[n]?) H
  simp only [List.getElem?_map, List.getElem?_modify] at hn ⊢
  by_cases hk : k = n
  · subst hk
    simp only [if_true, Option.map_eq_map] at hn ⊢
    have := hf (H.at k)
    unfold SameElem Heap.at List.getD at this
    cases h1 : h[k]? <;> cases h2 : h'[k]? <;> rw [h1, h2] at this hn <;> simp at this hn ⊢
    exact this
  · simp only [if_neg hk, Option.map_eq_map]
    simpa using hn

theorem SameHeap.push (H : SameHeap i i' h h') {e e' : Elem} (he : SameElem i i' e e') : SameHeap i i' (h ++ [e]) (h' ++ [e']) := by
  unfold SameHeap at *
  rw [List.map_append, List.map_append, H]
  simp only [List.map_cons, List.map_nil]
  rw [show e.bare i = e'.bare i' from he]

namespace SameElem

variable {e e' : Elem}

theorem type (H : SameElem i i' e e') : e'.type = e.type := (congrArg Bare.type H).symm
theorem key (H : SameElem i i' e e') : e'.key = e.key := (congrArg Bare.key H).symm
theorem template (H : SameElem i i' e e') : e'.template = e.template := (congrArg Bare.template H).symm
theorem elements (H : SameElem i i' e e') : e'.elements = e.elements := (congrArg Bare.elements H).symm
theorem parent (H : SameElem i i' e e') : e'.parent = e.parent := (congrArg Bare.parent H).symm
theorem deepCopy (H : SameElem i i' e e') : e'.deepCopy = e.deepCopy := (congrArg Bare.deepCopy H).symm
theorem deepResolve (H : SameElem i i' e e') : e'.deepResolve = e.deepResolve := (congrArg Bare.deepResolve H).symm
theorem copy (H : SameElem i i' e e') : e'.copy = e.copy := (congrArg Bare.copy H).symm
theorem mirror (H : SameElem i i' e e') : e'.mirror = e.mirror := (congrArg Bare.mirror H).symm
theorem extend (H : SameElem i i' e e') : e'.extend = e.extend := (congrArg Bare.extend H).symm
theorem value (H : SameElem i i' e e') : e'.value = e.value := (congrArg Bare.value H).symm
theorem text (H : SameElem i i' e e') : verbatimOf i' e'.lines = verbatimOf i e.lines := (congrArg Bare.text H).symm
theorem comments (H : SameElem i i' e e') : e'.comments.map (·.map Comment.bare) = e.comments.map (·.map Comment.bare) := (congrArg Bare.comments H).symm
theorem continuations (H : SameElem i i' e e') : e'.continuations.map (·.map Cont.bare) = e.continuations.map (·.map Cont.bare) := (congrArg Bare.continuations H).symm
theorem items (H : SameElem i i' e e') : e'.items.map (·.map Sub.bare) = e.items.map (·.map Sub.bare) := (congrArg Bare.items H).symm
theorem entries (H : SameElem i i' e e') : e'.entries.map (·.map Sub.bare) = e.entries.map (·.map Sub.bare) := (congrArg Bare.entries H).symm

theorem ext (type : e'.type = e.type) (key : e'.key = e.key) (value : e'.value = e.value) (template : e'.template = e.template)
    (comments : e'.comments.map (·.map Comment.bare) = e.comments.map (·.map Comment.bare))
    (continuations : e'.continuations.map (·.map Cont.bare) = e.continuations.map (·.map Cont.bare))
    (items : e'.items.map (·.map Sub.bare) = e.items.map (·.map Sub.bare)) (entries : e'.entries.map (·.map Sub.bare) = e.entries.map (·.map Sub.bare))
    (elements : e'.elements = e.elements) (parent : e'.parent = e.parent) (text : verbatimOf i' e'.lines = verbatimOf i e.lines)
    (deepCopy : e'.deepCopy = e.deepCopy) (deepResolve : e'.deepResolve = e.deepResolve) (copy : e'.copy = e.copy) (mirror : e'.mirror = e.mirror)
    (extend : e'.extend = e.extend) : SameElem i i' e e' := by
  unfold SameElem Elem.bare
  rw [type, key, value, template, comments, continuations, items, entries, elements, parent, text, deepCopy, deepResolve, copy, mirror, extend]

end SameElem

/-- Two states of the analyzer that only differ in the places. -/
structure SameState (i i' : Str) (s s' : AS) : Prop where
  heap : SameHeap i i' s.heap s'.heap
  depth : s'.depth = s.depth
  lastCont : s'.lastCont = s.lastCont
  lastNonSection : s'.lastNonSection = s.lastNonSection
  lastSection : s'.lastSection = s.lastSection
  copySections : s'.copySections = s.copySections
  copyNonSections : s'.copyNonSections = s.copyNonSections

/-- The comments that wait for an element are the same. -/
def SamePending (s s' : AS) : Prop := s'.comments.map (·.map Comment.bare) = s.comments.map (·.map Comment.bare)

/-- Two results. -/
inductive Corr {ε α β : Type} (R : α → β → Prop) : Except ε α → Except ε β → Prop where
  | ok {a b} : R a b → Corr R (.ok a) (.ok b)
  | error {x} : Corr R (.error x) (.error x)

/-- After a line that is no comment: nothing is waiting. -/
structure Settled (i i' : Str) (s s' : AS) : Prop extends SameState i i' s s' where
  rest : s.comments = none
  rest' : s'.comments = none

theorem Settled.pending (H : Settled i i' s s') : SamePending s s' := by unfold SamePending; rw [H.rest, H.rest']

theorem SameState.append (S : SameState i i' s s') (p : Nat) {e e' : Elem} (he : SameElem i i' e e') : SameHeap i i' (s.append p e) (s'.append p e') := by
  unfold AS.append
  rw [S.heap.length]
  exact SameHeap.push (S.heap.modify p fun H => .ext H.type H.key H.value H.template H.comments H.continuations H.items H.entries (by simp [H.elements]) H.parent H.text
    H.deepCopy H.deepResolve H.copy H.mirror H.extend) he

theorem same_element (S : SameState i i' s s') (P : SamePending s s') {n n' b b' f f' : Nat} {k k' : KeyTok} {op op' : Cap} {v v' : Option Cap} (hk : k'.text = k.text)
    (hv : v'.map (·.text) = v.map (·.text)) : Settled i i' (stepElement s n b f k op v) (stepElement s' n' b' f' k' op' v') := by
  have hs : v'.isSome = v.isSome := by simpa using congrArg Option.isSome hv
  refine ⟨⟨?_, S.depth, ?_, ?_, S.lastSection, S.copySections, S.copyNonSections⟩, rfl, rfl⟩
  · unfold stepElement
    simp only [S.lastSection]
    refine S.append _ ?_
    exact .ext (by simp [hs]) hk hv rfl P rfl rfl rfl rfl (by simp) rfl rfl rfl rfl rfl rfl
  · simp [stepElement, S.heap.length]
  · simp [stepElement, S.heap.length]

theorem same_copy (S : SameState i i' s s') (P : SamePending s s') {n n' b b' f f' : Nat} {k k' : KeyTok} {op op' t t' : Cap} (hk : k'.text = k.text)
    (ht : t'.text = t.text) : Settled i i' (stepCopy s n b f k op t) (stepCopy s' n' b' f' k' op' t') := by
  refine ⟨⟨?_, S.depth, rfl, ?_, S.lastSection, S.copySections, ?_⟩, rfl, rfl⟩
  · unfold stepCopy
    simp only [S.lastSection]
    refine S.append _ ?_
    exact .ext rfl hk rfl (by simp [ht]) P rfl rfl rfl rfl (by simp) rfl rfl rfl (by simp [ht]) rfl rfl
  · simp [stepCopy, S.heap.length]
  · simp [stepCopy, S.heap.length, S.copyNonSections, ht]

theorem same_multi (S : SameState i i' s s') (P : SamePending s s') {n n' b b' f f' : Nat} {op op' key key' : Cap} {ls ls' : Option (List Base)} {e e' : Base}
    (hk : key'.text = key.text) (hl : verbatimOf i' ls' = verbatimOf i ls) :
    Settled i i' (closeMultiline (openMultiline s n b f op key) ls e) (closeMultiline (openMultiline s' n' b' f' op' key') ls' e') := by
  have O : SameHeap i i' (openMultiline s n b f op key).heap (openMultiline s' n' b' f' op' key').heap := by
    unfold openMultiline
    simp only [S.lastSection]
    exact S.append _ (.ext rfl hk rfl rfl P rfl rfl rfl rfl (by simp) rfl rfl rfl rfl rfl rfl)
  refine ⟨⟨?_, S.depth, rfl, rfl, S.lastSection, S.copySections, S.copyNonSections⟩, rfl, rfl⟩
  unfold closeMultiline
  simp only [O.length]
  exact O.modify _ fun H => .ext H.type H.key H.value H.template H.comments H.continuations H.items H.entries H.elements H.parent hl
    H.deepCopy H.deepResolve H.copy H.mirror H.extend

theorem same_item (S : SameState i i' s s') (P : SamePending s s') {n n' b b' f f' : Nat} {op op' : Cap} {v v' : Option Cap}
    (hv : v'.map (·.text) = v.map (·.text)) : Corr (Settled i i') (stepListItem s n b f op v) (stepListItem s' n' b' f' op' v') := by
  unfold stepListItem
  simp only [S.lastNonSection]
  cases hn : s.lastNonSection with
  | none => exact .error
  | some m =>
    have H := S.heap.at m
    have E : ∀ x x' : Sub, x = { line := n, ranges := [(.line, (b, f)), (.itemOperator, op.span)] ++ valueRange .value v, isEntry := false, key := none, value := v.map (·.text), comments := s.comments, continuations := none } →
      x' = { line := n', ranges := [(.line, (b', f')), (.itemOperator, op'.span)] ++ valueRange .value v', isEntry := false, key := none, value := v'.map (·.text), comments := s'.comments, continuations := none } →
      x'.bare = x.bare := by
      rintro _ _ rfl rfl
      unfold Sub.bare
      simp only [hv]
      rw [P]
    have E := E _ _ rfl rfl
    simp only [H.type]
    by_cases h1 : (s.heap.at m).type = .list
    · simp only [if_pos h1]
      have hi := H.items
      cases h2 : (s.heap.at m).items with
      | none =>
        rw [h2] at hi
        cases h3 : (s'.heap.at m).items with
        | none => exact .error
        | some y => rw [h3] at hi; simp at hi
      | some xs =>
        rw [h2] at hi
        cases h3 : (s'.heap.at m).items with
        | none => rw [h3] at hi; simp at hi
        | some ys =>
          rw [h3] at hi
          simp only [Option.map_some, Option.some.injEq] at hi
          refine .ok ⟨⟨?_, S.depth, rfl, hn ▸ S.lastNonSection ▸ rfl, S.lastSection, S.copySections, S.copyNonSections⟩, rfl, rfl⟩
          exact S.heap.modify _ fun H => .ext H.type H.key H.value H.template H.comments H.continuations (by simp only [Option.map_some, List.map_append, List.map_cons, List.map_nil, hi, E]) H.entries H.elements H.parent H.text
            H.deepCopy H.deepResolve H.copy H.mirror H.extend
    · simp only [if_neg h1]
      by_cases h2 : (s.heap.at m).type = .empty
      · simp only [if_pos h2]
        refine .ok ⟨⟨?_, S.depth, rfl, hn ▸ S.lastNonSection ▸ rfl, S.lastSection, S.copySections, S.copyNonSections⟩, rfl, rfl⟩
        exact S.heap.modify _ fun H => .ext rfl H.key H.value H.template H.comments H.continuations (by simp only [Option.map_some, List.map_cons, List.map_nil, E]) H.entries H.elements H.parent H.text
          H.deepCopy H.deepResolve H.copy H.mirror H.extend
      · simp only [if_neg h2]
        exact .error

theorem same_entry (S : SameState i i' s s') (P : SamePending s s') {n n' b b' f f' : Nat} {k k' : KeyTok} {op op' : Cap} {v v' : Option Cap} (hk : k'.text = k.text)
    (hv : v'.map (·.text) = v.map (·.text)) : Corr (Settled i i') (stepEntry s n b f k op v) (stepEntry s' n' b' f' k' op' v') := by
  unfold stepEntry
  simp only [S.lastNonSection]
  cases hn : s.lastNonSection with
  | none => exact .error
  | some m =>
    have H := S.heap.at m
    have E : ∀ x x' : Sub, x = { line := n, ranges := [(.line, (b, f))] ++ escapeRanges k ++ [(.entryOperator, op.span), (.key, k.span)] ++ valueRange .value v, isEntry := true, key := some k.text, value := v.map (·.text), comments := s.comments, continuations := none } →
      x' = { line := n', ranges := [(.line, (b', f'))] ++ escapeRanges k' ++ [(.entryOperator, op'.span), (.key, k'.span)] ++ valueRange .value v', isEntry := true, key := some k'.text, value := v'.map (·.text), comments := s'.comments, continuations := none } →
      x'.bare = x.bare := by
      rintro _ _ rfl rfl
      unfold Sub.bare
      simp only [hv, hk]
      rw [P]
    have E := E _ _ rfl rfl
    simp only [H.type]
    by_cases h1 : (s.heap.at m).type = .fieldset
    · simp only [if_pos h1]
      have hi := H.entries
      cases h2 : (s.heap.at m).entries with
      | none =>
        rw [h2] at hi
        cases h3 : (s'.heap.at m).entries with
        | none => exact .error
        | some y => rw [h3] at hi; simp at hi
      | some xs =>
        rw [h2] at hi
        cases h3 : (s'.heap.at m).entries with
        | none => rw [h3] at hi; simp at hi
        | some ys =>
          rw [h3] at hi
          simp only [Option.map_some, Option.some.injEq] at hi
          refine .ok ⟨⟨?_, S.depth, rfl, hn ▸ S.lastNonSection ▸ rfl, S.lastSection, S.copySections, S.copyNonSections⟩, rfl, rfl⟩
          exact S.heap.modify _ fun H => .ext H.type H.key H.value H.template H.comments H.continuations H.items (by simp only [Option.map_some, List.map_append, List.map_cons, List.map_nil, hi, E]) H.elements H.parent H.text
            H.deepCopy H.deepResolve H.copy H.mirror H.extend
    · simp only [if_neg h1]
      by_cases h2 : (s.heap.at m).type = .empty
      · simp only [if_pos h2]
        refine .ok ⟨⟨?_, S.depth, rfl, hn ▸ S.lastNonSection ▸ rfl, S.lastSection, S.copySections, S.copyNonSections⟩, rfl, rfl⟩
        exact S.heap.modify _ fun H => .ext rfl H.key H.value H.template H.comments H.continuations H.items (by simp only [Option.map_some, List.map_cons, List.map_nil, E]) H.elements H.parent H.text
          H.deepCopy H.deepResolve H.copy H.mirror H.extend
      · simp only [if_neg h2]
        exact .error

theorem same_addContSub {c c' : Cont} (hc : c'.bare = c.bare) {x x' : Sub} (hx : x'.bare = x.bare) : (x'.addCont c').bare = (x.addCont c).bare := by
  unfold Sub.bare at hx
  injection hx with h1 h2 h3 h4 h5
  unfold Sub.bare Sub.addCont
  simp only [h1, h2, h3, h4, BareSub.mk.injEq, true_and, Option.map_some, Option.some.injEq, List.map_append, List.map_cons, List.map_nil, hc]
  congr 1
  cases hq : x.continuations <;> cases hq' : x'.continuations <;> rw [hq, hq'] at h5 <;> simp at h5 ⊢
  exact h5

theorem same_modifyLast {c c' : Cont} (hc : c'.bare = c.bare) : ∀ {xs xs' : List Sub}, xs'.map Sub.bare = xs.map Sub.bare →
    (modifyLast (Sub.addCont c') xs').map Sub.bare = (modifyLast (Sub.addCont c) xs).map Sub.bare
  | [], [], _ => rfl
  | [], _ :: _, h => by simp at h
  | _ :: _, [], h => by simp at h
  | [x], [x'], h => by
    simp only [List.map_cons, List.map_nil, List.cons.injEq, and_true] at h
    simp [modifyLast, same_addContSub hc h]
  | [x], _ :: _ :: _, h => by simp at h
  | _ :: _ :: _, [x'], h => by simp at h
  | x :: y :: xs, x' :: y' :: xs', h => by
    simp only [List.map_cons, List.cons.injEq] at h
    have ih := same_modifyLast hc (xs := y :: xs) (xs' := y' :: xs') (by simp [h.2.1, h.2.2])
    simp only [modifyLast, List.map_cons, h.1, ih]

theorem same_addCont {c c' : Cont} (hc : c'.bare = c.bare) {e e' : Elem} (H : SameElem i i' e e') : SameElem i i' (e.addCont c) (e'.addCont c') := by
  unfold Elem.addCont
  have hcs := H.continuations
  cases hq : e.continuations <;> cases hq' : e'.continuations <;> rw [hq, hq'] at hcs <;> simp at hcs
  · exact .ext (by simp [H.type]) H.key H.value H.template H.comments (by simp [hc]) H.items H.entries H.elements H.parent H.text
      H.deepCopy H.deepResolve H.copy H.mirror H.extend
  · exact .ext H.type H.key H.value H.template H.comments (by simp [hc, hcs]) H.items H.entries H.elements H.parent H.text
      H.deepCopy H.deepResolve H.copy H.mirror H.extend

theorem same_addContLast {c c' : Cont} (hc : c'.bare = c.bare) {e e' : Elem} (H : SameElem i i' e e') : SameElem i i' (e.addContLast c) (e'.addContLast c') := by
  have key : ∀ {o o' : Option (List Sub)}, o'.map (·.map Sub.bare) = o.map (·.map Sub.bare) →
      (o'.map (modifyLast (Sub.addCont c'))).map (·.map Sub.bare) = (o.map (modifyLast (Sub.addCont c))).map (·.map Sub.bare) := by
    intro o o' h
    cases o <;> cases o' <;> simp at h ⊢
    exact same_modifyLast hc h
  exact .ext H.type H.key H.value H.template H.comments H.continuations (key H.items) (key H.entries) H.elements H.parent H.text
    H.deepCopy H.deepResolve H.copy H.mirror H.extend

theorem same_continuation (S : SameState i i' s s') {n n' b b' f f' : Nat} {sp : Bool} {op op' : Cap} {v v' : Option Cap}
    (hv : v'.map (·.text) = v.map (·.text)) : Corr (Settled i i') (stepContinuation s n b f sp op v) (stepContinuation s' n' b' f' sp op' v') := by
  have E : ∀ r r' : Ranges, ({ line := n', ranges := r', spaced := sp, value := v'.map (·.text) } : Cont).bare = ({ line := n, ranges := r, spaced := sp, value := v.map (·.text) } : Cont).bare := by
    intro r r'
    simp only [Cont.bare, hv]
  unfold stepContinuation
  simp only [S.lastCont]
  cases hn : s.lastCont with
  | none => exact .error
  | some m =>
    cases m with
    | elem m =>
      refine .ok ⟨⟨?_, S.depth, hn ▸ S.lastCont ▸ rfl, S.lastNonSection, S.lastSection, S.copySections, S.copyNonSections⟩, rfl, rfl⟩
      exact S.heap.modify _ fun H => same_addCont (E _ _) H
    | sub m =>
      refine .ok ⟨⟨?_, S.depth, hn ▸ S.lastCont ▸ rfl, S.lastNonSection, S.lastSection, S.copySections, S.copyNonSections⟩, rfl, rfl⟩
      exact S.heap.modify _ fun H => same_addContLast (E _ _) H

theorem same_ancestor (H : SameHeap i i' h h') : ∀ (n k : Nat), ancestor h' n k = ancestor h n k
  | 0, _ => rfl
  | n + 1, k => by
    unfold ancestor
    rw [(H.at k).parent]
    cases (h.at k).parent with
    | none => rfl
    | some p => exact same_ancestor H n p

theorem same_headingParent (S : SameState i i' s s') (d : Nat) : headingParent s' d = headingParent s d := by
  unfold headingParent
  simp only [S.depth, S.lastSection, (S.heap.at s.lastSection).parent, same_ancestor S.heap]
  split
  · rfl
  · split
    · rfl
    · split
      · cases ancestor s.heap (s.depth - d) s.lastSection with
        | none => rfl
        | some l => simp only [(S.heap.at l).parent]
      · rfl

theorem same_markDeep : ∀ (n : Nat) {h h' : Heap} (k : Nat), SameHeap i i' h h' →
    (markDeep n h k = none ∧ markDeep n h' k = none) ∨ ∃ g g', markDeep n h k = some g ∧ markDeep n h' k = some g' ∧ SameHeap i i' g g'
  | 0, _, _, _, _ => .inl ⟨rfl, rfl⟩
  | n + 1, h, h', k, H => by
    unfold markDeep
    simp only [(H.at k).type, (H.at k).parent]
    split
    · exact .inr ⟨_, _, rfl, rfl, H⟩
    · cases (h.at k).parent with
      | none => exact .inl ⟨rfl, rfl⟩
      | some p =>
        exact same_markDeep n p (H.modify _ fun H => .ext H.type H.key H.value H.template H.comments H.continuations H.items H.entries H.elements H.parent H.text
          H.deepCopy rfl H.copy H.mirror H.extend)

theorem corr_mark {n k : Nat} {x : LineFail} {F F' : Heap → AS}
    (M : (markDeep n h k = none ∧ markDeep n h' k = none) ∨ ∃ g g', markDeep n h k = some g ∧ markDeep n h' k = some g' ∧ SameHeap i i' g g')
    (hF : ∀ g g', SameHeap i i' g g' → Settled i i' (F g) (F' g')) :
    Corr (Settled i i') (match markDeep n h k with | none => .error x | some g => .ok (F g)) (match markDeep n h' k with | none => .error x | some g => .ok (F' g)) := by
  rcases M with ⟨m1, m2⟩ | ⟨g, g', m1, m2, m3⟩
  · rw [m1, m2]; exact .error
  · rw [m1, m2]; exact .ok (hF _ _ m3)

theorem same_heading (S : SameState i i' s s') (P : SamePending s s') {n n' b b' f f' : Nat} {k k' : KeyTok} {op op' : Cap} {c c' : Option (Cap × Cap)} (hk : k'.text = k.text)
    (ho : op'.e - op'.b = op.e - op.b) (hc : c'.map (fun x => (decide (x.1.e - x.1.b = 2), x.2.text)) = c.map (fun x => (decide (x.1.e - x.1.b = 2), x.2.text))) :
    Corr (Settled i i') (stepHeading s n b f op k c) (stepHeading s' n' b' f' op' k' c') := by
  unfold stepHeading
  simp only [ho, same_headingParent S]
  cases hp : headingParent s (op.e - op.b) with
  | error e => exact .error
  | ok parent =>
    simp only
    cases c with
    | none =>
      cases c' with
      | some c' => simp at hc
      | none =>
        refine .ok ⟨⟨?_, rfl, rfl, rfl, S.heap.length, S.copySections, S.copyNonSections⟩, rfl, rfl⟩
        refine S.append _ ?_
        exact .ext rfl hk rfl rfl P rfl rfl rfl rfl rfl rfl rfl rfl rfl rfl rfl
    | some c =>
      cases c' with
      | none => simp at hc
      | some c' =>
        obtain ⟨o, t⟩ := c
        obtain ⟨o', t'⟩ := c'
        simp only [Option.map_some, Option.some.injEq, Prod.mk.injEq] at hc
        obtain ⟨hd, ht⟩ := hc
        simp only [Option.map_some]
        have A : ∀ r r', SameHeap i i' (s.append parent { line := n, ranges := r, comments := s.comments, key := k.text, type := .section, parent := some parent, template := some t.text, deepCopy := decide (o.e - o.b = 2), copy := some t.text })
            (s'.append parent { line := n', ranges := r', comments := s'.comments, key := k'.text, type := .section, parent := some parent, template := some t'.text, deepCopy := decide (o'.e - o'.b = 2), copy := some t'.text }) := fun r r' =>
          S.append _ (.ext rfl hk rfl (by simp [ht]) P rfl rfl rfl rfl rfl rfl hd rfl (by simp [ht]) rfl rfl)
        have M := fun r r' => same_markDeep (s.heap.length + 1 + 1) parent (A r r')
        simp only [append_length, S.heap.length]
        exact corr_mark (M _ _) (F := fun g => { s with heap := g, comments := none, depth := op.e - op.b, lastSection := s.heap.length, lastCont := none, lastNonSection := none, copySections := addTarget s.copySections t.text s.heap.length })
          (F' := fun g => { s' with heap := g, comments := none, depth := op.e - op.b, lastSection := s.heap.length, lastCont := none, lastNonSection := none, copySections := addTarget s'.copySections t'.text s.heap.length })
          fun g g' m => ⟨⟨m, rfl, rfl, rfl, rfl, by simp [S.copySections, ht], S.copyNonSections⟩, rfl, rfl⟩

theorem same_comment (S : SameState i i' s s') {n n' b b' f f' : Nat} {op op' : Cap} {c c' : Option Cap} : SameState i i' (stepComment s n b f op c) (stepComment s' n' b' f' op' c') :=
  ⟨S.heap, S.depth, S.lastCont, S.lastNonSection, S.lastSection, S.copySections, S.copyNonSections⟩

/-- The same column. -/
theorem same_comment_pending (P : SamePending s s') {n n' b b' f f' : Nat} {op op' : Cap} {c c' : Option Cap}
    (hc : c'.map (fun x => ((x.b : Int) - b', x.text)) = c.map (fun x => ((x.b : Int) - b, x.text))) : SamePending (stepComment s n b f op c) (stepComment s' n' b' f' op' c') := by
  unfold SamePending stepComment
  simp only [Option.map_some, Option.some.injEq, List.map_append, List.map_cons, List.map_nil]
  congr 1
  · have P : s'.comments.map (·.map Comment.bare) = s.comments.map (·.map Comment.bare) := P
    cases hq : s.comments <;> cases hq' : s'.comments <;> rw [hq, hq'] at P <;> simp at P ⊢
    exact P
  · congr 1
    cases c <;> cases c' <;> simp at hc
    · rfl
    · have e : ∀ (n b f : Nat) (op c : Cap), (⟨⟨n, [(.line, (b, f)), (.commentOperator, op.span)] ++ valueRange .comment (some c)⟩, some c.text⟩ : Comment).indent =
          .ok ((c.b : Int) - b) := fun _ _ _ _ _ => rfl
      simp only [Comment.bare, Option.map_some, e]
      rw [hc.1, hc.2]

end Eno
