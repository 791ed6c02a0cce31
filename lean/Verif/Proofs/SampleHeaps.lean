import Verif.Spec.Answers

/-!
# Computing the conditions on documents on samples

`CommentsReadable` and `AllStraight` quantify over all elements; the functions here compute them. They serve the concrete cases that
stand beside the theorems.
-/

namespace Eno
open Spec

/-- Not a single empty comment line. -/
def readableB : Option (List Comment) → Bool
  | some [x] => x.comment.isSome
  | _ => true

theorem readableB_sound {c : Option (List Comment)} (h : readableB c = true) : Readable c := by
  intro x e
  subst e
  exact h

/-- `CommentsReadable`, computed. -/
def commentsReadableB (h : Heap) : Bool :=
  h.all fun e => readableB e.comments && (e.items.getD []).all (fun x => readableB x.comments) && (e.entries.getD []).all (fun x => readableB x.comments)

/-- What holds for all elements of a document and for the element that stands in for missing ones holds at every position. -/
theorem at_all {h : Heap} {p : Elem → Bool} (ha : h.all p = true) (h0 : p Elem.document = true) (i : Nat) : p (h.at i) = true := by
  unfold Heap.at
  rw [List.getD_eq_getElem?_getD]
  cases e : h[i]? with
  | none => exact h0
  | some x => exact List.all_eq_true.1 ha x (List.mem_of_getElem? e)

theorem commentsReadableB_sound {h : Heap} (hb : commentsReadableB h = true) : CommentsReadable h := by
  intro r cs hr c hc
  have A := fun i => at_all hb (by decide) i
  cases r with
  | elem i =>
    have := A i
    simp only [Bool.and_eq_true] at this
    exact readableB_sound this.1.1 c (by rw [← hc]; exact hr)
  | item i k =>
    have := A i
    simp only [Bool.and_eq_true] at this
    obtain ⟨y, h1, h2⟩ := Option.bind_eq_some_iff.1 (show ((h.sub? (.item i k)).bind (·.comments)) = some cs from hr)
    exact readableB_sound (List.all_eq_true.1 this.1.2 y (List.mem_of_getElem? h1)) c (by rw [← hc]; exact h2)
  | entry i k =>
    have := A i
    simp only [Bool.and_eq_true] at this
    obtain ⟨y, h1, h2⟩ := Option.bind_eq_some_iff.1 (show ((h.sub? (.entry i k)).bind (·.comments)) = some cs from hr)
    exact readableB_sound (List.all_eq_true.1 this.2 y (List.mem_of_getElem? h1)) c (by rw [← hc]; exact h2)

/-- No deep copies, and sections that are copies have elements of their own. -/
def straightB (h : Heap) : Bool := h.all fun e => !e.deepCopy && (e.copy.isNone || !e.elements.isEmpty)

theorem straightB_sound {h : Heap} (hb : straightB h = true) : AllStraight h := by
  have A := fun i => at_all hb (by decide) i
  have d : ∀ i, (h.at i).deepCopy = false := fun i => by
    have := A i
    simp only [Bool.and_eq_true] at this
    simpa using this.1
  have e : ∀ i, (h.at i).copy.isSome → (h.at i).elements ≠ [] := fun i hc he => by
    have := A i
    rw [he] at this
    cases hx : (h.at i).copy with
    | none => rw [hx] at hc; cases hc
    | some x => simp [hx] at this
  exact fun s _ _ => ⟨⟨fun a _ => d a, fun _ _ a _ => d a⟩, e s, fun t _ => e t⟩

/-! ## Copies -/

/-- The template, computed. -/
def templateB (h : Heap) (i : Nat) : Option Nat :=
  match (h.at i).copy with
  | none => none
  | some k =>
    match candidates h (decide ((h.at i).type = .section)) k with
    | [t] => some t
    | _ => none

theorem templateB_iff {h : Heap} {i t : Nat} (hi : i < h.length) : templateB h i = some t ↔ TemplateIs h i t := by
  unfold templateB TemplateIs
  cases hc : (h.at i).copy with
  | none => simp
  | some k =>
    simp only [hi, true_and, Option.some.injEq, exists_eq_left']
    split
    · next x hx => rw [hx]; simp
    · next hx =>
      constructor
      · intro h; cases h
      · intro h; exact (hx t h).elim

/-- A property of all positions that holds of the positions in the document. -/
def everyB (h : Heap) (p : Nat → Bool) : Bool := (List.range h.length).all p

theorem everyB_iff {h : Heap} {p : Nat → Bool} : everyB h p = true ↔ ∀ i, i < h.length → p i = true := by
  simp [everyB, List.all_eq_true]

/-- No copied name has two candidates. -/
def oneB (h : Heap) : Bool := everyB h fun i =>
  match (h.at i).copy with
  | none => true
  | some k => decide ((candidates h (decide ((h.at i).type = .section)) k).length ≤ 1)

theorem oneB_sound {h : Heap} (hb : oneB h = true) (sec : Bool) (k : Str) (hc : copiers h sec k ≠ []) : (candidates h sec k).length ≤ 1 := by
  obtain ⟨i, hi⟩ := List.exists_mem_of_ne_nil _ hc
  unfold copiers at hi
  simp only [List.mem_filter, List.mem_range, Bool.and_eq_true, decide_eq_true_eq, beq_iff_eq] at hi
  obtain ⟨h1, h2, h3⟩ := hi
  have := everyB_iff.1 hb i h1
  simp only [h2, decide_eq_true_eq] at this
  rw [← h3]
  exact this

/-- Copies of elements have templates. -/
def templatesB (h : Heap) : Bool := everyB h fun i => decide ((h.at i).type = .section) || (h.at i).copy.isNone || (templateB h i).isSome

theorem templatesB_sound {h : Heap} (hb : templatesB h = true) (i : Nat) (hi : i < h.length) (hs : (h.at i).type ≠ .section) (hc : (h.at i).copy.isSome) :
    ∃ t, TemplateIs h i t := by
  have := everyB_iff.1 hb i hi
  simp only [hs, decide_false, Bool.false_or, Bool.or_eq_true] at this
  rcases this with e | e
  · cases hx : (h.at i).copy with
    | none => rw [hx] at hc; cases hc
    | some x => rw [hx] at e; cases e
  · obtain ⟨t, ht⟩ := Option.isSome_iff_exists.1 e
    exact ⟨t, (templateB_iff hi).1 ht⟩

/-- Every copied name has a candidate. -/
def someB (h : Heap) : Bool := everyB h fun i =>
  match (h.at i).copy with
  | none => true
  | some k => !(candidates h (decide ((h.at i).type = .section)) k).isEmpty

theorem someB_sound {h : Heap} (hb : someB h = true) (i : Nat) (k : Str) (hi : i < h.length) (hc : (h.at i).copy = some k) :
    candidates h (decide ((h.at i).type = .section)) k ≠ [] := by
  have := everyB_iff.1 hb i hi
  simp only [hc] at this
  intro e
  rw [e] at this
  cases this

/-- Templates have lower ranks than their copies. -/
def rankB (h : Heap) (f : Nat → Nat) : Bool := everyB h fun i => (templateB h i).all fun t => decide (f t < f i)

theorem rankB_sound {h : Heap} {f : Nat → Nat} (hb : rankB h f = true) (i : Nat) : ¬ Leads h i i := by
  have one : ∀ {i t}, TemplateIs h i t → f t < f i := by
    intro i t T
    have := everyB_iff.1 hb i T.1
    rw [(templateB_iff T.1).2 T] at this
    simpa using this
  have all : ∀ {i t}, Leads h i t → f t < f i := by
    intro i t L
    induction L with
    | one T => exact one T
    | step T _ ih => exact Nat.lt_trans ih (one T)
  exact fun L => Nat.lt_irrefl _ (all L)

/-- What a section depends on, computed. -/
def depsB (h : Heap) (s : Nat) : List Nat :=
  ((if (h.at s).deepResolve then (h.at s).elements else []) ++ (templateB h s).toList).filter fun c =>
    decide ((h.at c).type = .section) && ((h.at c).copy.isSome || (h.at c).deepResolve)

theorem depsB_complete {h : Heap} {s c : Nat} (D : Dep h s c) : s < h.length ∧ c ∈ depsB h s := by
  obtain ⟨h1, h2, h3⟩ := D
  have hs : s < h.length := by
    rcases h3 with h3 | h3
    · by_cases hs : s < h.length
      · exact hs
      · have : h.at s = Elem.document := by simp [Heap.at, List.getElem?_eq_none (by omega : h.length ≤ s)]
        rw [this] at h3
        cases h3.1
    · exact h3.1
  refine ⟨hs, List.mem_filter.2 ⟨?_, ?_⟩⟩
  · rcases h3 with h3 | h3
    · simp [h3.1, h3.2]
    · simp [(templateB_iff hs).2 h3]
  · simp only [h1, decide_true, Bool.true_and, Bool.or_eq_true]
    exact h2

/-- What a section depends on has a lower rank. -/
def depRankB (h : Heap) (f : Nat → Nat) : Bool := everyB h fun i => (depsB h i).all fun t => decide (f t < f i)

theorem depRankB_sound {h : Heap} {f : Nat → Nat} (hb : depRankB h f = true) (i : Nat) : ¬ DepLeads h i i := by
  have one : ∀ {i t}, Dep h i t → f t < f i := by
    intro i t D
    obtain ⟨h1, h2⟩ := depsB_complete D
    simpa using List.all_eq_true.1 (everyB_iff.1 hb i h1) t h2
  have all : ∀ {i t}, DepLeads h i t → f t < f i := by
    intro i t L
    induction L with
    | one T => exact one T
    | step T _ ih => exact Nat.lt_trans ih (one T)
  exact fun L => Nat.lt_irrefl _ (all L)

/-- Copies have no items and entries of their own. -/
def bareB (h : Heap) : Bool := everyB h fun i => (h.at i).copy.isNone || (decide ((h.at i).type ≠ .list) && decide ((h.at i).type ≠ .fieldset))

theorem bareB_sound {h : Heap} (hb : bareB h = true) (i : Nat) : ¬ Incompatible h i := by
  rintro ⟨t, k, T, _, C⟩
  have := everyB_iff.1 hb i T.1
  obtain ⟨_, k', hc, _⟩ := T
  simp only [hc, Option.isNone_some, Bool.false_or, Bool.and_eq_true, decide_eq_true_eq] at this
  rcases C with C | C
  · exact this.1 C.1
  · exact this.2 C.1

/-- Nothing depends on a copy without candidates. -/
def lastB (h : Heap) : Bool := everyB h fun i =>
  match (h.at i).copy with
  | none => true
  | some k => !(candidates h (decide ((h.at i).type = .section)) k).isEmpty || everyB h fun c => decide (templateB h c ≠ some i) && !(depsB h c).contains i

theorem lastB_sound {h : Heap} (hb : lastB h = true) (c i : Nat) (k : Str) (hc : (h.at i).copy = some k) (h0 : candidates h (decide ((h.at i).type = .section)) k = []) :
    ¬ TemplateIs h c i ∧ ¬ Dep h c i := by
  have hi : i < h.length := by
    by_cases hs : i < h.length
    · exact hs
    · have : h.at i = Elem.document := by simp [Heap.at, List.getElem?_eq_none (by omega : h.length ≤ i)]
      rw [this] at hc
      cases hc
  have A := everyB_iff.1 hb i hi
  simp only [hc, h0, List.isEmpty_nil, Bool.not_true, Bool.false_or] at A
  have A := everyB_iff.1 A
  constructor
  · intro T
    have := A c T.1
    simp [(templateB_iff T.1).2 T] at this
  · intro D
    obtain ⟨h1, h2⟩ := depsB_complete D
    have := A c h1
    simp [h2] at this

end Eno
