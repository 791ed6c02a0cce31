import Verif.Proofs.HeapLemmas
import Verif.Proofs.TraceLemmas

/-! # Invariants of the analyzer -/

namespace Eno

open Spec

/-- A section or the document. -/
def Elem.isContainer (e : Elem) : Prop := e.type = .document ∨ e.type = .section

/-- Number of hash signs of a section, 0 for the document. -/
def Elem.depth (e : Elem) : Nat :=
  match e.range? .sectionOperator with
  | some (b, f) => f - b
  | none => 0

/-- What an item or entry looks like. -/
structure SubOk (entry : Bool) (x : Sub) : Prop where
  isEntry : x.isEntry = entry
  key : x.key.isSome = entry
  comments : x.comments ≠ some []
  conts : x.continuations ≠ some []

/-- The optional parts of an element fit its type. -/
structure ElemOk (e : Elem) : Prop where
  types : e.type ∈ [Ty.document, .section, .field, .empty, .list, .fieldset, .mlBegin]
  items : ∀ xs, e.items = some xs → e.type = .list ∧ xs ≠ [] ∧ ∀ x ∈ xs, SubOk false x
  entries : ∀ xs, e.entries = some xs → e.type = .fieldset ∧ xs ≠ [] ∧ ∀ x ∈ xs, SubOk true x
  list : e.type = .list → e.items.isSome
  fieldset : e.type = .fieldset → e.entries.isSome
  conts : ∀ cs, e.continuations = some cs → e.type = .field ∧ cs ≠ []
  value : e.value.isSome → e.type = .field
  field : e.type = .field → e.value.isSome ∨ e.continuations.isSome
  lines : ∀ ls, e.lines = some ls → e.type = .mlBegin ∧ ls ≠ [] ∧ ∀ l ∈ ls, l.ranges.map Prod.fst = [.line, .value]
  fin : e.fin.isSome → e.type = .mlBegin
  comments : e.comments ≠ some []
  template : e.template.isSome → e.type ∈ [Ty.section, .empty, .list, .fieldset]
  copy : e.copy = e.template
  deep : e.deepCopy = true → e.type = .section ∧ e.template.isSome
  mirror : e.mirror = none
  extend : e.extend = none
  deepOp : e.deepCopy = (e.toBase.range? .deepCopyOperator).isSome

/-- The heap is a tree whose edges are recorded twice. -/
structure HeapOk (h : Heap) : Prop where
  pos : 0 < h.length
  doc : (h.at 0).type = .document ∧ (h.at 0).parent = none ∧ (h.at 0).comments = none
  par : ∀ i, 0 < i → i < h.length → (h.at i).type ≠ .document ∧ ∃ p, (h.at i).parent = some p ∧ p < i ∧ (h.at p).isContainer
  els : ∀ p, p < h.length → (h.at p).elements = (List.range h.length).filter fun i => (h.at i).parent = some p
  elem : ∀ i, i < h.length → ElemOk (h.at i)

variable {h h' : Heap} {s s' : AS} {i j n p : Nat} {e : Elem} {f : Elem → Elem}

theorem elemOk_document : ElemOk Elem.document := by
  constructor <;> simp [Elem.document, Base.range?]

theorem Elem.not_container_of_type {a b : Elem} (hab : a.type = b.type) : a.isContainer ↔ b.isContainer := by
  simp [Elem.isContainer, hab]

/-- Fields that appending to a parent does not change. -/
theorem append_at_fields (s : AS) (p : Nat) (e : Elem) (hi : i < s.heap.length) :
    ((s.append p e).at i).type = (s.heap.at i).type ∧ ((s.append p e).at i).parent = (s.heap.at i).parent ∧
    ((s.append p e).at i).toBase = (s.heap.at i).toBase ∧ ((s.append p e).at i).comments = (s.heap.at i).comments ∧
    ((s.append p e).at i).template = (s.heap.at i).template ∧ ((s.append p e).at i).copy = (s.heap.at i).copy ∧
    ((s.append p e).at i).key = (s.heap.at i).key := by
  rw [at_AS_append_lt s p e hi]; split <;> simp

theorem ElemOk.elements {l : List Nat} (h : ElemOk e) : ElemOk { e with elements := l } :=
  ⟨h.types, h.items, h.entries, h.list, h.fieldset, h.conts, h.value, h.field, h.lines, h.fin, h.comments, h.template, h.copy, h.deep, h.mirror, h.extend, h.deepOp⟩

theorem HeapOk.append (ok : HeapOk s.heap) (hp : p < s.heap.length) (hc : (s.heap.at p).isContainer) (he : e.parent = some p)
    (hel : e.elements = []) (ht : e.type ≠ .document) (heo : ElemOk e) : HeapOk (s.append p e) := by
  have hlen := append_length s p e
  refine ⟨by omega, ?_, ?_, ?_, ?_⟩
  · obtain ⟨h1, h2, _, h4, _⟩ := append_at_fields s p e ok.pos
    rw [h1, h2, h4]; exact ok.doc
  · intro i hi hil
    rw [hlen] at hil
    by_cases hii : i = s.heap.length
    · subst hii
      rw [at_AS_append_last]
      refine ⟨ht, p, he, hp, ?_⟩
      rw [Elem.not_container_of_type (append_at_fields s p e hp).1]; exact hc
    · have hi' : i < s.heap.length := by omega
      obtain ⟨h1, h2, _⟩ := append_at_fields s p e hi'
      obtain ⟨t1, q, hq, hqi, hqc⟩ := ok.par i hi hi'
      rw [h1, h2]
      refine ⟨t1, q, hq, hqi, ?_⟩
      rw [Elem.not_container_of_type (append_at_fields s p e (by omega)).1]; exact hqc
  · intro q hq
    rw [hlen] at hq ⊢
    rw [List.range_succ, List.filter_append]
    have hcongr : (List.range s.heap.length).filter (fun i => ((s.append p e).at i).parent = some q) =
        (List.range s.heap.length).filter (fun i => (s.heap.at i).parent = some q) := by
      apply List.filter_congr
      intro i hi
      rw [(append_at_fields s p e (by simpa using hi)).2.1]
    rw [hcongr]
    by_cases hqq : q = s.heap.length
    · subst hqq
      rw [at_AS_append_last, hel]
      have h1 : (List.range s.heap.length).filter (fun i => (s.heap.at i).parent = some s.heap.length) = [] := by
        rw [List.filter_eq_nil_iff]
        intro i hi
        simp at hi
        by_cases hi0 : i = 0
        · subst hi0; rw [ok.doc.2.1]; simp
        · obtain ⟨_, q, hq', hqi, _⟩ := ok.par i (by omega) hi
          rw [hq']; simp; omega
      rw [h1]
      simp [at_AS_append_last, he]; omega
    · have hq' : q < s.heap.length := by omega
      rw [at_AS_append_lt s p e hq', ← ok.els q hq']
      by_cases hqp : q = p
      · subst hqp
        simp [at_AS_append_last, he]
      · have : ¬ p = q := fun e => hqp e.symm
        simp [hqp, at_AS_append_last, he, this]
  · intro i hi
    rw [hlen] at hi
    by_cases hii : i = s.heap.length
    · subst hii; rw [at_AS_append_last]; exact heo
    · have hi' : i < s.heap.length := by omega
      rw [at_AS_append_lt s p e hi']
      split
      · exact (ok.elem i hi').elements
      · exact ok.elem i hi'

theorem HeapOk.modify (ok : HeapOk h) (hn : n < h.length) (hpar : (f (h.at n)).parent = (h.at n).parent)
    (hel : (f (h.at n)).elements = (h.at n).elements)
    (htn : ¬ (h.at n).isContainer) (hto : ¬ (f (h.at n)).isContainer) (heo : ElemOk (f (h.at n))) : HeapOk (h.modify n f) := by
  have hpar' : ∀ i, (Heap.at (h.modify n f) i).parent = (h.at i).parent := by
    intro i; rw [Heap.at_modify]; split
    · rename_i hh; rw [hpar, hh.1]
    · rfl
  have hel' : ∀ i, (Heap.at (h.modify n f) i).elements = (h.at i).elements := by
    intro i; rw [Heap.at_modify]; split
    · rename_i hh; rw [hel, hh.1]
    · rfl
  have hn0 : n ≠ 0 := by intro h0; subst h0; exact htn (Or.inl ok.doc.1)
  refine ⟨by simpa using ok.pos, ?_, ?_, ?_, ?_⟩
  · rw [Heap.at_modify_ne (Ne.symm hn0)]; exact ok.doc
  · intro i hi hil
    simp at hil
    rw [hpar']
    obtain ⟨t1, q, hq, hqi, hqc⟩ := ok.par i hi hil
    refine ⟨?_, q, hq, hqi, ?_⟩
    · rw [Heap.at_modify]; split
      · intro e; exact hto (Or.inl e)
      · exact t1
    · rw [Heap.at_modify]; split
      · rename_i hh; rw [hh.1] at hqc; exact absurd hqc htn
      · exact hqc
  · intro q hq
    simp at hq
    simp only [List.length_modify, hpar', hel']
    exact ok.els q hq
  · intro i hi
    simp at hi
    rw [Heap.at_modify]; split
    · exact heo
    · exact ok.elem i hi

/-- A heap that differs in `deepResolve` only. -/
theorem HeapOk.deep (ok : HeapOk h) (hl : h'.length = h.length)
    (hd : ∀ j, (h'.at j).undeep = (h.at j).undeep) : HeapOk h' := by
  have hf : ∀ j, (h'.at j).type = (h.at j).type ∧ (h'.at j).parent = (h.at j).parent ∧ (h'.at j).elements = (h.at j).elements ∧
      (h'.at j).comments = (h.at j).comments := by
    intro j
    have := hd j
    refine ⟨?_, ?_, ?_, ?_⟩
    · have := congrArg Elem.type this; exact this
    · have := congrArg Elem.parent this; exact this
    · have := congrArg Elem.elements this; exact this
    · have := congrArg Elem.comments this; exact this
  refine ⟨by rw [hl]; exact ok.pos, ?_, ?_, ?_, ?_⟩
  · rw [(hf 0).1, (hf 0).2.1, (hf 0).2.2.2]; exact ok.doc
  · intro i hi hil
    rw [hl] at hil
    rw [(hf i).1, (hf i).2.1]
    obtain ⟨t1, q, hq, hqi, hqc⟩ := ok.par i hi hil
    exact ⟨t1, q, hq, hqi, (Elem.not_container_of_type (hf q).1).2 hqc⟩
  · intro q hq
    rw [hl] at hq ⊢
    rw [(hf q).2.2.1, ok.els q hq]
    apply List.filter_congr
    intro i _
    rw [(hf i).2.1]
  · intro i hi
    rw [hl] at hi
    have ho := ok.elem i hi
    have e : h'.at i = { h.at i with deepResolve := (h'.at i).deepResolve } := by
      have := hd i
      cases h1 : h'.at i; cases h2 : h.at i
      rw [h1, h2] at this
      simpa [Elem.undeep] using this
    rw [e]
    exact ⟨ho.types, ho.items, ho.entries, ho.list, ho.fieldset, ho.conts, ho.value, ho.field, ho.lines, ho.fin, ho.comments, ho.template, ho.copy, ho.deep, ho.mirror, ho.extend, ho.deepOp⟩

/-- Where the cursors `last_continuable_element` and `last_non_section_element` point. -/
structure CursorOk (s : AS) : Prop where
  non_some : ∀ n, s.lastNonSection = some n → n + 1 = s.heap.length ∧ (s.heap.at n).type ∈ [Ty.field, .empty, .list, .fieldset]
  non_none : s.lastNonSection = none → (s.heap.at (s.heap.length - 1)).type ∈ [Ty.document, .section, .mlBegin]
  elem : ∀ i, s.lastCont = some (.elem i) → i + 1 = s.heap.length ∧ (s.heap.at i).type ∈ [Ty.field, .empty] ∧ (s.heap.at i).template = none
  sub : ∀ i, s.lastCont = some (.sub i) → i + 1 = s.heap.length ∧ (s.heap.at i).type ∈ [Ty.list, .fieldset]
  cont_none : s.lastCont = none → (s.heap.at (s.heap.length - 1)).type ∈ [Ty.document, .section, .mlBegin] ∨
    ((s.heap.at (s.heap.length - 1)).type = .empty ∧ (s.heap.at (s.heap.length - 1)).template.isSome)

/-- How sections hang together. -/
structure SecOk (s : AS) : Prop where
  lt : s.lastSection < s.heap.length
  con : (s.heap.at s.lastSection).isContainer
  last : ∀ j, s.lastSection < j → j < s.heap.length → (s.heap.at j).type ≠ .section
  depth : s.depth = (s.heap.at s.lastSection).depth
  doc : (s.heap.at 0).depth = 0
  par : ∀ i p, i < s.heap.length → (s.heap.at i).type = .section → (s.heap.at i).parent = some p → (s.heap.at i).depth = (s.heap.at p).depth + 1
  between : ∀ i p j, i < s.heap.length → (s.heap.at i).type = .section → (s.heap.at i).parent = some p → p < j → j < i →
    (s.heap.at j).type = .section → (s.heap.at i).depth ≤ (s.heap.at j).depth
  nonsec : ∀ i p j, i < s.heap.length → (s.heap.at i).type ≠ .section → (s.heap.at i).parent = some p → p < j → j < i →
    (s.heap.at j).type ≠ .section
  open_ : ∀ k a, ancestor s.heap k s.lastSection = some a → ∀ j, a < j → j < s.heap.length → (s.heap.at j).type = .section →
    (s.heap.at a).depth < (s.heap.at j).depth

/-- The invariant. -/
structure Inv (s : AS) : Prop where
  heap : HeapOk s.heap
  cur : CursorOk s
  sec : SecOk s
  comments : s.comments ≠ some []

theorem ancestor_add (h : Heap) : ∀ (a b i : Nat), ancestor h (a + b) i = (ancestor h a i).bind (ancestor h b) := by
  intro a
  induction a with
  | zero => intro b i; simp [ancestor]
  | succ a ih =>
    intro b i
    rw [Nat.succ_add, ancestor, ancestor]
    cases (h.at i).parent with
    | none => rfl
    | some p => simp [ih]

/-- Climbing stays inside the heap. -/
theorem ancestor_spec (ok : HeapOk h) : ∀ (k i a : Nat), i < h.length → (h.at i).isContainer → ancestor h k i = some a →
    a ≤ i ∧ (h.at a).isContainer := by
  intro k
  induction k with
  | zero => intro i a hi hc h; simp [ancestor] at h; subst h; exact ⟨Nat.le_refl _, hc⟩
  | succ k ih =>
    intro i a hi hc h
    rw [ancestor] at h
    by_cases hi0 : i = 0
    · subst hi0; rw [ok.doc.2.1] at h; simp at h
    · obtain ⟨_, p, hp, hpi, hpc⟩ := ok.par i (by omega) hi
      rw [hp] at h
      simp at h
      have := ih p a (by omega) hpc h
      exact ⟨by omega, this.2⟩

theorem ancestor_congr (ok : HeapOk h) (hp : ∀ i, i < n → (h'.at i).parent = (h.at i).parent) (hn : n ≤ h.length) :
    ∀ (k i : Nat), i < n → ancestor h' k i = ancestor h k i := by
  intro k
  induction k with
  | zero => intro i _; rfl
  | succ k ih =>
    intro i hi
    rw [ancestor, ancestor, hp i hi]
    by_cases hi0 : i = 0
    · subst hi0; rw [ok.doc.2.1]; rfl
    · obtain ⟨_, p, hp', hpi, _⟩ := ok.par i (by omega) (by omega)
      rw [hp']
      exact ih p (by omega)

/-- Climbing `k` steps goes up `k` levels. -/
theorem ancestor_depth (ok : HeapOk s.heap) (sec : SecOk s) : ∀ (k i a : Nat), i < s.heap.length → (s.heap.at i).isContainer →
    ancestor s.heap k i = some a → (s.heap.at a).depth + k = (s.heap.at i).depth := by
  intro k
  induction k with
  | zero => intro i a _ _ h; simp [ancestor] at h; subst h; rfl
  | succ k ih =>
    intro i a hi hc h
    rw [ancestor] at h
    by_cases hi0 : i = 0
    · subst hi0; rw [ok.doc.2.1] at h; simp at h
    · obtain ⟨ht, p, hp, hpi, hpc⟩ := ok.par i (by omega) hi
      rw [hp] at h
      have h1 := ih p a (by omega) hpc (by simpa using h)
      have hs : (s.heap.at i).type = .section := by
        rcases hc with hc | hc
        · exact absurd hc ht
        · exact hc
      have h2 := sec.par i p hi hs hp
      omega

/-- Climbing as many steps as there are levels is possible. -/
theorem ancestor_exists (ok : HeapOk s.heap) (sec : SecOk s) : ∀ (k i : Nat), i < s.heap.length → (s.heap.at i).isContainer →
    k ≤ (s.heap.at i).depth → ∃ a, ancestor s.heap k i = some a := by
  intro k
  induction k with
  | zero => intro i _ _ _; exact ⟨i, rfl⟩
  | succ k ih =>
    intro i hi hc hk
    by_cases hi0 : i = 0
    · subst hi0; rw [sec.doc] at hk; omega
    · obtain ⟨ht, p, hp, hpi, hpc⟩ := ok.par i (by omega) hi
      have hs : (s.heap.at i).type = .section := by
        rcases hc with hc | hc
        · exact absurd hc ht
        · exact hc
      have h2 := sec.par i p hi hs hp
      obtain ⟨a, ha⟩ := ih p (by omega) hpc (by omega)
      exact ⟨a, by rw [ancestor, hp]; exact ha⟩

/-- The parent of a heading is the ancestor of the current section one level above the heading. -/
theorem headingParent_eq (ok : HeapOk s.heap) (sec : SecOk s) {d : Nat} (hd : 0 < d) :
    (d ≤ s.depth + 1 ∧ ∃ p, headingParent s d = .ok p ∧ ancestor s.heap (s.depth + 1 - d) s.lastSection = some p) ∨
    (s.depth + 1 < d ∧ headingParent s d = .error (.layerSkip s.lastSection)) := by
  unfold headingParent
  by_cases h1 : d = s.depth + 1
  · left; refine ⟨by omega, s.lastSection, by simp [h1], ?_⟩
    rw [h1, Nat.sub_self]; rfl
  · rw [if_neg h1]
    by_cases h2 : d = s.depth
    · left; refine ⟨by omega, ?_⟩
      rw [if_pos h2]
      obtain ⟨a, ha⟩ := ancestor_exists ok sec 1 s.lastSection sec.lt sec.con (by rw [← sec.depth]; omega)
      refine ⟨a, ?_, ?_⟩
      · rw [ancestor] at ha
        cases hp : (s.heap.at s.lastSection).parent with
        | none => rw [hp] at ha; simp at ha
        | some q => rw [hp] at ha; simp [ancestor] at ha; simp [ha]
      · rw [show s.depth + 1 - d = 1 by omega]; exact ha
    · rw [if_neg h2]
      by_cases h3 : d < s.depth
      · left; refine ⟨by omega, ?_⟩
        rw [if_pos h3]
        obtain ⟨a, ha⟩ := ancestor_exists ok sec (s.depth - d + 1) s.lastSection sec.lt sec.con (by rw [← sec.depth]; omega)
        refine ⟨a, ?_, by rw [show s.depth + 1 - d = s.depth - d + 1 by omega]; exact ha⟩
        rw [ancestor_add] at ha
        cases hl : ancestor s.heap (s.depth - d) s.lastSection with
        | none => rw [hl] at ha; simp at ha
        | some l =>
          rw [hl] at ha
          simp only [Option.bind_some, ancestor] at ha
          cases hp : (s.heap.at l).parent with
          | none => rw [hp] at ha; simp at ha
          | some q => rw [hp] at ha; simp at ha; simp [hp, ha]
      · right; rw [if_neg h3]; exact ⟨by omega, rfl⟩

/-- `SecOk` only looks at a part of the heap. -/
theorem SecOk.congr (ok : HeapOk s.heap) (sec : SecOk s) (hl : s'.heap.length = s.heap.length) (hs : s'.lastSection = s.lastSection)
    (hd : s'.depth = s.depth)
    (hf : ∀ i, ((s'.heap.at i).type = .section ↔ (s.heap.at i).type = .section) ∧ ((s'.heap.at i).isContainer ↔ (s.heap.at i).isContainer) ∧
      (s'.heap.at i).parent = (s.heap.at i).parent ∧ (s'.heap.at i).depth = (s.heap.at i).depth) : SecOk s' := by
  constructor
  · rw [hl, hs]; exact sec.lt
  · rw [hs, (hf _).2.1]; exact sec.con
  · intro j h1 h2; rw [hs] at h1; rw [hl] at h2; rw [Ne, (hf j).1]; exact sec.last j h1 h2
  · rw [hd, hs, (hf _).2.2.2]; exact sec.depth
  · rw [(hf 0).2.2.2]; exact sec.doc
  · intro i p h1 h2 h3
    rw [hl] at h1; rw [(hf i).1] at h2; rw [(hf i).2.2.1] at h3
    rw [(hf i).2.2.2, (hf p).2.2.2]; exact sec.par i p h1 h2 h3
  · intro i p j h1 h2 h3 h4 h5 h6
    rw [hl] at h1; rw [(hf i).1] at h2; rw [(hf i).2.2.1] at h3; rw [(hf j).1] at h6
    rw [(hf i).2.2.2, (hf j).2.2.2]; exact sec.between i p j h1 h2 h3 h4 h5 h6
  · intro i p j h1 h2 h3 h4 h5
    rw [hl] at h1; rw [Ne, (hf i).1] at h2; rw [(hf i).2.2.1] at h3; rw [Ne, (hf j).1]
    exact sec.nonsec i p j h1 h2 h3 h4 h5
  · intro k a h1 j h2 h3 h4
    rw [hs, ancestor_congr ok (fun i _ => (hf i).2.2.1) (Nat.le_refl _) k _ sec.lt] at h1
    rw [hl] at h3; rw [(hf j).1] at h4; rw [(hf a).2.2.2, (hf j).2.2.2]
    exact sec.open_ k a h1 j h2 h3 h4

theorem append_depth (s : AS) (p : Nat) (e : Elem) (hi : i < s.heap.length) :
    ((s.append p e).at i).depth = (s.heap.at i).depth := by
  unfold Elem.depth; rw [(append_at_fields s p e hi).2.2.1]

/-- A new element that is not a section. -/
theorem SecOk.append (ok : HeapOk s.heap) (sec : SecOk s) (he : e.parent = some s.lastSection) (ht : e.type ≠ .section) 
    (hh : s'.heap = s.append s.lastSection e) (hs : s'.lastSection = s.lastSection) (hd : s'.depth = s.depth) : SecOk s' := by
  have hlen := append_length s s.lastSection e
  have F := fun {i} (hi : i < s.heap.length) => append_at_fields s s.lastSection e hi
  have D := fun {i} (hi : i < s.heap.length) => append_depth s s.lastSection e hi
  have key : ∀ i, i < s.heap.length + 1 → i < s.heap.length ∨ i = s.heap.length := by omega
  have hlt := sec.lt
  constructor
  · rw [hh, hs, hlen]; omega
  · rw [hh, hs, Elem.not_container_of_type (F hlt).1]; exact sec.con
  · intro j h1 h2
    rw [hs] at h1; rw [hh, hlen] at h2; rw [hh]
    rcases key j h2 with h | h
    · rw [(F h).1]; exact sec.last j h1 h
    · subst h; rw [at_AS_append_last]; exact ht
  · rw [hd, hs, hh, D hlt]; exact sec.depth
  · rw [hh, D ok.pos]; exact sec.doc
  · intro i p h1 h2 h3
    rw [hh] at h1 h2 h3 ⊢
    rw [hlen] at h1
    rcases key i h1 with h | h
    · rw [(F h).1] at h2; rw [(F h).2.1] at h3
      have hi0 : i ≠ 0 := by intro h0; subst h0; rw [ok.doc.1] at h2; cases h2
      obtain ⟨_, q, hq, hqi, _⟩ := ok.par i (by omega) h
      rw [h3] at hq; injection hq with hq; subst hq
      rw [D h, D (by omega)]; exact sec.par i p h h2 h3
    · subst h; rw [at_AS_append_last] at h2; exact absurd h2 ht
  · intro i p j h1 h2 h3 h4 h5 h6
    rw [hh] at h1 h2 h3 h6 ⊢
    rw [hlen] at h1
    rcases key i h1 with h | h
    · rw [(F h).1] at h2; rw [(F h).2.1] at h3; rw [(F (by omega)).1] at h6
      rw [D h, D (by omega)]
      exact sec.between i p j h h2 h3 h4 h5 h6
    · subst h; rw [at_AS_append_last] at h2; exact absurd h2 ht
  · intro i p j h1 h2 h3 h4 h5
    rw [hh] at h1 h2 h3 ⊢
    rw [hlen] at h1
    rcases key i h1 with h | h
    · rw [(F h).1] at h2; rw [(F h).2.1] at h3; rw [(F (by omega)).1]
      exact sec.nonsec i p j h h2 h3 h4 h5
    · subst h; rw [at_AS_append_last, he] at h3
      injection h3 with h3; subst h3
      rw [(F h5).1]; exact sec.last j h4 h5
  · intro k a h1 j h2 h3 h4
    rw [hh] at h1 h3 h4 ⊢
    rw [hs, ancestor_congr (h' := s.append s.lastSection e) ok (fun i hi => (F hi).2.1) (Nat.le_refl _) k _ hlt] at h1
    have ha := ancestor_spec ok k _ a hlt sec.con h1
    rw [hlen] at h3
    rcases key j h3 with h | h
    · rw [(F h).1] at h4
      rw [D (by omega), D h]
      exact sec.open_ k a h1 j h2 h h4
    · subst h; rw [at_AS_append_last] at h4; exact absurd h4 ht

/-- A new section below an ancestor of the current section. -/
theorem SecOk.appendSection (ok : HeapOk s.heap) (sec : SecOk s) {m : Nat} (hp : ancestor s.heap m s.lastSection = some p)
    (he : e.parent = some p) (ht : e.type = .section) (hed : e.depth = (s.heap.at p).depth + 1)
    (hh : s'.heap = s.append p e) (hs : s'.lastSection = s.heap.length) (hd : s'.depth = e.depth) : SecOk s' := by
  have hlen := append_length s p e
  have F := fun {i} (hi : i < s.heap.length) => append_at_fields s p e hi
  have D := fun {i} (hi : i < s.heap.length) => append_depth s p e hi
  have key : ∀ i, i < s.heap.length + 1 → i < s.heap.length ∨ i = s.heap.length := by omega
  have hlt := sec.lt
  obtain ⟨hpl, hpc⟩ := ancestor_spec ok m _ p hlt sec.con hp
  have hpar : ∀ i q, i < s.heap.length → (s.heap.at i).parent = some q → q < i := by
    intro i q hi hq
    have hi0 : i ≠ 0 := by intro h0; subst h0; rw [ok.doc.2.1] at hq; cases hq
    obtain ⟨_, q', hq', hqi, _⟩ := ok.par i (by omega) hi
    rw [hq] at hq'; injection hq' with hq'; subst hq'; exact hqi
  constructor
  · rw [hh, hs, hlen]; omega
  · rw [hh, hs, at_AS_append_last]; exact Or.inr ht
  · intro j h1 h2
    rw [hs] at h1; rw [hh, hlen] at h2; omega
  · rw [hd, hs, hh, at_AS_append_last]
  · rw [hh, D ok.pos]; exact sec.doc
  · intro i q h1 h2 h3
    rw [hh] at h1 h2 h3 ⊢
    rw [hlen] at h1
    rcases key i h1 with h | h
    · rw [(F h).1] at h2; rw [(F h).2.1] at h3
      have := hpar i q h h3
      rw [D h, D (by omega)]; exact sec.par i q h h2 h3
    · subst h; rw [at_AS_append_last] at h3 ⊢
      rw [he] at h3; injection h3 with h3; subst h3
      rw [D (by omega)]; exact hed
  · intro i q j h1 h2 h3 h4 h5 h6
    rw [hh] at h1 h2 h3 h6 ⊢
    rw [hlen] at h1
    rcases key i h1 with h | h
    · rw [(F h).1] at h2; rw [(F h).2.1] at h3; rw [(F (by omega)).1] at h6
      rw [D h, D (by omega)]
      exact sec.between i q j h h2 h3 h4 h5 h6
    · subst h; rw [at_AS_append_last] at h3 ⊢
      rw [he] at h3; injection h3 with h3; subst h3
      rw [(F h5).1] at h6; rw [D h5, hed]
      exact sec.open_ m p hp j h4 h5 h6
  · intro i q j h1 h2 h3 h4 h5
    rw [hh] at h1 h2 h3 ⊢
    rw [hlen] at h1
    rcases key i h1 with h | h
    · rw [(F h).1] at h2; rw [(F h).2.1] at h3; rw [(F (by omega)).1]
      exact sec.nonsec i q j h h2 h3 h4 h5
    · subst h; rw [at_AS_append_last] at h2; exact absurd ht h2
  · intro k a h1 j h2 h3 h4
    rw [hh] at h1 h3 h4 ⊢
    rw [hs] at h1
    rw [hlen] at h3
    cases k with
    | zero => simp [ancestor] at h1; omega
    | succ k =>
      rw [ancestor, at_AS_append_last, he] at h1
      simp only [Option.bind_some] at h1
      rw [ancestor_congr (h' := s.append p e) ok (fun i hi => (F hi).2.1) (Nat.le_refl _) k _ (by omega)] at h1
      have ha := ancestor_spec ok k _ a (by omega) hpc h1
      rcases key j h3 with h | h
      · rw [(F h).1] at h4
        rw [D (by omega), D h]
        refine sec.open_ (m + k) a ?_ j h2 h h4
        rw [ancestor_add, hp]; exact h1
      · subst h
        rw [at_AS_append_last, hed, D (by omega)]
        have := ancestor_depth ok sec k p a (by omega) hpc h1
        omega

end Eno
