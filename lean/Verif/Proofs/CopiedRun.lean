import Verif.Proofs.WrittenDocument
import Verif.Proofs.TraceGeometry
import Verif.Spec.Copied

/-! # Reading written documents with copies -/

namespace Eno

open Spec

variable {input : Str} {ls rest : List Str} {s : AS} {h h' h'' : Heap}

/-! ## Elements and copies -/

/-- What is recorded of a copy has these items or entries. -/
def InnerIs : Inner → Elem → Prop
  | .nothing, E => E.type = .empty ∧ E.items = none ∧ E.entries = none
  | .items x xs, E => E.type = .list ∧ E.entries = none ∧ ∃ ys, E.items = some ys ∧ ys.map Sub.toItem = x :: xs ∧ ∀ y ∈ ys, y.Fine
  | .entries x xs, E => E.type = .fieldset ∧ E.items = none ∧ ∃ ys, E.entries = some ys ∧ ys.map Sub.toEntry = x :: xs ∧ ∀ y ∈ ys, y.Fine ∧ y.key.isSome

/-- What is recorded of a copy is what it says. -/
structure CopyIs (r : Remark) (k t : Str) (inner : Inner) (E : Elem) : Prop where
  key : E.key = k
  remark : Remarked r E.comments
  copy : E.copy = some t
  template : E.template = some t
  deep : E.deepCopy = false
  elements : E.elements = []
  inner : InnerIs inner E

/-- What is recorded of an element or a copy is what it says. -/
def ThingIs (input : Str) : Thing → Elem → Prop
  | .plain e, E => ElemIs input e E
  | .copy r k t inner, E => CopyIs r k t inner E

theorem thingIs_undeep {t : Thing} {E E' : Elem} (h : E'.undeep = E.undeep) (H : ThingIs input t E) : ThingIs input t E' := by
  have : ∀ {A : Elem}, ThingIs input t A → ThingIs input t A.undeep := by
    intro A H
    cases t with
    | plain e =>
      obtain ⟨r, k, c⟩ := e
      refine ⟨H.key, H.remark, H.copy, H.template, H.deep, H.elements, ?_⟩
      have := H.content
      cases c <;> exact this
    | copy r k t inner =>
      refine ⟨H.key, H.remark, H.copy, H.template, H.deep, H.elements, ?_⟩
      have := H.inner
      cases inner <;> exact this
  have back : ∀ {A : Elem}, ThingIs input t A.undeep → ThingIs input t A := by
    intro A H
    cases t with
    | plain e =>
      obtain ⟨r, k, c⟩ := e
      refine ⟨H.key, H.remark, H.copy, H.template, H.deep, H.elements, ?_⟩
      have := H.content
      cases c <;> exact this
    | copy r k t inner =>
      refine ⟨H.key, H.remark, H.copy, H.template, H.deep, H.elements, ?_⟩
      have := H.inner
      cases inner <;> exact this
  exact back (h ▸ this H)

/-- A written element or copy is read as one element that says the same. -/
theorem Run.thing {t : Thing} (h : t.Written ls) (hc : s.comments = none) :
    Run input (ls ++ rest) s rest (fun s' => ∃ E, ThingIs input t E ∧ s'.heap = s.append s.lastSection E ∧ s'.comments = none ∧ s'.depth = s.depth ∧
      s'.lastSection = s.lastSection) := by
  cases h with
  | plain he =>
    refine Run.mono (Run.element he hc) ?_
    rintro s' ⟨E, h1, h2, h3, h4, h5, _, _⟩
    exact ⟨E, h1, h2, h3, h4, h5⟩
  | @copy r k t inner o l ho hi =>
    let H : Heap := s.heap.modify s.lastSection fun p => { p with elements := p.elements ++ [s.heap.length] }
    have hH : H.length = s.heap.length := by simp [H]
    have happ : ∀ E, s.append s.lastSection E = H ++ [E] := fun E => rfl
    simp only [List.append_assoc]
    refine Run.trans (P := fun s1 => ∃ E : Elem, E.key = k ∧ Remarked r E.comments ∧ E.copy = some t ∧ E.template = some t ∧ E.deepCopy = false ∧ E.elements = [] ∧
      E.type = .empty ∧ E.items = none ∧ E.entries = none ∧ Within H E s1 s1 ∧ s1.depth = s.depth ∧ s1.lastSection = s.lastSection ∧
      s1.lastNonSection = some H.length) (mid := l ++ rest) ?_ ?_
    · refine Run.opening ho (by simp) (by simp) hc ?_
      intro m cm n i tok hr htok _hk
      obtain ⟨fin, body⟩ := tok
      cases body <;> simp [Line.ofBody] at htok
      rename_i K op v'
      obtain ⟨rfl, rfl⟩ := htok
      refine ⟨_, rfl, _, ?_, ?_, ?_, ?_, ?_, ?_, ?_, ?_, ?_, ⟨rfl, rfl, rfl, rfl, rfl, rfl⟩, rfl, rfl, ?_⟩
      · rfl
      · exact hr
      · rfl
      · rfl
      · rfl
      · rfl
      · rfl
      · rfl
      · rfl
      · simp [stepCopy, hH]
    · rintro s1 ⟨E, e1, e2, e3, e4, e5, e6, e7, e8, e9, hw, hd, hs, hn⟩
      cases hi with
      | nothing => exact Run.nothing ⟨E, ⟨e1, e2, e3, e4, e5, e6, e7, e8, e9⟩, by rw [happ]; exact hw.heap, hw.comments, hd, hs⟩
      | items hx =>
        refine Run.mono (Run.items (E := E) hx e9 (.inl ⟨e7, rfl, hw⟩) hn) ?_
        rintro s2 ⟨zs, m1, m2, m3, _⟩
        have hw2 := m3 (by simp)
        simp only [List.nil_append] at hw2
        exact ⟨{ E with type := .list, items := some zs }, ⟨e1, e2, e3, e4, e5, e6, rfl, e9, zs, rfl, m1, m2⟩, by rw [happ]; exact hw2.heap, hw2.comments, hw2.depth.trans hd, hw2.sec.trans hs⟩
      | entries hx =>
        refine Run.mono (Run.entries (E := E) hx e8 (.inl ⟨e7, rfl, hw⟩) hn) ?_
        rintro s2 ⟨zs, m1, m2, m3, _⟩
        have hw2 := m3 (by simp)
        simp only [List.nil_append] at hw2
        exact ⟨{ E with type := .fieldset, entries := some zs }, ⟨e1, e2, e3, e4, e5, e6, rfl, e8, zs, rfl, m1, m2⟩, by rw [happ]; exact hw2.heap, hw2.comments, hw2.depth.trans hd, hw2.sec.trans hs⟩

/-! ## Growing heaps -/

/-- `h'` is `h` with further elements behind it; of the old ones only `p` has changed, by getting the elements `added`, apart from deep marks. -/
structure Spread (h h' : Heap) (p : Nat) (added : List Nat) : Prop where
  le : h.length ≤ h'.length
  others : ∀ j, j < h.length → j ≠ p → (h'.at j).undeep = (h.at j).undeep
  parent : (h'.at p).undeep = { (h.at p).undeep with elements := (h.at p).elements ++ added }

theorem undeep_field {β} {E E' : Elem} (e : E'.undeep = E.undeep) (g : Elem → β) (hg : ∀ x b, g { x with deepResolve := b } = g x) : g E' = g E := by
  have h1 : g E'.undeep = g E' := hg _ _
  have h2 : g E.undeep = g E := hg _ _
  rw [← h1, ← h2, e]

theorem Spread.elements {p : Nat} {a : List Nat} (e : Spread h h' p a) : (h'.at p).elements = (h.at p).elements ++ a := by
  have := congrArg Elem.elements e.parent
  exact this

theorem Spread.refl (h : Heap) (p : Nat) : Spread h h p [] := ⟨Nat.le_refl _, fun _ _ _ => rfl, by simp [Elem.undeep]⟩

theorem Spread.trans {p : Nat} {a b : List Nat} (e : Spread h h' p a) (e' : Spread h' h'' p b) : Spread h h'' p (a ++ b) where
  le := Nat.le_trans e.le e'.le
  others := fun j hj hp => by rw [e'.others j (Nat.lt_of_lt_of_le hj e.le) hp, e.others j hj hp]
  parent := by rw [e'.parent, e.parent, e.elements, List.append_assoc]

theorem grown_of_ext {p : Nat} {a : List Nat} (e : Ext h h' p a) : Spread h h' p a where
  le := e.le
  others := fun j hj hp => by rw [e.others j hj hp]
  parent := by rw [e.parent]; rfl

theorem Spread.marked {p : Nat} {a : List Nat} (e : Spread h h' p a) (hl : h''.length = h'.length) (hm : ∀ j, (h''.at j).undeep = (h'.at j).undeep) : Spread h h'' p a where
  le := by rw [hl]; exact e.le
  others := fun j hj hp => by rw [hm, e.others j hj hp]
  parent := by rw [hm, e.parent]

theorem Spread.field {β} {p : Nat} {a : List Nat} (e : Spread h h' p a) (g : Elem → β) (hg : ∀ x l, g { x with elements := l } = g x)
    (hd : ∀ x b, g { x with deepResolve := b } = g x) {j : Nat} (hj : j < h.length) : g (h'.at j) = g (h.at j) := by
  by_cases hp : j = p
  · subst hp
    have h1 : g (h'.at j).undeep = g (h'.at j) := hd _ _
    have h2 : g (h.at j).undeep = g (h.at j) := hd _ _
    rw [← h1, e.parent, hg, h2]
  · exact undeep_field (e.others j hj hp) g hd

theorem Chain.grown {p : Nat} {a : List Nat} (e : Spread h h' p a) {t : List Nat} (c : Chain h t) : Chain h' t :=
  c.mono e.le fun _ hj => e.field (·.parent) (fun _ _ => rfl) (fun _ _ => rfl) hj

/-- Deep marks can be made. -/
theorem markDeep_chain : ∀ {π : List Nat} {h : Heap} {i : Nat} (fuel : Nat), Chain h (i :: π) → (∀ l, (i :: π).getLast? = some l → (h.at l).type = .document) →
    π.length < fuel → ∃ h', markDeep fuel h i = some h'
  | _, _, _, 0, _, _, hf => by omega
  | [], h, i, fuel + 1, _, hl, _ => ⟨h, by unfold markDeep; rw [if_pos (hl i rfl)]⟩
  | p :: π, h, i, fuel + 1, c, hl, hf => by
    unfold markDeep
    by_cases hd : (h.at i).type = .document
    · exact ⟨h, by rw [if_pos hd]⟩
    · rw [if_neg hd, c.2.1]
      have hm : ∀ j, (Heap.at (h.modify i fun e => { e with deepResolve := true }) j).undeep = (h.at j).undeep := by
        intro j
        rw [Heap.at_modify]
        split
        · rename_i hh; rw [hh.1]; rfl
        · rfl
      refine markDeep_chain fuel (c.2.2.mono (by simp) fun j _ => undeep_field (hm j) (·.parent) (fun _ _ => rfl)) ?_ (by simp at hf; omega)
      intro l h1
      rw [undeep_field (hm l) (·.type) (fun _ _ => rfl)]
      exact hl l (by rw [List.getLast?_cons_cons]; exact h1)

/-! ## The tree in the heap -/

/-- Elements that are recorded at these places. -/
inductive ThingsAt (input : Str) (h : Heap) (lo : Nat) : List Nat → List Thing → Prop where
  | nil : ThingsAt input h lo [] []
  | cons {i is t ts} : lo ≤ i → i < h.length → ThingIs input t (h.at i) → ThingsAt input h lo is ts → ThingsAt input h lo (i :: is) (t :: ts)

/-- What is recorded of the heading of a section. -/
structure HeadingIs (r : Remark) (k : Str) (c : Option (Bool × Str)) (E : Elem) : Prop where
  type : E.type = .section
  key : E.key = k
  remark : Remarked r E.comments
  copy : E.copy = c.map (·.2)
  template : E.template = c.map (·.2)
  deep : E.deepCopy = (c.map (·.1)).getD false
  items : E.items = none
  entries : E.entries = none

theorem HeadingIs.undeep {r : Remark} {k : Str} {c : Option (Bool × Str)} {E E' : Elem} (e : E'.undeep = E.undeep) (H : HeadingIs r k c E) : HeadingIs r k c E' :=
  ⟨(undeep_field e (·.type) (fun _ _ => rfl)).trans H.type, (undeep_field e (·.key) (fun _ _ => rfl)).trans H.key,
    by have := undeep_field e (·.comments) (fun _ _ => rfl); rw [this]; exact H.remark, (undeep_field e (·.copy) (fun _ _ => rfl)).trans H.copy,
    (undeep_field e (·.template) (fun _ _ => rfl)).trans H.template, (undeep_field e (·.deepCopy) (fun _ _ => rfl)).trans H.deep,
    (undeep_field e (·.items) (fun _ _ => rfl)).trans H.items, (undeep_field e (·.entries) (fun _ _ => rfl)).trans H.entries⟩

mutual

/-- A section that is recorded at this place. -/
inductive PartAt (input : Str) (h : Heap) (lo : Nat) : Nat → Part → Prop where
  | mk {i r k c ts ps a b} : lo ≤ i → i < h.length → HeadingIs r k c (h.at i) → (h.at i).elements = a ++ b → ThingsAt input h lo a ts → PartsAt input h lo b ps →
      PartAt input h lo i (.mk r k c ts ps)

/-- Sections that are recorded at these places. -/
inductive PartsAt (input : Str) (h : Heap) (lo : Nat) : List Nat → List Part → Prop where
  | nil : PartsAt input h lo [] []
  | cons {i is p ps} : PartAt input h lo i p → PartsAt input h lo is ps → PartsAt input h lo (i :: is) (p :: ps)

end

/-- From `lo` on the heaps say the same. -/
def SameFrom (h h' : Heap) (lo : Nat) : Prop := h.length ≤ h'.length ∧ ∀ j, lo ≤ j → j < h.length → (h'.at j).undeep = (h.at j).undeep

theorem SameFrom.refl (h : Heap) (lo : Nat) : SameFrom h h lo := ⟨Nat.le_refl _, fun _ _ _ => rfl⟩

theorem ThingsAt.mono {lo lo' : Nat} (hs : SameFrom h h' lo) (hlo : lo' ≤ lo) {is : List Nat} {ts : List Thing}
    (H : ThingsAt input h lo is ts) : ThingsAt input h' lo' is ts := by
  induction H with
  | nil => exact .nil
  | cons h1 h2 h3 _ ih => exact .cons (Nat.le_trans hlo h1) (Nat.lt_of_lt_of_le h2 hs.1) (thingIs_undeep (hs.2 _ h1 h2) h3) ih

mutual

theorem PartAt.mono {lo lo' : Nat} (hs : SameFrom h h' lo) (hlo : lo' ≤ lo) {i : Nat} {x : Part} : PartAt input h lo i x → PartAt input h' lo' i x
  | .mk h1 h2 h3 h4 h5 h6 =>
    .mk (Nat.le_trans hlo h1) (Nat.lt_of_lt_of_le h2 hs.1) (h3.undeep (hs.2 _ h1 h2)) ((undeep_field (hs.2 _ h1 h2) (·.elements) (fun _ _ => rfl)).trans h4) (h5.mono hs hlo)
      (PartsAt.mono hs hlo h6)

theorem PartsAt.mono {lo lo' : Nat} (hs : SameFrom h h' lo) (hlo : lo' ≤ lo) {is : List Nat} {xs : List Part} : PartsAt input h lo is xs → PartsAt input h' lo' is xs
  | .nil => .nil
  | .cons h1 h2 => .cons (PartAt.mono hs hlo h1) (PartsAt.mono hs hlo h2)

end

/-- An element or a section that is recorded at this place. -/
def NodeAt (input : Str) (h : Heap) (lo i : Nat) : Node → Prop
  | .thing t => lo ≤ i ∧ i < h.length ∧ ThingIs input t (h.at i)
  | .part p => PartAt input h lo i p

theorem NodeAt.mono {lo lo' i : Nat} {n : Node} (hs : SameFrom h h' lo) (hlo : lo' ≤ lo) (H : NodeAt input h lo i n) : NodeAt input h' lo' i n := by
  cases n with
  | thing t => exact ⟨Nat.le_trans hlo H.1, Nat.lt_of_lt_of_le H.2.1 hs.1, thingIs_undeep (hs.2 _ H.1 H.2.1) H.2.2⟩
  | part p => exact PartAt.mono hs hlo H

/-- Everything that is recorded from place `i` on. -/
def Seg (input : Str) (h : Heap) (lo : Nat) : Nat → List Node → Prop
  | _, [] => True
  | i, n :: ns => NodeAt input h lo i n ∧ Seg input h lo (i + 1) ns

theorem Seg.mono {lo lo' : Nat} (hs : SameFrom h h' lo) (hlo : lo' ≤ lo) : ∀ {ns : List Node} {i : Nat}, Seg input h lo i ns → Seg input h' lo' i ns
  | [], _, _ => trivial
  | _ :: _, _, H => ⟨H.1.mono hs hlo, Seg.mono hs hlo H.2⟩

theorem Seg.append {lo : Nat} : ∀ {a b : List Node} {i : Nat}, Seg input h lo i a → Seg input h lo (i + a.length) b → Seg input h lo i (a ++ b)
  | [], _, _, _, H => by simpa using H
  | _ :: a, b, i, H, H' => ⟨H.1, Seg.append H.2 (by rw [List.length_cons] at H'; rw [show i + 1 + a.length = i + (a.length + 1) by omega]; exact H')⟩

theorem Seg.get {lo : Nat} : ∀ {ns : List Node} {i j : Nat} {n : Node}, Seg input h lo i ns → ns[j]? = some n → NodeAt input h lo (i + j) n
  | [], _, _, _, _, e => by simp at e
  | x :: ns, i, 0, n, H, e => by simp at e; subst e; exact H.1
  | x :: ns, i, j + 1, n, H, e => by
    have := Seg.get (j := j) H.2 (by simpa using e)
    rw [show i + (j + 1) = i + 1 + j by omega]; exact this

/-! ## Reading -/

/-- The document is around everything. -/
structure Rooted (s : AS) (π : List Nat) : Prop where
  last : π.getLast? = some 0
  doc : (s.heap.at 0).type = .document
  small : π.length ≤ s.heap.length

theorem Rooted.grown {π : List Nat} {s s' : AS} {p : Nat} {a : List Nat} (r : Rooted s π) (e : Spread s.heap s'.heap p a) (h0 : 0 < s.heap.length) : Rooted s' π :=
  ⟨r.last, (e.field (·.type) (fun _ _ => rfl) (fun _ _ => rfl) h0).trans r.doc, Nat.le_trans r.small e.le⟩

/-- Written elements become elements of the innermost open section. -/
theorem Run.things {ts : List Thing} (hw : Each Thing.Written ts ls) : ∀ {s : AS} {p : Nat} {π : List Nat}, Here s (p :: π) → s.comments = none →
    Run input (ls ++ rest) s rest (fun s' => ∃ is, Spread s.heap s'.heap p is ∧ ThingsAt input s'.heap s.heap.length is ts ∧
      Seg input s'.heap s.heap.length s.heap.length (ts.map .thing) ∧ s'.heap.length = s.heap.length + ts.length ∧ Here s' (p :: π) ∧ s'.comments = none) := by
  induction hw with
  | nil => intro s p π hh hc; exact Run.nothing ⟨[], Spread.refl _ _, .nil, trivial, rfl, hh, hc⟩
  | @cons a as l1 l2 h1 _ ih =>
    intro s p π hh hc
    have hp : s.lastSection = p := by have := hh.last; simp at this; exact this.symm
    simp only [List.append_assoc]
    refine Run.trans (Run.thing h1 hc) ?_
    rintro s1 ⟨E, k1, k2, k3, k4, k5⟩
    rw [hp] at k2
    have hpl := hh.chain.lt
    have e1 : Spread s.heap s1.heap p [s.heap.length] := by rw [k2]; exact grown_of_ext (ext_append hpl E)
    have hh1 : Here s1 (p :: π) := ⟨hh.chain.grown e1, by rw [k5]; exact hh.last, by rw [k4]; exact hh.depth⟩
    refine Run.mono (ih hh1 k3) ?_
    rintro s2 ⟨is, e2, g1, g2, g3, g4, g5⟩
    have hlen : s1.heap.length = s.heap.length + 1 := by rw [k2, append_length]
    have hE : ThingIs input a (s2.heap.at s.heap.length) := by
      refine thingIs_undeep (e2.others _ (by omega) (by omega)) ?_
      rw [k2, at_AS_append_last]; exact k1
    have hle := e2.le
    refine ⟨s.heap.length :: is, e1.trans e2, .cons (Nat.le_refl _) (by omega) hE (g1.mono (SameFrom.refl _ _) (by omega)),
      ⟨⟨Nat.le_refl _, by omega, hE⟩, ?_⟩, by rw [g3, hlen, List.length_cons]; omega, g4, g5⟩
    rw [hlen] at g2
    exact g2.mono (SameFrom.refl _ _) (by omega)

mutual

/-- A written section is read as a section of the one around it. -/
theorem Run.part {d : Nat} {x : Part} : ∀ {ls : List Str} (_ : Part.Written d x ls) {rest : List Str} {s : AS} {p : Nat} {π : List Nat}, Beneath s (p :: π) → Rooted s (p :: π) →
    π.length + 1 = d → s.comments = none →
    Run input (ls ++ rest) s rest (fun s' => Spread s.heap s'.heap p [s.heap.length] ∧ PartAt input s'.heap s.heap.length s.heap.length x ∧
      Seg input s'.heap s.heap.length s.heap.length x.nodes ∧ s'.heap.length = s.heap.length + x.nodes.length ∧ Beneath s' (p :: π) ∧ s'.comments = none)
  | _, @Part.Written.mk _ r k c ts ps o a b ho hts hps, rest, s, p, π, hu, hroot, hd, hc => by
    simp only [List.append_assoc]
    have hbase : Chain s.heap (p :: π) := by
      obtain ⟨junk, h1, _⟩ := hu
      exact chain_drop (a := junk) h1
    have hpl : p < s.heap.length := hbase.lt
    refine Run.trans (P := fun s1 => ∃ E : Elem, HeadingIs r k c E ∧ E.elements = [] ∧ Spread s.heap s1.heap p [s.heap.length] ∧ s1.heap.length = s.heap.length + 1 ∧
      (s1.heap.at s.heap.length).undeep = E.undeep ∧ Here s1 (s.heap.length :: p :: π) ∧ s1.comments = none) (mid := a ++ (b ++ rest)) ?_ ?_
    · refine Run.opening ho (by simp) (by simp) hc ?_
      intro m cm n i tok hr htok hk
      obtain ⟨fin, body⟩ := tok
      cases body <;> simp [Line.ofBody] at htok
      rename_i op K cp
      obtain ⟨h1, h2, h3⟩ := htok
      have hop : op.e - op.b = π.length + 1 := by
        have := (placed_mem hk.placed op (by cases cp <;> simp [Body.caps])).2.1.2.1
        omega
      have hpar : headingParent { s with metas := m, comments := cm } (op.e - op.b) = .ok p := by
        rw [hop]
        exact Beneath.parent (s := { s with metas := m, comments := cm }) (by obtain ⟨j, g1, g2, g3⟩ := hu; exact ⟨j, g1, g2, g3⟩)
      have fill : ∀ (E : Elem) (s1 : AS) (hh : Heap), E.parent = some p → E.elements = [] → HeadingIs r k c E → hh = AS.append { s with metas := m, comments := cm } p E →
          s1.heap.length = hh.length → (∀ j, (s1.heap.at j).undeep = (hh.at j).undeep) → s1.depth = op.e - op.b → s1.lastSection = s.heap.length → s1.comments = none →
          ∃ E : Elem, HeadingIs r k c E ∧ E.elements = [] ∧ Spread s.heap s1.heap p [s.heap.length] ∧ s1.heap.length = s.heap.length + 1 ∧
            (s1.heap.at s.heap.length).undeep = E.undeep ∧ Here s1 (s.heap.length :: p :: π) ∧ s1.comments = none := by
        rintro E s1 hh q1 q2 q3 rfl q4 q5 q6 q7 q8
        have e1 : Spread s.heap s1.heap p [s.heap.length] :=
          (grown_of_ext (ext_append (s := { s with metas := m, comments := cm }) hpl E)).marked q4 q5
        have hlen : s1.heap.length = s.heap.length + 1 := by rw [q4, append_length]
        have hat : (s1.heap.at s.heap.length).undeep = E.undeep := by
          rw [q5, show s.heap.length = ({ s with metas := m, comments := cm } : AS).heap.length from rfl, at_AS_append_last]
        refine ⟨E, q3, q2, e1, hlen, hat, ⟨⟨by omega, ?_, hbase.grown e1⟩, by rw [q7]; rfl, by rw [q6, hop]; simp⟩, q8⟩
        rw [undeep_field hat (·.parent) (fun _ _ => rfl)]; exact q1
      simp only [step, stepHeading, hpar]
      cases cp with
      | none =>
        simp at h3
        refine ⟨_, rfl, fill _ _ _ ?_ ?_ ?_ rfl rfl (fun _ => rfl) rfl rfl rfl⟩
        · rfl
        · rfl
        · subst h3; exact ⟨rfl, h2, hr, rfl, rfl, rfl, rfl, rfl⟩
      | some cp =>
        obtain ⟨c0, t⟩ := cp
        simp at h3
        have mark : ∀ E : Elem, ∃ h', markDeep ((AS.append { s with metas := m, comments := cm } p E).length + 1) (AS.append { s with metas := m, comments := cm } p E) p = some h' := by
          intro E
          have g := grown_of_ext (ext_append (s := { s with metas := m, comments := cm }) hpl E)
          refine markDeep_chain _ (hbase.grown g) ?_ ?_
          · intro l hl
            rw [hroot.last] at hl
            injection hl with hl
            subst hl
            exact (g.field (·.type) (fun _ _ => rfl) (fun _ _ => rfl) (Nat.lt_of_le_of_lt (Nat.zero_le p) hpl)).trans hroot.doc
          · rw [append_length]
            have := hroot.small
            simp at this ⊢; omega
        obtain ⟨h', hm⟩ := mark { line := n, ranges := [(.line, (i, fin)), (.sectionOperator, op.span)] ++ escapeRanges K ++ [(.key, K.span)] ++
                                    [(.template, t.span), (if c0.e - c0.b = 2 then .deepCopyOperator else .copyOperator, c0.span)]
                                  comments := cm, key := K.text, type := .section, parent := some p, template := some t.text
                                  deepCopy := decide (c0.e - c0.b = 2), copy := some t.text }
        simp only [Option.map_some, hm]
        refine ⟨_, rfl, fill _ _ _ ?_ ?_ ?_ rfl (markDeep_core _ _ _ _ hm).2 (markDeep_at _ _ _ _ hm) rfl rfl rfl⟩
        · rfl
        · rfl
        · subst h3
          have hdeep : decide (c0.e - c0.b = 2) = (c0.text.length == 2) := by
            have := (placed_mem hk.placed c0 (by simp [Body.caps])).2.1.2.1
            have : c0.e - c0.b = c0.text.length := by omega
            rw [this]; rfl
          exact ⟨rfl, h2, hr, rfl, rfl, by simpa using hdeep, rfl, rfl⟩
    · rintro s1 ⟨E, c1, c2, e1, hlen, hat1, hh1, hc1⟩
      refine Run.trans (Run.things hts hh1 hc1) ?_
      rintro s2 ⟨is, e2, g1, g2, g3, g4, g5⟩
      have hroot2 : Rooted s2 (s.heap.length :: p :: π) := by
        have h0 := (hroot.grown e1 (by omega)).grown e2 (by omega)
        have h1 := hroot.small
        have := e2.le
        exact ⟨by rw [List.getLast?_cons_cons]; exact h0.last, h0.doc, by rw [List.length_cons]; omega⟩
      refine Run.mono (Run.parts (p := s.heap.length) (π := p :: π) hps ⟨[], g4⟩ hroot2 (by simp; omega) g5) ?_
      rintro s3 ⟨js, e3, k1, k2, k3, k4, k5⟩
      have e23 := e2.trans e3
      have hne : p ≠ s.heap.length := by omega
      have hle2 := e2.le
      have hle3 := e3.le
      have hh : HeadingIs r k c (s3.heap.at s.heap.length) := by
        have h1 : HeadingIs r k c (s1.heap.at s.heap.length) := c1.undeep hat1
        refine HeadingIs.undeep (E := { (s1.heap.at s.heap.length) with elements := (s1.heap.at s.heap.length).elements ++ (is ++ js) }) ?_
          ⟨h1.type, h1.key, h1.remark, h1.copy, h1.template, h1.deep, h1.items, h1.entries⟩
        rw [e23.parent]; rfl
      have hel : (s3.heap.at s.heap.length).elements = is ++ js := by
        rw [e23.elements, undeep_field hat1 (·.elements) (fun _ _ => rfl), c2]; rfl
      have hs23 : SameFrom s2.heap s3.heap s1.heap.length := ⟨e3.le, fun j hj1 hj2 => e3.others j hj2 (by omega)⟩
      have hpart : PartAt input s3.heap s.heap.length s.heap.length (.mk r k c ts ps) :=
        .mk (Nat.le_refl _) (by omega) hh hel (g1.mono hs23 (by omega)) (k1.mono (SameFrom.refl _ _) (by omega))
      refine ⟨⟨by omega, ?_, ?_⟩, hpart, ?_, ?_, ?_, k5⟩
      · intro j hj hjp
        rw [e23.others j (by omega) (by omega), e1.others j hj hjp]
      · rw [e23.others p (by omega) hne, e1.parent]
      · rw [Part.nodes]
        refine ⟨hpart, Seg.append ?_ ?_⟩
        · rw [← hlen]; exact g2.mono hs23 (by omega)
        · rw [List.length_map, ← hlen, ← g3]; exact k2.mono (SameFrom.refl _ _) (by omega)
      · rw [Part.nodes]; simp; omega
      · obtain ⟨junk, k4⟩ := k4
        exact ⟨junk ++ [s.heap.length], by simpa using k4⟩

/-- The same for several sections. -/
theorem Run.parts {d : Nat} {xs : List Part} : ∀ {ls : List Str} (_ : PartsWritten d xs ls) {rest : List Str} {s : AS} {p : Nat} {π : List Nat}, Beneath s (p :: π) → Rooted s (p :: π) →
    π.length + 1 = d → s.comments = none →
    Run input (ls ++ rest) s rest (fun s' => ∃ is, Spread s.heap s'.heap p is ∧ PartsAt input s'.heap s.heap.length is xs ∧
      Seg input s'.heap s.heap.length s.heap.length (partsNodes xs) ∧ s'.heap.length = s.heap.length + (partsNodes xs).length ∧ Beneath s' (p :: π) ∧ s'.comments = none)
  | _, .nil, rest, s, p, π, hu, hroot, hd, hc => Run.nothing ⟨[], Spread.refl _ _, .nil, trivial, rfl, hu, hc⟩
  | _, @PartsWritten.cons _ x ss a b h1 h2, rest, s, p, π, hu, hroot, hd, hc => by
    simp only [List.append_assoc]
    have hpl : p < s.heap.length := by
      obtain ⟨junk, h1, _⟩ := hu
      exact (chain_drop (a := junk) h1).lt
    refine Run.trans (Run.part h1 hu hroot hd hc) ?_
    rintro s1 ⟨e1, g1, g2, g3, g4, g5⟩
    refine Run.mono (Run.parts h2 g4 (hroot.grown e1 (by omega)) hd g5) ?_
    rintro s2 ⟨is, e2, k1, k2, k3, k4, k5⟩
    have hs : SameFrom s1.heap s2.heap s.heap.length := ⟨e2.le, fun j hj1 hj2 => e2.others j hj2 (by omega)⟩
    have hle := e1.le
    refine ⟨s.heap.length :: is, e1.trans e2, .cons (g1.mono hs (Nat.le_refl _)) (k1.mono (SameFrom.refl _ _) hle), ?_, ?_, k4, k5⟩
    · rw [partsNodes]
      refine Seg.append (g2.mono hs (Nat.le_refl _)) ?_
      rw [← g3]; exact k2.mono (SameFrom.refl _ _) hle
    · rw [partsNodes, List.length_append, k3, g3]; omega

end

/-! ## Documents -/

/-- The heap that a document is recorded in. -/
structure DocIn (input : Str) (T : Doc) (h : Heap) : Prop where
  root : (h.at 0).undeep = { Elem.document with elements := (h.at 0).elements }
  tree : ∃ a b, (h.at 0).elements = a ++ b ∧ ThingsAt input h 1 a T.things ∧ PartsAt input h 1 b T.parts
  seg : Seg input h 1 1 T.nodes
  length : h.length = 1 + T.nodes.length

/-- However a document is written, it is recorded. -/
theorem written_doc {T : Doc} (ht : T.Text input) : ∃ ctx, analyze input = .ok ctx ∧ DocIn input T ctx.heap := by
  obtain ⟨ls, ⟨ha, hb, hf⟩, rfl⟩ := ht
  rename_i a b f
  have h0 : Here AS.init [0] := ⟨by simp [Chain, AS.init], rfl, rfl⟩
  have r0 : Rooted AS.init [0] := ⟨rfl, rfl, by simp [AS.init]⟩
  have hl : AS.init.heap.length = 1 := rfl
  have R := Run.trans (Run.things (input := ['\n'].intercalate (a ++ (b ++ f))) (rest := b ++ f) ha h0 rfl)
    (Q := fun s' => ∃ is js, Spread AS.init.heap s'.heap 0 (is ++ js) ∧ ThingsAt (['\n'].intercalate (a ++ (b ++ f))) s'.heap 1 is T.things ∧
      PartsAt (['\n'].intercalate (a ++ (b ++ f))) s'.heap 1 js T.parts ∧ Seg (['\n'].intercalate (a ++ (b ++ f))) s'.heap 1 1 T.nodes ∧
      s'.heap.length = 1 + T.nodes.length ∧ s'.comments = none) (rest := f) (by
    rintro s1 ⟨is, e1, g1, g2, g3, g4, g5⟩
    refine Run.mono (Run.parts hb ⟨[], g4⟩ (r0.grown e1 (by omega)) rfl g5) ?_
    rintro s2 ⟨js, e2, k1, k2, k3, _, k5⟩
    have := e1.le
    have hs : SameFrom s1.heap s2.heap AS.init.heap.length := ⟨e2.le, fun j hj1 hj2 => e2.others j hj2 (by omega)⟩
    refine ⟨is, js, e1.trans e2, g1.mono hs (by omega), k1.mono (SameFrom.refl _ _) (by omega), ?_, ?_, k5⟩
    · refine Seg.append (g2.mono hs (by omega)) ?_
      rw [List.length_map, show 1 + T.things.length = s1.heap.length by rw [g3, hl]]
      exact k2.mono (SameFrom.refl _ _) (by omega)
    · rw [k3, g3, hl, Doc.nodes]; simp; omega)
  obtain ⟨i', n', es, s', h1, h2, h3, is, js, e, g1, g2, g3, g4, g5⟩ := R 0 0 (at_start _)
  obtain ⟨es', s'', n'', h4, h5, m, c, rfl⟩ := Run.finish (n := n') (r := []) hf (by rw [g5]; exact ⟨by simp, rfl⟩) h1
  have tr := h3 _ _ h4
  have hrun : runEvents AS.init (es ++ es') = .ok { s' with metas := m, comments := c } := by rw [runEvents_then h2]; exact h5
  have han := analyze_eq tr
  rw [hrun] at han
  simp only [finish] at han
  refine ⟨_, han, ?_, ⟨is, js, ?_, g1, g2⟩, g3, g4⟩
  · show (s'.heap.at 0).undeep = _
    have := e.elements
    show _ = ({ Elem.document with elements := (s'.heap.at 0).elements } : Elem)
    rw [e.parent, this]; rfl
  · show (s'.heap.at 0).elements = _
    rw [e.elements]; rfl

end Eno
