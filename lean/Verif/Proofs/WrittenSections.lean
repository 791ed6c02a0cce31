import Verif.Proofs.WrittenElements

/-! # Reading written sections -/

namespace Eno

open Spec

variable {input : Str} {ls rest : List Str} {s : AS} {h h' h'' : Heap}

/-! ## Growing heaps -/

/-- `h'` is `h` with further elements behind it; of the old ones only `p` has changed, by getting the elements `added`. -/
structure Ext (h h' : Heap) (p : Nat) (added : List Nat) : Prop where
  le : h.length ≤ h'.length
  others : ∀ j, j < h.length → j ≠ p → h'.at j = h.at j
  parent : h'.at p = { h.at p with elements := (h.at p).elements ++ added }

theorem Ext.refl (h : Heap) (p : Nat) : Ext h h p [] := ⟨Nat.le_refl _, fun _ _ _ => rfl, by simp⟩

theorem Ext.trans {p : Nat} {a b : List Nat} (e : Ext h h' p a) (e' : Ext h' h'' p b) : Ext h h'' p (a ++ b) where
  le := Nat.le_trans e.le e'.le
  others := fun j hj hp => by rw [e'.others j (Nat.lt_of_lt_of_le hj e.le) hp, e.others j hj hp]
  parent := by rw [e'.parent, e.parent]; simp

theorem ext_append {p : Nat} (hp : p < s.heap.length) (E : Elem) : Ext s.heap (s.append p E) p [s.heap.length] where
  le := by rw [append_length]; omega
  others := fun j hj hne => by rw [at_AS_append_lt s p E hj, if_neg hne]
  parent := by rw [at_AS_append_lt s p E hp, if_pos rfl]

theorem Ext.field {β} {p : Nat} {a : List Nat} (e : Ext h h' p a) (g : Elem → β) (hg : ∀ x l, g { x with elements := l } = g x) {j : Nat} (hj : j < h.length) :
    g (h'.at j) = g (h.at j) := by
  by_cases hp : j = p
  · subst hp; rw [e.parent, hg]
  · rw [e.others j hj hp]

/-! ## Open sections -/

/-- Sections from the innermost to the outermost. -/
def Chain (h : Heap) : List Nat → Prop
  | [] => True
  | [x] => x < h.length
  | x :: y :: t => x < h.length ∧ (h.at x).parent = some y ∧ Chain h (y :: t)

theorem Chain.lt {x : Nat} {t : List Nat} (c : Chain h (x :: t)) : x < h.length := by
  cases t with
  | nil => exact c
  | cons y t => exact c.1

theorem Chain.tail {x : Nat} {t : List Nat} (c : Chain h (x :: t)) : Chain h t := by
  cases t with
  | nil => trivial
  | cons y t => exact c.2.2

theorem chain_drop : ∀ {a b : List Nat}, Chain h (a ++ b) → Chain h b
  | [], _, c => c
  | _ :: _, _, c => chain_drop c.tail

theorem Chain.mono (hl : h.length ≤ h'.length) (hp : ∀ j, j < h.length → (h'.at j).parent = (h.at j).parent) : ∀ {t : List Nat}, Chain h t → Chain h' t
  | [], _ => trivial
  | [_], c => Nat.lt_of_lt_of_le c hl
  | x :: _ :: _, c => ⟨Nat.lt_of_lt_of_le c.1 hl, (hp x c.1).trans c.2.1, Chain.mono hl hp c.2.2⟩

theorem Chain.ext {p : Nat} {a : List Nat} (e : Ext h h' p a) {t : List Nat} (c : Chain h t) : Chain h' t :=
  c.mono e.le fun _ hj => e.field (·.parent) (fun _ _ => rfl) hj

/-- The open sections are `π`. -/
structure Here (s : AS) (π : List Nat) : Prop where
  chain : Chain s.heap π
  last : π.head? = some s.lastSection
  depth : π.length = s.depth + 1

/-- Among the open sections are `π`. -/
def Beneath (s : AS) (π : List Nat) : Prop := ∃ junk, Here s (junk ++ π)

theorem chain_ancestor : ∀ {junk : List Nat} {x p : Nat} {t : List Nat}, Chain h (junk ++ p :: t) → (junk ++ [p]).head? = some x →
    ancestor h junk.length x = some p
  | [], x, p, t, _, hx => by simp at hx; simp [ancestor, hx]
  | a :: junk, x, p, t, c, hx => by
    simp at hx; subst hx
    cases junk with
    | nil => simp only [List.length_cons, List.length_nil, ancestor]; rw [c.2.1]; rfl
    | cons b junk =>
      simp only [List.length_cons, ancestor]
      rw [c.2.1]
      exact chain_ancestor (junk := b :: junk) c.2.2 rfl

/-- A heading with as many hash signs as there are sections in `π` goes into the first of them. -/
theorem Beneath.parent {p : Nat} {π : List Nat} (u : Beneath s (p :: π)) : headingParent s (π.length + 1) = .ok p := by
  obtain ⟨junk, hc, hl, hd⟩ := u
  have hlen : s.depth = junk.length + π.length := by simp at hd; omega
  have hx : (junk ++ [p]).head? = some s.lastSection := by
    cases junk with
    | nil => simpa using hl
    | cons a b => simpa using hl
  unfold headingParent
  rcases List.eq_nil_or_concat junk with rfl | ⟨j, q, rfl⟩
  · simp at hlen hx
    rw [if_pos (by omega), hx]
  · rw [List.concat_eq_append] at hlen hx hc
    simp at hlen
    -- the last of the sections above
    have hq : ancestor s.heap j.length s.lastSection = some q := by
      refine chain_ancestor (t := p :: π) (by simpa using hc) ?_
      simpa using hx
    have hpq : (s.heap.at q).parent = some p := by
      have : Chain s.heap (q :: p :: π) := by
        exact chain_drop (a := j) (by simpa using hc)
      exact this.2.1
    rw [if_neg (by omega)]
    by_cases hj : j = []
    · subst hj
      simp [ancestor] at hq
      rw [if_pos (by simp at hlen; omega), hq, hpq]
    · have := List.length_pos_iff.2 hj
      rw [if_neg (by omega), if_pos (by omega), show s.depth - (π.length + 1) = j.length by omega, hq]
      simp only [hpq]

/-! ## The tree in the heap -/

/-- Elements that are recorded at these places. -/
inductive ElemsAt (input : Str) (h : Heap) (lo : Nat) : List Nat → List Element → Prop where
  | nil : ElemsAt input h lo [] []
  | cons {i is e es} : lo ≤ i → i < h.length → ElemIs input e (h.at i) → ElemsAt input h lo is es → ElemsAt input h lo (i :: is) (e :: es)

mutual

/-- A section that is recorded at this place. -/
inductive SecAt (input : Str) (h : Heap) (lo : Nat) : Nat → Sec → Prop where
  | mk {i r k es ss a b} : lo ≤ i → i < h.length → (h.at i).type = .section → (h.at i).key = k → Remarked r (h.at i).comments → (h.at i).copy = none →
      (h.at i).elements = a ++ b → ElemsAt input h lo a es → SecsAt input h lo b ss → SecAt input h lo i (.mk r k es ss)

/-- Sections that are recorded at these places. -/
inductive SecsAt (input : Str) (h : Heap) (lo : Nat) : List Nat → List Sec → Prop where
  | nil : SecsAt input h lo [] []
  | cons {i is s ss} : SecAt input h lo i s → SecsAt input h lo is ss → SecsAt input h lo (i :: is) (s :: ss)

end

theorem ElemsAt.mono {lo lo' : Nat} (hl : h.length ≤ h'.length) (hlo : lo' ≤ lo) (ha : ∀ j, lo ≤ j → j < h.length → h'.at j = h.at j) {is : List Nat} {es : List Element}
    (H : ElemsAt input h lo is es) : ElemsAt input h' lo' is es := by
  induction H with
  | nil => exact .nil
  | cons h1 h2 h3 _ ih => exact .cons (Nat.le_trans hlo h1) (Nat.lt_of_lt_of_le h2 hl) (by rw [ha _ h1 h2]; exact h3) ih

mutual

theorem SecAt.mono {lo lo' : Nat} (hl : h.length ≤ h'.length) (hlo : lo' ≤ lo) (ha : ∀ j, lo ≤ j → j < h.length → h'.at j = h.at j) {i : Nat} {x : Sec} :
    SecAt input h lo i x → SecAt input h' lo' i x
  | .mk h1 h2 h3 h4 h5 h6 h7 h8 h9 =>
    .mk (Nat.le_trans hlo h1) (Nat.lt_of_lt_of_le h2 hl) (by rw [ha _ h1 h2]; exact h3) (by rw [ha _ h1 h2]; exact h4) (by rw [ha _ h1 h2]; exact h5)
      (by rw [ha _ h1 h2]; exact h6) (by rw [ha _ h1 h2]; exact h7) (h8.mono hl hlo ha) (SecsAt.mono hl hlo ha h9)

theorem SecsAt.mono {lo lo' : Nat} (hl : h.length ≤ h'.length) (hlo : lo' ≤ lo) (ha : ∀ j, lo ≤ j → j < h.length → h'.at j = h.at j) {is : List Nat} {xs : List Sec} :
    SecsAt input h lo is xs → SecsAt input h' lo' is xs
  | .nil => .nil
  | .cons h1 h2 => .cons (SecAt.mono hl hlo ha h1) (SecsAt.mono hl hlo ha h2)

end

/-! ## Reading -/

/-- Nothing in the heap is a copy, and all comments can be read. -/
def AllFine (h : Heap) : Prop := ∀ i, i < h.length → (h.at i).copy = none ∧ (h.at i).deepCopy = false ∧
  (∀ c, (h.at i).comments = some [c] → c.comment.isSome) ∧
  (∀ y ∈ (h.at i).items.getD [], y.Fine) ∧ (∀ y ∈ (h.at i).entries.getD [], y.Fine)

/-- What reading keeps. -/
structure Keep (s s' : AS) : Prop where
  comments : s'.comments = none
  cs : s'.copySections = s.copySections
  cn : s'.copyNonSections = s.copyNonSections
  fine : AllFine s.heap → AllFine s'.heap

theorem Keep.trans {s s' s'' : AS} (k : Keep s s') (k' : Keep s' s'') : Keep s s'' :=
  ⟨k'.comments, k'.cs.trans k.cs, k'.cn.trans k.cn, k'.fine ∘ k.fine⟩

theorem remarked_single {r : Remark} {c : Option (List Comment)} (h : Remarked r c) : ∀ x, c = some [x] → x.comment.isSome := by
  intro x hx
  have h1 := h.said.2
  rw [hx] at h1
  simp [commentLines] at h1
  cases hq : x.comment with
  | some _ => rfl
  | none => rw [hq] at h1; exact absurd h1.symm (h.readable _)

theorem allFine_append {p : Nat} {E : Elem} (hf : AllFine s.heap)
    (hE : E.copy = none ∧ E.deepCopy = false ∧ (∀ c, E.comments = some [c] → c.comment.isSome) ∧
      (∀ y ∈ E.items.getD [], y.Fine) ∧ (∀ y ∈ E.entries.getD [], y.Fine)) : AllFine (s.append p E) := by
  intro i hi
  rw [append_length] at hi
  by_cases h : i < s.heap.length
  · have := hf i h
    rw [at_AS_append_lt s p E h]
    split
    · exact this
    · exact this
  · have : i = s.heap.length := by omega
    subst this
    rw [at_AS_append_last]; exact hE

theorem ElemIs.fine {e : Element} {E : Elem} (h : ElemIs input e E) : E.copy = none ∧ E.deepCopy = false ∧ (∀ c, E.comments = some [c] → c.comment.isSome) ∧
    (∀ y ∈ E.items.getD [], y.Fine) ∧ (∀ y ∈ E.entries.getD [], y.Fine) := by
  refine ⟨h.copy, h.deep, remarked_single h.remark, ?_⟩
  obtain ⟨r, k, c⟩ := e
  have hc := h.content
  cases c with
  | parts p => simp [hc.2.2.2.1, hc.2.2.2.2]
  | items x xs =>
    obtain ⟨_, h1, ys, h2, _, h3⟩ := hc
    simp only [h1, h2, Option.getD_some, Option.getD_none]
    exact ⟨h3, by simp⟩
  | entries x xs =>
    obtain ⟨_, h1, ys, h2, _, h3⟩ := hc
    simp only [h1, h2, Option.getD_some, Option.getD_none]
    exact ⟨by simp, fun y hy => (h3 y hy).1⟩
  | verbatim l => simp [hc.2.2.1, hc.2.2.2]

/-- Written elements become elements of the innermost open section. -/
theorem Run.elements {es : List Element} (hw : Each Element.Written es ls) : ∀ {s : AS} {p : Nat} {π : List Nat}, Here s (p :: π) → s.comments = none →
    Run input (ls ++ rest) s rest (fun s' => ∃ is, Ext s.heap s'.heap p is ∧ ElemsAt input s'.heap s.heap.length is es ∧ Here s' (p :: π) ∧ Keep s s') := by
  induction hw with
  | nil => intro s p π hh hc; exact Run.nothing ⟨[], Ext.refl _ _, .nil, hh, hc, rfl, rfl, id⟩
  | @cons a as l1 l2 h1 _ ih =>
    intro s p π hh hc
    have hp : s.lastSection = p := by have := hh.last; simp at this; exact this.symm
    simp only [List.append_assoc]
    refine Run.trans (Run.element h1 hc) ?_
    rintro s1 ⟨E, k1, k2, k3, k4, k5, k6, k7⟩
    rw [hp] at k2
    have hpl := hh.chain.lt
    have e1 : Ext s.heap s1.heap p [s.heap.length] := by rw [k2]; exact ext_append hpl E
    have hh1 : Here s1 (p :: π) := ⟨hh.chain.ext e1, by rw [k5]; exact hh.last, by rw [k4]; exact hh.depth⟩
    have keep1 : Keep s s1 := ⟨k3, k6, k7, fun hf => by rw [k2]; exact allFine_append hf k1.fine⟩
    refine Run.mono (ih hh1 k3) ?_
    rintro s2 ⟨is, e2, g1, g2, g3⟩
    have hlen : s1.heap.length = s.heap.length + 1 := by rw [k2, append_length]
    refine ⟨s.heap.length :: is, e1.trans e2, .cons (Nat.le_refl _) ?_ ?_ (g1.mono (Nat.le_refl _) (by omega) (fun _ _ _ => rfl)), g2, keep1.trans g3⟩
    · have := e2.le; omega
    · rw [e2.others _ (by omega) (by omega), k2, at_AS_append_last]; exact k1

mutual

/-- A written section is read as a section of the one around it. -/
theorem Run.sec {d : Nat} {x : Sec} : ∀ {ls : List Str} (_ : Sec.Written d x ls) {rest : List Str} {s : AS} {p : Nat} {π : List Nat}, Beneath s (p :: π) → π.length + 1 = d → s.comments = none →
    Run input (ls ++ rest) s rest (fun s' => Ext s.heap s'.heap p [s.heap.length] ∧ SecAt input s'.heap s.heap.length s.heap.length x ∧ Beneath s' (p :: π) ∧ Keep s s' ∧
      s.heap.length < s'.heap.length)
  | _, @Sec.Written.mk _ r k es ss o a b ho hes hss, rest, s, p, π, hu, hd, hc => by
    simp only [List.append_assoc]
    have hpl : p < s.heap.length := by
      obtain ⟨junk, h1, _⟩ := hu
      exact (chain_drop (a := junk) h1).lt
    have hbase : Chain s.heap (p :: π) := by
      obtain ⟨junk, h1, _⟩ := hu
      exact chain_drop (a := junk) h1
    refine Run.trans (P := fun s1 => ∃ E : Elem, E.type = .section ∧ E.key = k ∧ Remarked r E.comments ∧ E.copy = none ∧ E.elements = [] ∧
      s1.heap = s.append p E ∧ Here s1 (s.heap.length :: p :: π) ∧ Keep s s1) (mid := a ++ (b ++ rest)) ?_ ?_
    · refine Run.opening ho (by simp) (by simp) hc ?_
      intro m cm n i tok hr htok hk
      obtain ⟨fin, body⟩ := tok
      cases body <;> simp [Line.ofBody] at htok
      rename_i op K cp
      obtain ⟨h1, h2, rfl⟩ := htok
      have hop : op.e - op.b = π.length + 1 := by
        have := hk.placed
        simp only [Body.caps, Placed] at this
        have := this.2.1.2.1
        omega
      have hpar : headingParent { s with metas := m, comments := cm } (op.e - op.b) = .ok p := by
        rw [hop]
        exact Beneath.parent (s := { s with metas := m, comments := cm }) (by obtain ⟨j, g1, g2, g3⟩ := hu; exact ⟨j, g1, g2, g3⟩)
      simp only [step, stepHeading, hpar]
      refine ⟨_, rfl, { line := n, ranges := [(.line, (i, fin)), (.sectionOperator, op.span)] ++ escapeRanges K ++ [(.key, K.span)] ++ [], comments := cm, key := K.text
                        type := .section, parent := some p, template := none, deepCopy := false, copy := none }, rfl, h2, hr, rfl, rfl, rfl, ⟨?_, rfl, ?_⟩, rfl, rfl, rfl, ?_⟩
      · refine ⟨?_, ?_, ?_⟩
        · show _ < (AS.append _ _ _).length
          rw [append_length]; simp
        · show (Heap.at (AS.append _ _ _) _).parent = _
          rw [show s.heap.length = ({ s with metas := m, comments := cm } : AS).heap.length from rfl, at_AS_append_last]
        · exact hbase.ext (ext_append (s := { s with metas := m, comments := cm }) hpl _)
      · simp [hop]
      · intro hf
        exact allFine_append (s := { s with metas := m, comments := cm }) hf ⟨rfl, rfl, remarked_single hr, by simp, by simp⟩
    · rintro s1 ⟨E, c1, c2, c3, c4, c5, hheap, hh1, keep1⟩
      have e1 : Ext s.heap s1.heap p [s.heap.length] := by rw [hheap]; exact ext_append hpl E
      have hlen : s1.heap.length = s.heap.length + 1 := by rw [hheap, append_length]
      have hat1 : s1.heap.at s.heap.length = E := by rw [hheap, at_AS_append_last]
      refine Run.trans (Run.elements hes hh1 keep1.comments) ?_
      rintro s2 ⟨is, e2, g1, g2, keep2⟩
      refine Run.mono (Run.secs (p := s.heap.length) (π := p :: π) hss ⟨[], g2⟩ (by simp; omega) keep2.comments) ?_
      rintro s3 ⟨js, e3, g3, g4, keep3⟩
      have e23 := e2.trans e3
      have hne : p ≠ s.heap.length := by omega
      refine ⟨⟨?_, ?_, ?_⟩, ?_, ?_, (keep1.trans keep2).trans keep3, ?_⟩
      · have := e23.le; omega
      · intro j hj hjp
        rw [e23.others j (by omega) (by omega), e1.others j hj hjp]
      · rw [e23.others p (by omega) hne, e1.parent]
      · have hat : s3.heap.at s.heap.length = { E with elements := is ++ js } := by rw [e23.parent, hat1, c5]; simp
        have hle2 := e2.le
        have hle3 := e3.le
        refine SecAt.mk (Nat.le_refl _) (by omega) (by rw [hat]; exact c1) (by rw [hat]; exact c2) (by rw [hat]; exact c3) (by rw [hat]; exact c4) (by rw [hat])
          (g1.mono e3.le (by omega) ?_) (g3.mono (Nat.le_refl _) (by omega) (fun _ _ _ => rfl))
        intro j hj1 hj2
        exact e3.others j hj2 (by omega)
      · obtain ⟨junk, g4⟩ := g4
        exact ⟨junk ++ [s.heap.length], by simpa using g4⟩
      · have := e23.le; omega

/-- The same for several sections. -/
theorem Run.secs {d : Nat} {xs : List Sec} : ∀ {ls : List Str} (_ : SecsWritten d xs ls) {rest : List Str} {s : AS} {p : Nat} {π : List Nat}, Beneath s (p :: π) → π.length + 1 = d → s.comments = none →
    Run input (ls ++ rest) s rest (fun s' => ∃ is, Ext s.heap s'.heap p is ∧ SecsAt input s'.heap s.heap.length is xs ∧ Beneath s' (p :: π) ∧ Keep s s')
  | _, .nil, rest, s, p, π, hu, hd, hc => Run.nothing ⟨[], Ext.refl _ _, .nil, hu, hc, rfl, rfl, id⟩
  | _, @SecsWritten.cons _ x ss a b h1 h2, rest, s, p, π, hu, hd, hc => by
    simp only [List.append_assoc]
    refine Run.trans (Run.sec h1 hu hd hc) ?_
    rintro s1 ⟨e1, g1, g2, keep1, hlt⟩
    refine Run.mono (Run.secs h2 g2 hd keep1.comments) ?_
    rintro s2 ⟨is, e2, g3, g4, keep2⟩
    refine ⟨s.heap.length :: is, e1.trans e2, .cons (g1.mono e2.le (Nat.le_refl _) ?_) (g3.mono (Nat.le_refl _) (by omega) (fun _ _ _ => rfl)), g4, keep1.trans keep2⟩
    intro j hj1 hj2
    refine e2.others j hj2 ?_
    have : p < s.heap.length := by
      obtain ⟨junk, h1, _⟩ := hu
      exact (chain_drop (a := junk) h1).lt
    omega

end

end Eno
