import Verif.Proofs.SectionPhase

/-! # How resolving ends -/

namespace Eno

open Spec

variable {h h' h0 h1 : Heap} {i j n p t t' s : Nat} {sec : Bool} {k : Str} {d : Copies} {prev : List Nat} {ctx ctx' : Ctx}

theorem resolveS_targets (ok : HeapOk h0) (p1 : Phase1 h0 h1) (hd : DictOk h0 true d) (hu : Unambiguous h0 true d) :
    ∀ (l : List Nat) (h : Heap), SInv h0 h1 [] h → (∀ i ∈ l, i < h0.length ∧ (h0.at i).type = .section ∧ ∀ k, (h0.at i).copy = some k → candidates h0 true k ≠ []) →
    SPost h0 h1 h [] [] (l.foldlM (fun h i => if (h.at i).copy.isSome then resolveSection (filled h0 true d) (h.length + 1) h i [] else .ok h) h) ∧
    ∀ h', l.foldlM (fun h i => if (h.at i).copy.isSome then resolveSection (filled h0 true d) (h.length + 1) h i [] else .ok h) h = .ok h' →
      ∀ i ∈ l, (h'.at i).copy = none := by
  intro l
  induction l with
  | nil => intro h inv _; exact ⟨⟨inv, by simp, .refl⟩, by simp⟩
  | cons i l ih =>
    intro h inv hl
    obtain ⟨hi, hs, hroot⟩ := hl i (by simp)
    rw [List.foldlM_cons]
    have hone : SPost h0 h1 h [] [] (if (h.at i).copy.isSome then resolveSection (filled h0 true d) (h.length + 1) h i [] else .ok h) ∧
        ∀ h', (if (h.at i).copy.isSome then resolveSection (filled h0 true d) (h.length + 1) h i [] else .ok h) = .ok h' → (h'.at i).copy = none := by
      split
      · rename_i hc
        have := resolveS ok p1 hd hu (h.length + 1) h i [] inv hi hs (by simp [Elem.pending, hc]) ⟨by simp, by simp, by simp⟩ trivial (by simp [inv.len]) (fun _ => hroot)
        revert this
        cases resolveSection (filled h0 true d) (h.length + 1) h i [] with
        | error x => intro this; exact ⟨this, by simp⟩
        | ok h1 =>
          intro this
          refine ⟨⟨this.1, by simp, this.2.2⟩, ?_⟩
          intro h' e; simp at e; subst e
          have := this.2.1 i (by simp) hs
          simp [Elem.pending] at this
          exact this.1
      · rename_i hc
        exact ⟨⟨inv, by simp, .refl⟩, by intro h' e; simp at e; subst e; simpa using hc⟩
    revert hone
    generalize (if (h.at i).copy.isSome then resolveSection (filled h0 true d) (h.length + 1) h i [] else .ok h : Except RExc Heap) = r
    intro hone
    cases r with
    | error x => exact ⟨hone.1, by simp [bind, Except.bind]⟩
    | ok h2 =>
      obtain ⟨⟨a1, _, a2⟩, a3⟩ := hone
      have hi2 := a3 h2 rfl
      have := ih h2 a1 (fun j hj => hl j (by simp [hj]))
      simp only [bind, Except.bind]
      revert this
      generalize l.foldlM (fun h i => if (h.at i).copy.isSome then resolveSection (filled h0 true d) (h.length + 1) h i [] else .ok h) h2 = r
      intro this
      cases r with
      | error x => exact ⟨this.1, by simp⟩
      | ok h3 =>
        obtain ⟨⟨b1, _, b2⟩, b3⟩ := this
        refine ⟨⟨b1, by simp, a2.trans b2⟩, ?_⟩
        intro h' e; simp at e; subst e
        intro j hj
        rcases List.mem_cons.1 hj with rfl | hj
        · have hst := b1.stat j hs (by simp)
          rcases b1.copy j hs with e | e
          · -- the mark can only have been removed
            rcases a1.stat j hs (by simp) with ⟨f1, _⟩ | ⟨f1, _⟩
            · rw [e, ← f1]; exact hi2
            · have := b2.mono j f1
              simp [Elem.pending] at this
              exact this.1
          · exact e
        · exact b3 h3 rfl j hj

/-- What the second phase guarantees. -/
def SPhase (h0 h1 h : Heap) (ks : List Str) : Except RExc Heap → Prop
  | .ok h' => SInv h0 h1 [] h' ∧ (∀ i k, i < h0.length → (h0.at i).type = .section → (h0.at i).copy = some k → k ∈ ks → (h'.at i).copy = none) ∧
      (∀ k ∈ ks, candidates h0 true k ≠ []) ∧ Frame h0 h h' []
  | .error x => SFail h0 x

theorem SInv.copy_none (a : SInv h0 h1 [] h) (b : SInv h0 h1 [] h') (f : Frame h0 h h' []) (hs : (h0.at j).type = .section)
    (hj : (h.at j).copy = none) : (h'.at j).copy = none := by
  rcases b.copy j hs with e | e
  · rcases a.stat j hs (by simp) with ⟨f1, _⟩ | ⟨f1, _⟩
    · rw [e, ← f1]; exact hj
    · have := f.mono j f1
      simp [Elem.pending] at this
      exact this.1
  · exact e

theorem phaseS_fold (ok : HeapOk h0) (p1 : Phase1 h0 h1) (hd : DictOk h0 true d) (hu : Unambiguous h0 true d) :
    ∀ (D : Copies), D = filled h0 true d → ∀ (l : Copies) (h : Heap), SInv h0 h1 [] h → (∀ kc ∈ l, kc ∈ d) →
    SPhase h0 h1 h (l.map Prod.fst) (resolveAll .sectionNotFound (fun h i => resolveSection D (h.length + 1) h i [])
      (filled h0 true l) h) := by
  intro D hD l
  induction l with
  | nil => intro h inv _; exact ⟨inv, by simp, by simp, .refl⟩
  | cons a l ih =>
    intro h inv hl
    obtain ⟨k, c⟩ := a
    obtain ⟨m1, m2, m3⟩ := hd.mem k c (hl _ (by simp))
    simp only [resolveAll, filled, List.map_cons]
    rw [List.foldlM_cons]
    simp only
    cases hcs : (candidates h0 true k).head? with
    | none =>
      have hcs' : candidates h0 true k = [] := by simpa using hcs
      simp only
      cases hct : c.targets with
      | nil => exact absurd hct m3
      | cons x xs =>
        have : x ∈ copiers h0 true k := by rw [← m2, hct]; simp
        obtain ⟨c1, c2, c3⟩ := mem_copiers.1 this
        exact ⟨k, c1, by simpa using c3, c2, hcs'⟩
    | some t =>
      simp only
      have hts : ∀ i ∈ c.targets, i < h0.length ∧ (h0.at i).type = .section ∧ ∀ k, (h0.at i).copy = some k → candidates h0 true k ≠ [] := by
        intro i hi
        rw [m2] at hi
        obtain ⟨c1, c2, c3⟩ := mem_copiers.1 hi
        refine ⟨c1, by simpa using c3, ?_⟩
        intro k' hk' e
        rw [c2] at hk'; injection hk' with e'; subst e'
        rw [e] at hcs; simp at hcs
      have h1 := resolveS_targets ok p1 hd hu c.targets h inv hts
      rw [← hD] at h1
      revert h1
      generalize c.targets.foldlM (fun h i => if (h.at i).copy.isSome then resolveSection D (h.length + 1) h i [] else .ok h) h = r
      intro h1
      cases r with
      | error x => exact h1.1
      | ok h1' =>
        obtain ⟨⟨a1, _, a2⟩, a3⟩ := h1
        have := ih h1' a1 (fun kc hkc => hl kc (by simp [hkc]))
        simp only [resolveAll, filled] at this
        simp only [bind, Except.bind]
        revert this
        generalize (List.foldlM (m := Except RExc) _ h1' _ : Except RExc Heap) = r
        intro this
        cases r with
        | error x => exact this
        | ok h2 =>
          obtain ⟨b1, b2, b3, b4⟩ := this
          refine ⟨b1, ?_, ?_, a2.trans b4⟩
          · intro i k' hi hs hk hkm
            simp only [List.mem_cons] at hkm
            rcases hkm with rfl | hkm
            · exact a1.copy_none b1 b4 hs (a3 h1' rfl i (by rw [m2]; exact mem_copiers.2 ⟨hi, hk, by simp [hs]⟩))
            · exact b2 i k' hi hs hk hkm
          · intro k' hk'
            simp only [List.mem_cons] at hk'
            rcases hk' with rfl | hk'
            · intro e; rw [e] at hcs; simp at hcs
            · exact b3 k' hk'

/-! ## From phase one to phase two -/

theorem consN_keeps {e t e' : Elem} (hh : consN e t i = .ok e') : e' = { e with type := e'.type, comments := e'.comments, copy := none, mirror := e'.mirror, extend := e'.extend } := by
  unfold consN inheritC at hh
  simp only at hh
  repeat' split at hh
  all_goals first | (simp at hh; done) | (simp at hh; subst hh; rfl)

theorem NInv.phase1 (inv : NInv h0 h) : Phase1 h0 h := by
  have hcase : ∀ j, h.at j = h0.at j ∨ ((h0.at j).type ≠ .section ∧ ∃ t, TemplateIs h0 j t ∧ consN (h0.at j) (h.at t) t = .ok (h.at j)) := by
    intro j
    by_cases hj : j < h0.length
    · rcases inv.all j hj with e | ⟨e1, t, e2, _, e3, _⟩
      · exact .inl e
      · exact .inr ⟨e1, t, e2, e3⟩
    · left; rw [Heap.at_ge (by rw [inv.len]; omega), Heap.at_ge (by omega)]
  refine ⟨inv.len, ?_, ?_, ?_, ?_, ?_⟩
  · intro j
    rcases hcase j with e | ⟨e1, t, e2, e3⟩
    · rw [e]
    · constructor
      · intro e4
        obtain ⟨e5, _⟩ := consN_type e3
        rw [e4] at e5
        split at e5
        · cases htt : (h.at t).type <;> rw [htt] at e5 <;> simp [copyKind] at e5
        · exact absurd e5.symm e1
      · intro e4; exact absurd e4 e1
  · intro j hj
    rcases hcase j with e | ⟨e1, _⟩
    · exact e
    · exact absurd hj e1
  · intro j
    rcases hcase j with e | ⟨e1, t, e2, e3⟩
    · rw [e]
    · rw [consN_keeps e3]
  · intro j
    rcases hcase j with e | ⟨e1, t, e2, e3⟩
    · rw [e]
    · rw [consN_keeps e3]
  · intro j
    rcases hcase j with e | ⟨e1, t, e2, e3⟩
    · rw [e]
    · rw [consN_keeps e3]

/-! ## The whole resolver -/

/-- What is known about a document after copies have been resolved. -/
structure Resolved (h0 h : Heap) : Prop where
  /-- the state between the phases -/
  mid : ∃ h1, NInv h0 h1 ∧ (∀ i, i < h0.length → (h0.at i).type ≠ .section → (h1.at i).copy = none) ∧ SInv h0 h1 [] h
  nons : ∀ i, i < h0.length → (h0.at i).type ≠ .section → (h0.at i).copy.isSome → ∃ t, TemplateIs h0 i t
  secs : ∀ i, i < h0.length → (h0.at i).type = .section → (h0.at i).copy.isSome → (∃ t, TemplateIs h0 i t) ∧ Resolvable h0 i
  copies : ∀ i, i < h0.length → (h.at i).copy = none

/-- A copied name with several candidates. -/
def Ambiguous (h0 : Heap) : RExc → Prop
  | .parse (.twoOrMoreTemplatesFound copy first second) _ => ∃ sec k, copy ∈ copiers h0 sec k ∧ first ∈ candidates h0 sec k ∧ second ∈ candidates h0 sec k ∧
      first ≠ second
  | _ => False

/-- How resolving can end. -/
def Outcome (h0 : Heap) : Except RExc Ctx → Prop
  | .ok ctx => Resolved h0 ctx.heap
  | .error x => Ambiguous h0 x ∨ ((∀ sec k, copiers h0 sec k ≠ [] → (candidates h0 sec k).length ≤ 1) ∧ (NFail h0 x ∨
      ((∃ h1, NInv h0 h1 ∧ (∀ i, i < h0.length → (h0.at i).type ≠ .section → (h1.at i).copy = none)) ∧
       (∀ i, i < h0.length → (h0.at i).type ≠ .section → (h0.at i).copy.isSome → ∃ t, TemplateIs h0 i t) ∧ SFail h0 x)))

theorem resolve_outcome (a : Analysed ctx) : Outcome ctx.heap (resolve ctx) ∧
    ∀ ctx', resolve ctx = .ok ctx' → ctx' = { ctx with heap := ctx'.heap, copySections := [], copyNonSections := [] } ∧
      (∀ sec k, copiers ctx.heap sec k ≠ [] → (candidates ctx.heap sec k).length = 1) := by
  have ok := a.heap
  unfold resolve
  rcases index_spec ok a.secs a.nons with ⟨u1, u2, e⟩ | ⟨sec, k, c, copy, rest, t, i, m1, m2, m3, m4, m5, e⟩
  · rw [e]
    simp only
    have uall : ∀ sec k, copiers ctx.heap sec k ≠ [] → (candidates ctx.heap sec k).length ≤ 1 := by
      intro sec k hk
      cases sec with
      | true =>
        obtain ⟨c, hc⟩ := a.secs.all k hk
        exact u1 k (List.mem_map.2 ⟨_, hc, rfl⟩)
      | false =>
        obtain ⟨c, hc⟩ := a.nons.all k hk
        exact u2 k (List.mem_map.2 ⟨_, hc, rfl⟩)
    have hN := phaseN ok a.nons u2
    revert hN
    generalize resolveAll .nonSectionElementNotFound (fun h i => resolveNonSection (filled ctx.heap false ctx.copyNonSections) (h.length + 1) h i [])
      (filled ctx.heap false ctx.copyNonSections) ctx.heap = r
    intro hN
    cases r with
    | error x => exact ⟨.inr ⟨uall, .inl hN⟩, by simp⟩
    | ok h1 =>
      obtain ⟨n1, n2, n3⟩ := hN
      simp only
      have p1 := n1.phase1
      have hS := phaseS_fold ok p1 a.secs u1 _ rfl ctx.copySections h1 (SInv.init p1) (fun _ h => h)
      revert hS
      generalize resolveAll .sectionNotFound (fun h i => resolveSection (filled ctx.heap true ctx.copySections) (h.length + 1) h i [])
        (filled ctx.heap true ctx.copySections) h1 = r
      intro hS
      cases r with
      | error x => exact ⟨.inr ⟨uall, .inr ⟨⟨h1, n1, n2⟩, n3, hS⟩⟩, by simp⟩
      | ok h2 =>
        obtain ⟨s1, s2, s3, s4⟩ := hS
        have hkey : ∀ i k, i < ctx.heap.length → (ctx.heap.at i).type = .section → (ctx.heap.at i).copy = some k → k ∈ ctx.copySections.map Prod.fst := by
          intro i k hi hs hk
          obtain ⟨c, hc⟩ := a.secs.all k (List.ne_nil_of_mem (mem_copiers.2 ⟨hi, hk, by simp [hs]⟩))
          exact List.mem_map.2 ⟨_, hc, rfl⟩
        have hcop : ∀ i, i < ctx.heap.length → (ctx.heap.at i).type = .section → (h2.at i).copy = none := by
          intro i hi hs
          cases hc : (ctx.heap.at i).copy with
          | none =>
            rcases s1.copy i hs with e | e
            · rw [e]; exact hc
            · exact e
          | some k => exact s2 i k hi hs hc (hkey i k hi hs hc)
        have hsec : ∀ i, i < ctx.heap.length → (ctx.heap.at i).type = .section → (ctx.heap.at i).copy.isSome → ∃ t, TemplateIs ctx.heap i t := by
          intro i hi hs hc
          obtain ⟨k, hk⟩ := Option.isSome_iff_exists.1 hc
          have h1 := s3 k (hkey i k hi hs hk)
          have h2 := u1 k (hkey i k hi hs hk)
          match hcs : candidates ctx.heap true k, h1, h2 with
          | [], h1, _ => exact absurd rfl h1
          | [t], _, _ => exact ⟨t, hi, k, hk, by simpa [hs] using hcs⟩
        refine ⟨⟨⟨h1, n1, n2, s1⟩, n3, ?_, ?_⟩, ?_⟩
        · intro i hi hs hc
          refine ⟨hsec i hi hs hc, ?_⟩
          rcases s1.stat i hs (by simp) with ⟨e, _⟩ | ⟨_, e⟩
          · have := hcop i hi hs
            rw [e] at this; rw [this] at hc; simp at hc
          · exact e
        · intro i hi
          by_cases hs : (ctx.heap.at i).type = .section
          · exact hcop i hi hs
          · rw [s1.non i hs]; exact n2 i hi hs
        · intro ctx' e'
          simp at e'
          subst e'
          refine ⟨rfl, ?_⟩
          intro sec k hk
          have hl := uall sec k hk
          obtain ⟨i, hi⟩ := List.exists_mem_of_ne_nil _ hk
          obtain ⟨c1, c2, c3⟩ := mem_copiers.1 hi
          have : ∃ t, TemplateIs ctx.heap i t := by
            cases sec with
            | true => exact hsec i c1 (by simpa using c3) (by simp [c2])
            | false => exact n3 i c1 (by simpa using c3) (by simp [c2])
          obtain ⟨t, _, k', hk', hc⟩ := this
          rw [c2] at hk'; injection hk' with e; subst e
          rw [c3] at hc; rw [hc]; rfl
  · rw [e]
    refine ⟨.inl ⟨sec, k, ?_, m4, m3, m5⟩, by simp⟩
    have : c.targets = copiers ctx.heap sec k := by
      cases sec with
      | true => exact (a.secs.mem k c m1).2.1
      | false => exact (a.nons.mem k c m1).2.1
    rw [← this, m2]; simp

end Eno
