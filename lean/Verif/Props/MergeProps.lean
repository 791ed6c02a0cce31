import Verif.Proofs.MergeList
import Verif.Props.ContextProps

/-!
# C73: deep copies

`Gathers` (Spec/Merge) says which elements a section shows, read off the written document: its own, then those of the section it is merged with whose keys it does not
define. What a section is merged with follows from the copies around it, the outermost one deciding.
-/

namespace Eno

open Spec

variable {input : Str} {ctx ctx' : Ctx} {s t x y fuel : Nat} {xs ys : List Nat}

theorem instElements_outcome (h : Heap) : ∀ (fuel s : Nat) (acc : List Nat), (∃ xs, instElements h fuel s acc = .ok xs) ∨ instElements h fuel s acc = .error .recursionError := by
  intro fuel
  induction fuel with
  | zero => intro s acc; exact .inr rfl
  | succ fuel ih =>
    intro s acc
    simp only [instElements]
    split
    · exact ih _ _
    · split
      · exact .inl ⟨_, rfl⟩
      · exact ih _ _

theorem leftOver_nil (h : Heap) (xs : List Nat) : leftOver h [] xs = xs := by unfold leftOver; rw [List.filter_eq_self]; simp

/-- Partial: sections are left out that take over elements from empty sections which are merged more than once. Typed access shows exactly the elements that a section
gathers, and as many nested calls as there are elements are enough. -/
theorem C73_elements_partial (ha : analyze input = .ok ctx) (hl : load input = .ok ctx') (hs : (ctx.heap.at s).type = .section ∨ s = 0) (hst : Steady ctx.heap s)
    (hf : ctx.heap.length ≤ fuel) (G : Gathers ctx.heap s xs) : instElements ctx'.heap fuel s [] = .ok xs := by
  have L := loaded ha hl
  have tr := (analyze_analysed ha).heap.tree
  have hsl : s < ctx.heap.length := by
    rcases hs with hs | rfl
    · exact lt_of_section hs
    · exact (analyze_analysed ha).heap.pos
  obtain ⟨n, hn, G'⟩ := G.bounded tr hsl
  have := instElements_gathers tr L.non (mfinal_of_load ha hl) n s fuel xs G' (by omega) hs hst []
  rwa [leftOver_nil] at this

/-- Partial: as before. Looking for elements fails, however deep calls may be nested, exactly if following the sections it is merged with ends in a circle. -/
theorem C73_readable_partial (ha : analyze input = .ok ctx) (hl : load input = .ok ctx') (hs : (ctx.heap.at s).type = .section ∨ s = 0) (hst : Steady ctx.heap s) :
    ((∀ fuel, instElements ctx'.heap fuel s [] = .error .recursionError) ↔ ∃ t, Follows ctx.heap s t ∧ Follows ctx.heap t t) ∧
    ((∃ t, Follows ctx.heap s t ∧ Follows ctx.heap t t) ∨ ∃ xs, Gathers ctx.heap s xs) := by
  have L := loaded ha hl
  have tr := (analyze_analysed ha).heap.tree
  have cyc : (∃ t, Follows ctx.heap s t ∧ Follows ctx.heap t t) ∨ ∃ xs, Gathers ctx.heap s xs := by
    by_cases hc : ∃ t, Follows ctx.heap s t ∧ Follows ctx.heap t t
    · exact .inl hc
    · exact .inr (gathers_of_no_cycle fun t h1 h2 => hc ⟨t, h1, h2⟩)
  refine ⟨⟨fun hf => ?_, fun ⟨t, h1, h2⟩ fuel => ?_⟩, cyc⟩
  · rcases cyc with c | ⟨xs, G⟩
    · exact c
    · have e1 := C73_elements_partial ha hl hs hst (Nat.le_refl _) G
      rw [hf] at e1; cases e1
  · rcases instElements_outcome ctx'.heap fuel s [] with ⟨ys, e⟩ | e
    · exact absurd h2 ((gathers_iff tr).1 (gathers_of_instElements L.non (mfinal_of_load ha hl) fuel s [] ys hs hst e) t h1)
    · exact e

/-- All sections can be read if no section is, in the end, merged with itself. -/
theorem C73_terminates (ha : analyze input = .ok ctx) (hl : load input = .ok ctx') (hc : NoCircles ctx.heap) (hs : (ctx.heap.at s).type = .section ∨ s = 0)
    (hf : ctx.heap.length ≤ fuel) : ∃ xs, instElements ctx'.heap fuel s [] = .ok xs := by
  have L := loaded ha hl
  refine instElements_ends L.non (mfinal_of_load ha hl) hc fuel [] s [] (by simp) (by simp) ?_ hs (by simpa using hf)
  rcases hs with hs | rfl
  · exact lt_of_section hs
  · exact (analyze_analysed ha).heap.pos

/-- A section of a deep copy that no other deep copy surrounds is merged with the section of the template that has its key, and so on inside. -/
theorem C73_source (hs : (ctx.heap.at s).type = .section) (hsh : Shielded ctx.heap s) (ht : TemplateIs ctx.heap s t) (P : Pairs ctx.heap (ctx.heap.at s).deepCopy s t x y)
    (ok : HeapOk ctx.heap) : Source ctx.heap x y := by
  refine ⟨s, ⟨hs, t, ht, P⟩, ?_⟩
  rintro b z ⟨_, t', ht', Q⟩ hab
  have hd := hsh b hab
  rw [hd] at Q
  rcases Q.uncons with ⟨rfl, _⟩ | ⟨e, _⟩
  · rcases P.within ok.tree with e | e
    · subst e; have := ok.tree.above_lt hab; omega
    · have := ok.tree.above_lt e; have := ok.tree.above_lt hab; omega
  · cases e

/-- Partial: as before, and the section of the template has to be there, not taken over by the template itself. A section of a deep copy shows its own elements, then
those that the section of the template with this key shows and whose keys it does not define. -/
theorem C73_subsection_partial (ha : analyze input = .ok ctx) (hl : load input = .ok ctx') (hs : (ctx.heap.at s).type = .section) (hd : (ctx.heap.at s).deepCopy = true)
    (hsh : Shielded ctx.heap s) (ht : TemplateIs ctx.heap s t) (hx : LoneSection ctx.heap s x) (hy : LoneSection ctx.heap t y) (hk : (ctx.heap.at x).key = (ctx.heap.at y).key)
    (hst : Steady ctx.heap x) (hf : ctx.heap.length ≤ fuel) (hr : instElements ctx'.heap fuel y [] = .ok ys) :
    instElements ctx'.heap fuel x [] = .ok ((ctx.heap.at x).elements ++ notOverridden ctx.heap x ys) := by
  have L := loaded ha hl
  have a := analyze_analysed ha
  have S : Source ctx.heap x y := C73_source hs hsh ht (by rw [hd]; exact .sub rfl .top hx hy hk) a.heap
  have hst' : Steady ctx.heap y := fun u hu => hst u (.step S hu)
  obtain ⟨zs, G⟩ := gathers_of_instElements L.non (mfinal_of_load ha hl) fuel y [] ys (.inl hy.1) hst' hr
  have e := C73_elements_partial ha hl (.inl hy.1) hst' hf G
  rw [hr] at e; injection e with e; subst e
  exact C73_elements_partial ha hl (.inl hx.1) hst hf (.merged S G)

/-- Sections that no deep merge can touch gather what C32 says they hold. -/
theorem C73_undisturbed (ha : analyze input = .ok ctx) (hl : load input = .ok ctx') (hs : (ctx.heap.at s).type = .section ∨ s = 0) (u : Undisturbed ctx.heap s) :
    Gathers ctx.heap s xs ↔ ElementsOf ctx.heap s xs := by
  have L := loaded ha hl
  have a := analyze_analysed ha
  have key : ∀ {i xs}, ElementsOf ctx.heap i xs → (ctx.heap.at i).type = .section ∨ i = 0 → Undisturbed ctx.heap i → Gathers ctx.heap i xs := by
    intro i xs E hi u
    have top : ∀ {b y}, Merges ctx.heap b i y → b = i := by
      intro b y M
      rcases M.within a.heap.tree with e | e
      · exact e.symm
      · obtain ⟨_, t, _, P⟩ := M
        rw [u.1 b e] at P
        rcases P.uncons with ⟨e, _⟩ | ⟨e, _⟩
        · exact e.symm
        · cases e
    induction E with
    | @own i hc =>
      refine .own fun y S => ?_
      obtain ⟨b, M⟩ := S.merges
      have e := top M; subst e
      have := M.copy
      rw [hc] at this; cases this
    | @copy i t xs ht _ ih =>
      obtain ⟨h1, h2, h3⟩ := L.sec.holder i t hi ht
      have ut := u.template ht
      have S : Source ctx.heap i t := C73_source h1 u.1 ht .top a.heap
      refine .merged S (ih (.inl h3) ut ?_)
      intro b y M
      rcases M.within a.heap.tree with e | e
      · exact e.symm
      · obtain ⟨_, t, _, P⟩ := M
        rw [ut.1 b e] at P
        rcases P.uncons with ⟨e, _⟩ | ⟨e, _⟩
        · exact e.symm
        · cases e
  refine ⟨fun G => ?_, fun E => key E hs u⟩
  have hsl : s < ctx.heap.length := by
    rcases hs with hs | rfl
    · exact lt_of_section hs
    · exact a.heap.pos
  obtain ⟨ys, E⟩ := (L.sec.grounded s hsl hs).elements
  rw [G.det a.heap.tree (key E hs u)]
  exact E

/-- Without deep copies no section is, in the end, merged with itself. -/
theorem NoDeepCopies.no_circle (ha : analyze input = .ok ctx) (hl : load input = .ok ctx') (nd : NoDeepCopies ctx.heap) : NoCircles ctx.heap := by
  have L := loaded ha hl
  have one : ∀ {a x y}, Merges ctx.heap a x y → Leads ctx.heap x y := by
    rintro a x y ⟨_, t, ht, P⟩
    rw [nd a] at P
    rcases P.uncons with ⟨rfl, rfl⟩ | ⟨e, _⟩
    · exact .one ht
    · cases e
  have all : ∀ {x y}, MergePath ctx.heap x y → Leads ctx.heap x y := by
    intro x y P
    induction P with
    | one M => exact one M
    | step M _ ih => exact (one M).trans ih
  intro x P
  exact (L.sec.grounded x (lt_of_section P.sections.1) (.inl P.sections.1)).not_cycle (all P)

/-- A document for the examples: sections that are merged twice and more than one level deep. -/
def mergeText : Str := chars!"# T\n## K\nx: 1\ny: 2\n### N\nz: 3\n# S << T\n## K\nx: 4\n### N\n# U << S\n## K\ny: 5"

example : ∃ ctx ctx', analyze mergeText = .ok ctx ∧ load mergeText = .ok ctx' ∧ NoCircles ctx.heap ∧ (∀ s, Steady ctx.heap s) ∧
    (ctx.heap.at 7).type = .section ∧ (ctx.heap.at 7).deepCopy = true ∧ Shielded ctx.heap 7 ∧ TemplateIs ctx.heap 7 1 ∧
    LoneSection ctx.heap 7 8 ∧ LoneSection ctx.heap 1 2 ∧ (ctx.heap.at 8).key = (ctx.heap.at 2).key ∧
    (instElements ctx'.heap 20 2 []).toOption = some [3, 4, 5] ∧ Gathers ctx.heap 8 [9, 10, 4] ∧ Gathers ctx.heap 10 [6] := by
  obtain ⟨ctx, ha, h1⟩ : ∃ ctx, analyze mergeText = .ok ctx ∧ (ctx.heap.at 7).type = .section ∧ (ctx.heap.at 7).deepCopy = true ∧ (ctx.heap.at 7).parent = some 0 ∧
      (ctx.heap.at 0).parent = none ∧ (ctx.heap.at 0).deepCopy = false ∧ (ctx.heap.at 7).copy = some (chars!"T") ∧ candidates ctx.heap true (chars!"T") = [1] ∧ 7 < ctx.heap.length ∧
      LoneSection ctx.heap 7 8 ∧ LoneSection ctx.heap 1 2 ∧ (ctx.heap.at 8).key = (ctx.heap.at 2).key ∧
      ((List.range ctx.heap.length).all (fun a => (mergesOf ctx.heap a).all fun p => p.2 < p.1) = true) ∧
      ((List.range ctx.heap.length).all (fun a => (mergesOf ctx.heap a).all fun p => !(ctx.heap.at p.1).elements.isEmpty ||
        (List.range ctx.heap.length).all fun b => b = a || (mergesOf ctx.heap b).all fun q => q.1 ≠ p.1) = true) ∧
      (8, 2) ∈ mergesOf ctx.heap 7 ∧ (10, 5) ∈ mergesOf ctx.heap 7 ∧ (List.range 7).all (fun b => (mergesOf ctx.heap b).all fun p => p.1 ≠ 8) = true ∧
      (List.range 7).all (fun b => (mergesOf ctx.heap b).all fun p => p.1 ≠ 10) = true ∧
      (List.range ctx.heap.length).all (fun b => (mergesOf ctx.heap b).all fun p => p.1 ≠ 2) = true ∧
      (List.range ctx.heap.length).all (fun b => (mergesOf ctx.heap b).all fun p => p.1 ≠ 5) = true ∧
      (ctx.heap.at 2).elements = [3, 4, 5] ∧ (ctx.heap.at 5).elements = [6] ∧ (ctx.heap.at 8).elements ++ notOverridden ctx.heap 8 [3, 4, 5] = [9, 10, 4] ∧
      (ctx.heap.at 10).elements ++ notOverridden ctx.heap 10 [6] = [6] := by
    refine ⟨_, rfl, ?_⟩
    decide +kernel
  obtain ⟨ctx', hl, h2⟩ : ∃ ctx', load mergeText = .ok ctx' ∧ (instElements ctx'.heap 20 2 []).toOption = some [3, 4, 5] := by
    refine ⟨_, rfl, ?_⟩
    decide +kernel
  obtain ⟨a1, a2, a3, a4, a5, a6, a7, a8, a9, a10, a11, a12, a13, a14, a15, a16, a17, a18, a19, a20, a21, a22, a23⟩ := h1
  have ok := (analyze_analysed ha).heap
  have tr := ok.tree
  refine ⟨ctx, ctx', ha, hl, no_circles tr id a12, steady_of_once tr a13, a1, a2, ?_, ⟨a8, _, a6, by simpa [a1] using a7⟩, a9, a10, a11, h2, ?_, ?_⟩
  · intro b hb
    cases hb with
    | parent e => rw [a3] at e; injection e with e; subst e; exact a5
    | step e hb =>
      rw [a3] at e; injection e with e; subst e
      cases hb with
      | parent e => rw [a4] at e; cases e
      | step e _ => rw [a4] at e; cases e
  · rw [← a22, ← a20]
    exact .merged (source_of_first tr a8 a14 a16) (.own fun t => no_source tr a18)
  · rw [← a23, ← a21]
    exact .merged (source_of_first tr a8 a15 a17) (.own fun t => no_source tr a19)

/-- A circle: `K` of `S` is merged with `K` of `T`, which copies it. -/
example : ∃ ctx ctx', analyze (chars!"# S << T\n## K\nx: 1\n# T\n## K < K") = .ok ctx ∧ load (chars!"# S << T\n## K\nx: 1\n# T\n## K < K") = .ok ctx' ∧
    (ctx.heap.at 2).type = .section ∧ Steady ctx.heap 2 ∧ Follows ctx.heap 2 5 ∧ Follows ctx.heap 5 5 := by
  obtain ⟨ctx, ha, h1⟩ : ∃ ctx, analyze (chars!"# S << T\n## K\nx: 1\n# T\n## K < K") = .ok ctx ∧ 5 < ctx.heap.length ∧ (ctx.heap.at 2).type = .section ∧
      (2, 5) ∈ mergesOf ctx.heap 1 ∧ (5, 2) ∈ mergesOf ctx.heap 5 ∧
      (List.range 1).all (fun b => (mergesOf ctx.heap b).all fun p => p.1 ≠ 2) = true ∧ (List.range 5).all (fun b => (mergesOf ctx.heap b).all fun p => p.1 ≠ 5) = true ∧
      ((List.range ctx.heap.length).all (fun a => (mergesOf ctx.heap a).all fun p => !(ctx.heap.at p.1).elements.isEmpty ||
        (List.range ctx.heap.length).all fun b => b = a || (mergesOf ctx.heap b).all fun q => q.1 ≠ p.1) = true) := by
    refine ⟨_, rfl, ?_⟩
    decide +kernel
  obtain ⟨a1, a2, a3, a4, a5, a6, a7⟩ := h1
  have tr := (analyze_analysed ha).heap.tree
  have s1 := source_of_first tr (by omega) a3 a5
  have s2 := source_of_first tr a1 a4 a6
  exact ⟨ctx, _, ha, rfl, a2, steady_of_once tr a7 2, .one s1, .step s2 (.one s1)⟩

/-- The claim is false of the code: the section `L` of `S`, which `S` takes over from `T`, has an element, but the section `L` of the deep copy `U` of `S` has none. -/
theorem C73_refuted : ∃ ctx', load (chars!"# T\n## L\nz: 1\n# S << T\na: 1\n# U << S\n## L") = .ok ctx' ∧
    (instElements ctx'.heap 20 4 []).toOption = some [5, 2] ∧ (instElements ctx'.heap 20 2 []).toOption = some [3] ∧
    (instElements ctx'.heap 20 6 []).toOption = some [7, 5] ∧ (ctx'.heap.at 7).key = (ctx'.heap.at 2).key ∧ (instElements ctx'.heap 20 7 []).toOption = some [] := by
  refine ⟨_, rfl, ?_⟩
  decide +kernel

/-- What is left out of the theorems above does not hold: an empty section of `A` is merged twice, and `J` has taken over its elements in between. -/
theorem C73_refuted_unsteady : ∃ ctx ctx', analyze (chars!"# J << A\n## y\n# P << Q\n## A\n### y < Z\n# Q\n## A < A\n### y\nx: 1\n# Z\nz: 2") = .ok ctx ∧
    load (chars!"# J << A\n## y\n# P << Q\n## A\n### y < Z\n# Q\n## A < A\n### y\nx: 1\n# Z\nz: 2") = .ok ctx' ∧
    Gathers ctx.heap 2 [9] ∧ (instElements ctx'.heap 20 2 []).toOption = some [11] := by
  obtain ⟨ctx, ha, h1⟩ : ∃ ctx, analyze (chars!"# J << A\n## y\n# P << Q\n## A\n### y < Z\n# Q\n## A < A\n### y\nx: 1\n# Z\nz: 2") = .ok ctx ∧
      1 < ctx.heap.length ∧ 3 < ctx.heap.length ∧ (2, 5) ∈ mergesOf ctx.heap 1 ∧ (5, 8) ∈ mergesOf ctx.heap 3 ∧
      (List.range 1).all (fun b => (mergesOf ctx.heap b).all fun p => p.1 ≠ 2) = true ∧ (List.range 3).all (fun b => (mergesOf ctx.heap b).all fun p => p.1 ≠ 5) = true ∧
      (List.range ctx.heap.length).all (fun b => (mergesOf ctx.heap b).all fun p => p.1 ≠ 8) = true ∧
      (ctx.heap.at 2).elements ++ notOverridden ctx.heap 2 ((ctx.heap.at 5).elements ++ notOverridden ctx.heap 5 (ctx.heap.at 8).elements) = [9] := by
    refine ⟨_, rfl, ?_⟩
    decide +kernel
  obtain ⟨ctx', hl, h2⟩ : ∃ ctx', load (chars!"# J << A\n## y\n# P << Q\n## A\n### y < Z\n# Q\n## A < A\n### y\nx: 1\n# Z\nz: 2") = .ok ctx' ∧
      (instElements ctx'.heap 20 2 []).toOption = some [11] := by
    refine ⟨_, rfl, ?_⟩
    decide +kernel
  obtain ⟨a1, a2, a3, a4, a5, a6, a7, a8⟩ := h1
  have tr := (analyze_analysed ha).heap.tree
  refine ⟨ctx, ctx', ha, hl, ?_, h2⟩
  rw [← a8]
  exact .merged (source_of_first tr a1 a3 a5) (.merged (source_of_first tr a2 a4 a6) (.own fun t => no_source tr a7))

end Eno
