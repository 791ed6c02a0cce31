import Verif.Proofs.ResolveFacts
import Verif.Proofs.SampleHeaps

/-!
# C23–C26, C30, C34, C53: resolving copies

`load input` is `Context.__init__` (`context.py:9-18`): `analyze`, then `resolve` if anything is copied. What copies refer to is said by
`Spec/Copies.lean`, read off the heap `ctx.heap` that `analyze` returns.
-/

namespace Eno
open Spec

variable {input : Str} {ctx ctx' : Ctx} {i j t t' : Nat} {k : Str} {x : RExc}

/-- The Python exception that loading ends with (to state examples). -/
def raised : Except PExc Ctx → Option PyExc
  | .error (.resolution (.py e)) => some e
  | _ => none

/-- The `ParseError` of copy resolution that loading ends with (to state examples). -/
def refused : Except PExc Ctx → Option RFail
  | .error (.resolution (.parse k _)) => some k
  | _ => none

/-! ## C53: exactly which documents load -/

theorem C53_sound (ha : analyze input = .ok ctx) (hl : load input = .ok ctx') : WellCopied ctx.heap := by
  have a := analyze_analysed ha
  obtain ⟨c, hc, r, _⟩ := load_ok_analyze hl
  rw [ha] at hc; injection hc with hc; subst hc
  obtain ⟨h1, n1, n2, s1⟩ := r.mid
  refine ⟨?_, ?_, ?_, ?_⟩
  · intro i hi hc
    by_cases hs : (ctx.heap.at i).type = .section
    · exact (r.secs i hi hs hc).1
    · exact r.nons i hi hs hc
  · intro i hi hs; exact (n1.grounded hi (n2 i hi hs)).not_cycle
  · intro i _ hinc
    obtain ⟨hi, hs⟩ := incompatible_nonsection hinc
    exact n1.compatible n2 hi hs hinc
  · intro i hi _ hd
    obtain ⟨c, c1, c2, c3, c4⟩ := cycle_has_copy a.heap hd hi
    exact (r.secs c c1 c2 c3).2.not_cycle c4

theorem C53_complete (ha : analyze input = .ok ctx) (w : WellCopied ctx.heap) : ∃ ctx', load input = .ok ctx' := by
  have a := analyze_analysed ha
  rcases load_cases ha with ⟨c, hc, _⟩ | ⟨x, hx, o⟩
  · exact ⟨c, hc⟩
  · exfalso
    rcases o with o | ⟨u, o | ⟨_, _, o⟩⟩
    · unfold Ambiguous at o
      split at o
      · obtain ⟨sec, k, h1, h2, h3, h4⟩ := o
        obtain ⟨c1, c2, c3⟩ := mem_copiers.1 h1
        obtain ⟨t, _, k', hk', ht⟩ := w.templates _ c1 (by rw [c2]; rfl)
        rw [c2] at hk'; injection hk' with hk'; subst hk'
        rw [c3] at ht; rw [ht] at h2 h3
        simp at h2 h3
        exact h4 (h2.trans h3.symm)
      · exact o
    · unfold NFail at o
      split at o
      · obtain ⟨i, k, c, h1, h2, h3, h4, _⟩ := o
        exact no_candidates h3 (by simpa [h2] using h4) (w.templates i h1 (by rw [h3]; rfl))
      · obtain ⟨k, h1, h2, h3, h4⟩ := o
        exact no_candidates h3 (by simpa [h2] using h4) (w.templates _ h1 (by rw [h3]; rfl))
      · exact w.elements _ o.1 o.2.1 o.2.2.1
      · obtain ⟨i, _, h1, h2, _⟩ := o; exact w.kinds i h1 h2
      · obtain ⟨i, _, h1, h2, _⟩ := o; exact w.kinds i h1 h2
      · exact o
    · unfold SFail at o
      split at o
      · obtain ⟨i, k, c, h1, h2, h3, h4, _⟩ := o
        exact no_candidates h3 (by simpa [h2] using h4) (w.templates i h1 (by rw [h3]; rfl))
      · obtain ⟨f, l, h1, _⟩ := o
        exact w.sections f (depLeads_lt_left h1) (depLeads_section h1) h1
      · obtain ⟨k, h1, h2, h3, h4⟩ := o
        exact no_candidates h3 (by simpa [h2] using h4) (w.templates _ h1 (by rw [h3]; rfl))
      · exact w.sections _ o.1 o.2.1 o.2.2.2.1
      · exact o

/-- An analysed document loads exactly if everything that is copied can be: each copied name has exactly one candidate, no element is its own
template in the end, own items and entries go with what they extend, and no section has to be resolved before itself. -/
theorem C53_loads_iff (ha : analyze input = .ok ctx) : (∃ ctx', load input = .ok ctx') ↔ WellCopied ctx.heap :=
  ⟨fun ⟨_, h⟩ => C53_sound ha h, C53_complete ha⟩

/-- A section is marked for `deep_resolve` exactly if a copied section lies below it, so that `Dep` is about nothing but the document. -/
theorem C53_marked_iff (ha : analyze input = .ok ctx) (hi : 0 < i) :
    (ctx.heap.at i).deepResolve = true ↔ ∃ j, j < ctx.heap.length ∧ (ctx.heap.at j).type = .section ∧ (ctx.heap.at j).copy.isSome ∧ Above ctx.heap i j := by
  have a := analyze_analysed ha
  constructor
  · exact a.mark i
  · rintro ⟨j, j1, j2, j3, j4⟩
    have key : ∀ {p j : Nat}, Above ctx.heap p j → j < ctx.heap.length → (ctx.heap.at j).type = .section → (ctx.heap.at j).pending = true → 0 < p →
        (ctx.heap.at p).deepResolve = true := by
      intro p j hab
      induction hab with
      | parent h1 => intro a1 a2 a3 a4; exact a.deep _ _ a1 a2 a3 h1 (by omega)
      | @step j q p h1 h2 ih =>
        intro a1 a2 a3 a4
        have hqj : q < j := a.heap.tree.up _ _ h1
        have hpq : p < q := a.heap.tree.above_lt h2
        have hd := a.deep _ _ a1 a2 a3 h1 (by omega)
        refine ih (by omega) ?_ (by simp [Elem.pending, hd]) a4
        obtain ⟨_, q', hq', _, hc⟩ := a.heap.par j (by omega) a1
        rw [h1] at hq'; injection hq' with hq'; subst hq'
        rcases hc with hc | hc
        · exact absurd hc (a.heap.par q (by omega) (by omega)).1
        · exact hc
    exact key j4 j1 j2 (by simp [Elem.pending, j3]) hi

/-- Copies of every sort that load. -/
example : ((load (chars!"a: 1\nb < a\nl:\n- x\nm < l\n- y\n# S\n## T\nk: 2\n# U << S\n## T\nn: 3")).toOption.map fun c => c.heap.length) = some 11 := by decide +kernel

/-! ## C23 -/

/-- A document parses only if every copied name has exactly one candidate. -/
theorem C23_unique (hl : load input = .ok ctx') : ∃ ctx, analyze input = .ok ctx ∧
    ∀ i k, i < ctx.heap.length → (ctx.heap.at i).copy = some k → (candidates ctx.heap (decide ((ctx.heap.at i).type = .section)) k).length = 1 := by
  obtain ⟨ctx, ha, _⟩ := load_ok_analyze hl
  refine ⟨ctx, ha, ?_⟩
  intro i k hi hk
  obtain ⟨t, _, k', hk', ht⟩ := (C53_sound ha hl).templates i hi (by rw [hk]; rfl)
  rw [hk] at hk'; injection hk' with hk'; subst hk'
  rw [ht]; rfl

/-- With two or more candidates for a copied name the parse fails with two-or-more-templates, naming a copy and two of its candidates. -/
theorem C23_two (ha : analyze input = .ok ctx) (hi : i < ctx.heap.length) (hk : (ctx.heap.at i).copy = some k)
    (h2 : 2 ≤ (candidates ctx.heap (decide ((ctx.heap.at i).type = .section)) k).length) :
    ∃ copy first second h, load input = .error (.resolution (.parse (.twoOrMoreTemplatesFound copy first second) h)) ∧
      ∃ sec k', copy ∈ copiers ctx.heap sec k' ∧ first ∈ candidates ctx.heap sec k' ∧ second ∈ candidates ctx.heap sec k' ∧ first ≠ second := by
  have hne : copiers ctx.heap (decide ((ctx.heap.at i).type = .section)) k ≠ [] := by
    intro e
    have := mem_copiers.2 ⟨hi, hk, rfl⟩
    rw [e] at this; simp at this
  rcases load_cases ha with ⟨c, hc, r, _, _, _, _, u⟩ | ⟨x, hx, o⟩
  · have := u _ _ hne; omega
  · rcases o with o | ⟨u, _⟩
    · unfold Ambiguous at o
      split at o
      · exact ⟨_, _, _, _, hx, o⟩
      · exact o.elim
    · have := u _ _ hne; omega

example : ∃ ctx k, analyze (chars!"b: 1\na < b\n# s\nb: 2") = .ok ctx ∧ 2 < ctx.heap.length ∧ (ctx.heap.at 2).copy = some k ∧
    2 ≤ (candidates ctx.heap (decide ((ctx.heap.at 2).type = .section)) k).length := by
  refine ⟨_, chars!"b", rfl, ?_⟩
  decide +kernel

/-- With no candidate for a copied name the parse fails. -/
theorem C23_none_rejected (ha : analyze input = .ok ctx) (hi : i < ctx.heap.length) (hk : (ctx.heap.at i).copy = some k)
    (h0 : candidates ctx.heap (decide ((ctx.heap.at i).type = .section)) k = []) : ∃ x, load input = .error (.resolution x) := by
  rcases load_cases ha with ⟨c, hc, _⟩ | ⟨x, hx, _⟩
  · exact absurd ((C53_sound ha hc).templates i hi (by rw [hk]; rfl)) (no_candidates hk h0)
  · exact ⟨x, hx⟩

example : ∃ ctx k, analyze (chars!"x: 1\na < b") = .ok ctx ∧ 2 < ctx.heap.length ∧ (ctx.heap.at 2).copy = some k ∧
    candidates ctx.heap (decide ((ctx.heap.at 2).type = .section)) k = [] := by
  refine ⟨_, chars!"b", rfl, ?_⟩
  decide +kernel

/-- It need not fail with not-found, nor with a `ParseError` at all: the template of `a` is `b`, whose template does not exist. -/
theorem C23_refuted : raised (load (chars!"a < b\nb < c")) = some .keyError ∧ raised (load (chars!"# a < b\n# b < c")) = some .keyError := by
  decide +kernel

/-- With no candidate for a copied name the parse fails with not-found, provided that nothing else is wrong with the copies of the document
and no other copy depends on one without candidate. Missing for the full statement: that dependency, see `C23_refuted`. -/
theorem C23_none_partial (ha : analyze input = .ok ctx) (hi : i < ctx.heap.length) (hk : (ctx.heap.at i).copy = some k)
    (h0 : candidates ctx.heap (decide ((ctx.heap.at i).type = .section)) k = [])
    (one : ∀ sec k, copiers ctx.heap sec k ≠ [] → (candidates ctx.heap sec k).length ≤ 1)
    (kinds : ∀ i, ¬ Incompatible ctx.heap i) (cyc : ∀ i, ¬ Leads ctx.heap i i) (cyc' : ∀ i, ¬ DepLeads ctx.heap i i)
    (last : ∀ c i k, (ctx.heap.at i).copy = some k → candidates ctx.heap (decide ((ctx.heap.at i).type = .section)) k = [] →
      ¬ TemplateIs ctx.heap c i ∧ ¬ Dep ctx.heap c i) :
    ∃ j h, (load input = .error (.resolution (.parse (.nonSectionElementNotFound j) h)) ∨ load input = .error (.resolution (.parse (.sectionNotFound j) h))) ∧
      ∃ k, (ctx.heap.at j).copy = some k ∧ candidates ctx.heap (decide ((ctx.heap.at j).type = .section)) k = [] := by
  rcases load_cases ha with ⟨c, hc, _⟩ | ⟨x, hx, o⟩
  · exact absurd ((C53_sound ha hc).templates i hi (by rw [hk]; rfl)) (no_candidates hk h0)
  · rcases o with o | ⟨_, o | ⟨_, _, o⟩⟩
    · unfold Ambiguous at o
      split at o
      · obtain ⟨sec, k, h1, h2, h3, h4⟩ := o
        have := one sec k (by intro e; rw [e] at h1; simp at h1)
        generalize candidates ctx.heap sec k = l at *
        match l, this, h2, h3 with
        | [a], _, h2, h3 => simp at h2 h3; exact absurd (h2.trans h3.symm) h4
      · exact o.elim
    · unfold NFail at o
      split at o
      · obtain ⟨i, k, c, h1, h2, h3, h4, h5⟩ := o
        exact absurd h5 (last c i k h3 (by simpa [h2] using h4)).1
      · obtain ⟨k, h1, h2, h3, h4⟩ := o
        exact ⟨_, _, .inl hx, k, h3, by simpa [h2] using h4⟩
      · exact absurd o.2.2.1 (cyc _)
      · obtain ⟨i, _, _, h2, _⟩ := o; exact absurd h2 (kinds i)
      · obtain ⟨i, _, _, h2, _⟩ := o; exact absurd h2 (kinds i)
      · exact o.elim
    · unfold SFail at o
      split at o
      · obtain ⟨i, k, c, h1, h2, h3, h4, h5⟩ := o
        exact absurd h5 (last c i k h3 (by simpa [h2] using h4)).2
      · obtain ⟨f, l, h1, _⟩ := o; exact absurd h1 (cyc' f)
      · obtain ⟨k, h1, h2, h3, h4⟩ := o
        exact ⟨_, _, .inr hx, k, h3, by simpa [h2] using h4⟩
      · exact absurd o.2.2.2.1 (cyc' _)
      · exact o.elim

/-- Sample for the hypotheses: besides the copy `a` without template there are two copies, of an element and of a section, that can be resolved. -/
example : ∃ ctx k, analyze (chars!"x: 1\na < b\nc < x\n# S\n# T < S") = .ok ctx ∧ 2 < ctx.heap.length ∧ (ctx.heap.at 2).copy = some k ∧
    candidates ctx.heap (decide ((ctx.heap.at 2).type = .section)) k = [] ∧ (∀ sec k, copiers ctx.heap sec k ≠ [] → (candidates ctx.heap sec k).length ≤ 1) ∧
    (∀ i, ¬ Incompatible ctx.heap i) ∧ (∀ i, ¬ Leads ctx.heap i i) ∧ (∀ i, ¬ DepLeads ctx.heap i i) ∧
    (∀ c i k, (ctx.heap.at i).copy = some k → candidates ctx.heap (decide ((ctx.heap.at i).type = .section)) k = [] → ¬ TemplateIs ctx.heap c i ∧ ¬ Dep ctx.heap c i) ∧
    TemplateIs ctx.heap 3 1 ∧ TemplateIs ctx.heap 5 4 := by
  obtain ⟨ctx, h, h1, h2, h3, h4, h5, h6, h7, h8, h9, h10, h11⟩ : ∃ ctx, analyze (chars!"x: 1\na < b\nc < x\n# S\n# T < S") = .ok ctx ∧ 2 < ctx.heap.length ∧ (ctx.heap.at 2).copy = some (chars!"b") ∧
      candidates ctx.heap (decide ((ctx.heap.at 2).type = .section)) (chars!"b") = [] ∧ oneB ctx.heap = true ∧ bareB ctx.heap = true ∧ rankB ctx.heap id = true ∧
      depRankB ctx.heap (fun i => if i = 0 then 9 else i) = true ∧ lastB ctx.heap = true ∧ 5 < ctx.heap.length ∧ templateB ctx.heap 3 = some 1 ∧ templateB ctx.heap 5 = some 4 := by
    refine ⟨_, rfl, ?_⟩
    decide +kernel
  exact ⟨ctx, _, h, h1, h2, h3, oneB_sound h4, bareB_sound h5, rankB_sound h6, depRankB_sound h7, lastB_sound h8, (templateB_iff (by omega)).1 h10, (templateB_iff h9).1 h11⟩

example : refused (load (chars!"x: 1\na < b")) = some (.nonSectionElementNotFound 2) := by decide +kernel
example : refused (load (chars!"# x\n# a < b")) = some (.sectionNotFound 2) := by decide +kernel
example : refused (load (chars!"b: 1\na < b\n# s\nb: 2")) = some (.twoOrMoreTemplatesFound 2 1 4) := by decide +kernel

/-! ## C24 -/

/-- Following templates from a non-section element ends at an element that is not a copy or meets an element again; not both. -/
theorem C24_dichotomy (hT : ∀ i, i < ctx.heap.length → (ctx.heap.at i).type ≠ .section → (ctx.heap.at i).copy.isSome → ∃ t, TemplateIs ctx.heap i t)
    (hi : i < ctx.heap.length) (hs : (ctx.heap.at i).type ≠ .section) :
    (Grounded ctx.heap i ∧ ¬ ∃ j, (j = i ∨ Leads ctx.heap i j) ∧ Leads ctx.heap j j) ∨
    (¬ Grounded ctx.heap i ∧ ∃ j, (j = i ∨ Leads ctx.heap i j) ∧ Leads ctx.heap j j) := by
  have no : Grounded ctx.heap i → ¬ ∃ j, (j = i ∨ Leads ctx.heap i j) ∧ Leads ctx.heap j j := by
    rintro g ⟨j, j1, j2⟩
    rcases j1 with rfl | j1
    · exact g.not_cycle j2
    · exact (g.leads j1).not_cycle j2
  rcases grounded_or_cycle hT hi hs with g | g
  · exact .inl ⟨g, no g⟩
  · exact .inr ⟨fun q => no q g, g⟩

/-- Sample for the hypotheses (also for `C24_iff`): a copy that leads to a cycle, in a document where each copy has a template. -/
example : ∃ ctx, analyze (chars!"a < b\nb < c\nc < b") = .ok ctx ∧ (∀ sec k, copiers ctx.heap sec k ≠ [] → (candidates ctx.heap sec k).length ≤ 1) ∧
    (∀ i, i < ctx.heap.length → (ctx.heap.at i).type ≠ .section → (ctx.heap.at i).copy.isSome → ∃ t, TemplateIs ctx.heap i t) ∧ (∀ i, ¬ Incompatible ctx.heap i) ∧
    1 < ctx.heap.length ∧ (ctx.heap.at 1).type ≠ .section := by
  obtain ⟨ctx, h, h1, h2, h3, h4⟩ : ∃ ctx, analyze (chars!"a < b\nb < c\nc < b") = .ok ctx ∧ oneB ctx.heap = true ∧ templatesB ctx.heap = true ∧ bareB ctx.heap = true ∧
      1 < ctx.heap.length ∧ (ctx.heap.at 1).type ≠ .section := by
    refine ⟨_, rfl, ?_⟩
    decide +kernel
  exact ⟨ctx, h, oneB_sound h1, templatesB_sound h2, bareB_sound h3, h4⟩

/-- A cyclic dependency error about a non-section element is about elements that copy themselves in the end. -/
theorem C24_sound {chain : List Nat} {h : Heap} (ha : analyze input = .ok ctx)
    (hx : load input = .error (.resolution (.parse (.cyclicDependency i chain) h))) (hs : (ctx.heap.at i).type ≠ .section) :
    i ∈ chain ∧ ∀ j ∈ chain, Leads ctx.heap j j := by
  rcases load_cases ha with ⟨c, hc, _⟩ | ⟨x, hx', o⟩
  · rw [hc] at hx; simp at hx
  · rw [hx] at hx'; simp at hx'; subst hx'
    rcases o with o | ⟨_, o | ⟨_, _, o⟩⟩
    · exact o.elim
    · exact o.2.2.2
    · exact absurd o.2.1 hs

example : refused (load (chars!"a < b\nb < c\nc < b")) = some (.cyclicDependency 3 [2, 3]) ∧ ((analyze (chars!"a < b\nb < c\nc < b")).toOption.map fun c => (c.heap.at 3).type) = some .empty := by decide +kernel

/-- Given unique templates and compatible kinds, the parse fails with a cyclic dependency of non-section elements exactly if some
non-section element copies itself in the end. -/
theorem C24_iff (ha : analyze input = .ok ctx) (one : ∀ sec k, copiers ctx.heap sec k ≠ [] → (candidates ctx.heap sec k).length ≤ 1)
    (hT : ∀ i, i < ctx.heap.length → (ctx.heap.at i).type ≠ .section → (ctx.heap.at i).copy.isSome → ∃ t, TemplateIs ctx.heap i t)
    (kinds : ∀ i, ¬ Incompatible ctx.heap i) :
    (∃ i chain h, load input = .error (.resolution (.parse (.cyclicDependency i chain) h)) ∧ (ctx.heap.at i).type ≠ .section) ↔
    ∃ i, (ctx.heap.at i).type ≠ .section ∧ Leads ctx.heap i i := by
  constructor
  · rintro ⟨i, chain, h, hx, hs⟩
    obtain ⟨h1, h2⟩ := C24_sound ha hx hs
    exact ⟨i, hs, h2 i h1⟩
  · rintro ⟨i, hs, hcy⟩
    have hi : i < ctx.heap.length := by
      cases hcy with
      | one h => exact h.1
      | step h _ => exact h.1
    rcases load_cases ha with ⟨c, hc, _⟩ | ⟨x, hx, o⟩
    · exact absurd hcy ((C53_sound ha hc).elements i hi hs)
    · rcases o with o | ⟨_, o | ⟨⟨h1, n1, n2⟩, _, o⟩⟩
      · unfold Ambiguous at o
        split at o
        · obtain ⟨sec, k, h1, h2, h3, h4⟩ := o
          have := one sec k (by intro e; rw [e] at h1; simp at h1)
          generalize candidates ctx.heap sec k = l at *
          match l, this, h2, h3 with
          | [a], _, h2, h3 => simp at h2 h3; exact absurd (h2.trans h3.symm) h4
        · exact o.elim
      · unfold NFail at o
        split at o
        · obtain ⟨i, k, c, h1, h2, h3, h4, h5⟩ := o
          exact absurd (hT i h1 h2 (by rw [h3]; rfl)) (no_candidates h3 (by simpa [h2] using h4))
        · obtain ⟨k, h1, h2, h3, h4⟩ := o
          exact absurd (hT _ h1 h2 (by rw [h3]; rfl)) (no_candidates h3 (by simpa [h2] using h4))
        · exact ⟨_, _, _, hx, o.2.1⟩
        · obtain ⟨i, _, _, h2, _⟩ := o; exact absurd h2 (kinds i)
        · obtain ⟨i, _, _, h2, _⟩ := o; exact absurd h2 (kinds i)
        · exact o.elim
      · exact absurd hcy (n1.grounded hi (n2 i hi hs)).not_cycle

example : refused (load (chars!"a < b\nb < c\nc < b")) = some (.cyclicDependency 3 [2, 3]) := by decide +kernel

/-! ## C25 -/

/-- Neither "every failure is a `ParseError`" nor anything close is true: two documents on which copy resolution dies of another exception. -/
theorem C25_refuted : raised (load (chars!"a < b\nb < c")) = some .keyError ∧
    raised (load (chars!"# T < F\n# P\n## F\n### C < P")) = some .unboundLocalError := by
  decide +kernel

/-- Copy resolution always terminates: with a document, a `ParseError`, a `KeyError` for a copy whose template is a copy without template, or an
`UnboundLocalError` for a cycle of which neither end is a copy; never by exhausting the stack. Missing for the full statement: the last two. -/
theorem C25_partial (ha : analyze input = .ok ctx) :
    (∃ ctx', load input = .ok ctx') ∨ (∃ k h, load input = .error (.resolution (.parse k h))) ∨
    (load input = .error (.resolution (.py .keyError)) ∧ ∃ i k c, i < ctx.heap.length ∧ (ctx.heap.at i).copy = some k ∧
      candidates ctx.heap (decide ((ctx.heap.at i).type = .section)) k = [] ∧ (TemplateIs ctx.heap c i ∨ Dep ctx.heap c i)) ∨
    (load input = .error (.resolution (.py .unboundLocalError)) ∧ ∃ f l, DepLeads ctx.heap f f ∧ (ctx.heap.at f).template = none ∧
      Dep ctx.heap l f ∧ (ctx.heap.at l).template = none) := by
  rcases load_cases ha with ⟨c, hc, _⟩ | ⟨x, hx, o⟩
  · exact .inl ⟨c, hc⟩
  · right
    cases x with
    | parse k h => exact .inl ⟨k, h, hx⟩
    | py e =>
      right
      rcases o with o | ⟨_, o | ⟨_, _, o⟩⟩
      · exact o.elim
      · unfold NFail at o
        split at o
        · rename_i he; injection he with he; subst he
          obtain ⟨i, k, c, h1, h2, h3, h4, h5⟩ := o
          exact .inl ⟨hx, i, k, c, h1, h3, by simpa [h2] using h4, .inl h5⟩
        all_goals first | (rename_i he; injection he) | exact o.elim
      · unfold SFail at o
        split at o
        · rename_i he; injection he with he; subst he
          obtain ⟨i, k, c, h1, h2, h3, h4, h5⟩ := o
          exact .inl ⟨hx, i, k, c, h1, h3, by simpa [h2] using h4, .inr h5⟩
        · rename_i he; injection he with he; subst he
          exact .inr ⟨hx, o⟩
        all_goals first | (rename_i he; injection he) | exact o.elim

/-- If every copied name has a candidate and sections do not depend on themselves, the end is a document or a `ParseError`. -/
theorem C25_parse_error (ha : analyze input = .ok ctx)
    (some : ∀ i k, i < ctx.heap.length → (ctx.heap.at i).copy = some k → candidates ctx.heap (decide ((ctx.heap.at i).type = .section)) k ≠ [])
    (cyc : ∀ f, (ctx.heap.at f).template = none → ¬ DepLeads ctx.heap f f) :
    (∃ ctx', load input = .ok ctx') ∨ (∃ k h, load input = .error (.resolution (.parse k h))) := by
  rcases C25_partial ha with h | h | ⟨_, i, k, c, h1, h2, h3, _⟩ | ⟨_, f, l, h1, h2, _⟩
  · exact .inl h
  · exact .inr h
  · exact absurd h3 (some i k h1 h2)
  · exact absurd h1 (cyc f h2)

/-- Sample for the hypotheses: two sections that copy each other, and a section that is copied. -/
example : ∃ ctx, analyze (chars!"# A < B\n# B < A\n# C\n# D < C") = .ok ctx ∧
    (∀ i k, i < ctx.heap.length → (ctx.heap.at i).copy = some k → candidates ctx.heap (decide ((ctx.heap.at i).type = .section)) k ≠ []) ∧
    (∀ f, (ctx.heap.at f).template = none → ¬ DepLeads ctx.heap f f) ∧ DepLeads ctx.heap 1 1 := by
  obtain ⟨ctx, h, h1, h2, h3, h4⟩ : ∃ ctx, analyze (chars!"# A < B\n# B < A\n# C\n# D < C") = .ok ctx ∧ someB ctx.heap = true ∧
      everyB ctx.heap (fun f => (ctx.heap.at f).template.isSome || (depsB ctx.heap f).isEmpty) = true ∧ 2 < ctx.heap.length ∧
      (templateB ctx.heap 1 = some 2 ∧ templateB ctx.heap 2 = some 1 ∧ (ctx.heap.at 1).type = .section ∧ (ctx.heap.at 2).type = .section ∧
        (ctx.heap.at 1).copy.isSome ∧ (ctx.heap.at 2).copy.isSome) := by
    refine ⟨_, rfl, ?_⟩
    decide +kernel
  obtain ⟨h4, h5, h6, h7, h8, h9⟩ := h4
  refine ⟨ctx, h, someB_sound h1, fun f hf L => ?_, .step ⟨h7, .inl h9, .inr ((templateB_iff (by omega)).1 h4)⟩ (.one ⟨h6, .inl h8, .inr ((templateB_iff h3).1 h5)⟩)⟩
  have D : ∃ c, Dep ctx.heap f c := by
    cases L with
    | one D => exact ⟨_, D⟩
    | step D _ => exact ⟨_, D⟩
  obtain ⟨c, D⟩ := D
  obtain ⟨d1, d2⟩ := depsB_complete D
  have := everyB_iff.1 h2 f d1
  simp only [hf, Option.isSome_none, Bool.false_or, List.isEmpty_iff] at this
  rw [this] at d2
  cases d2

example : refused (load (chars!"# A < B\n# B < A")) = some (.cyclicDependency 2 [1, 2]) := by decide +kernel

/-! ## C26 -/

/-- After parsing no copy is pending; every element that was written as a copy has a template, which is resolved itself, and non-section copies
have the kind that follows from the template. -/
theorem C26_resolved (ha : analyze input = .ok ctx) (hl : load input = .ok ctx') :
    ctx'.heap.length = ctx.heap.length ∧
    (∀ i, i < ctx.heap.length → (ctx'.heap.at i).copy = none) ∧
    (∀ i, i < ctx.heap.length → (ctx.heap.at i).copy.isSome → ∃ t, TemplateIs ctx.heap i t) ∧
    (∀ i, i < ctx.heap.length → (ctx.heap.at i).type ≠ .section → Grounded ctx.heap i ∧ KindOf ctx.heap i (ctx'.heap.at i).type) := by
  obtain ⟨c, hc, r, _, hlen⟩ := load_ok_analyze hl
  rw [ha] at hc; injection hc with hc; subst hc
  refine ⟨hlen, r.copies, (C53_sound ha hl).templates, ?_⟩
  obtain ⟨h1, n1, n2, s1⟩ := r.mid
  intro i hi hs
  rw [s1.non i hs]
  exact ⟨n1.grounded hi (n2 i hi hs), n1.kind hi (n2 i hi hs)⟩

example : ((load (chars!"a < b\nb < c\nc: 1")).toOption.map fun c => ((c.heap.at 1).type, (c.heap.at 1).copy, (c.heap.at 1).mirror)) =
    some (.field, none, some 3) := by decide +kernel

/-! ## C30 -/

/-- Own items or entries that do not go with what is copied are always rejected. -/
theorem C30_rejected (ha : analyze input = .ok ctx) (hi : Incompatible ctx.heap i) : ∃ x, load input = .error (.resolution x) := by
  rcases load_cases ha with ⟨c, hc, _⟩ | ⟨x, hx, _⟩
  · exact absurd hi ((C53_sound ha hc).kinds i (incompatible_nonsection hi).1)
  · exact ⟨x, hx⟩

/-- Sample for the hypotheses (also for the next two theorems): a copy of a field with an item. -/
example : ∃ ctx, analyze (chars!"a: 1\nb < a\n- x\nc < a") = .ok ctx ∧ Incompatible ctx.heap 2 ∧
    (∀ i k, i < ctx.heap.length → (ctx.heap.at i).type ≠ .section → (ctx.heap.at i).copy = some k → candidates ctx.heap false k ≠ []) ∧
    (∀ sec k, copiers ctx.heap sec k ≠ [] → (candidates ctx.heap sec k).length ≤ 1) ∧
    (∀ i, i < ctx.heap.length → (ctx.heap.at i).type ≠ .section → (ctx.heap.at i).copy.isSome → ∃ t, TemplateIs ctx.heap i t) ∧ (∀ i, ¬ Leads ctx.heap i i) := by
  obtain ⟨ctx, h, h1, h2, h3, h4, h5, h6, h7, h8, h9⟩ : ∃ ctx, analyze (chars!"a: 1\nb < a\n- x\nc < a") = .ok ctx ∧ 2 < ctx.heap.length ∧ templateB ctx.heap 2 = some 1 ∧
      (ctx.heap.at 1).copy = none ∧ (ctx.heap.at 1).type = .field ∧ (ctx.heap.at 2).type = .list ∧ someB ctx.heap = true ∧ oneB ctx.heap = true ∧
      templatesB ctx.heap = true ∧ rankB ctx.heap id = true := by
    refine ⟨_, rfl, ?_⟩
    decide +kernel
  refine ⟨ctx, h, ⟨1, _, (templateB_iff h1).1 h2, .own h3, .inl ⟨h5, .inl h4⟩⟩, fun i k hi hs hc => ?_, oneB_sound h7, templatesB_sound h8, rankB_sound h9⟩
  have := someB_sound h6 i k hi hc
  rwa [decide_eq_false hs] at this

/-- They are rejected with a `ParseError` if every copied name has a candidate. -/
theorem C30_parse_error (ha : analyze input = .ok ctx) (hi : Incompatible ctx.heap i)
    (some : ∀ i k, i < ctx.heap.length → (ctx.heap.at i).type ≠ .section → (ctx.heap.at i).copy = some k → candidates ctx.heap false k ≠ []) :
    ∃ k h, load input = .error (.resolution (.parse k h)) := by
  rcases load_cases ha with ⟨c, hc, _⟩ | ⟨x, hx, o⟩
  · exact absurd hi ((C53_sound ha hc).kinds i (incompatible_nonsection hi).1)
  · obtain ⟨hil, his⟩ := incompatible_nonsection hi
    cases x with
    | parse k h => exact ⟨k, h, hx⟩
    | py e =>
      exfalso
      rcases o with o | ⟨_, o | ⟨⟨h1, n1, n2⟩, _, o⟩⟩
      · exact o
      · unfold NFail at o
        split at o
        · obtain ⟨i, k, c, h1, h2, h3, h4, h5⟩ := o
          exact some i k h1 h2 h3 h4
        all_goals first | (rename_i he; injection he) | exact o
      · exact n1.compatible n2 hil his hi

/-- If nothing else is wrong with the copies of non-section elements, the `ParseError` is the one about the first own item or entry. -/
theorem C30_exact (ha : analyze input = .ok ctx) (hi : Incompatible ctx.heap i)
    (one : ∀ sec k, copiers ctx.heap sec k ≠ [] → (candidates ctx.heap sec k).length ≤ 1)
    (hT : ∀ i, i < ctx.heap.length → (ctx.heap.at i).type ≠ .section → (ctx.heap.at i).copy.isSome → ∃ t, TemplateIs ctx.heap i t)
    (cyc : ∀ i, ¬ Leads ctx.heap i i) :
    ∃ j x xs h, Incompatible ctx.heap j ∧
      ((load input = .error (.resolution (.parse (.missingListForListItem x) h)) ∧ (ctx.heap.at j).items = some (x :: xs)) ∨
       (load input = .error (.resolution (.parse (.missingFieldsetForFieldsetEntry x) h)) ∧ (ctx.heap.at j).entries = some (x :: xs))) := by
  rcases load_cases ha with ⟨c, hc, _⟩ | ⟨x, hx, o⟩
  · exact absurd hi ((C53_sound ha hc).kinds i (incompatible_nonsection hi).1)
  · obtain ⟨hil, his⟩ := incompatible_nonsection hi
    rcases o with o | ⟨_, o | ⟨⟨h1, n1, n2⟩, _, o⟩⟩
    · unfold Ambiguous at o
      split at o
      · obtain ⟨sec, k, h1, h2, h3, h4⟩ := o
        have := one sec k (by intro e; rw [e] at h1; simp at h1)
        generalize candidates ctx.heap sec k = l at *
        match l, this, h2, h3 with
        | [a], _, h2, h3 => simp at h2 h3; exact absurd (h2.trans h3.symm) h4
      · exact o.elim
    · unfold NFail at o
      split at o
      · obtain ⟨i, k, c, h1, h2, h3, h4, h5⟩ := o
        exact absurd (hT i h1 h2 (by rw [h3]; rfl)) (no_candidates h3 (by simpa [h2] using h4))
      · obtain ⟨k, h1, h2, h3, h4⟩ := o
        exact absurd (hT _ h1 h2 (by rw [h3]; rfl)) (no_candidates h3 (by simpa [h2] using h4))
      · exact absurd o.2.2.1 (cyc _)
      · obtain ⟨i, xs, _, h2, _, h3⟩ := o; exact ⟨i, _, xs, _, h2, .inl ⟨hx, h3⟩⟩
      · obtain ⟨i, xs, _, h2, _, h3⟩ := o; exact ⟨i, _, xs, _, h2, .inr ⟨hx, h3⟩⟩
      · exact o.elim
    · exact absurd hi (n1.compatible n2 hil his)

example : (refused (load (chars!"a: 1\nb < a\n- x"))).map (fun | .missingListForListItem x => x.line | _ => 0) = some 2 := by decide +kernel
example : (refused (load (chars!"a:\n- 1\nb < a\nc < b\nk = x"))).map (fun | .missingFieldsetForFieldsetEntry x => x.line | _ => 0) = some 4 := by decide +kernel

/-! ## C34 -/

/-- Non-section elements that are not copies are exactly as analysed. -/
theorem C34_elements (ha : analyze input = .ok ctx) (hl : load input = .ok ctx') (hi : i < ctx.heap.length) (hs : (ctx.heap.at i).type ≠ .section)
    (hc : (ctx.heap.at i).copy = none) : ctx'.heap.at i = ctx.heap.at i := by
  obtain ⟨c, hc', r, _⟩ := load_ok_analyze hl
  rw [ha] at hc'; injection hc' with hc'; subst hc'
  obtain ⟨h1, n1, n2, s1⟩ := r.mid
  rw [s1.non i hs]
  rcases n1.all i hi with e | ⟨_, t, ht, _⟩
  · exact e
  · have := ht.cand.2.2.1; rw [hc] at this; simp at this

example : ∃ ctx ctx', analyze (chars!"a: 1\nb < a\n# S\nx: 1\n# T < S\n# U << S\n## V") = .ok ctx ∧ load (chars!"a: 1\nb < a\n# S\nx: 1\n# T < S\n# U << S\n## V") = .ok ctx' ∧ 4 < ctx.heap.length ∧ (ctx.heap.at 4).type ≠ .section ∧ (ctx.heap.at 4).copy = none := by
  refine ⟨_, _, rfl, rfl, ?_⟩
  decide +kernel

/-- Sections that are not copies and do not lie in a deep copy are as analysed, but for the mark that the resolver uses itself. -/
theorem C34_sections (ha : analyze input = .ok ctx) (hl : load input = .ok ctx') (hi : i < ctx.heap.length) (hs : (ctx.heap.at i).type = .section)
    (hc : (ctx.heap.at i).copy = none) (hsh : Shielded ctx.heap i) :
    ctx'.heap.at i = { ctx.heap.at i with deepResolve := (ctx'.heap.at i).deepResolve } := by
  obtain ⟨c, hc', r, _⟩ := load_ok_analyze hl
  rw [ha] at hc'; injection hc' with hc'; subst hc'
  obtain ⟨h1, n1, n2, s1⟩ := r.mid
  exact s1.same i hs hsh ((r.copies i hi).trans hc.symm)

example : ∃ ctx ctx', analyze (chars!"a: 1\nb < a\n# S\nx: 1\n# T < S\n# U << S\n## V") = .ok ctx ∧ load (chars!"a: 1\nb < a\n# S\nx: 1\n# T < S\n# U << S\n## V") = .ok ctx' ∧ 3 < ctx.heap.length ∧ (ctx.heap.at 3).type = .section ∧ (ctx.heap.at 3).copy = none ∧
    Shielded ctx.heap 3 := by
  obtain ⟨ctx, ctx', h1, h2, h3, h4, h5, h6, h7, h8⟩ : ∃ ctx ctx', analyze (chars!"a: 1\nb < a\n# S\nx: 1\n# T < S\n# U << S\n## V") = .ok ctx ∧ load (chars!"a: 1\nb < a\n# S\nx: 1\n# T < S\n# U << S\n## V") = .ok ctx' ∧ 3 < ctx.heap.length ∧
      (ctx.heap.at 3).type = .section ∧ (ctx.heap.at 3).copy = none ∧ (ctx.heap.at 3).parent = some 0 ∧ (ctx.heap.at 0).parent = none ∧ (ctx.heap.at 0).deepCopy = false := by
    refine ⟨_, _, rfl, rfl, ?_⟩
    decide +kernel
  refine ⟨ctx, ctx', h1, h2, h3, h4, h5, fun a ha => ?_⟩
  cases ha with
  | parent e => rw [h6] at e; injection e with e; subst e; exact h8
  | step e ha =>
    rw [h6] at e; injection e with e; subst e
    cases ha with
    | parent e => rw [h7] at e; cases e
    | step e _ => rw [h7] at e; cases e

/-- Resolving changes nothing but the kind, the comments and the links of elements: even copies and sections in deep copies keep their place, key,
value, own items, own entries and own elements. -/
theorem C34_own (ha : analyze input = .ok ctx) (hl : load input = .ok ctx') (hi : i < ctx.heap.length) :
    ctx'.heap.at i = { ctx.heap.at i with
      type := (ctx'.heap.at i).type, comments := (ctx'.heap.at i).comments, copy := none, deepResolve := (ctx'.heap.at i).deepResolve,
      mirror := (ctx'.heap.at i).mirror, extend := (ctx'.heap.at i).extend } := by
  obtain ⟨c, hc', r, _⟩ := load_ok_analyze hl
  rw [ha] at hc'; injection hc' with hc'; subst hc'
  have hcp := r.copies i hi
  obtain ⟨h1, n1, n2, s1⟩ := r.mid
  by_cases hs : (ctx.heap.at i).type = .section
  · have hk := s1.kept i hs
    unfold Kept at hk
    rw [hk] at hcp ⊢
    simp only at hcp
    rw [hcp]
  · rw [s1.non i hs] at hcp ⊢
    rcases n1.all i hi with e | ⟨_, t, _, _, e, _⟩
    · rw [e] at hcp ⊢
      rw [← hcp]
    · rw [consN_keeps e]

example : ((load (chars!"a: 1\nb < a\n# S\nx: 1\n# T < S")).toOption.map fun c => (c.heap.at 1, (c.heap.at 3).elements)) =
    ((analyze (chars!"a: 1\nb < a\n# S\nx: 1\n# T < S")).toOption.map fun c => (c.heap.at 1, (c.heap.at 3).elements)) := by decide +kernel

end Eno
