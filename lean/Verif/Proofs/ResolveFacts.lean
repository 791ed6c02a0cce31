import Verif.Proofs.ResolveOutcome

/-! # When a document with copies loads -/

namespace Eno

open Spec

variable {h h' h0 h1 : Heap} {i j n p t t' s : Nat} {sec : Bool} {k : Str} {d : Copies} {prev : List Nat} {ctx ctx' : Ctx} {input : Str}

theorem Spec.KindOf.det {k k' : Ty} (h1 : KindOf h i k) (h2 : KindOf h i k') : k = k' := by
  induction h1 generalizing k' with
  | own hc =>
    cases h2 with
    | own => rfl
    | empty ht => obtain ⟨_, q, hq, _⟩ := ht; rw [hc] at hq; simp at hq
    | extended ht => rfl
  | empty ht _ he ih =>
    cases h2 with
    | own hc => obtain ⟨_, q, hq, _⟩ := ht; rw [hc] at hq; simp at hq
    | empty ht' hk' _ => have := ht.det ht'; subst this; rw [ih hk']
    | extended _ _ he' => exact absurd he he'
  | extended ht _ he _ ih =>
    cases h2 with
    | own => rfl
    | empty _ _ he' => exact absurd he' he
    | extended => rfl

/-- After the first phase no copy clashes with its template. -/
theorem NInv.compatible (inv : NInv h0 h1) (hc : ∀ i, i < h0.length → (h0.at i).type ≠ .section → (h1.at i).copy = none) (hi : i < h0.length)
    (hs : (h0.at i).type ≠ .section) : ¬ Incompatible h0 i := by
  rintro ⟨t, k, ht, hk, hcl⟩
  rcases inv.all i hi with e | ⟨_, t', ht', htc, hcons, _⟩
  · obtain ⟨_, q, hq, _⟩ := ht
    have := hc i hi hs
    rw [e, hq] at this; simp at this
  · have := ht.det ht'; subst this
    have hk' := inv.kind ht.cand.1 htc
    have := hk.det hk'; subst this
    exact (consN_type hcons).2.1 hcl

/-- Cycles of dependencies go through a copy. -/
theorem depLeads_copy (ok : HeapOk h) {a b : Nat} (hl : DepLeads h a b) (ha : a < h.length) :
    a < b ∨ ∃ s, s < h.length ∧ (h.at s).type = .section ∧ (h.at s).copy.isSome ∧ (s = a ∨ DepLeads h a s) ∧ DepLeads h s b := by
  have next : ∀ {a c}, Dep h a c → a < h.length → c < h.length ∧ (a < c ∨ (a < h.length ∧ (h.at a).type = .section ∧ (h.at a).copy.isSome)) := by
    rintro a c ⟨h1, _, ⟨_, h3⟩ | h3⟩ ha
    · obtain ⟨c1, c2, _⟩ := ok.tree.kids a ha c h3
      exact ⟨c1, .inl c2⟩
    · have hc := h3.cand
      refine ⟨hc.1, .inr ⟨ha, hc.2.2.2.2.1 h1, by rw [hc.2.2.1]; rfl⟩⟩
  induction hl with
  | one h1 =>
    rcases (next h1 ha).2 with q | ⟨q1, q2, q3⟩
    · exact .inl q
    · exact .inr ⟨_, q1, q2, q3, .inl rfl, .one h1⟩
  | step h1 h2 ih =>
    obtain ⟨hc, q⟩ := next h1 ha
    rcases q with q | ⟨q1, q2, q3⟩
    · rcases ih hc with r | ⟨s, s1, s2, s3, s4, s5⟩
      · left; omega
      · right
        refine ⟨s, s1, s2, s3, .inr ?_, s5⟩
        rcases s4 with rfl | s4
        · exact .one h1
        · exact .step h1 s4
    · exact .inr ⟨_, q1, q2, q3, .inl rfl, .step h1 h2⟩

theorem cycle_has_copy (ok : HeapOk h) (hl : DepLeads h s s) (hs : s < h.length) :
    ∃ c, c < h.length ∧ (h.at c).type = .section ∧ (h.at c).copy.isSome ∧ DepLeads h c c := by
  rcases depLeads_copy ok hl hs with q | ⟨c, c1, c2, c3, c4, c5⟩
  · omega
  · refine ⟨c, c1, c2, c3, ?_⟩
    rcases c4 with rfl | c4
    · exact c5
    · exact c5.trans c4

/-! ## Loading -/

theorem Phase1.refl : Phase1 h0 h0 := ⟨rfl, fun _ => .rfl, fun _ _ => rfl, fun _ => rfl, fun _ => rfl, fun _ => rfl⟩

/-- How loading an analysed document ends. -/
theorem load_cases (ha : analyze input = .ok ctx) :
    (∃ ctx', load input = .ok ctx' ∧ Resolved ctx.heap ctx'.heap ∧ ctx'.input = ctx.input ∧ ctx'.metas = ctx.metas ∧ ctx'.lineCount = ctx.lineCount ∧
      ctx'.heap.length = ctx.heap.length ∧ ∀ sec k, copiers ctx.heap sec k ≠ [] → (candidates ctx.heap sec k).length = 1) ∨
    (∃ x, load input = .error (.resolution x) ∧ Outcome ctx.heap (.error x)) := by
  have a := analyze_analysed ha
  unfold load
  rw [ha]
  simp only
  split
  · obtain ⟨o1, o2⟩ := resolve_outcome a
    cases hr : resolve ctx with
    | error x => rw [hr] at o1; right; exact ⟨x, rfl, o1⟩
    | ok ctx' =>
      rw [hr] at o1
      left
      obtain ⟨e, u⟩ := o2 ctx' hr
      refine ⟨ctx', rfl, o1, by rw [e], by rw [e], by rw [e], ?_, u⟩
      obtain ⟨h1, _, _, s1⟩ := o1.mid
      exact s1.len
  · rename_i hne
    simp only [not_or, Decidable.not_not] at hne
    left
    have hno : ∀ sec k, copiers ctx.heap sec k = [] := by
      intro sec k
      by_cases hk : copiers ctx.heap sec k = []
      · exact hk
      · exfalso
        cases sec with
        | true => obtain ⟨c, hc⟩ := a.secs.all k hk; rw [hne.1] at hc; simp at hc
        | false => obtain ⟨c, hc⟩ := a.nons.all k hk; rw [hne.2] at hc; simp at hc
    have hcn : ∀ i, i < ctx.heap.length → (ctx.heap.at i).copy = none := by
      intro i hi
      cases hc : (ctx.heap.at i).copy with
      | none => rfl
      | some k =>
        have : i ∈ copiers ctx.heap (decide ((ctx.heap.at i).type = .section)) k := mem_copiers.2 ⟨hi, hc, rfl⟩
        rw [hno] at this; simp at this
    refine ⟨ctx, rfl, ⟨⟨ctx.heap, NInv.refl, fun i hi _ => hcn i hi, SInv.init Phase1.refl⟩, ?_, ?_, hcn⟩, rfl, rfl, rfl, rfl, fun sec k hk => absurd (hno sec k) hk⟩
    · intro i hi _ hc; rw [hcn i hi] at hc; simp at hc
    · intro i hi _ hc; rw [hcn i hi] at hc; simp at hc

theorem load_ok_analyze (hl : load input = .ok ctx') : ∃ ctx, analyze input = .ok ctx ∧ Resolved ctx.heap ctx'.heap ∧ ctx'.input = ctx.input ∧
    ctx'.heap.length = ctx.heap.length := by
  cases ha : analyze input with
  | error e => simp [load, ha] at hl
  | ok ctx =>
    rcases load_cases ha with ⟨c, e1, e2, e3, _, _, e4, _⟩ | ⟨x, e1, _⟩
    · rw [e1] at hl; simp at hl; subst hl
      exact ⟨ctx, rfl, e2, e3, e4⟩
    · rw [e1] at hl; simp at hl

/-! ## Facts about the specification -/

/-- Incompatibility is about non-section elements. -/
theorem incompatible_nonsection {h : Heap} (hi : Incompatible h i) : i < h.length ∧ (h.at i).type ≠ .section := by
  obtain ⟨t, k, ht, _, hc⟩ := hi
  refine ⟨ht.1, ?_⟩
  rcases hc with ⟨hc, _⟩ | ⟨hc, _⟩ <;> rw [hc] <;> decide

/-- A name that is copied by `i` has a template, so it has a candidate. -/
theorem no_candidates {h : Heap} (hk : (h.at i).copy = some k) (hc : candidates h (decide ((h.at i).type = .section)) k = []) : ¬ ∃ t, TemplateIs h i t := by
  rintro ⟨t, _, k', hk', hc'⟩
  rw [hk] at hk'; injection hk' with hk'; subst hk'
  rw [hc] at hc'; simp at hc'

theorem depLeads_section {h : Heap} {a b : Nat} (hl : DepLeads h a b) : (h.at b).type = .section := by
  induction hl with
  | one h1 => exact h1.1
  | step _ _ ih => exact ih

theorem dep_lt {h : Heap} (ok : HeapOk h) {a b : Nat} (ha : a < h.length) (hd : Dep h a b) : b < h.length := by
  obtain ⟨_, _, ⟨_, h3⟩ | h3⟩ := hd
  · exact (ok.tree.kids a ha b h3).1
  · exact h3.cand.1

theorem depLeads_lt {h : Heap} (ok : HeapOk h) {a b : Nat} (hl : DepLeads h a b) (ha : a < h.length) : b < h.length := by
  induction hl with
  | one h1 => exact dep_lt ok ha h1
  | step h1 _ ih => exact ih (dep_lt ok ha h1)

/-- A position that depends on something is a position of the heap. -/
theorem dep_lt_left {h : Heap} {a b : Nat} (hd : Dep h a b) : a < h.length := by
  by_cases ha : a < h.length
  · exact ha
  · obtain ⟨_, _, ⟨h1, _⟩ | h3⟩ := hd
    · rw [Heap.at_ge (by omega)] at h1; simp [Elem.document] at h1
    · exact h3.1

theorem depLeads_lt_left {h : Heap} {a b : Nat} (hl : DepLeads h a b) : a < h.length := by
  cases hl with
  | one h1 => exact dep_lt_left h1
  | step h1 _ => exact dep_lt_left h1

/-- Following templates ends, or comes back to an element it met. -/
theorem grounded_or_cycle (hT : ∀ i, i < h.length → (h.at i).type ≠ .section → (h.at i).copy.isSome → ∃ t, TemplateIs h i t) (hi : i < h.length)
    (hs : (h.at i).type ≠ .section) : Grounded h i ∨ ∃ j, (j = i ∨ Leads h i j) ∧ Leads h j j := by
  have key : ∀ (fuel : Nat) (l : List Nat) (i : Nat), h.length < fuel + l.length → l.Nodup → (∀ x ∈ l, x < h.length) → (∀ x ∈ l, Leads h x i) → i < h.length →
      (h.at i).type ≠ .section → Grounded h i ∨ ∃ j, (j = i ∨ Leads h i j) ∧ Leads h j j := by
    intro fuel
    induction fuel with
    | zero =>
      intro l i h1 h2 h3 _ _ _
      have := nodup_bound _ l h2 h3
      omega
    | succ fuel ih =>
      intro l i h1 h2 h3 h4 hi hs
      by_cases hm : i ∈ l
      · exact .inr ⟨i, .inl rfl, h4 i hm⟩
      · cases hc : (h.at i).copy with
        | none => exact .inl (.own hc)
        | some k =>
          obtain ⟨t, ht⟩ := hT i hi hs (by rw [hc]; rfl)
          have hcd := ht.cand
          rcases ih (i :: l) t (by simp; omega) (by simp [hm, h2]) (by simpa [hi] using h3)
            (by
              intro x hx
              simp at hx
              rcases hx with rfl | hx
              · exact .one ht
              · exact (h4 x hx).trans (.one ht)) hcd.1 (fun q => hs (hcd.2.2.2.2.1 q)) with g | ⟨j, j1, j2⟩
          · exact .inl (.copy ht g)
          · refine .inr ⟨j, ?_, j2⟩
            rcases j1 with rfl | j1
            · exact .inr (.one ht)
            · exact .inr (.step ht j1)
  exact key (h.length + 1) [] i (by simp) (by simp) (by simp) (by simp) hi hs

end Eno
