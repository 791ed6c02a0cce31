import Verif.Proofs.CopiedMeans

/-! # What is recorded of sections with copies means what they mean -/

namespace Eno

open Spec

variable {input : Str} {T : Doc} {h h' : Heap} {i j : Nat}

/-! ## Sections -/

/-- These elements are shown like this. -/
def Showing (input : Str) (h : Heap) (is : List Nat) (rs : List Raw) : Prop :=
  RawsOf input h (is.map .elem) rs ∧ is.map (fun j => some (h.at j).key) = rs.map rawKey

theorem Showing.nil : Showing input h [] [] := ⟨.nil, rfl⟩

theorem Showing.append {a b : List Nat} {x y : List Raw} (h1 : Showing input h a x) (h2 : Showing input h b y) : Showing input h (a ++ b) (x ++ y) :=
  ⟨by rw [List.map_append]; exact raws_append h1.1 h2.1, by rw [List.map_append, List.map_append, h1.2, h2.2]⟩

theorem showing_filter {own : List Nat} {os : List Raw} (ho : Showing input h own os) : ∀ {is : List Nat} {rs : List Raw}, Showing input h is rs →
    Showing input h (is.filter fun i => decide (∀ o ∈ own, (h.at o).key ≠ (h.at i).key)) (rs.filter fun x => decide (∀ o ∈ os, rawKey o ≠ rawKey x))
  | [], [], _ => Showing.nil
  | [], _ :: _, H => by have := H.2; simp at this
  | _ :: _, [], H => by have := H.2; simp at this
  | i :: is, r :: rs, ⟨.cons h1 h2, e⟩ => by
    simp only [List.map_cons, List.cons.injEq] at e
    have ih := showing_filter ho (is := is) (rs := rs) ⟨h2, e.2⟩
    have : (∀ o ∈ own, (h.at o).key ≠ (h.at i).key) ↔ ∀ o ∈ os, rawKey o ≠ rawKey r := by
      rw [← e.1]
      constructor
      · intro H o hm e'
        have : rawKey o ∈ own.map fun j => some (h.at j).key := by rw [ho.2]; exact List.mem_map.2 ⟨o, hm, rfl⟩
        obtain ⟨j, hj, e''⟩ := List.mem_map.1 this
        rw [e'] at e''
        injection e'' with e''
        exact H j hj e''
      · intro H o hm e'
        have : some (h.at o).key ∈ os.map rawKey := by rw [← ho.2]; exact List.mem_map.2 ⟨o, hm, rfl⟩
        obtain ⟨z, hz, e''⟩ := List.mem_map.1 this
        exact H z hz (by rw [e'', e'])
    simp only [List.filter_cons, this]
    split
    · exact ⟨.cons h1 ih.1, by simp only [List.map_cons, e.1, ih.2]⟩
    · exact ih

theorem meant_key (m : Meant) : rawKey m.raw = some m.key := by
  obtain ⟨r, k, b⟩ := m
  cases b <;> rfl

/-- What the elements of a section mean is what is recorded. -/
theorem DocIn.things_show (D : DocIn input T h) : ∀ {is : List Nat} {ts : List Thing} {ms : List Meant}, ThingsAt input h 1 is ts → ThingsMean T.nodes ts ms →
    Showing input h is (ms.map Meant.raw)
  | _, _, _, .nil, .nil => Showing.nil
  | _, _, _, .cons h1 h2 h3 h4, .cons m1 m2 => by
    have S := D.shows m1 ⟨h1, h2, h3⟩
    have ih := D.things_show h4 m2
    refine ⟨.cons S.rawOf ih.1, ?_⟩
    simp only [List.map_cons, meant_key, S.key, ih.2]

/-- What a section means according to the heap. -/
structure PartShows (input : Str) (h : Heap) (i : Nat) (r : Remark) (rs : List Raw) : Prop where
  comments : ∃ c, CommentsOf h i c ∧ Remarked r c
  elements : ∃ xs, CopiedFirst h i xs ∧ Showing input h xs rs

mutual

/-- What a section means is what is recorded. -/
theorem DocIn.part_shows (D : DocIn input T h) : ∀ {p : Part} {r : Remark} {rs : List Raw} {i : Nat}, p.Means T.nodes r rs → PartAt input h 1 i p → PartShows input h i r rs
  | _, _, _, i, .own (ms := ms) (rs := rs) m1 m2, .mk h1 h2 h3 h4 h5 h6 => by
    have hc : (h.at i).copy = none := h3.copy
    refine ⟨⟨_, .own hc, h3.remark⟩, _, .own hc, ?_⟩
    rw [h4]
    exact (D.things_show h5 m1).append (D.parts_show m2 h6)
  | _, _, _, i, .copy (r := r) (k := k) (d := d) (t := t) (ts := ts) (ps := ps) (ms := ms) (rs := rs) (q := q) (r' := r') (xs := xs) f m0 m1 m2, .mk h1 h2 h3 h4 h5 h6 => by
    obtain ⟨j, ht, hq⟩ := D.template_part (PartAt.mk h1 h2 h3 h4 h5 h6) rfl f
    obtain ⟨⟨c, c1, c2⟩, ys, y1, y2⟩ := D.part_shows m0 hq
    have own : Showing input h (h.at i).elements (ms.map Meant.raw ++ rs) := by
      rw [h4]
      exact (D.things_show h5 m1).append (D.parts_show m2 h6)
    exact ⟨commentsOf_copy ht h3.remark c1 c2, _, .copy ht y1, (showing_filter own y2).append own⟩

/-- The same for several sections. -/
theorem DocIn.parts_show (D : DocIn input T h) : ∀ {ps : List Part} {rs : List Raw} {is : List Nat}, PartsMean T.nodes ps rs → PartsAt input h 1 is ps → Showing input h is rs
  | _, _, _, .nil, .nil => Showing.nil
  | _, _, _, .cons m1 m2, .cons h1 h2 => by
    have S := D.part_shows m1 h1
    have ih := D.parts_show m2 h2
    obtain ⟨c, c1, c2⟩ := S.comments
    obtain ⟨xs, x1, x2⟩ := S.elements
    obtain ⟨q1, q2, _, _, _, q3⟩ := partAt_heading h1
    have := RawOf.section q3 c1 q1 x1 x2.1
    rw [c2.raw, q2] at this
    refine ⟨.cons this ih.1, ?_⟩
    simp only [List.map_cons, ih.2, rawKey, q2]

end

theorem DocIn.root_copy (D : DocIn input T h) : (h.at 0).copy = none ∧ (h.at 0).type = .document ∧ (h.at 0).comments = none ∧ (h.at 0).items = none ∧ (h.at 0).entries = none ∧
    (h.at 0).deepCopy = false :=
  ⟨congrArg Elem.copy D.root, congrArg Elem.type D.root, congrArg Elem.comments D.root, congrArg Elem.items D.root, congrArg Elem.entries D.root, congrArg Elem.deepCopy D.root⟩

/-- What a document means is what is recorded. -/
theorem DocIn.rawOf (D : DocIn input T h) {R : Raw} (M : T.Means R) : RawOf input h (.elem 0) R := by
  obtain ⟨m1, m2⟩ := M
  obtain ⟨a, b, h1, h2, h3⟩ := D.tree
  refine RawOf.document (.own D.root_copy.1) ?_
  rw [h1]
  exact ((D.things_show h2 m1).append (D.parts_show m2 h3)).1

/-! ## Documents that are loaded mean something -/

theorem DocIn.things_mean (D : DocIn input T h) (hw : ∀ i, i < h.length → ¬ Incompatible h i) (hg : ∀ i, i < h.length → (h.at i).type ≠ .section → Grounded h i) :
    ∀ {is : List Nat} {ts : List Thing}, ThingsAt input h 1 is ts → ∃ ms, ThingsMean T.nodes ts ms
  | _, _, .nil => ⟨_, .nil⟩
  | _, _, .cons h1 h2 h3 h4 => by
    obtain ⟨m, hm⟩ := D.thing_means hw (hg _ h2 (thingIs_type h3).1) ⟨h1, h2, h3⟩
    obtain ⟨ms, hms⟩ := D.things_mean hw hg h4
    exact ⟨_, .cons hm hms⟩

theorem parts_each {n : List Node} {is : List Nat} {ps : List Part} (H : PartsAt input h 1 is ps) (hm : ∀ i p, i ∈ is → PartAt input h 1 i p → ∃ r rs, p.Means n r rs) :
    ∃ rs, PartsMean n ps rs := by
  induction ps generalizing is with
  | nil => exact ⟨_, .nil⟩
  | cons p ps ih =>
    cases H with
    | cons h1 h2 =>
      obtain ⟨r, rs, h3⟩ := hm _ _ (by simp) h1
      obtain ⟨rs', h4⟩ := ih h2 fun i p hi => hm i p (by simp [hi])
      exact ⟨_, .cons h3 h4⟩

theorem DocIn.part_means (D : DocIn input T h) (hw : ∀ i, i < h.length → ¬ Incompatible h i) (hg : ∀ i, i < h.length → (h.at i).type ≠ .section → Grounded h i)
    (ht : ∀ i, i < h.length → (h.at i).copy.isSome → ∃ t, TemplateIs h i t) (a : Acc (Below h) i) : ∀ {p : Part}, PartAt input h 1 i p → ∃ r rs, p.Means T.nodes r rs := by
  induction a with
  | intro i _ ih =>
    intro p H
    obtain ⟨r, k, c, ts, ps⟩ := p
    cases H with
    | mk h1 h2 h3 h4 h5 h6 =>
      obtain ⟨ms, hms⟩ := D.things_mean hw hg h5
      obtain ⟨rs, hrs⟩ := parts_each h6 fun j p hj hp => ih j ⟨(partAt_heading hp).1, h2, .inl (by rw [h4]; simp [hj])⟩ hp
      cases c with
      | none => exact ⟨_, _, .own hms hrs⟩
      | some c =>
        obtain ⟨d, t⟩ := c
        obtain ⟨j, hj⟩ := ht i h2 (by rw [h3.copy]; rfl)
        obtain ⟨k', x, e1, e2, e3⟩ := D.part_template (PartAt.mk h1 h2 h3 h4 h5 h6) hj
        obtain ⟨r', xs, hx⟩ := ih j ⟨(partAt_heading e3).1, h2, .inr hj⟩ e3
        cases e1
        exact ⟨_, _, .copy e2 hx hms hrs⟩

theorem DocIn.means (D : DocIn input T h) (W : WellCopied h) (L : Loaded h h') : ∃ R, T.Means R := by
  obtain ⟨a, b, h1, h2, h3⟩ := D.tree
  have hg := L.non.grounded
  obtain ⟨ms, hms⟩ := D.things_mean W.kinds hg h2
  obtain ⟨rs, hrs⟩ := parts_each h3 fun j p _ hp => D.part_means W.kinds hg W.templates (L.acc _ j rfl (.inl (partAt_heading hp).1)) hp
  exact ⟨_, .mk hms hrs⟩

/-! ## Documents that mean something are loaded -/

theorem thing_grounded (D : DocIn input T h) {t : Thing} {m : Meant} (M : t.Means T.nodes m) : ∀ {i}, NodeAt input h 1 i (.thing t) → Grounded h i := by
  induction M with
  | plain => intro i H; exact .own H.2.2.copy
  | copy hf _ _ ih =>
    intro i H
    obtain ⟨j, h1, h2⟩ := D.template_thing H rfl hf
    exact .copy h1 (ih h2)

/-- Elements that mean something go with their templates. -/
theorem thing_compatible (D : DocIn input T h) {t : Thing} {m : Meant} (M : t.Means T.nodes m) (H : NodeAt input h 1 i (.thing t)) : ¬ Incompatible h i := by
  rintro ⟨j, k, h1, h2, h3⟩
  cases M with
  | plain => 
    obtain ⟨_, k', h4, _⟩ := h1
    rw [H.2.2.copy] at h4; cases h4
  | @copy r k t inner x m b hf hm he =>
    obtain ⟨j', h4, h5⟩ := D.template_thing H rfl hf
    cases h1.det h4
    have S := (D.shows hm h5).held
    have hI := H.2.2.inner
    cases hh : m.held <;> rw [hh] at S he <;> cases inner <;> rw [hI.1] at h3 <;> cases h2.det S.1 <;> simp [Clash, Held.extend] at h3 he

/-- An element or a section that means something. -/
def NodeMeans (ns : List Node) : Node → Prop
  | .thing t => ∃ m, t.Means ns m
  | .part p => ∃ r rs, p.Means ns r rs

theorem things_nodes {ns : List Node} : ∀ {ts : List Thing} {ms : List Meant}, ThingsMean ns ts ms → ∀ n ∈ ts.map Node.thing, NodeMeans ns n
  | _, _, .nil, n, hn => by simp at hn
  | _, _, .cons m1 m2, n, hn => by
    simp only [List.map_cons, List.mem_cons] at hn
    rcases hn with rfl | hn
    · exact ⟨_, m1⟩
    · exact things_nodes m2 n hn

mutual

theorem part_nodes {ns : List Node} : ∀ {p : Part} {r : Remark} {rs : List Raw}, p.Means ns r rs → ∀ n ∈ p.nodes, NodeMeans ns n
  | _, _, _, .own m1 m2, n, hn => by
    rw [Part.nodes] at hn
    simp only [List.mem_cons, List.mem_append] at hn
    rcases hn with rfl | hn | hn
    · exact ⟨_, _, .own m1 m2⟩
    · exact things_nodes m1 n hn
    · exact parts_nodes m2 n hn
  | _, _, _, .copy m0 m1 m2 m3, n, hn => by
    rw [Part.nodes] at hn
    simp only [List.mem_cons, List.mem_append] at hn
    rcases hn with rfl | hn | hn
    · exact ⟨_, _, .copy m0 m1 m2 m3⟩
    · exact things_nodes m2 n hn
    · exact parts_nodes m3 n hn

theorem parts_nodes {ns : List Node} : ∀ {ps : List Part} {rs : List Raw}, PartsMean ns ps rs → ∀ n ∈ partsNodes ps, NodeMeans ns n
  | _, _, .nil, n, hn => by rw [partsNodes] at hn; simp at hn
  | _, _, .cons m1 m2, n, hn => by
    rw [partsNodes, List.mem_append] at hn
    rcases hn with hn | hn
    · exact part_nodes m1 n hn
    · exact parts_nodes m2 n hn

end

theorem doc_nodes {R : Raw} (M : T.Means R) : ∀ n ∈ T.nodes, NodeMeans T.nodes n := by
  obtain ⟨m1, m2⟩ := M
  intro n hn
  unfold Doc.nodes at hn
  rcases List.mem_append.1 hn with hn | hn
  · exact things_nodes m1 n hn
  · exact parts_nodes m2 n hn

/-- Everything behind the document is recorded for something in the tree. -/
theorem DocIn.node (D : DocIn input T h) (hi : i < h.length) (h0 : i ≠ 0) : ∃ n, n ∈ T.nodes ∧ NodeAt input h 1 i n := by
  have hl := D.length
  have : i - 1 < T.nodes.length := by omega
  refine ⟨T.nodes[i - 1], List.getElem_mem _, ?_⟩
  have := D.seg.get (j := i - 1) (n := T.nodes[i - 1]) (by simp [this])
  rwa [show 1 + (i - 1) = i by omega] at this

theorem thingsAt_mem : ∀ {is : List Nat} {ts : List Thing}, ThingsAt input h 1 is ts → ∀ j ∈ is, ∃ t, ThingIs input t (h.at j)
  | _, _, .nil, j, hj => by simp at hj
  | _, _, .cons _ _ h3 h4, j, hj => by
    rcases List.mem_cons.1 hj with rfl | hj
    · exact ⟨_, h3⟩
    · exact thingsAt_mem h4 j hj

theorem dep_cycle {a : Nat} (hl : DepLeads h a a) : ∃ c, Dep h a c ∧ DepLeads h c c := by
  cases hl with
  | one d => exact ⟨a, d, .one d⟩
  | step d l => exact ⟨_, d, l.trans (.one d)⟩

mutual

theorem DocIn.part_acyclic (D : DocIn input T h) : ∀ {p : Part} {r : Remark} {rs : List Raw} {i : Nat}, p.Means T.nodes r rs → PartAt input h 1 i p → ¬ DepLeads h i i
  | _, _, _, i, .own m1 m2, .mk h1 h2 h3 h4 h5 h6 => by
    intro hl
    obtain ⟨c, ⟨c1, _, c2⟩, c3⟩ := dep_cycle hl
    rcases c2 with ⟨_, c2⟩ | c2
    · rw [h4, List.mem_append] at c2
      rcases c2 with c2 | c2
      · obtain ⟨t, ht⟩ := thingsAt_mem h5 c c2
        exact (thingIs_type ht).1 c1
      · exact D.parts_acyclic m2 h6 c c2 c3
    · obtain ⟨_, k, e, _⟩ := c2
      rw [h3.copy] at e; cases e
  | _, _, _, i, .copy m0 m1 m2 m3, .mk h1 h2 h3 h4 h5 h6 => by
    intro hl
    obtain ⟨c, ⟨c1, _, c2⟩, c3⟩ := dep_cycle hl
    rcases c2 with ⟨_, c2⟩ | c2
    · rw [h4, List.mem_append] at c2
      rcases c2 with c2 | c2
      · obtain ⟨t, ht⟩ := thingsAt_mem h5 c c2
        exact (thingIs_type ht).1 c1
      · exact D.parts_acyclic m3 h6 c c2 c3
    · obtain ⟨j, ht, hq⟩ := D.template_part (PartAt.mk h1 h2 h3 h4 h5 h6) rfl m0
      cases c2.det ht
      exact D.part_acyclic m1 hq c3

theorem DocIn.parts_acyclic (D : DocIn input T h) : ∀ {ps : List Part} {rs : List Raw} {is : List Nat}, PartsMean T.nodes ps rs → PartsAt input h 1 is ps → ∀ c ∈ is, ¬ DepLeads h c c
  | _, _, _, .nil, .nil, c, hc => by simp at hc
  | _, _, _, .cons m1 m2, .cons h1 h2, c, hc => by
    rcases List.mem_cons.1 hc with rfl | hc
    · exact D.part_acyclic m1 h1
    · exact D.parts_acyclic m2 h2 c hc

end

theorem DocIn.wellCopied (D : DocIn input T h) {R : Raw} (M : T.Means R) : WellCopied h := by
  have all := doc_nodes M
  have root := D.root_copy
  refine ⟨?_, ?_, ?_, ?_⟩
  · intro i hi hc
    by_cases h0 : i = 0
    · subst h0; rw [root.1] at hc; cases hc
    · obtain ⟨n, n1, n2⟩ := D.node hi h0
      have := all n n1
      cases n with
      | thing t =>
        obtain ⟨m, hm⟩ := this
        cases hm with
        | plain => rw [n2.2.2.copy] at hc; cases hc
        | copy hf => obtain ⟨j, hj, _⟩ := D.template_thing n2 rfl hf; exact ⟨j, hj⟩
      | part p =>
        obtain ⟨r, rs, hm⟩ := this
        cases hm with
        | own => rw [(partAt_heading n2).2.2.2.1] at hc; cases hc
        | copy hf => obtain ⟨j, hj, _⟩ := D.template_part n2 rfl hf; exact ⟨j, hj⟩
  · intro i hi hs
    by_cases h0 : i = 0
    · subst h0
      exact (Grounded.own root.1).not_cycle
    · obtain ⟨n, n1, n2⟩ := D.node hi h0
      cases n with
      | thing t =>
        obtain ⟨m, hm⟩ := all _ n1
        exact (thing_grounded D hm n2).not_cycle
      | part p => exact absurd (partAt_heading n2).1 hs
  · intro i hi
    by_cases h0 : i = 0
    · subst h0
      rintro ⟨t, k, ⟨_, k', e, _⟩, _⟩
      rw [root.1] at e; cases e
    · obtain ⟨n, n1, n2⟩ := D.node hi h0
      cases n with
      | thing t =>
        obtain ⟨m, hm⟩ := all _ n1
        exact thing_compatible D hm n2
      | part p =>
        rintro ⟨t, k, _, _, hc⟩
        rw [(partAt_heading n2).1] at hc
        simp [Clash] at hc
  · intro i hi hs
    by_cases h0 : i = 0
    · subst h0; rw [root.2.1] at hs; cases hs
    · obtain ⟨n, n1, n2⟩ := D.node hi h0
      cases n with
      | thing t => exact absurd hs (thingIs_type n2.2.2).1
      | part p =>
        obtain ⟨r, rs, hm⟩ := all _ n1
        exact D.part_acyclic hm n2

/-! ## Sensible questions -/

/-- No section is a deep copy or a copy without elements. -/
def AllShallow (h : Heap) : Prop := ∀ i, (h.at i).deepCopy = false ∧ ((h.at i).type = .section → (h.at i).copy.isSome → (h.at i).elements ≠ [])

theorem AllShallow.straight (H : AllShallow h) (h0 : (h.at 0).copy = none) : AllStraight h := by
  have sec : ∀ {s t}, Leads h s t → (h.at s).type = .section → (h.at t).type = .section := by
    intro s t hl
    have one : ∀ {a b}, TemplateIs h a b → (h.at a).type = .section → (h.at b).type = .section := by
      rintro a b ⟨_, k, _, hc⟩ ha
      have : b ∈ candidates h (decide ((h.at a).type = .section)) k := by rw [hc]; simp
      simp only [candidates, List.mem_filter, Bool.and_eq_true, beq_iff_eq, ha, decide_true, decide_eq_true_eq] at this
      exact this.2.2
    induction hl with
    | one ht => exact one ht
    | step ht _ ih => exact fun hs => ih (one ht hs)
  intro s _ hs
  refine ⟨⟨fun a _ => (H a).1, fun _ _ a _ => (H a).1⟩, ?_, ?_⟩
  · rcases hs with hs | rfl
    · exact (H s).2 hs
    · rw [h0]; simp
  · intro t hl
    rcases hs with hs | rfl
    · exact (H t).2 (sec hl hs)
    · exfalso
      have : ∃ k, TemplateIs h 0 k := by cases hl with | one h => exact ⟨_, h⟩ | step h _ => exact ⟨_, h⟩
      obtain ⟨_, _, _, e, _⟩ := this
      rw [h0] at e; cases e

theorem thingsAt_nil {is : List Nat} {ts : List Thing} (H : ThingsAt input h 1 is ts) : is = [] ↔ ts = [] := by cases H <;> simp

theorem partsAt_nil {is : List Nat} {ts : List Part} (H : PartsAt input h 1 is ts) : is = [] ↔ ts = [] := by cases H <;> simp

theorem DocIn.shallow (D : DocIn input T h) (hs : T.Shallow) : AllShallow h := by
  intro i
  by_cases hi : i < h.length
  · by_cases h0 : i = 0
    · subst h0
      exact ⟨D.root_copy.2.2.2.2.2, by rw [D.root_copy.1]; simp⟩
    · obtain ⟨n, n1, n2⟩ := D.node hi h0
      cases n with
      | thing t =>
        refine ⟨?_, fun e => absurd e (thingIs_type n2.2.2).1⟩
        cases t with
        | plain e => exact n2.2.2.deep
        | copy => exact n2.2.2.deep
      | part p =>
        have := hs _ n1
        obtain ⟨r, k, c, ts, ps⟩ := p
        cases n2 with
        | mk h1 h2 h3 h4 h5 h6 =>
          rw [h3.deep, h3.copy]
          cases c with
          | none => exact ⟨rfl, by simp⟩
          | some c =>
            obtain ⟨d, t⟩ := c
            refine ⟨this.1, fun _ _ e => ?_⟩
            rw [h4] at e
            simp only [List.append_eq_nil_iff, thingsAt_nil h5, partsAt_nil h6] at e
            rcases this.2 with q | q
            · exact q e.1
            · exact q e.2
  · rw [heap_outside hi]; exact ⟨rfl, by simp [Elem.document]⟩

theorem thingIs_fine {t : Thing} {E : Elem} (H : ThingIs input t E) : (∀ c, E.comments = some [c] → c.comment.isSome) ∧
    (∀ y ∈ E.items.getD [], y.Fine) ∧ (∀ y ∈ E.entries.getD [], y.Fine) := by
  cases t with
  | plain e => have := ElemIs.fine H; exact ⟨this.2.2.1, this.2.2.2⟩
  | copy r k t inner =>
    refine ⟨remarked_single H.remark, ?_⟩
    have hc := H.inner
    cases inner with
    | nothing => simp [hc.2.1, hc.2.2]
    | items x xs =>
      obtain ⟨_, h1, ys, h2, _, h3⟩ := hc
      simp only [h1, h2, Option.getD_some, Option.getD_none]
      exact ⟨h3, by simp⟩
    | entries x xs =>
      obtain ⟨_, h1, ys, h2, _, h3⟩ := hc
      simp only [h1, h2, Option.getD_some, Option.getD_none]
      exact ⟨by simp, fun y hy => (h3 y hy).1⟩

theorem DocIn.fine (D : DocIn input T h) (hi : i < h.length) : (∀ c, (h.at i).comments = some [c] → c.comment.isSome) ∧
    (∀ y ∈ (h.at i).items.getD [], y.Fine) ∧ (∀ y ∈ (h.at i).entries.getD [], y.Fine) := by
  by_cases h0 : i = 0
  · subst h0
    obtain ⟨_, _, h1, h2, h3, _⟩ := D.root_copy
    rw [h1, h2, h3]; simp
  · obtain ⟨n, n1, n2⟩ := D.node hi h0
    cases n with
    | thing t => exact thingIs_fine n2.2.2
    | part p =>
      cases n2 with
      | mk h1 h2 h3 => rw [h3.items, h3.entries]; exact ⟨remarked_single h3.remark, by simp, by simp⟩

theorem DocIn.readable (D : DocIn input T h) : CommentsReadable h := by
  intro r cs hr c hc
  subst hc
  cases r with
  | elem i =>
    by_cases hi : i < h.length
    · exact (D.fine hi).1 c hr
    · simp [Heap.comments, heap_outside hi, Elem.document] at hr
  | item i k =>
    by_cases hi : i < h.length
    · simp only [Heap.comments, Heap.sub?, Option.bind_eq_some_iff] at hr
      obtain ⟨y, h1, h2⟩ := hr
      exact remarked_single ((D.fine hi).2.1 y (List.mem_of_getElem? h1)) c h2
    · simp [Heap.comments, Heap.sub?, heap_outside hi, Elem.document] at hr
  | entry i k =>
    by_cases hi : i < h.length
    · simp only [Heap.comments, Heap.sub?, Option.bind_eq_some_iff] at hr
      obtain ⟨y, h1, h2⟩ := hr
      exact remarked_single ((D.fine hi).2.2 y (List.mem_of_getElem? h1)) c h2
    · simp [Heap.comments, Heap.sub?, heap_outside hi, Elem.document] at hr

end Eno
