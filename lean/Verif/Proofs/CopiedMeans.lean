import Verif.Proofs.CopiedRun
import Verif.Proofs.ReadRaw

/-! # What is recorded of documents with copies means what they mean -/

namespace Eno

open Spec

variable {input : Str} {T : Doc} {h : Heap} {i j : Nat}

/-! ## Templates -/

theorem filter_places {α} {ns : List α} {q : α → Bool} {P : Nat → Bool} {lo : Nat} (hP : ∀ j n, ns[j]? = some n → P (lo + j) = q n) :
    ((List.range' lo ns.length).filter P).map (fun i => ns[i - lo]?) = (ns.filter q).map some := by
  have h1 : ns.map some = (List.range' lo ns.length).map fun i => ns[i - lo]? := by
    apply List.ext_getElem
    · simp
    · intro k a b
      simp at a
      simp [a]
  have h2 : (ns.filter q).map some = (ns.map some).filter fun o => o.any q := by
    rw [List.filter_map]; rfl
  rw [h2, h1, List.filter_map]
  congr 1
  apply List.filter_congr
  intro x hx
  rw [List.mem_range'_1] at hx
  have hlt : x - lo < ns.length := by omega
  have := hP (x - lo) ns[x - lo] (by simp [hlt])
  rw [show lo + (x - lo) = x by omega] at this
  simp [hlt, this]

theorem thingIs_type {t : Thing} {E : Elem} (H : ThingIs input t E) : E.type ≠ .section ∧ E.type ≠ .document := by
  cases t with
  | plain e =>
    obtain ⟨r, k, c⟩ := e
    have := H.content
    cases c with
    | parts p => rw [this.1]; split <;> simp
    | items => rw [this.1]; simp
    | entries => rw [this.1]; simp
    | verbatim => rw [this.1]; simp
  | copy r k t inner =>
    have := H.inner
    cases inner <;> (rw [this.1]; simp)

theorem thingIs_key {t : Thing} {E : Elem} (H : ThingIs input t E) : E.key = t.key ∧ E.template = t.template ∧ E.copy = t.template := by
  cases t with
  | plain e => exact ⟨H.key, H.template, H.copy⟩
  | copy r k t inner => exact ⟨H.key, H.template, H.copy⟩

theorem partAt_heading {lo : Nat} {p : Part} (H : PartAt input h lo i p) : (h.at i).type = .section ∧ (h.at i).key = p.key ∧ (h.at i).template = p.template ∧ (h.at i).copy = p.template ∧
    lo ≤ i ∧ i < h.length := by
  cases H with
  | mk h1 h2 h3 => exact ⟨h3.type, h3.key, h3.template, h3.copy, h1, h2⟩

theorem nodeAt_lt {lo : Nat} {n : Node} (H : NodeAt input h lo i n) : lo ≤ i ∧ i < h.length := by
  cases n with
  | thing t => exact ⟨H.1, H.2.1⟩
  | part p => exact (partAt_heading H).2.2.2.2

/-- What the candidates are. -/
theorem DocIn.candidates (D : DocIn input T h) (sec : Bool) (k : Str) : (candidates h sec k).map (fun i => T.nodes[i - 1]?) = (T.nodes.filter (Node.serves sec k)).map some := by
  have hP : ∀ j n, T.nodes[j]? = some n → (decide (0 < 1 + j) && decide ((h.at (1 + j)).key = k) && decide ((h.at (1 + j)).template ≠ some k) &&
      (decide ((h.at (1 + j)).type = .section) == sec)) = n.serves sec k := by
    intro j n hn
    have hat := D.seg.get hn
    cases n with
    | thing t =>
      obtain ⟨_, _, hat⟩ := hat
      obtain ⟨h1, h2, _⟩ := thingIs_key hat
      have h3 := (thingIs_type hat).1
      rw [h1, h2]
      have h0 : 0 < 1 + j := by omega
      simp only [h3, h0, Node.serves, decide_false, decide_true]
      cases sec <;> simp
    | part p =>
      obtain ⟨h3, h1, h2, _⟩ := partAt_heading hat
      rw [h1, h2]
      have h0 : 0 < 1 + j := by omega
      simp only [h3, h0, Node.serves, decide_true]
      cases sec <;> simp
  rw [← filter_places (P := fun i => decide (0 < i) && decide ((h.at i).key = k) && decide ((h.at i).template ≠ some k) && (decide ((h.at i).type = .section) == sec)) hP]
  unfold Spec.candidates
  rw [D.length, List.range_eq_range', Nat.add_comm 1, List.range'_succ, List.filter_cons_of_neg (by simp)]

theorem DocIn.only (D : DocIn input T h) {sec : Bool} {k : Str} {n : Node} (hf : T.nodes.filter (Node.serves sec k) = [n]) :
    ∃ j, Spec.candidates h sec k = [j] ∧ NodeAt input h 1 j n := by
  have := D.candidates sec k
  rw [hf] at this
  cases hc : Spec.candidates h sec k with
  | nil => rw [hc] at this; simp at this
  | cons j l =>
    cases l with
    | cons => rw [hc] at this; simp at this
    | nil =>
      rw [hc] at this
      simp only [List.map_cons, List.map_nil, List.cons.injEq, and_true] at this
      have hj : j ∈ Spec.candidates h sec k := by rw [hc]; simp
      simp only [Spec.candidates, List.mem_filter, List.mem_range, Bool.and_eq_true, decide_eq_true_eq] at hj
      have := D.seg.get this
      rw [show 1 + (j - 1) = j by omega] at this
      exact ⟨j, rfl, this⟩

theorem DocIn.only' (D : DocIn input T h) {sec : Bool} {k : Str} (hc : Spec.candidates h sec k = [j]) :
    ∃ n, T.nodes.filter (Node.serves sec k) = [n] ∧ NodeAt input h 1 j n := by
  have := D.candidates sec k
  rw [hc] at this
  cases hf : T.nodes.filter (Node.serves sec k) with
  | nil => rw [hf] at this; simp at this
  | cons n l =>
    cases l with
    | cons => rw [hf] at this; simp at this
    | nil =>
      obtain ⟨j', h1, h2⟩ := D.only hf
      rw [hc] at h1
      simp at h1
      subst h1
      exact ⟨n, rfl, h2⟩

/-- The template of a copied element. -/
theorem DocIn.template_thing (D : DocIn input T h) {t : Thing} {k : Str} {x : Thing} (H : NodeAt input h 1 i (.thing t)) (hk : t.template = some k)
    (hf : T.nodes.filter (Node.serves false k) = [.thing x]) : ∃ j, TemplateIs h i j ∧ NodeAt input h 1 j (.thing x) := by
  obtain ⟨j, h1, h2⟩ := D.only hf
  refine ⟨j, ⟨H.2.1, k, by rw [(thingIs_key H.2.2).2.2, hk], ?_⟩, h2⟩
  simp only [(thingIs_type H.2.2).1, decide_false]
  exact h1

theorem DocIn.thing_template (D : DocIn input T h) {t : Thing} (H : NodeAt input h 1 i (.thing t)) (ht : TemplateIs h i j) :
    ∃ k x, t.template = some k ∧ T.nodes.filter (Node.serves false k) = [.thing x] ∧ NodeAt input h 1 j (.thing x) := by
  obtain ⟨_, k, h1, h2⟩ := ht
  simp only [(thingIs_type H.2.2).1, decide_false] at h2
  obtain ⟨n, h3, h4⟩ := D.only' h2
  have hn : n ∈ T.nodes.filter (Node.serves false k) := by rw [h3]; simp
  cases n with
  | part p => simp [Node.serves] at hn
  | thing x => exact ⟨k, x, by rw [← h1, (thingIs_key H.2.2).2.2], h3, h4⟩

/-- The template of a copied section. -/
theorem DocIn.template_part (D : DocIn input T h) {p : Part} {k : Str} {x : Part} (H : PartAt input h 1 i p) (hk : p.template = some k)
    (hf : T.nodes.filter (Node.serves true k) = [.part x]) : ∃ j, TemplateIs h i j ∧ PartAt input h 1 j x := by
  obtain ⟨j, h1, h2⟩ := D.only hf
  obtain ⟨q1, _, _, q2, _, q3⟩ := partAt_heading H
  refine ⟨j, ⟨q3, k, by rw [q2, hk], ?_⟩, h2⟩
  simp only [q1, decide_true]
  exact h1

theorem DocIn.part_template (D : DocIn input T h) {p : Part} (H : PartAt input h 1 i p) (ht : TemplateIs h i j) :
    ∃ k x, p.template = some k ∧ T.nodes.filter (Node.serves true k) = [.part x] ∧ PartAt input h 1 j x := by
  obtain ⟨_, k, h1, h2⟩ := ht
  obtain ⟨q1, _, _, q2, _, q3⟩ := partAt_heading H
  simp only [q1, decide_true] at h2
  obtain ⟨n, h3, h4⟩ := D.only' h2
  have hn : n ∈ T.nodes.filter (Node.serves true k) := by rw [h3]; simp
  cases n with
  | thing p => simp [Node.serves] at hn
  | part x => exact ⟨k, x, by rw [← h1, q2], h3, h4⟩

/-! ## Elements -/

/-- What an element contains according to the heap. -/
def HeldAt (input : Str) (h : Heap) (i : Nat) : Held → Prop
  | .nothing => KindOf h i .empty ∧ ItemsOf h i [] ∧ EntriesOf h i []
  | .text v => KindOf h i .field ∧ ValueOf input h i v
  | .verbatim v => KindOf h i .mlBegin ∧ ValueOf input h i v
  | .items xs => KindOf h i .list ∧ ∃ rs, ItemsOf h i rs ∧ RawsOf input h rs (xs.map Item.raw)
  | .entries xs => KindOf h i .fieldset ∧ ∃ rs, EntriesOf h i rs ∧ RawsOf input h rs (xs.map Entry.raw) ∧ rs.map (entryKey h) = xs.map fun x => some x.key

/-- What an element means according to the heap. -/
structure Shows (input : Str) (h : Heap) (i : Nat) (m : Meant) : Prop where
  lt : i < h.length
  key : (h.at i).key = m.key
  comments : ∃ c, CommentsOf h i c ∧ Remarked m.remark c
  held : HeldAt input h i m.held

theorem Shows.rawOf {m : Meant} (H : Shows input h i m) : RawOf input h (.elem i) m.raw := by
  obtain ⟨r, k, b⟩ := m
  obtain ⟨c, hc, hr⟩ := H.comments
  have hk := H.key
  have hb := H.held
  have hraw := hr.raw
  simp only at hk hb hraw
  cases b with
  | nothing =>
    have := RawOf.empty (input := input) H.lt hc hb.1
    rw [hraw, hk] at this; exact this
  | text v =>
    have := RawOf.field (input := input) H.lt hc hb.1 (.inl rfl) hb.2
    rw [hraw, hk] at this; exact this
  | verbatim v =>
    have := RawOf.field (input := input) H.lt hc hb.1 (.inr rfl) hb.2
    rw [hraw, hk] at this; exact this
  | items xs =>
    obtain ⟨h1, rs, h2, h3⟩ := hb
    have := RawOf.list H.lt hc h1 h2 h3
    rw [hraw, hk] at this; exact this
  | entries xs =>
    obtain ⟨h1, rs, h2, h3, _⟩ := hb
    have := RawOf.fieldset H.lt hc h1 h2 h3
    rw [hraw, hk] at this; exact this

theorem keys_entries {E : List Sub} (hE : (h.at i).entries = some E) (hf : ∀ y ∈ E, y.Fine ∧ y.key.isSome) :
    (entriesAt h i).map (entryKey h) = E.map fun y => some y.toEntry.key := by
  unfold entriesAt
  rw [hE, Option.getD_some]
  apply List.ext_getElem
  · simp
  · intro k a b
    simp at a
    obtain ⟨_, h3⟩ := hf _ (List.getElem_mem a)
    obtain ⟨key, hkey⟩ := Option.isSome_iff_exists.1 h3
    simp [entryKey, Heap.sub?, hE, a, Sub.toEntry, hkey]

theorem raws_filter {α} {f : α → Raw} {key : α → Option Str} {p : Ref → Bool} {q : α → Bool} (hpq : ∀ r x, entryKey h r = key x → p r = q x) : ∀ {rs : List Ref} {xs : List α},
    RawsOf input h rs (xs.map f) → rs.map (entryKey h) = xs.map key → RawsOf input h (rs.filter p) ((xs.filter q).map f) ∧ (rs.filter p).map (entryKey h) = (xs.filter q).map key
  | [], [], _, _ => ⟨.nil, rfl⟩
  | [], _ :: _, _, e => by simp at e
  | _ :: _, [], _, e => by simp at e
  | r :: rs, x :: xs, .cons h1 h2, e => by
    simp only [List.map_cons, List.cons.injEq] at e
    have := raws_filter hpq h2 e.2
    have hp := hpq r x e.1
    simp only [List.filter_cons, hp]
    cases q x
    · exact this
    · exact ⟨.cons h1 this.1, by simp only [if_true, List.map_cons, e.1, this.2]⟩

theorem elemIs_held {e : Element} (H : ElemIs input e (h.at i)) : HeldAt input h i e.content.held := by
  obtain ⟨r, k, c⟩ := e
  have hc := H.content
  have hcp := H.copy
  simp only at hc
  have kind : ∀ {k}, (h.at i).type = k → KindOf h i k := fun e => e ▸ KindOf.own hcp
  cases c with
  | parts p =>
    obtain ⟨first, more⟩ := p
    obtain ⟨h1, h2, h3, h4, h5⟩ := hc
    simp only at h1 h2 h3
    have hv : (h.at i).type = .field → ownValue input (h.at i) = Parts.text ⟨first, more⟩ := by
      intro ht
      unfold ownValue
      rw [if_neg (by rw [ht]; simp)]
      show joined (valueParts _ _) = joined _
      unfold valueParts
      rw [h2, ← h3]; rfl
    have hi : ItemsOf h i [] := by
      have := ItemsOf.own hcp
      simpa [itemsAt, h4] using this
    have he : EntriesOf h i [] := by
      have := EntriesOf.own hcp
      simpa [entriesAt, h5] using this
    by_cases he' : first = none ∧ more = []
    · obtain ⟨rfl, rfl⟩ := he'
      simp at h1
      exact ⟨kind h1, hi, he⟩
    · rw [if_neg he'] at h1
      have hw : (Content.parts ⟨first, more⟩).held = .text (Parts.text ⟨first, more⟩) := by
        unfold Content.held
        cases first <;> cases more <;> simp_all
      rw [hw]
      exact ⟨kind h1, hv h1 ▸ ValueOf.own hcp⟩
  | items x xs =>
    obtain ⟨h1, _, ys, h2, h3, h4⟩ := hc
    refine ⟨kind h1, _, ItemsOf.own hcp, ?_⟩
    have := raws_items (input := input) h2 h4
    rw [← h3, List.map_map]; exact this
  | entries x xs =>
    obtain ⟨h1, _, ys, h2, h3, h4⟩ := hc
    refine ⟨kind h1, _, EntriesOf.own hcp, ?_, ?_⟩
    · have := raws_entries (input := input) h2 h4
      rw [← h3, List.map_map]; exact this
    · rw [← h3, List.map_map]; exact keys_entries h2 h4
  | verbatim l =>
    obtain ⟨h1, h2, _⟩ := hc
    exact ⟨kind h1, h2 ▸ ValueOf.own hcp⟩

theorem remarked_none {r : Remark} {c : Option (List Comment)} (H : Remarked r c) : c = none ↔ r = [] := by
  have h1 := H.said.1
  have h2 := H.said.2
  cases c with
  | none => simp [commentLines] at h2; simp [h2]
  | some cs =>
    simp at h2
    constructor
    · intro e; cases e
    · rintro rfl
      cases cs with
      | nil => exact absurd rfl h1
      | cons => simp [commentLines] at h2

theorem commentsOf_copy {r r' : Remark} {c : Option (List Comment)} (ht : TemplateIs h i j) (H : Remarked r (h.at i).comments) (hc : CommentsOf h j c) (H' : Remarked r' c) :
    ∃ c, CommentsOf h i c ∧ Remarked (if r = [] then r' else r) c := by
  by_cases hr : r = []
  · rw [if_pos hr]
    exact ⟨c, .inherited ht ((remarked_none H).2 hr) hc, H'⟩
  · rw [if_neg hr]
    refine ⟨_, .written ht ?_, H⟩
    cases hq : (h.at i).comments with
    | some _ => rfl
    | none => exact absurd ((remarked_none H).1 hq) hr

theorem noClash_of {own k : Ty} (h1 : own = .list → k = .empty ∨ k = .list) (h2 : own = .fieldset → k = .empty ∨ k = .fieldset) : ¬ Clash own k := by
  rintro (⟨a, b⟩ | ⟨a, b⟩)
  · rcases h1 a with rfl | rfl <;> simp at b
  · rcases h2 a with rfl | rfl <;> simp at b

/-- Extending what a template contains. -/
theorem heldAt_extend {inner : Inner} {b b' : Held} (ht : TemplateIs h i j) (H : InnerIs inner (h.at i)) (hb : HeldAt input h j b) (he : b.extend inner = some b') :
    HeldAt input h i b' := by
  cases inner with
  | nothing =>
    obtain ⟨h1, h2, h3⟩ := H
    have it : itemsAt h i = [] := by simp [itemsAt, h2]
    have en : entriesAt h i = [] := by simp [entriesAt, h3]
    have nr : ∀ xs, notRedefined h i xs = xs := by
      intro xs
      unfold notRedefined
      rw [en]; simp
    cases b with
    | nothing =>
      obtain ⟨k1, k2, k3⟩ := hb
      simp [Held.extend] at he; subst he
      refine ⟨.empty ht k1 h1, ?_, ?_⟩
      · have := ItemsOf.copy ht k2; rwa [it] at this
      · have := EntriesOf.copy ht k3; rw [en, nr] at this; exact this
    | text v => simp [Held.extend] at he; subst he; exact ⟨.empty ht hb.1 h1, .copy ht hb.2⟩
    | verbatim v => simp [Held.extend] at he; subst he; exact ⟨.empty ht hb.1 h1, .copy ht hb.2⟩
    | items xs =>
      obtain ⟨k1, rs, k2, k3⟩ := hb
      simp [Held.extend] at he; subst he
      refine ⟨.empty ht k1 h1, rs, ?_, k3⟩
      have := ItemsOf.copy ht k2; rwa [it, List.append_nil] at this
    | entries xs =>
      obtain ⟨k1, rs, k2, k3, k4⟩ := hb
      simp [Held.extend] at he; subst he
      refine ⟨.empty ht k1 h1, rs, ?_, k3, k4⟩
      have := EntriesOf.copy ht k2; rwa [en, nr, List.append_nil] at this
  | items x xs =>
    obtain ⟨h1, h2, ys, h3, h4, h5⟩ := H
    have own := raws_items (input := input) h3 h5
    rw [show ys.map (fun y => y.toItem.raw) = (ys.map Sub.toItem).map Item.raw by simp, h4] at own
    cases b with
    | nothing =>
      obtain ⟨k1, k2, _⟩ := hb
      simp [Held.extend] at he; subst he
      refine ⟨h1 ▸ .extended ht k1 (by rw [h1]; simp) (noClash_of (by simp) (by rw [h1]; simp)), _, .copy ht k2, ?_⟩
      simpa using own
    | items zs =>
      obtain ⟨k1, rs, k2, k3⟩ := hb
      simp [Held.extend] at he; subst he
      refine ⟨h1 ▸ .extended ht k1 (by rw [h1]; simp) (noClash_of (by simp) (by rw [h1]; simp)), _, .copy ht k2, ?_⟩
      rw [List.map_append]; exact raws_append k3 own
    | text v => simp [Held.extend] at he
    | verbatim v => simp [Held.extend] at he
    | entries zs => simp [Held.extend] at he
  | entries x xs =>
    obtain ⟨h1, h2, ys, h3, h4, h5⟩ := H
    have own := raws_entries (input := input) h3 h5
    have keys := keys_entries h3 h5
    rw [show ys.map (fun y => y.toEntry.raw) = (ys.map Sub.toEntry).map Entry.raw by simp, h4] at own
    have keys : (entriesAt h i).map (entryKey h) = (x :: xs).map fun y => some y.key := by
      rw [keys, ← h4, List.map_map]; rfl
    cases b with
    | nothing =>
      obtain ⟨k1, _, k2⟩ := hb
      simp [Held.extend] at he; subst he
      refine ⟨h1 ▸ .extended ht k1 (by rw [h1]; simp) (noClash_of (by rw [h1]; simp) (by simp)), _, .copy ht k2, ?_, ?_⟩
      · simpa [notRedefined] using own
      · simpa [notRedefined] using keys
    | entries zs =>
      obtain ⟨k1, rs, k2, k3, k4⟩ := hb
      simp only [Held.extend, Option.some.injEq] at he; subst he
      have F := raws_filter (p := fun r => decide (∀ o ∈ entriesAt h i, entryKey h o ≠ entryKey h r)) (q := fun y : Entry => decide (∀ o ∈ x :: xs, o.key ≠ y.key))
        (key := fun y => some y.key) (by
          intro r y hry
          have : (∀ o ∈ entriesAt h i, entryKey h o ≠ entryKey h r) ↔ ∀ o ∈ x :: xs, o.key ≠ y.key := by
            rw [hry]
            constructor
            · intro H o ho e
              have : some o.key ∈ (entriesAt h i).map (entryKey h) := by rw [keys]; exact List.mem_map.2 ⟨o, ho, rfl⟩
              obtain ⟨r, hr, e'⟩ := List.mem_map.1 this
              exact H r hr (by rw [e', e])
            · intro H o ho e
              have : entryKey h o ∈ (x :: xs).map fun y => some y.key := by rw [← keys]; exact List.mem_map.2 ⟨o, ho, rfl⟩
              obtain ⟨z, hz, e'⟩ := List.mem_map.1 this
              rw [e] at e'
              injection e' with e'
              exact H z hz e'
          simp only [this]) k3 k4
      refine ⟨h1 ▸ .extended ht k1 (by rw [h1]; simp) (noClash_of (by rw [h1]; simp) (by simp)), _, .copy ht k2, ?_, ?_⟩
      · rw [List.map_append]; exact raws_append F.1 own
      · rw [List.map_append, List.map_append, keys, ← F.2]; rfl
    | text v => simp [Held.extend] at he
    | verbatim v => simp [Held.extend] at he
    | items zs => simp [Held.extend] at he

/-- What an element means is what is recorded. -/
theorem DocIn.shows (D : DocIn input T h) {t : Thing} {m : Meant} (M : t.Means T.nodes m) : ∀ {i}, NodeAt input h 1 i (.thing t) → Shows input h i m := by
  induction M with
  | plain =>
    intro i H
    obtain ⟨_, h1, h2⟩ := H
    exact ⟨h1, h2.key, ⟨_, .own h2.copy, h2.remark⟩, elemIs_held h2⟩
  | copy hf _ he ih =>
    intro i H
    obtain ⟨j, h1, h2⟩ := D.template_thing H rfl hf
    have S := ih h2
    obtain ⟨c, c1, c2⟩ := S.comments
    obtain ⟨_, h3, h4⟩ := H
    exact ⟨h3, h4.key, commentsOf_copy h1 h4.remark c1 c2, heldAt_extend h1 h4.inner S.held he⟩

/-- Elements that are resolved mean something. -/
theorem DocIn.thing_means (D : DocIn input T h) (hw : ∀ i, i < h.length → ¬ Incompatible h i) (g : Grounded h i) : ∀ {t : Thing}, NodeAt input h 1 i (.thing t) → ∃ m, t.Means T.nodes m := by
  induction g with
  | own hc =>
    intro t H
    have := (thingIs_key H.2.2).2.2
    cases t with
    | plain e => exact ⟨_, .plain⟩
    | copy => rw [hc] at this; cases this
  | @copy i j ht g ih =>
    intro t H
    obtain ⟨k, x, h1, h2, h3⟩ := D.thing_template H ht
    obtain ⟨m, hm⟩ := ih h3
    cases t with
    | plain e => cases h1
    | copy r k' t inner =>
      cases h1
      have S := (D.shows hm h3).held
      have hi := hw i H.2.1
      have cl : ∀ k, KindOf h j k → ¬ Clash (h.at i).type k := fun k hk hc => hi ⟨j, k, ht, hk, hc⟩
      have hI := H.2.2.inner
      have : ∃ b, m.held.extend inner = some b := by
        cases hh : m.held <;> rw [hh] at S <;> cases inner <;>
          first
          | exact ⟨_, rfl⟩
          | (exfalso; have h4 := cl _ S.1; rw [hI.1] at h4; exact h4 (by simp [Clash]))
      obtain ⟨b, hb⟩ := this
      exact ⟨_, .copy h2 hm hb⟩

end Eno
