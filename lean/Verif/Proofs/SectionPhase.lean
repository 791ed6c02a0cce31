import Verif.Proofs.Links

/-! # The second phase of the resolver: sections -/

namespace Eno

open Spec

variable {h h' h0 h1 : Heap} {i j n p t t' s : Nat} {sec : Bool} {k : Str} {d : Copies} {prev : List Nat}

/-! ## Dependencies -/

theorem Spec.DepLeads.trans {a b c : Nat} (h1 : DepLeads h a b) (h2 : DepLeads h b c) : DepLeads h a c := by
  induction h1 with
  | one h1 => exact .step h1 h2
  | step h1 _ ih => exact .step h1 (ih h2)

/-- Sections that can be resolved are not on a cycle of dependencies. -/
theorem Spec.Resolvable.not_cycle (r : Resolvable h s) : ¬ DepLeads h s s := by
  induction r with
  | mk _ _ ih =>
    intro l
    cases l with
    | one h1 => exact ih _ h1 (.one h1)
    | step h1 h2 => exact ih _ h1 (h2.trans (.one h1))

theorem Spec.Resolvable.leads (r : Resolvable h s) (l : DepLeads h s t) : Resolvable h t := by
  induction l with
  | one h1 => cases r with | mk _ r => exact r _ h1
  | step h1 _ ih => cases r with | mk _ r => exact ih (r _ h1)

/-- Consecutive sections depend on each other. -/
def DepChain (h : Heap) : List Nat → Nat → Prop
  | [], _ => True
  | [p], e => Dep h p e
  | p :: q :: r, e => Dep h p q ∧ DepChain h (q :: r) e

theorem DepChain.snoc {l : List Nat} : DepChain h l i → Dep h i j → DepChain h (l ++ [i]) j := by
  intro h1 h2
  induction l with
  | nil => exact h2
  | cons a l ih =>
    cases l with
    | nil => exact ⟨h1, h2⟩
    | cons b l => exact ⟨h1.1, ih h1.2⟩

theorem DepChain.leads {l : List Nat} : DepChain h l i → j ∈ l → DepLeads h j i := by
  intro h1 h2
  induction l generalizing j with
  | nil => simp at h2
  | cons a l ih =>
    cases l with
    | nil => simp at h2; subst h2; exact .one h1
    | cons b l =>
      rcases List.mem_cons.1 h2 with rfl | h2
      · exact .step h1.1 (ih (j := b) h1.2 (by simp))
      · exact ih h1.2 h2

theorem DepChain.dropWhile {l : List Nat} {f : Nat → Bool} : DepChain h l i → DepChain h (l.dropWhile f) i := by
  intro h1
  induction l with
  | nil => exact h1
  | cons a l ih =>
    rw [List.dropWhile_cons]
    split
    · apply ih
      cases l with
      | nil => trivial
      | cons b l => exact h1.2
    · exact h1

theorem DepChain.from_head {l : List Nat} {a : Nat} : DepChain h (a :: l) i → j ∈ a :: l → j = a ∨ DepLeads h a j := by
  intro h1 h2
  induction l generalizing a with
  | nil => simp at h2; exact .inl h2
  | cons b l ih =>
    rcases List.mem_cons.1 h2 with rfl | h2
    · exact .inl rfl
    · right
      rcases ih h1.2 h2 with rfl | h3
      · exact .one h1.1
      · exact .step h1.1 h3

/-! ## The invariant -/

/-- Sections differ from the analysed ones only in comments, links and marks. -/
def Kept (a b : Elem) : Prop :=
  a = { b with comments := a.comments, mirror := a.mirror, extend := a.extend, copy := a.copy, deepResolve := a.deepResolve }

theorem Kept.fields {a b : Elem} (h : Kept a b) : a.type = b.type ∧ a.elements = b.elements ∧ a.parent = b.parent ∧ a.key = b.key ∧
    a.template = b.template ∧ a.deepCopy = b.deepCopy := by
  unfold Kept at h; rw [h]; simp

/-- What the first phase leaves behind. -/
structure Phase1 (h0 h1 : Heap) : Prop where
  len : h1.length = h0.length
  typ : ∀ j, (h1.at j).type = .section ↔ (h0.at j).type = .section
  secs : ∀ j, (h0.at j).type = .section → h1.at j = h0.at j
  par : ∀ j, (h1.at j).parent = (h0.at j).parent
  els : ∀ j, (h1.at j).elements = (h0.at j).elements
  key : ∀ j, (h1.at j).key = (h0.at j).key

/-- Marks are as analysed. -/
def Fresh (h0 h : Heap) (j : Nat) : Prop := (h.at j).copy = (h0.at j).copy ∧ (h.at j).deepResolve = (h0.at j).deepResolve

/-- The state while sections are resolved; those in `prev` are in progress. -/
structure SInv (h0 h1 : Heap) (prev : List Nat) (h : Heap) : Prop where
  len : h.length = h0.length
  non : ∀ j, (h0.at j).type ≠ .section → h.at j = h1.at j
  kept : ∀ j, (h0.at j).type = .section → Kept (h.at j) (h0.at j)
  copy : ∀ j, (h0.at j).type = .section → (h.at j).copy = (h0.at j).copy ∨ (h.at j).copy = none
  deep : ∀ j, (h0.at j).type = .section → (h.at j).deepResolve = (h0.at j).deepResolve ∨ (h.at j).deepResolve = false
  stat : ∀ j, (h0.at j).type = .section → j ∉ prev → Fresh h0 h j ∨ ((h.at j).pending = false ∧ Resolvable h0 j)
  same : ∀ j, (h0.at j).type = .section → Shielded h0 j → (h.at j).copy = (h0.at j).copy →
    h.at j = { h0.at j with deepResolve := (h.at j).deepResolve }
  done : ∀ j, (h0.at j).type = .section → (h0.at j).copy.isSome → (h.at j).copy = none →
    ∃ t, TemplateIs h0 j t ∧ (h.at t).pending = false ∧ (Shielded h0 j → Shielded h0 t → h.at j = consS (h0.at j) (h.at t) t)
  links : HeapOk h0 → DeepOk h0 → Links h0 h

theorem SInv.init (p1 : Phase1 h0 h1) : SInv h0 h1 [] h1 := by
  refine ⟨p1.len, fun _ _ => rfl, ?_, ?_, ?_, ?_, ?_, ?_, fun ok dp => .init ok dp p1.secs⟩
  · intro j hj; rw [p1.secs j hj]; rfl
  · intro j hj; rw [p1.secs j hj]; exact .inl rfl
  · intro j hj; rw [p1.secs j hj]; exact .inl rfl
  · intro j hj _; left; unfold Fresh; rw [p1.secs j hj]; exact ⟨rfl, rfl⟩
  · intro j hj _ _; rw [p1.secs j hj]
  · intro j hj h1 h2; rw [p1.secs j hj] at h2; rw [h2] at h1; simp at h1

theorem SInv.weaken (inv : SInv h0 h1 prev h) (s : Nat) : SInv h0 h1 (prev ++ [s]) h :=
  ⟨inv.len, inv.non, inv.kept, inv.copy, inv.deep, fun j hj hm => inv.stat j hj (by simp at hm; exact hm.1), inv.same, inv.done, inv.links⟩

theorem SInv.typ (p1 : Phase1 h0 h1) (inv : SInv h0 h1 prev h) (j : Nat) : (h.at j).type = .section ↔ (h0.at j).type = .section := by
  by_cases hj : (h0.at j).type = .section
  · rw [(inv.kept j hj).fields.1]
  · rw [inv.non j hj]; exact p1.typ j

theorem SInv.par (p1 : Phase1 h0 h1) (inv : SInv h0 h1 prev h) (j : Nat) : (h.at j).parent = (h0.at j).parent := by
  by_cases hj : (h0.at j).type = .section
  · rw [(inv.kept j hj).fields.2.2.1]
  · rw [inv.non j hj]; exact p1.par j

theorem SInv.els (p1 : Phase1 h0 h1) (inv : SInv h0 h1 prev h) (j : Nat) : (h.at j).elements = (h0.at j).elements := by
  by_cases hj : (h0.at j).type = .section
  · rw [(inv.kept j hj).fields.2.1]
  · rw [inv.non j hj]; exact p1.els j

theorem SInv.shape (p1 : Phase1 h0 h1) (inv : SInv h0 h1 prev h) : SameShape h0 h := by
  intro j
  refine ⟨?_, inv.els p1 j, inv.typ p1 j⟩
  by_cases hj : (h0.at j).type = .section
  · rw [(inv.kept j hj).fields.2.2.2.1]
  · rw [inv.non j hj]; exact p1.key j

theorem SInv.tree (ok : HeapOk h0) (p1 : Phase1 h0 h1) (inv : SInv h0 h1 prev h) : TreeOk h := by
  have t0 := ok.tree
  refine ⟨?_, ?_⟩
  · intro s hs c hc
    rw [inv.len] at hs
    rw [inv.els p1] at hc
    obtain ⟨a, b, e⟩ := t0.kids s hs c hc
    exact ⟨by rw [inv.len]; exact a, b, by rw [inv.par p1]; exact e⟩
  · intro j p hp
    rw [inv.par p1] at hp
    exact t0.up j p hp

theorem SInv.pending0 (inv : SInv h0 h1 prev h) (hj : (h0.at j).type = .section) (hp : (h.at j).pending = true) :
    (h0.at j).copy.isSome ∨ (h0.at j).deepResolve = true := by
  unfold Elem.pending at hp
  simp only [Bool.or_eq_true] at hp
  rcases hp with hp | hp
  · left
    rcases inv.copy j hj with e | e
    · rw [← e]; exact hp
    · rw [e] at hp; simp at hp
  · right
    rcases inv.deep j hj with e | e
    · rw [← e]; exact hp
    · rw [e] at hp; simp at hp

/-- Sections that are not pending any more are resolvable. -/
theorem SInv.resolvable (inv : SInv h0 h1 prev h) (hj : (h0.at j).type = .section) (hm : j ∉ prev) (hp : (h.at j).pending = false)
    (h0p : (h0.at j).copy.isSome ∨ (h0.at j).deepResolve = true) : Resolvable h0 j := by
  rcases inv.stat j hj hm with ⟨e1, e2⟩ | ⟨_, r⟩
  · unfold Elem.pending at hp
    rw [e1, e2] at hp
    simp only [Bool.or_eq_false_iff] at hp
    rcases h0p with q | q
    · rw [hp.1] at q; simp at q
    · rw [hp.2] at q; simp at q
  · exact r

/-! ## Abnormal outcomes -/

/-- What is wrong with a document whose section copies cannot be resolved. -/
def SFail (h0 : Heap) : RExc → Prop
  | .py .keyError => ∃ i k c, i < h0.length ∧ (h0.at i).type = .section ∧ (h0.at i).copy = some k ∧ candidates h0 true k = [] ∧ Dep h0 c i
  | .py .unboundLocalError => ∃ f l, DepLeads h0 f f ∧ (h0.at f).template = none ∧ Dep h0 l f ∧ (h0.at l).template = none
  | .parse (.sectionNotFound i) _ => ∃ k, i < h0.length ∧ (h0.at i).type = .section ∧ (h0.at i).copy = some k ∧ candidates h0 true k = []
  | .parse (.cyclicDependency i chain) _ => i < h0.length ∧ (h0.at i).type = .section ∧ (h0.at i).copy.isSome ∧ DepLeads h0 i i ∧ i ∈ chain ∧
      ∀ j ∈ chain, DepLeads h0 j j
  | _ => False

theorem DepChain.last {l : List Nat} {z : Nat} : DepChain h l i → l.getLast? = some z → Dep h z i := by
  intro h1 h2
  induction l with
  | nil => simp at h2
  | cons a l ih =>
    cases l with
    | nil => simp at h2; subst h2; exact h1
    | cons b l => rw [List.getLast?_cons_cons] at h2; exact ih h1.2 h2

theorem cyclic_sfail (ok : HeapOk h0) (inv : SInv h0 h1 prev h) (hch : DepChain h0 prev i) (hi : i ∈ prev)
    (hp : ∀ p ∈ prev, p < h0.length ∧ (h0.at p).type = .section) : SFail h0 (cyclicDependency h i prev) := by
  have hmem : i ∈ prev.dropWhile (· ≠ i) := by
    clear hch hp inv
    induction prev with
    | nil => simp at hi
    | cons a l ih =>
      rw [List.dropWhile_cons]
      split
      · rename_i hx
        simp at hx
        rcases List.mem_cons.1 hi with e | e
        · exact absurd e.symm hx
        · exact ih e
      · exact hi
  have hch' := hch.dropWhile (f := (· ≠ i))
  unfold cyclicDependency
  have hsub : ∀ p ∈ prev.dropWhile (· ≠ i), p ∈ prev := fun p hp => (List.dropWhile_sublist _).subset hp
  have hhd : ∀ a l, prev.dropWhile (· ≠ i) = a :: l → a = i := by
    intro a l e
    have := List.head?_dropWhile_not (fun x => decide (x ≠ i)) prev
    rw [e] at this; simp at this; exact this
  generalize prev.dropWhile (· ≠ i) = l at *
  cases l with
  | nil => simp at hmem
  | cons a l =>
    have := hhd a l rfl; subst this
    have hcyc : ∀ j ∈ a :: l, DepLeads h0 j j := by
      intro j hj
      have h1 := hch'.leads hj
      rcases hch'.from_head hj with rfl | h2
      · exact h1
      · exact h1.trans h2
    simp only
    cases hl : (a :: l).getLast? with
    | none => simp at hl
    | some z =>
      have hz : z ∈ a :: l := List.mem_of_getLast? hl
      simp only [List.head?_cons]
      obtain ⟨z1, z2⟩ := hp z (hsub z hz)
      obtain ⟨a1, a2⟩ := hp a (hsub a (by simp))
      have tz : (h.at z).template = (h0.at z).template := (inv.kept z z2).fields.2.2.2.2.1
      have ta : (h.at a).template = (h0.at a).template := (inv.kept a a2).fields.2.2.2.2.1
      split
      · rename_i hc
        exact ⟨z1, z2, by rw [(ok.elem z z1).copy, ← tz]; exact hc, hcyc z hz, hz, hcyc⟩
      · rename_i hc
        split
        · rename_i hc'
          exact ⟨a1, a2, by rw [(ok.elem a a1).copy, ← ta]; exact hc', hcyc a (by simp), by simp, hcyc⟩
        · rename_i hc'
          refine ⟨a, z, hcyc a (by simp), ?_, hch'.last hl, ?_⟩
          · rw [← ta]; simpa using hc'
          · rw [← tz]; simpa using hc

theorem DepChain.exists_last {l : List Nat} (hl : l ≠ []) : DepChain h l i → ∃ c, Dep h c i := by
  intro h1
  induction l with
  | nil => exact absurd rfl hl
  | cons a l ih =>
    cases l with
    | nil => exact ⟨a, h1⟩
    | cons b l => exact ih (by simp) h1.2

/-! ## Steps -/

theorem lt_of_section (hj : (h.at j).type = .section) : j < h.length := by
  apply Classical.byContradiction
  intro hn
  rw [Heap.at_ge (by omega)] at hj
  cases hj

/-- Going down from above starts at a child. -/
theorem Spec.Above.child (ok : HeapOk h) (ha : Above h i j) (hj : j < h.length) : ∃ c ∈ (h.at i).elements, j = c ∨ Above h c j := by
  induction ha with
  | @parent j p e =>
    have hp := ok.tree.up _ _ e
    exact ⟨j, (mem_elements ok (by omega)).2 ⟨hj, e⟩, .inl rfl⟩
  | step e _ ih =>
    have hp := ok.tree.up _ _ e
    obtain ⟨c, hc, hcx⟩ := ih (by omega)
    refine ⟨c, hc, .inr ?_⟩
    rcases hcx with rfl | hcx
    · exact .parent e
    · exact .step e hcx

/-- What is above a section is one or the document. -/
theorem above_section (ok : HeapOk h) (ha : Above h i j) (hj : (h.at j).type = .section) : (h.at i).type = .section ∨ i = 0 := by
  have key : ∀ i p, (h.at i).parent = some p → (h.at i).type = .section → (h.at p).type = .section ∨ p = 0 := by
    intro i p hp hi
    have hi0 : 0 < i := by
      apply Nat.pos_of_ne_zero
      rintro rfl; rw [ok.doc.1] at hi; cases hi
    obtain ⟨_, q, hq, hqi, hc⟩ := ok.par i hi0 (lt_of_section hi)
    rw [hp] at hq; injection hq with hq; subst hq
    by_cases hp0 : p = 0
    · exact .inr hp0
    · have := (ok.par p (by omega) (by have := lt_of_section hi; omega)).1
      rcases hc with e | e
      · exact absurd e this
      · exact .inl e
  induction ha with
  | parent e => exact key _ _ e hj
  | @step j p a e hab ih =>
    rcases key _ _ e hj with q | q
    · exact ih q
    · subst q
      exfalso
      cases hab with
      | parent e' => rw [ok.doc.2.1] at e'; cases e'
      | step e' _ => rw [ok.doc.2.1] at e'; cases e'

/-- What has to be resolved in a section is resolved before it. -/
theorem above_dep (ok : HeapOk h) (dp : DeepOk h) (ha : Above h i j) (hi : (h.at i).type = .section) (hj : (h.at j).type = .section) (hp : (h.at j).pending = true) :
    (h.at i).deepResolve = true ∧ DepLeads h i j := by
  have hi0 : i ≠ 0 := by rintro rfl; rw [ok.doc.1] at hi; cases hi
  have one : ∀ {p j : Nat}, (h.at j).parent = some p → p ≠ 0 → (h.at j).type = .section → (h.at j).pending = true → (h.at p).deepResolve = true ∧ Dep h p j := by
    intro p j e hp0 hj hp
    have hd := dp _ _ (lt_of_section hj) hj hp e hp0
    have hpl := ok.tree.up _ _ e
    have hjl := lt_of_section hj
    refine ⟨hd, hj, ?_, .inl ⟨hd, (mem_elements ok (by omega)).2 ⟨hjl, e⟩⟩⟩
    unfold Elem.pending at hp
    simpa using hp
  induction ha with
  | parent e =>
    obtain ⟨a, b⟩ := one e hi0 hj hp
    exact ⟨a, .one b⟩
  | @step j p a e hab ih =>
    have hp0 : p ≠ 0 := by
      rintro rfl
      cases hab with
      | parent e' => rw [ok.doc.2.1] at e'; cases e'
      | step e' _ => rw [ok.doc.2.1] at e'; cases e'
    obtain ⟨q1, q2⟩ := one e hp0 hj hp
    have hps : (h.at p).type = .section := by
      rcases above_section ok (.parent e) hj with q | q
      · exact q
      · exact absurd q hp0
    obtain ⟨r1, r2⟩ := ih hi hps (by unfold Elem.pending; simp [q1]) hi0
    exact ⟨r1, r2.trans (.one q2)⟩

theorem Spec.Pairs.within' {deep : Bool} {x y : Nat} (ok : TreeOk h) (P : Pairs h deep s t x y) : InSubtree h t y := by
  induction P with
  | top => exact .inl rfl
  | sub _ _ _ o2 _ ih =>
    have hp := (ok.kids _ (lt_of_elements o2.mem) _ o2.mem).2.2
    rcases ih with e | e
    · subst e; exact .inr (.parent hp)
    · exact .inr (.step hp e)

/-- Everything on the way to a section that is merged is merged. -/
theorem Spec.Pairs.between {deep : Bool} {u x y : Nat} (ok : TreeOk h) (P : Pairs h deep s t x y) (hu : InSubtree h u x) (hs : Above h s u) : ∃ w, Pairs h deep s t u w := by
  induction P with
  | top =>
    have := ok.above_lt hs
    rcases hu with e | e
    · omega
    · have := ok.above_lt e; omega
  | sub d P o1 o2 hk ih =>
    have hp := (ok.kids _ (lt_of_elements o1.mem) _ o1.mem).2.2
    rcases hu with e | e
    · subst e; exact ⟨_, .sub d P o1 o2 hk⟩
    · apply ih
      cases e with
      | parent e' => rw [hp] at e'; injection e' with e'; exact .inl e'
      | step e' q => rw [hp] at e'; injection e' with e'; subst e'; exact .inr q

/-- What a section is merged with is not merged at the same time. -/
theorem no_overlap {deep : Bool} {y z : Nat} (ok : HeapOk h) (dp : DeepOk h) (hs : (h.at s).type = .section) (ht : TemplateIs h s t) (hr : Resolvable h s)
    (P : Pairs h deep s t j y) : ¬ Pairs h deep s t y z := by
  intro Q
  have tr := ok.tree
  obtain ⟨t1, t2, t3, t4, t5⟩ := ht.cand
  have htt : (h.at t).type = .section := t5.2 hs
  have hts := ht.ne ok
  have hsp : (h.at s).pending = true := by unfold Elem.pending; rw [t3]; rfl
  have hcmp : Above h t s ∨ Above h s t := by
    rcases P.within' tr with e1 | e1
    · rcases Q.within tr with e2 | e2
      · exact absurd (e1.symm.trans e2) hts
      · subst e1; exact .inr e2
    · rcases Q.within tr with e2 | e2
      · subst e2; exact .inl e1
      · rcases e1.comparable e2 with e | e
        · exact absurd e hts
        · exact e
  rcases hcmp with hab | hab
  · obtain ⟨q1, q2⟩ := above_dep ok dp hab htt hs hsp
    exact hr.not_cycle (.step ⟨htt, .inr q1, .inr ht⟩ q2)
  · obtain ⟨w, W⟩ := Q.between tr (P.within' tr) hab
    cases W with
    | top => have := tr.above_lt hab; omega
    | @sub p q _ _ d W o1 o2 hk =>
      have hp := (tr.kids _ (lt_of_elements o2.mem) _ o2.mem).2.2
      have htw : Above h t w := by
        rcases W.within' tr with e | e
        · subst e; exact .parent hp
        · exact .step hp e
      have hwl := lt_of_section o2.1
      have hwt := tr.above_lt htw
      obtain ⟨_, k, hck, hcand⟩ := ht
      rw [t3] at hck; injection hck with hck
      have hcw : (h.at w).copy = some k := by
        rw [(ok.elem w hwl).copy]
        apply Classical.byContradiction
        intro hne
        have : w ∈ candidates h (decide ((h.at s).type = .section)) k := by
          unfold candidates
          rw [List.mem_filter]
          refine ⟨List.mem_range.2 hwl, ?_⟩
          have : 0 < w := by omega
          simp [this, ← hk, hck, hne, hs, o2.1]
        rw [hcand] at this
        simp at this
        omega
      have htw' : TemplateIs h w t := ⟨hwl, k, hcw, by rw [← hcand]; simp [hs, o2.1]⟩
      have hpw : (h.at w).pending = true := by unfold Elem.pending; rw [hcw]; rfl
      obtain ⟨q1, q2⟩ := above_dep ok dp htw htt o2.1 hpw
      have hrt : Resolvable h t := hr.leads (.one ⟨htt, .inr q1, .inr ⟨‹_›, k, by rw [t3, hck], hcand⟩⟩)
      exact hrt.not_cycle (q2.trans (.one ⟨htt, .inr q1, .inr htw'⟩))

theorem pending_congr {a b : Elem} (h1 : a.copy = b.copy) (h2 : a.deepResolve = b.deepResolve) : a.pending = b.pending := by
  simp [Elem.pending, h1, h2]

theorem SInv.clearDeep (inv : SInv h0 h1 (prev ++ [s]) h) (hs : s < h0.length) (hty : (h0.at s).type = .section) (hp : (h.at s).pending = true)
    (hc : (h.at s).copy = (h0.at s).copy) (hk : ∀ c ∈ (h0.at s).elements, (h0.at c).type = .section → (h.at c).pending = false) :
    SInv h0 h1 (prev ++ [s]) (h.set s { h.at s with deepResolve := false }) := by
  have hsl : s < h.length := by rw [inv.len]; exact hs
  have self := Heap.at_set_self (e := { h.at s with deepResolve := false }) hsl
  have ne : ∀ j, j ≠ s → Heap.at (h.set s { h.at s with deepResolve := false }) j = h.at j := fun j hj => Heap.at_set_ne hj
  refine ⟨by simp [inv.len], ?_, ?_, ?_, ?_, ?_, ?_, ?_, ?_⟩
  · intro j hj
    have : j ≠ s := by intro e; subst e; exact hj hty
    rw [ne j this]; exact inv.non j hj
  · intro j hj
    by_cases e : j = s
    · subst e; rw [self]
      have := inv.kept j hj
      unfold Kept at this ⊢
      conv => lhs; rw [this]
    · rw [ne j e]; exact inv.kept j hj
  · intro j hj
    by_cases e : j = s
    · subst e; rw [self]; exact inv.copy j hj
    · rw [ne j e]; exact inv.copy j hj
  · intro j hj
    by_cases e : j = s
    · subst e; rw [self]; exact .inr rfl
    · rw [ne j e]; exact inv.deep j hj
  · intro j hj hm
    have e : j ≠ s := by intro e; subst e; simp at hm
    have := inv.stat j hj hm
    unfold Fresh at this ⊢
    rw [ne j e]; exact this
  · intro j hj hsh hcp
    by_cases e : j = s
    · subst e; rw [self]
      have := inv.same j hj hsh hc
      show ({ h.at j with deepResolve := false } : Elem) = { h0.at j with deepResolve := false }
      rw [this]
    · rw [ne j e] at hcp ⊢; exact inv.same j hj hsh hcp
  · intro j hj hcp hn
    have e : j ≠ s := by
      intro e; subst e
      rw [self] at hn
      rw [← hc] at hcp
      change (h.at j).copy = none at hn
      rw [hn] at hcp; simp at hcp
    rw [ne j e] at hn ⊢
    obtain ⟨t, ht, htp, hte⟩ := inv.done j hj hcp hn
    have et : t ≠ s := by intro e; subst e; rw [hp] at htp; simp at htp
    refine ⟨t, ht, ?_⟩
    rw [ne t et]
    exact ⟨htp, hte⟩
  · intro ok dp
    have L := inv.links ok dp
    have mono : ∀ j, (h.at j).pending = false → (Heap.at (h.set s { h.at s with deepResolve := false }) j).pending = false := by
      intro j hj
      have e : j ≠ s := by rintro rfl; rw [hp] at hj; cases hj
      rw [ne j e]; exact hj
    refine L.congr ?_ ?_ ?_ mono ?_
    · intro j; by_cases e : j = s
      · subst e; rw [self]
      · rw [ne j e]
    · intro j; by_cases e : j = s
      · subst e; rw [self]
      · rw [ne j e]
    · intro j; by_cases e : j = s
      · subst e; rw [self]
      · rw [ne j e]
    · intro j x hj hd ha hx
      by_cases e : j = s
      · subst e
        obtain ⟨c, hcm, hcx⟩ := ha.child ok (lt_of_section hx)
        rcases hcx with e | hcx
        · subst e; exact mono x (hk x hcm hx)
        · have hct := above_section ok hcx hx
          have hct : (h0.at c).type = .section := by
            rcases hct with e | e
            · exact e
            · subst e; have := (ok.tree.kids _ hs _ hcm).2.1; omega
          have := hk c hcm hct
          unfold Elem.pending at this
          simp only [Bool.or_eq_false_iff] at this
          exact mono x (L.inside c x hct this.2 hcx hx)
      · rw [ne j e] at hd; exact mono x (L.inside j x hj hd ha hx)

theorem SInv.consolidate (p1 : Phase1 h0 h1) {hC : Heap} (inv : SInv h0 h1 (prev ++ [s]) h)
    (hs : s < h0.length) (hty : (h0.at s).type = .section) (ht : TemplateIs h0 s t) (hts : t ≠ s)
    (hc : (h.at s).copy = (h0.at s).copy) (hcs : (h0.at s).copy.isSome) (hdr : (h.at s).deepResolve = false)
    (htp : (h.at t).pending = false) (hr : Resolvable h0 s) (f : SecFrame h hC s (h.at s).deepCopy) (hM : Merged h hC (h.at s).deepCopy s t) (hself : hC.at s = linkS (h.at s) (h.at t) t) :
    SInv h0 h1 prev (hC.set s { hC.at s with copy := none }) ∧ (∀ j, j ≠ s → (Heap.at (hC.set s { hC.at s with copy := none }) j).copy = (h.at j).copy ∧
      (Heap.at (hC.set s { hC.at s with copy := none }) j).deepResolve = (h.at j).deepResolve) ∧
    (Heap.at (hC.set s { hC.at s with copy := none }) s).pending = false ∧
    (∀ j, j ≠ s → Shielded h0 j → Heap.at (hC.set s { hC.at s with copy := none }) j = h.at j) := by
  have hsl : s < hC.length := by rw [f.len, inv.len]; exact hs
  have self := Heap.at_set_self (e := { hC.at s with copy := none }) hsl
  have ne : ∀ j, j ≠ s → Heap.at (hC.set s { hC.at s with copy := none }) j = hC.at j := fun j hj => Heap.at_set_ne hj
  have hpend : (h.at s).pending = true := by
    unfold Elem.pending; rw [hc]; simp [hcs]
  have shield : ∀ j, j ≠ s → Shielded h0 j → hC.at j = h.at j := by
    intro j hj hsh
    rcases f.only j with q | q | ⟨q1, _, q3⟩
    · exact q
    · exact absurd q hj
    · exfalso
      have := hsh s (q3.congr (inv.par p1))
      rw [(inv.kept s hty).fields.2.2.2.2.2] at q1
      rw [this] at q1; simp at q1
  have marks : ∀ j, j ≠ s → (Heap.at (hC.set s { hC.at s with copy := none }) j).copy = (h.at j).copy ∧
      (Heap.at (hC.set s { hC.at s with copy := none }) j).deepResolve = (h.at j).deepResolve := by
    intro j hj
    rw [ne j hj]
    exact ⟨(f.linked j).fields.2.2.1, (f.linked j).fields.2.2.2.1⟩
  have pendS : (Heap.at (hC.set s { hC.at s with copy := none }) s).pending = false := by
    rw [self]
    unfold Elem.pending
    simp only [Option.isSome_none, Bool.false_or]
    rw [(f.linked s).fields.2.2.2.1]; exact hdr
  refine ⟨⟨by simp [f.len, inv.len], ?_, ?_, ?_, ?_, ?_, ?_, ?_, ?_⟩, marks, pendS, fun j hj hsh => by rw [ne j hj]; exact shield j hj hsh⟩
  · intro j hj
    have e : j ≠ s := by intro e; subst e; exact hj hty
    rw [ne j e]
    rcases f.only j with q | q | ⟨_, q2, _⟩
    · rw [q]; exact inv.non j hj
    · exact absurd q e
    · exact absurd ((inv.typ p1 j).1 q2) hj
  · intro j hj
    have h1 := inv.kept j hj
    have h2 := f.linked j
    by_cases e : j = s
    · subst e; rw [self]
      unfold Kept Linked at *
      rw [h2, h1]
    · rw [ne j e]
      unfold Kept Linked at *
      rw [h2, h1]
  · intro j hj
    by_cases e : j = s
    · subst e; rw [self]; exact .inr rfl
    · rw [(marks j e).1]; exact inv.copy j hj
  · intro j hj
    by_cases e : j = s
    · subst e; rw [self]
      right
      show (hC.at j).deepResolve = false
      rw [(f.linked j).fields.2.2.2.1]; exact hdr
    · rw [(marks j e).2]; exact inv.deep j hj
  · intro j hj hm
    by_cases e : j = s
    · subst e; right; exact ⟨pendS, hr⟩
    · have := inv.stat j hj (by simp [hm, e])
      unfold Fresh at this ⊢
      rw [pending_congr (marks j e).1 (marks j e).2, (marks j e).1, (marks j e).2]
      exact this
  · intro j hj hsh hcp
    have e : j ≠ s := by
      intro e; subst e
      rw [self] at hcp
      change none = (h0.at j).copy at hcp
      rw [← hcp] at hcs; simp at hcs
    rw [(marks j e).1] at hcp
    rw [ne j e, shield j e hsh]
    exact inv.same j hj hsh hcp
  · intro j hj hcp hn
    by_cases e : j = s
    · subst e
      refine ⟨t, ht, by rw [pending_congr (marks t hts).1 (marks t hts).2]; exact htp, ?_⟩
      intro sh1 sh2
      rw [self, ne t hts, shield t hts sh2, hself]
      have hsame := inv.same j hj sh1 hc
      rw [hdr] at hsame
      rw [hsame]
      unfold linkS consS inheritC
      simp only
      split <;> split <;> simp_all
    · rw [(marks j e).1] at hn
      obtain ⟨t', ht', htp', hte'⟩ := inv.done j hj hcp hn
      have et : t' ≠ s := by intro e; subst e; rw [hpend] at htp'; simp at htp'
      refine ⟨t', ht', by rw [pending_congr (marks t' et).1 (marks t' et).2]; exact htp', ?_⟩
      intro sh1 sh2
      rw [ne j e, ne t' et, shield j e sh1, shield t' et sh2]
      exact hte' sh1 sh2
  · intro ok dp
    refine (inv.links ok dp).consolidate ok.tree (inv.shape p1) hty ht (inv.kept s hty).fields.2.2.2.2.2 (by rw [hc]; exact hcs) hdr hM
      (fun j y z P => no_overlap ok dp hty ht hr P) (by rw [self])
      (fun j hj => (marks j hj).1) ?_ ?_ ?_
    · intro j; by_cases e : j = s
      · subst e; rw [self]; exact (f.linked j).fields.2.2.2.1
      · exact (marks j e).2
    · intro j; by_cases e : j = s
      · subst e; rw [self]
      · rw [ne j e]
    · intro j; by_cases e : j = s
      · subst e; rw [self]
      · rw [ne j e]

/-! ## One section -/

/-- What is left alone. -/
structure Frame (h0 h h' : Heap) (prev : List Nat) : Prop where
  prev : ∀ p ∈ prev, (h'.at p).copy = (h.at p).copy ∧ (h'.at p).deepResolve = (h.at p).deepResolve
  mono : ∀ j, (h.at j).pending = false → (h'.at j).pending = false
  shield : ∀ j, Shielded h0 j → (h.at j).pending = false → h'.at j = h.at j

theorem Frame.refl : Frame h0 h h prev := ⟨fun _ _ => ⟨rfl, rfl⟩, fun _ h => h, fun _ _ _ => rfl⟩

theorem Frame.trans {h'' : Heap} (f : Frame h0 h h' prev) (g : Frame h0 h' h'' prev) : Frame h0 h h'' prev :=
  ⟨fun p hp => ⟨by rw [(g.prev p hp).1, (f.prev p hp).1], by rw [(g.prev p hp).2, (f.prev p hp).2]⟩, fun j hj => g.mono j (f.mono j hj),
    fun j hs hj => by rw [g.shield j hs (f.mono j hj), f.shield j hs hj]⟩

theorem Frame.sub {l : List Nat} (f : Frame h0 h h' l) (hsub : ∀ p ∈ prev, p ∈ l) : Frame h0 h h' prev :=
  ⟨fun p hp => f.prev p (hsub p hp), f.mono, f.shield⟩

/-- What resolving sections guarantees. -/
def SPost (h0 h1 h : Heap) (prev : List Nat) (l : List Nat) : Except RExc Heap → Prop
  | .ok h' => SInv h0 h1 prev h' ∧ (∀ s ∈ l, (h0.at s).type = .section → (h'.at s).pending = false) ∧ Frame h0 h h' prev
  | .error x => SFail h0 x

/-- What is assumed about sections in progress. -/
structure Prev (h0 h : Heap) (prev : List Nat) : Prop where
  lt : ∀ p ∈ prev, p < h0.length ∧ (h0.at p).type = .section
  pend : ∀ p ∈ prev, (h.at p).pending = true
  nodup : prev.Nodup

theorem Prev.frame (pr : Prev h0 h prev) (f : Frame h0 h h' prev) : Prev h0 h' prev :=
  ⟨pr.lt, fun p hp => by rw [pending_congr (f.prev p hp).1 (f.prev p hp).2]; exact pr.pend p hp, pr.nodup⟩

/-- Resolving one section, assumed for less fuel. -/
def Works (h0 h1 : Heap) (d : Copies) (n : Nat) : Prop :=
  ∀ (h : Heap) (s : Nat) (prev : List Nat), SInv h0 h1 prev h → s < h0.length → (h0.at s).type = .section → (h.at s).pending = true →
    Prev h0 h prev → DepChain h0 prev s → h0.length + 1 ≤ n + prev.length →
    (prev = [] → ∀ k, (h0.at s).copy = some k → candidates h0 true k ≠ []) →
    SPost h0 h1 h prev [s] (resolveSection (filled h0 true d) n h s prev)

theorem children_work (ok : HeapOk h0) (p1 : Phase1 h0 h1) (ih : Works h0 h1 d n) (hs : s < h0.length)
    (hdr : (h0.at s).deepResolve = true) (hfuel : h0.length + 1 ≤ n + (prev ++ [s]).length) (hch : DepChain h0 prev s) :
    ∀ (l : List Nat) (h : Heap), (∀ c ∈ l, c ∈ (h0.at s).elements) → SInv h0 h1 (prev ++ [s]) h → Prev h0 h (prev ++ [s]) →
    SPost h0 h1 h (prev ++ [s]) l (l.foldlM (fun h c =>
      if (h.at c).type = .section ∧ (h.at c).pending then resolveSection (filled h0 true d) n h c (prev ++ [s]) else .ok h) h) := by
  intro l
  induction l with
  | nil => intro h _ inv _; exact ⟨inv, by simp, .refl⟩
  | cons c l ihl =>
    intro h hl inv pr
    rw [List.foldlM_cons]
    have hcm := hl c (by simp)
    obtain ⟨hcl, hsc⟩ := (mem_elements ok hs).1 hcm
    have hone : SPost h0 h1 h (prev ++ [s]) [c] (if (h.at c).type = .section ∧ (h.at c).pending then
        resolveSection (filled h0 true d) n h c (prev ++ [s]) else .ok h) := by
      split
      · rename_i hc
        have hct := (inv.typ p1 c).1 hc.1
        have hp0 := inv.pending0 hct hc.2
        exact ih h c (prev ++ [s]) inv hcl hct hc.2 pr (hch.snoc ⟨hct, hp0, .inl ⟨hdr, hcm⟩⟩) hfuel (by simp)
      · rename_i hc
        refine ⟨inv, ?_, .refl⟩
        intro x hx hxt
        simp at hx; subst hx
        have := (inv.typ p1 x).2 hxt
        simpa [this] using hc
    revert hone
    generalize (if (h.at c).type = .section ∧ (h.at c).pending then
        resolveSection (filled h0 true d) n h c (prev ++ [s]) else .ok h : Except RExc Heap) = r
    intro hone
    cases r with
    | error x => exact hone
    | ok h2 =>
      obtain ⟨a1, a2, a3⟩ := hone
      have := ihl h2 (fun c hc => hl c (by simp [hc])) a1 (pr.frame a3)
      simp only [bind, Except.bind]
      revert this
      generalize (l.foldlM (m := Except RExc) _ h2 : Except RExc Heap) = r
      intro this
      cases r with
      | error x => exact this
      | ok h3 =>
        obtain ⟨b1, b2, b3⟩ := this
        refine ⟨b1, ?_, a3.trans b3⟩
        intro x hx hxt
        rcases List.mem_cons.1 hx with rfl | hx
        · exact b3.mono x (a2 x (by simp) hxt)
        · exact b2 x hx hxt

/-- Part one of resolving a section: its subsections. -/
def partA (d : Copies) (n : Nat) (h : Heap) (s : Nat) (prev : List Nat) : Except RExc Heap :=
  if (h.at s).deepResolve then
    match (h.at s).elements.foldlM (fun h c =>
        if (h.at c).type = .section ∧ (h.at c).pending then resolveSection d n h c (prev ++ [s]) else .ok h) h with
    | .error x => .error x
    | .ok h => .ok (h.modify s fun x => { x with deepResolve := false })
  else .ok h

/-- Part two: its template. -/
def partB (d : Copies) (n : Nat) (h : Heap) (s : Nat) (prev : List Nat) : Except RExc Heap :=
  if (h.at s).copy.isSome then
    match templateOf d (h.at s) with
    | none => .error (.py .keyError)
    | some t =>
      match (if (h.at t).pending then resolveSection d n h t (prev ++ [s]) else .ok h) with
      | .error x => .error x
      | .ok h =>
        match consolidateSections (h.length + 1) h s t (h.at s).deepCopy with
        | .error x => .error (.py x)
        | .ok h => .ok (h.modify s fun x => { x with copy := none })
  else .ok h

theorem resolveSection_eq (d : Copies) (n : Nat) (h : Heap) (s : Nat) (prev : List Nat) (hs : s ∉ prev) :
    resolveSection d (n + 1) h s prev = (match partA d n h s prev with | .error x => .error x | .ok h => partB d n h s prev) := by
  rw [resolveSection, if_neg hs]
  rfl

/-- What part one guarantees. -/
def APost (h0 h1 h : Heap) (prev : List Nat) (s : Nat) : Except RExc Heap → Prop
  | .ok h' => SInv h0 h1 (prev ++ [s]) h' ∧ (h'.at s).copy = (h0.at s).copy ∧ (h'.at s).deepResolve = false ∧
      (∀ c, (h0.at s).deepResolve = true → c ∈ (h0.at s).elements → (h0.at c).type = .section → (h'.at c).pending = false) ∧ Frame h0 h h' prev
  | .error x => SFail h0 x

theorem partA_works (ok : HeapOk h0) (p1 : Phase1 h0 h1) (ih : Works h0 h1 d n) (inv : SInv h0 h1 prev h) (hs : s < h0.length)
    (hty : (h0.at s).type = .section) (hp : (h.at s).pending = true) (pr : Prev h0 h prev) (hm : s ∉ prev) (hch : DepChain h0 prev s)
    (hfuel : h0.length + 1 ≤ n + (prev ++ [s]).length) : APost h0 h1 h prev s (partA (filled h0 true d) n h s prev) := by
  have hfr : Fresh h0 h s := by
    rcases inv.stat s hty hm with q | ⟨q, _⟩
    · exact q
    · rw [q] at hp; simp at hp
  have pr' : Prev h0 h (prev ++ [s]) := by
    refine ⟨?_, ?_, ?_⟩
    · intro p hpm; simp at hpm
      rcases hpm with hpm | rfl
      · exact pr.lt p hpm
      · exact ⟨hs, hty⟩
    · intro p hpm; simp at hpm
      rcases hpm with hpm | rfl
      · exact pr.pend p hpm
      · exact hp
    · rw [List.nodup_append]
      refine ⟨pr.nodup, by simp, ?_⟩
      intro a ha b hb; simp at hb; subst hb
      intro e; subst e; exact hm ha
  unfold partA
  split
  · rename_i hdr
    have hdr0 : (h0.at s).deepResolve = true := by rw [← hfr.2]; exact hdr
    rw [inv.els p1]
    have hw := children_work ok p1 ih hs hdr0 hfuel hch (h0.at s).elements h (fun _ h => h) (inv.weaken s) pr'
    revert hw
    generalize ((h0.at s).elements.foldlM (m := Except RExc) _ h : Except RExc Heap) = r
    intro hw
    cases r with
    | error x => exact hw
    | ok h2 =>
      obtain ⟨a1, a2, a3⟩ := hw
      have pr2 := pr'.frame a3
      have hsl : s < h2.length := by rw [a1.len]; exact hs
      have hc2 : (h2.at s).copy = (h0.at s).copy := by rw [(a3.prev s (by simp)).1]; exact hfr.1
      simp only
      rw [Heap.modify_eq_set hsl]
      have inv3 := a1.clearDeep hs hty (pr2.pend s (by simp)) hc2 a2
      have self := Heap.at_set_self (e := { h2.at s with deepResolve := false }) hsl
      have ne : ∀ j, j ≠ s → Heap.at (h2.set s { h2.at s with deepResolve := false }) j = h2.at j := fun j hj => Heap.at_set_ne hj
      refine ⟨inv3, ?_, ?_, ?_, ?_⟩
      · rw [self]; exact hc2
      · rw [self]
      · intro c _ hc hct
        have hne : c ≠ s := by
          intro e; subst e
          have := (ok.tree.kids c hs c hc).2.1
          omega
        rw [ne c hne]; exact a2 c hc hct
      · have a3' := a3.sub (prev := prev) (fun p hp => by simp [hp])
        refine a3'.trans ⟨?_, ?_, ?_⟩
        · intro p hpm
          have : p ≠ s := by intro e; subst e; exact hm hpm
          rw [ne p this]; exact ⟨rfl, rfl⟩
        · intro j hj
          have : j ≠ s := by intro e; subst e; rw [pr2.pend j (by simp)] at hj; simp at hj
          rw [ne j this]; exact hj
        · intro j _ hj
          have : j ≠ s := by intro e; subst e; rw [pr2.pend j (by simp)] at hj; simp at hj
          rw [ne j this]
  · rename_i hdr
    have hdr' : (h.at s).deepResolve = false := by simpa using hdr
    refine ⟨inv.weaken s, hfr.1, hdr', ?_, .refl⟩
    intro c hd0
    rw [← hfr.2] at hd0
    exact absurd hd0 hdr

theorem resolveS (ok : HeapOk h0) (p1 : Phase1 h0 h1) (hd : DictOk h0 true d) (hu : Unambiguous h0 true d) : ∀ n, Works h0 h1 d n := by
  intro n
  induction n with
  | zero =>
    intro h s prev inv hs hty hp pr hch hn hroot
    have := nodup_bound h0.length prev pr.nodup (fun x hx => (pr.lt x hx).1)
    omega
  | succ n ih =>
    intro h s prev inv hs hty hp pr hch hn hroot
    by_cases hm : s ∈ prev
    · rw [resolveSection, if_pos hm]
      exact cyclic_sfail ok inv hch hm pr.lt
    · rw [resolveSection_eq _ _ _ _ _ hm]
      have hfuel : h0.length + 1 ≤ n + (prev ++ [s]).length := by simp; omega
      have hA := partA_works ok p1 ih inv hs hty hp pr hm hch hfuel
      revert hA
      generalize partA (filled h0 true d) n h s prev = r
      intro hA
      cases r with
      | error x => exact hA
      | ok h2 =>
        obtain ⟨a1, a2, a3, a4, a5⟩ := hA
        simp only
        have pr2 : Prev h0 h2 prev := pr.frame a5
        -- subsections that had to be resolved
        have hsub : ∀ c, (h0.at s).deepResolve = true → c ∈ (h0.at s).elements → (h0.at c).type = .section →
            ((h0.at c).copy.isSome ∨ (h0.at c).deepResolve = true) → ∀ h', SInv h0 h1 (prev ++ [s]) h' → (h'.at c).pending = false →
            (∀ p ∈ prev, (h'.at p).pending = true) → Resolvable h0 c := by
          intro c hdr hcm hct hcp h' inv' hpf hpp
          apply inv'.resolvable hct _ hpf hcp
          intro hmem
          simp at hmem
          rcases hmem with hmem | rfl
          · rw [hpp c hmem] at hpf; simp at hpf
          · have := (ok.tree.kids c hs c hcm).2.1; omega
        unfold partB
        split
        · rename_i hcs
          rw [a2] at hcs
          obtain ⟨k, hk⟩ := Option.isSome_iff_exists.1 hcs
          have hps : (h2.at s).pending = true := by unfold Elem.pending; rw [a2]; simp [hcs]
          rcases templateOf_filled (h := h2) hd hu hs a2 (by simp [hty]) hk with ⟨t, ht, hto⟩ | ⟨hcs', hto⟩
          · rw [hto]
            simp only
            obtain ⟨t1, t2, t3, t4, t5⟩ := ht.cand
            have htt : (h0.at t).type = .section := t5.2 hty
            have hts := ht.ne ok
            have pr2' : Prev h0 h2 (prev ++ [s]) := by
              refine ⟨?_, ?_, ?_⟩
              · intro p hpm; simp at hpm
                rcases hpm with hpm | rfl
                · exact pr.lt p hpm
                · exact ⟨hs, hty⟩
              · intro p hpm; simp at hpm
                rcases hpm with hpm | rfl
                · exact pr2.pend p hpm
                · exact hps
              · rw [List.nodup_append]
                refine ⟨pr.nodup, by simp, ?_⟩
                intro a ha b hb; simp at hb; subst hb
                intro e; subst e; exact hm ha
            have hrec : SPost h0 h1 h2 (prev ++ [s]) [t] (if (h2.at t).pending then resolveSection (filled h0 true d) n h2 t (prev ++ [s]) else .ok h2) := by
              split
              · rename_i htp
                exact ih h2 t (prev ++ [s]) a1 t1 htt htp pr2' (hch.snoc ⟨htt, a1.pending0 htt htp, .inr ht⟩) hfuel (by simp)
              · rename_i htp
                refine ⟨a1, ?_, .refl⟩
                intro x hx _; simp at hx; subst hx; simpa using htp
            revert hrec
            generalize (if (h2.at t).pending then resolveSection (filled h0 true d) n h2 t (prev ++ [s]) else .ok h2 : Except RExc Heap) = r
            intro hrec
            cases r with
            | error x => exact hrec
            | ok h3 =>
              obtain ⟨b1, b2, b3⟩ := hrec
              simp only
              have htp := b2 t (by simp) htt
              have pr3 := pr2'.frame b3
              have hsl3 : s < h3.length := by rw [b1.len]; exact hs
              have hc3 : (h3.at s).copy = (h0.at s).copy := by rw [(b3.prev s (by simp)).1]; exact a2
              have hd3 : (h3.at s).deepResolve = false := by rw [(b3.prev s (by simp)).2]; exact a3
              have hr : Resolvable h0 s := by
                refine .mk (fun _ => ⟨t, ht⟩) ?_
                rintro c ⟨hct, hcp, ⟨hdr, hcm⟩ | hct'⟩
                · have hcf := a4 c hdr hcm hct
                  exact hsub c hdr hcm hct hcp h3 b1 (b3.mono c hcf) (fun p hp => pr3.pend p (by simp [hp]))
                · have e := hct'.det ht; subst e
                  apply b1.resolvable hct _ htp hcp
                  intro hmem
                  rw [pr3.pend _ hmem] at htp; simp at htp
              obtain ⟨h4, e4, f4, g4⟩ := consolidate_frame (h3.length + 1) h3 s t (h3.at s).deepCopy (b1.tree ok p1) hsl3 (by omega)
              obtain ⟨h4', e4', m4⟩ := consolidate_merged (h3.length + 1) h3 s t (h3.at s).deepCopy (b1.tree ok p1) hsl3 (by omega)
              rw [e4] at e4'
              injection e4' with e4'
              subst e4'
              rw [e4]
              simp only
              rw [Heap.modify_eq_set (by rw [f4.len]; exact hsl3)]
              obtain ⟨c1, c2, c3, c4⟩ := b1.consolidate p1 hs hty ht hts hc3 hcs hd3 htp hr f4 m4 (g4 hts)
              refine ⟨c1, ?_, ?_⟩
              · intro x hx _; simp at hx; subst hx; exact c3
              · have b3' := b3.sub (prev := prev) (fun p hp => by simp [hp])
                refine (a5.trans b3').trans ⟨?_, ?_, ?_⟩
                · intro p hpm
                  have : p ≠ s := by intro e; subst e; exact hm hpm
                  exact c2 p this
                · intro j hj
                  have : j ≠ s := by intro e; subst e; rw [pr3.pend j (by simp)] at hj; simp at hj
                  rw [pending_congr (c2 j this).1 (c2 j this).2]; exact hj
                · intro j hsh hj
                  have : j ≠ s := by intro e; subst e; rw [pr3.pend j (by simp)] at hj; simp at hj
                  exact c4 j this hsh
          · rw [hto]
            have hne : prev ≠ [] := fun e => hroot e k hk hcs'
            obtain ⟨c, hc⟩ := hch.exists_last hne
            exact ⟨s, k, c, hs, hty, hk, hcs', hc⟩
        · rename_i hcs
          rw [a2] at hcs
          have hcn : (h0.at s).copy = none := by simpa using hcs
          have hps : (h2.at s).pending = false := by unfold Elem.pending; rw [a2, hcn, a3]; rfl
          have hr : Resolvable h0 s := by
            refine .mk (by simp [hcn]) ?_
            rintro c ⟨hct, hcp, ⟨hdr, hcm⟩ | hct'⟩
            · exact hsub c hdr hcm hct hcp h2 a1 (a4 c hdr hcm hct) pr2.pend
            · obtain ⟨_, k, hk, _⟩ := hct'
              rw [hcn] at hk; simp at hk
          refine ⟨⟨a1.len, a1.non, a1.kept, a1.copy, a1.deep, ?_, a1.same, a1.done, a1.links⟩, ?_, a5⟩
          · intro j hj hjm
            by_cases e : j = s
            · subst e; right; exact ⟨hps, hr⟩
            · exact a1.stat j hj (by simp [hjm, e])
          · intro x hx _; simp at hx; subst hx; exact hps

end Eno
