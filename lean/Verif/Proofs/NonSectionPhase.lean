import Verif.Proofs.ResolveLemmas

/-! # The first phase of the resolver: non-section elements -/

namespace Eno

open Spec

variable {h h' h0 : Heap} {i j n p t t' : Nat} {sec : Bool} {k : Str} {d : Copies}

/-! ## Facts about templates -/

theorem Spec.TemplateIs.det (h1 : TemplateIs h i t) (h2 : TemplateIs h i t') : t = t' := by
  obtain ⟨_, k, hk, hc⟩ := h1
  obtain ⟨_, k', hk', hc'⟩ := h2
  rw [hk] at hk'; injection hk' with e; subst e
  rw [hc] at hc'; simpa using hc'

theorem Spec.TemplateIs.cand (h1 : TemplateIs h i t) : t < h.length ∧ 0 < t ∧ (h.at i).copy = some (h.at t).key ∧
    (h.at t).template ≠ some (h.at t).key ∧ ((h.at t).type = .section ↔ (h.at i).type = .section) := by
  obtain ⟨_, k, hk, hc⟩ := h1
  have : t ∈ candidates h (decide ((h.at i).type = .section)) k := by rw [hc]; simp
  unfold candidates at this
  rw [List.mem_filter] at this
  simp only [List.mem_range, Bool.and_eq_true, decide_eq_true_eq, beq_iff_eq, decide_eq_decide] at this
  obtain ⟨h1, ⟨⟨h2, h3⟩, h4⟩, h5⟩ := this
  subst h3
  exact ⟨h1, h2, hk, h4, h5⟩

theorem Spec.TemplateIs.ne (ok : HeapOk h) (h1 : TemplateIs h i t) : t ≠ i := by
  intro e; subst e
  obtain ⟨a, _, b, c, _⟩ := h1.cand
  rw [(ok.elem t a).copy] at b
  exact c b

theorem Spec.Leads.trans {a b c : Nat} (h1 : Leads h a b) (h2 : Leads h b c) : Leads h a c := by
  induction h1 with
  | one h1 => exact .step h1 h2
  | step h1 _ ih => exact .step h1 (ih h2)

/-- Grounded elements are not on a cycle. -/
theorem Spec.Grounded.not_cycle (g : Grounded h i) : ¬ Leads h i i := by
  induction g with
  | own hc =>
    intro l
    cases l with
    | one h1 => obtain ⟨_, k, hk, _⟩ := h1; rw [hc] at hk; simp at hk
    | step h1 _ => obtain ⟨_, k, hk, _⟩ := h1; rw [hc] at hk; simp at hk
  | copy ht _ ih =>
    intro l
    apply ih
    cases l with
    | one h1 =>
      have := TemplateIs.det h1 ht; subst this
      exact .one h1
    | step h1 h2 =>
      have := TemplateIs.det h1 ht; subst this
      exact h2.trans (.one h1)

theorem Spec.Grounded.next (g : Grounded h i) (ht : TemplateIs h i t) : Grounded h t := by
  cases g with
  | own hc => obtain ⟨_, k, hk, _⟩ := ht; rw [hc] at hk; simp at hk
  | copy h1 h2 => rw [TemplateIs.det ht h1]; exact h2

theorem Spec.Grounded.leads (g : Grounded h i) (hl : Leads h i j) : Grounded h j := by
  induction hl with
  | one h1 => exact g.next h1
  | step h1 _ ih => exact ih (g.next h1)

/-! ## What one consolidation does -/

theorem consN_type {e t e' : Elem} (hh : consN e t i = .ok e') : e'.type = (if e.type = .empty then copyKind t.type else e.type) ∧
    ¬ Clash e.type t.type ∧ e'.copy = none := by
  have hty : (inheritC e t).type = e.type := by unfold inheritC; split <;> rfl
  simp only [consN, hty] at hh
  by_cases c1 : e.type = .empty
  · simp only [c1, if_true] at hh
    rw [if_pos c1]
    refine ⟨?_, by simp [Clash, c1], ?_⟩
    · split at hh
      · rename_i hx; simp at hh; subst hh
        rcases hx with hx | hx <;> simp [hx, copyKind]
      · rename_i hx
        simp only [not_or] at hx
        split at hh
        · rename_i hy; simp at hh; subst hh; simp [hy, copyKind]
        · split at hh
          · rename_i hy; simp at hh; subst hh; simp [hy, copyKind]
          · rename_i hy hz
            simp at hh; subst hh
            cases htt : t.type <;> simp_all [copyKind]
    · split at hh
      · simp at hh; subst hh; rfl
      · split at hh
        · simp at hh; subst hh; rfl
        · split at hh <;> (simp at hh; subst hh; rfl)
  · simp only [if_neg c1] at hh ⊢
    by_cases c2 : e.type = .fieldset
    · simp only [c2, if_true] at hh
      split at hh
      · rename_i hx; simp at hh; subst hh; simp [c2, hty, Clash, hx]
      · split at hh
        · simp at hh
        · rename_i hx hy; simp at hh; subst hh; simp [c2, hty, Clash]; simpa using hy
    · simp only [if_neg c2] at hh
      by_cases c3 : e.type = .list
      · simp only [c3, if_true] at hh
        split at hh
        · rename_i hx; simp at hh; subst hh; simp [c3, hty, Clash, hx]
        · split at hh
          · simp at hh
          · rename_i hx hy; simp at hh; subst hh; simp [c3, hty, Clash]; simpa using hy
      · simp only [if_neg c3] at hh
        simp at hh; subst hh; simp [hty, Clash, c2, c3]

theorem consN_error {e t : Elem} {x : RFail} (hh : consN e t i = .error x) : Clash e.type t.type ∧
    ((e.type = .list ∧ x = .missingListForListItem ((e.items.getD []).headD default)) ∨
     (e.type = .fieldset ∧ x = .missingFieldsetForFieldsetEntry ((e.entries.getD []).headD default))) := by
  have hty : (inheritC e t).type = e.type := by unfold inheritC; split <;> rfl
  have hen : (inheritC e t).entries = e.entries := by unfold inheritC; split <;> rfl
  have hin : (inheritC e t).items = e.items := by unfold inheritC; split <;> rfl
  simp only [consN, hty, hen, hin] at hh
  split at hh
  · split at hh
    · simp at hh
    · split at hh
      · simp at hh
      · split at hh <;> simp at hh
  · split at hh
    · rename_i c
      split at hh
      · simp at hh
      · split at hh
        · rename_i hx; simp at hh; subst hh; simp [c, Clash]; exact hx
        · simp at hh
    · split at hh
      · rename_i c
        split at hh
        · simp at hh
        · split at hh
          · rename_i hx; simp at hh; subst hh; simp [c, Clash]; exact hx
          · simp at hh
      · simp at hh

/-! ## The invariant -/

/-- A copy that has been resolved. -/
def Done (h0 h : Heap) (j : Nat) : Prop :=
  ∃ t, TemplateIs h0 j t ∧ (h.at t).copy = none ∧ consN (h0.at j) (h.at t) t = .ok (h.at j) ∧ Grounded h0 j

/-- Elements are as analysed, or resolved. -/
structure NInv (h0 h : Heap) : Prop where
  len : h.length = h0.length
  all : ∀ j, j < h0.length → h.at j = h0.at j ∨ ((h0.at j).type ≠ .section ∧ Done h0 h j)

theorem NInv.refl : NInv h0 h0 := ⟨rfl, fun _ _ => .inl rfl⟩

theorem NInv.pending (inv : NInv h0 h) (hj : j < h0.length) (hp : (h.at j).copy.isSome) : h.at j = h0.at j := by
  rcases inv.all j hj with h1 | ⟨_, t, h1, h2, h3, h4⟩
  · exact h1
  · rw [(consN_type h3).2.2] at hp; simp at hp

theorem NInv.grounded (inv : NInv h0 h) (hj : j < h0.length) (hp : (h.at j).copy = none) : Grounded h0 j := by
  rcases inv.all j hj with h1 | ⟨_, t, h1, h2, h3, h4⟩
  · exact .own (by rw [← h1]; exact hp)
  · exact h4

theorem NInv.kind (inv : NInv h0 h) (hj : j < h0.length) (hp : (h.at j).copy = none) : KindOf h0 j (h.at j).type := by
  have g := inv.grounded hj hp
  induction g with
  | own hc =>
    rename_i j
    rcases inv.all j hj with h1 | ⟨_, t, h1, h2, h3, h4⟩
    · rw [h1]; exact .own hc
    · obtain ⟨_, k, hk, _⟩ := h1; rw [hc] at hk; simp at hk
  | @copy j t ht _ ih =>
    rcases inv.all j hj with h1 | ⟨_, t', h1, h2, h3, h4⟩
    · obtain ⟨_, k, hk, _⟩ := ht
      rw [h1, hk] at hp; simp at hp
    · have := TemplateIs.det h1 ht; subst this
      have hkt := ih h1.cand.1 h2
      obtain ⟨e1, e2, _⟩ := consN_type h3
      rw [e1]
      split
      · rename_i he; exact .empty h1 hkt he
      · rename_i he; exact .extended h1 hkt he e2

/-- Resolving one more element. -/
theorem NInv.set (ok : HeapOk h0) (inv : NInv h0 h) {e' : Elem} (hi : i < h0.length) (hp : (h.at i).copy.isSome) (ht : TemplateIs h0 i t) (htc : (h.at t).copy = none)
    (hc : consN (h0.at i) (h.at t) t = .ok e') (hs : (h0.at i).type ≠ .section) : NInv h0 (h.set i e') ∧ (Heap.at (h.set i e') i).copy = none := by
  have hil : i < h.length := by rw [inv.len]; exact hi
  have hne := ht.ne ok
  have self := Heap.at_set_self (e := e') hil
  refine ⟨⟨by simp [inv.len], ?_⟩, by rw [self]; exact (consN_type hc).2.2⟩
  intro j hj
  by_cases hji : j = i
  · subst hji
    right
    refine ⟨hs, t, ht, ?_, ?_, ?_⟩
    · rw [Heap.at_set_ne hne]; exact htc
    · rw [Heap.at_set_ne hne, self]; exact hc
    · exact .copy ht (inv.grounded ht.cand.1 htc)
  · rw [Heap.at_set_ne hji]
    rcases inv.all j hj with h1 | ⟨hs', t', h1, h2, h3, h4⟩
    · exact .inl h1
    · right
      refine ⟨hs', t', h1, ?_, ?_, h4⟩
      all_goals
        have : t' ≠ i := by
          intro e; subst e; rw [h2] at hp; simp at hp
        rw [Heap.at_set_ne this]
        first | exact h2 | (rw [Heap.at_set_ne hji]; exact h3)

/-- What the resolver looks up is the template. -/
theorem templateOf_filled (hd : DictOk h0 sec d) (hu : Unambiguous h0 sec d) (hi : i < h0.length) (hc : (h.at i).copy = (h0.at i).copy)
    (hs : decide ((h0.at i).type = .section) = sec) (hp : (h0.at i).copy = some k) :
    (∃ t, TemplateIs h0 i t ∧ templateOf (filled h0 sec d) (h.at i) = some t) ∨
    (candidates h0 sec k = [] ∧ templateOf (filled h0 sec d) (h.at i) = none) := by
  have hne : copiers h0 sec k ≠ [] := by
    have : i ∈ copiers h0 sec k := by
      unfold copiers; rw [List.mem_filter]; simp [hi, hp, hs]
    exact List.ne_nil_of_mem this
  obtain ⟨c, hcm⟩ := hd.all k hne
  have hget : (filled h0 sec d).get? k = some { c with template := (candidates h0 sec k).head? } := by
    apply get?_of_mem
    · unfold filled; rw [List.map_map]; exact hd.nodup
    · unfold filled; exact List.mem_map.2 ⟨_, hcm, rfl⟩
  have hto : templateOf (filled h0 sec d) (h.at i) = (candidates h0 sec k).head? := by
    simp [templateOf, hc, hp, hget]
  have hl := hu k (List.mem_map.2 ⟨_, hcm, rfl⟩)
  rw [hto]
  match hcs : candidates h0 sec k, hl with
  | [], _ => right; simp
  | [t], _ => left; exact ⟨t, ⟨hi, k, hp, by rw [hs]; exact hcs⟩, by simp⟩

/-! ## Abnormal outcomes -/

/-- What is wrong with a document whose non-section copies cannot be resolved. -/
def NFail (h0 : Heap) : RExc → Prop
  | .py .keyError => ∃ i k c, i < h0.length ∧ (h0.at i).type ≠ .section ∧ (h0.at i).copy = some k ∧ candidates h0 false k = [] ∧ TemplateIs h0 c i
  | .parse (.nonSectionElementNotFound i) _ => ∃ k, i < h0.length ∧ (h0.at i).type ≠ .section ∧ (h0.at i).copy = some k ∧ candidates h0 false k = []
  | .parse (.cyclicDependency i chain) _ => i < h0.length ∧ (h0.at i).type ≠ .section ∧ Leads h0 i i ∧ i ∈ chain ∧ ∀ j ∈ chain, Leads h0 j j
  | .parse (.missingListForListItem x) _ => ∃ i xs, i < h0.length ∧ Incompatible h0 i ∧ (h0.at i).type = .list ∧ (h0.at i).items = some (x :: xs)
  | .parse (.missingFieldsetForFieldsetEntry x) _ => ∃ i xs, i < h0.length ∧ Incompatible h0 i ∧ (h0.at i).type = .fieldset ∧ (h0.at i).entries = some (x :: xs)
  | _ => False

/-- Consecutive elements are copy and template. -/
def ChainTo (h : Heap) : List Nat → Nat → Prop
  | [], _ => True
  | [p], e => TemplateIs h p e
  | p :: q :: r, e => TemplateIs h p q ∧ ChainTo h (q :: r) e

theorem ChainTo.snoc {l : List Nat} : ChainTo h l i → TemplateIs h i j → ChainTo h (l ++ [i]) j := by
  intro h1 h2
  induction l with
  | nil => exact h2
  | cons a l ih =>
    cases l with
    | nil => exact ⟨h1, h2⟩
    | cons b l => exact ⟨h1.1, ih h1.2⟩

theorem ChainTo.leads {l : List Nat} : ChainTo h l i → j ∈ l → Leads h j i := by
  intro h1 h2
  induction l generalizing j with
  | nil => simp at h2
  | cons a l ih =>
    cases l with
    | nil => simp at h2; subst h2; exact .one h1
    | cons b l =>
      rcases List.mem_cons.1 h2 with rfl | h2
      · exact .step h1.1 (ih (j := b) h1.2 (by simp))
      · exact ih h1.2 h2

theorem ChainTo.dropWhile {l : List Nat} {f : Nat → Bool} : ChainTo h l i → ChainTo h (l.dropWhile f) i := by
  intro h1
  induction l with
  | nil => exact h1
  | cons a l ih =>
    rw [List.dropWhile_cons]
    split
    · apply ih
      cases l with
      | nil => trivial
      | cons b l => exact h1.2
    · exact h1

theorem ChainTo.from_head {l : List Nat} {a : Nat} : ChainTo h (a :: l) i → j ∈ a :: l → j = a ∨ Leads h a j := by
  intro h1 h2
  induction l generalizing a with
  | nil => simp at h2; exact .inl h2
  | cons b l ih =>
    rcases List.mem_cons.1 h2 with rfl | h2
    · exact .inl rfl
    · right
      rcases ih h1.2 h2 with rfl | h3
      · exact .one h1.1
      · exact .step h1.1 h3

theorem cyclic_nfail (ok : HeapOk h0) (inv : NInv h0 h) {prev : List Nat} (hch : ChainTo h0 prev i) (hi : i ∈ prev)
    (hs : (h0.at i).type ≠ .section)
    (hp : ∀ p ∈ prev, p < h0.length ∧ (h.at p).copy.isSome) : NFail h0 (cyclicDependency h i prev) := by
  have hmem : i ∈ prev.dropWhile (· ≠ i) := by
    clear hch hp
    induction prev with
    | nil => simp at hi
    | cons a l ih =>
      rw [List.dropWhile_cons]
      split
      · rename_i hx
        simp at hx
        rcases List.mem_cons.1 hi with e | e
        · exact absurd e.symm hx
        · exact ih e
      · exact hi
  have hch' := hch.dropWhile (f := (· ≠ i))
  unfold cyclicDependency
  have hsub : ∀ p ∈ prev.dropWhile (· ≠ i), p ∈ prev := fun p hp => (List.dropWhile_sublist _).subset hp
  have hhd : ∀ a l, prev.dropWhile (· ≠ i) = a :: l → a = i := by
    intro a l e
    have := List.head?_dropWhile_not (fun x => decide (x ≠ i)) prev
    rw [e] at this; simp at this; exact this
  generalize prev.dropWhile (· ≠ i) = l at *
  cases l with
  | nil => simp at hmem
  | cons a l =>
    have := hhd a l rfl; subst this
    simp only
    cases hl : (a :: l).getLast? with
    | none => simp at hl
    | some z =>
      have hz : z ∈ a :: l := List.mem_of_getLast? hl
      simp only [List.head?_cons]
      obtain ⟨hz1, hz2⟩ := hp z (hsub z hz)
      have hzt : (h.at z).template.isSome := by
        have e := inv.pending hz1 hz2
        rw [e] at hz2 ⊢
        rw [← (ok.elem z hz1).copy]; exact hz2
      simp only [hzt, if_true]
      have hcyc : ∀ j ∈ a :: l, Leads h0 j j := by
        intro j hj
        have h1 := hch'.leads hj
        rcases hch'.from_head hj with rfl | h2
        · exact h1
        · exact h1.trans h2
      have hsec : ∀ j, Leads h0 a j → (h0.at j).type ≠ .section := by
        intro j hlj
        clear hch' hhd hsub hmem hl hz hcyc hch hi
        induction hlj with
        | one h1 => intro e; exact hs (h1.cand.2.2.2.2.1 e)
        | step h1 _ ih => exact ih (fun e => hs (h1.cand.2.2.2.2.1 e))
      refine ⟨hz1, ?_, hcyc z hz, hz, hcyc⟩
      rcases hch'.from_head hz with rfl | h2
      · exact hs
      · exact hsec z h2

theorem ChainTo.exists_last {l : List Nat} (hl : l ≠ []) : ChainTo h l i → ∃ c, TemplateIs h c i := by
  intro h1
  induction l with
  | nil => exact absurd rfl hl
  | cons a l ih =>
    cases l with
    | nil => exact ⟨a, h1⟩
    | cons b l => exact ih (by simp) h1.2

/-! ## One element -/

/-- What resolving an element guarantees. -/
def NPost (h0 h : Heap) (prev : List Nat) (i : Nat) : Except RExc Heap → Prop
  | .ok h' => NInv h0 h' ∧ (h'.at i).copy = none ∧ (∀ p ∈ prev, h'.at p = h.at p) ∧ ∀ j, (h.at j).copy = none → h'.at j = h.at j
  | .error x => NFail h0 x

theorem nodup_bound : ∀ (n : Nat) (l : List Nat), l.Nodup → (∀ x ∈ l, x < n) → l.length ≤ n := by
  intro n l h1 h2
  induction n generalizing l with
  | zero =>
    cases l with
    | nil => simp
    | cons a l => exact absurd (h2 a (by simp)) (by omega)
  | succ n ih =>
    have h3 : (l.erase n).length ≤ n := by
      apply ih _ (h1.erase n)
      intro x hx
      have := h2 x (List.mem_of_mem_erase hx)
      have hne : x ≠ n := by
        intro e; subst e
        exact (h1.mem_erase_iff.1 hx).1 rfl
      omega
    have : l.length ≤ (l.erase n).length + 1 := by
      by_cases hm : n ∈ l
      · rw [List.length_erase_of_mem hm]; omega
      · rw [List.erase_of_not_mem hm]; omega
    omega

theorem resolveN (ok : HeapOk h0) (hd : DictOk h0 false d) (hu : Unambiguous h0 false d) :
    ∀ (n : Nat) (h : Heap) (i : Nat) (prev : List Nat), NInv h0 h → i < h0.length → (h0.at i).type ≠ .section → (h.at i).copy.isSome →
    (∀ p ∈ prev, p < h0.length ∧ (h.at p).copy.isSome) → prev.Nodup → ChainTo h0 prev i → h0.length + 1 ≤ n + prev.length →
    (prev = [] → ∃ k, (h0.at i).copy = some k ∧ candidates h0 false k ≠ []) →
    NPost h0 h prev i (resolveNonSection (filled h0 false d) n h i prev) := by
  intro n
  induction n with
  | zero =>
    intro h i prev inv hi hs hc hp hnd hch hn hroot
    have := nodup_bound h0.length prev hnd (fun x hx => (hp x hx).1)
    omega
  | succ n ih =>
    intro h i prev inv hi hs hc hp hnd hch hn hroot
    unfold resolveNonSection
    by_cases hmem : i ∈ prev
    · rw [if_pos hmem]
      exact cyclic_nfail ok inv hch hmem hs hp
    · rw [if_neg hmem]
      have hie := inv.pending hi hc
      obtain ⟨k, hk⟩ := Option.isSome_iff_exists.1 hc
      rw [hie] at hk
      rcases templateOf_filled (h := h) hd hu hi (by rw [hie]) (by simp [hs]) hk with ⟨t, ht, hto⟩ | ⟨hcs, hto⟩
      · rw [hto]
        simp only
        obtain ⟨ht1, ht2, ht3, ht4, ht5⟩ := ht.cand
        have hts : (h0.at t).type ≠ .section := fun e => hs (ht5.1 e)
        have hrec : NPost h0 h (prev ++ [i]) t (if (h.at t).copy.isSome then resolveNonSection (filled h0 false d) n h t (prev ++ [i]) else .ok h) := by
          split
          · rename_i htc
            apply ih h t (prev ++ [i]) inv ht1 hts htc
            · intro p hpm
              simp at hpm
              rcases hpm with hpm | rfl
              · exact hp p hpm
              · exact ⟨hi, hc⟩
            · rw [List.nodup_append]
              refine ⟨hnd, by simp, ?_⟩
              intro a ha b hb; simp at hb; subst hb
              intro e; subst e; exact hmem ha
            · exact hch.snoc ht
            · simp; omega
            · simp
          · rename_i htc
            refine ⟨inv, by simpa using htc, by simp, by simp⟩
        revert hrec
        generalize (if (h.at t).copy.isSome then resolveNonSection (filled h0 false d) n h t (prev ++ [i]) else .ok h : Except RExc Heap) = r
        intro hrec
        cases r with
        | error x => exact hrec
        | ok h1 =>
          obtain ⟨inv1, ht1c, hpre, hfr⟩ := hrec
          simp only
          have hi1 : h1.at i = h.at i := hpre i (by simp)
          have hil : i < h1.length := by rw [inv1.len]; exact hi
          have hne := ht.ne ok
          have heo : ElemOk (h1.at i) := by rw [hi1, hie]; exact ok.elem i hi
          rcases consolidate_ok hil hne heo with ⟨e', h2, he', hcons, hset⟩ | ⟨x, hx, hcons⟩
          · rw [hcons]
            simp only
            rw [hset]
            rw [hi1, hie] at he'
            obtain ⟨a1, a2⟩ := NInv.set ok inv1 (i := i) (e' := e') hi (by rw [hi1]; exact hc) ht ht1c he' hs
            refine ⟨a1, a2, ?_, ?_⟩
            · intro p hpm
              have : p ≠ i := by intro e; subst e; exact hmem hpm
              rw [Heap.at_set_ne this]; exact hpre p (by simp [hpm])
            · intro j hj
              have : j ≠ i := by intro e; subst e; rw [hj] at hc; simp at hc
              rw [Heap.at_set_ne this]; exact hfr j hj
          · rw [hcons]
            rw [hi1, hie] at hx
            obtain ⟨b1, b2⟩ := consN_error hx
            have hkt := inv1.kind ht1 ht1c
            have hinc : Incompatible h0 i := ⟨t, _, ht, hkt, b1⟩
            have heo := ok.elem i hi
            rcases b2 with ⟨b2, rfl⟩ | ⟨b2, rfl⟩
            · have := heo.list b2
              cases hit : (h0.at i).items with
              | none => rw [hit] at this; simp at this
              | some xs =>
                cases xs with
                | nil => exact absurd rfl (heo.items _ hit).2.1
                | cons x xs => exact ⟨i, xs, hi, hinc, b2, hit⟩
            · have := heo.fieldset b2
              cases hit : (h0.at i).entries with
              | none => rw [hit] at this; simp at this
              | some xs =>
                cases xs with
                | nil => exact absurd rfl (heo.entries _ hit).2.1
                | cons x xs => exact ⟨i, xs, hi, hinc, b2, hit⟩
      · rw [hto]
        have hne : prev ≠ [] := by
          intro e
          obtain ⟨k', hk', hne⟩ := hroot e
          rw [hk] at hk'; injection hk' with e; subst e
          exact hne hcs
        obtain ⟨c, hc⟩ := hch.exists_last hne
        exact ⟨i, k, c, hi, hs, hk, hcs, hc⟩

/-! ## All elements -/

/-- What resolving several elements guarantees. -/
def NPosts (h0 h : Heap) (l : List Nat) : Except RExc Heap → Prop
  | .ok h' => NInv h0 h' ∧ (∀ i ∈ l, (h'.at i).copy = none) ∧ ∀ j, (h.at j).copy = none → h'.at j = h.at j
  | .error x => NFail h0 x

theorem resolveN_targets (ok : HeapOk h0) (hd : DictOk h0 false d) (hu : Unambiguous h0 false d) :
    ∀ (l : List Nat) (h : Heap), NInv h0 h → (∀ i ∈ l, i < h0.length ∧ (h0.at i).type ≠ .section ∧ ∃ k, (h0.at i).copy = some k ∧ candidates h0 false k ≠ []) →
    NPosts h0 h l (l.foldlM (fun h i => if (h.at i).copy.isSome then resolveNonSection (filled h0 false d) (h.length + 1) h i [] else .ok h) h) := by
  intro l
  induction l with
  | nil => intro h inv _; exact ⟨inv, by simp, by simp⟩
  | cons i l ih =>
    intro h inv hl
    obtain ⟨hi, hs, hroot⟩ := hl i (by simp)
    rw [List.foldlM_cons]
    have hone : NPosts h0 h [i] (if (h.at i).copy.isSome then resolveNonSection (filled h0 false d) (h.length + 1) h i [] else .ok h) := by
      split
      · rename_i hc
        have := resolveN ok hd hu (h.length + 1) h i [] inv hi hs hc (by simp) (by simp) trivial (by simp [inv.len]) (fun _ => hroot)
        revert this
        cases resolveNonSection (filled h0 false d) (h.length + 1) h i [] with
        | error x => intro this; exact this
        | ok h1 => intro this; exact ⟨this.1, by simpa using this.2.1, this.2.2.2⟩
      · rename_i hc
        exact ⟨inv, by simpa using hc, by simp⟩
    revert hone
    generalize (if (h.at i).copy.isSome then resolveNonSection (filled h0 false d) (h.length + 1) h i [] else .ok h : Except RExc Heap) = r
    intro hone
    cases r with
    | error x => exact hone
    | ok h1 =>
      obtain ⟨a1, a2, a3⟩ := hone
      have := ih h1 a1 (fun j hj => hl j (by simp [hj]))
      simp only [bind, Except.bind]
      revert this
      generalize l.foldlM (fun h i => if (h.at i).copy.isSome then resolveNonSection (filled h0 false d) (h.length + 1) h i [] else .ok h) h1 = r
      intro this
      cases r with
      | error x => exact this
      | ok h2 =>
        obtain ⟨b1, b2, b3⟩ := this
        have hi1 := a2 i (by simp)
        refine ⟨b1, ?_, fun j hj => ?_⟩
        · intro j hj
          rcases List.mem_cons.1 hj with rfl | hj
          · rw [b3 _ hi1]; exact hi1
          · exact b2 j hj
        · have e1 := a3 j hj
          rw [← e1]; exact b3 j (by rw [e1]; exact hj)

/-- What the whole phase guarantees. -/
def NPhase (h0 h : Heap) (ks : List Str) : Except RExc Heap → Prop
  | .ok h' => NInv h0 h' ∧ (∀ i k, i < h0.length → (h0.at i).type ≠ .section → (h0.at i).copy = some k → k ∈ ks → (h'.at i).copy = none) ∧
      (∀ k ∈ ks, candidates h0 false k ≠ []) ∧ ∀ j, (h.at j).copy = none → h'.at j = h.at j
  | .error x => NFail h0 x

theorem mem_copiers : i ∈ copiers h sec k ↔ i < h.length ∧ (h.at i).copy = some k ∧ decide ((h.at i).type = .section) = sec := by
  unfold copiers; rw [List.mem_filter]; simp

theorem phaseN_fold (ok : HeapOk h0) (hd : DictOk h0 false d) (hu : Unambiguous h0 false d) :
    ∀ (D : Copies), D = filled h0 false d → ∀ (l : Copies) (h : Heap), NInv h0 h → (∀ kc ∈ l, kc ∈ d) →
    NPhase h0 h (l.map Prod.fst) (resolveAll .nonSectionElementNotFound (fun h i => resolveNonSection D (h.length + 1) h i [])
      (filled h0 false l) h) := by
  intro D hD l
  induction l with
  | nil => intro h inv _; exact ⟨inv, by simp, by simp, by simp⟩
  | cons a l ih =>
    intro h inv hl
    obtain ⟨k, c⟩ := a
    obtain ⟨m1, m2, m3⟩ := hd.mem k c (hl _ (by simp))
    simp only [resolveAll, filled, List.map_cons]
    rw [List.foldlM_cons]
    simp only
    cases hcs : (candidates h0 false k).head? with
    | none =>
      have hcs' : candidates h0 false k = [] := by simpa using hcs
      simp only
      cases hct : c.targets with
      | nil => exact absurd hct m3
      | cons x xs =>
        have : x ∈ copiers h0 false k := by rw [← m2, hct]; simp
        obtain ⟨c1, c2, c3⟩ := mem_copiers.1 this
        exact ⟨k, c1, by simpa using c3, c2, hcs'⟩
    | some t =>
      simp only
      have hts : ∀ i ∈ c.targets, i < h0.length ∧ (h0.at i).type ≠ .section ∧ ∃ k, (h0.at i).copy = some k ∧ candidates h0 false k ≠ [] := by
        intro i hi
        rw [m2] at hi
        obtain ⟨c1, c2, c3⟩ := mem_copiers.1 hi
        exact ⟨c1, by simpa using c3, k, c2, by intro e; rw [e] at hcs; simp at hcs⟩
      have h1 := resolveN_targets ok hd hu c.targets h inv hts
      rw [← hD] at h1
      revert h1
      generalize c.targets.foldlM (fun h i => if (h.at i).copy.isSome then resolveNonSection D (h.length + 1) h i [] else .ok h) h = r
      intro h1
      cases r with
      | error x => exact h1
      | ok h1' =>
        obtain ⟨a1, a2, a3⟩ := h1
        have := ih h1' a1 (fun kc hkc => hl kc (by simp [hkc]))
        simp only [resolveAll, filled] at this
        simp only [bind, Except.bind]
        revert this
        generalize (List.foldlM (m := Except RExc) _ h1' _ : Except RExc Heap) = r
        intro this
        cases r with
        | error x => exact this
        | ok h2 =>
          obtain ⟨b1, b2, b3, b4⟩ := this
          refine ⟨b1, ?_, ?_, fun j hj => ?_⟩
          · intro i k' hi hs hk hkm
            simp only [List.mem_cons] at hkm
            rcases hkm with rfl | hkm
            · have hi1 := a2 i (by rw [m2]; exact mem_copiers.2 ⟨hi, hk, by simp [hs]⟩)
              rw [b4 i hi1]; exact hi1
            · exact b2 i k' hi hs hk hkm
          · intro k' hk'
            simp only [List.mem_cons] at hk'
            rcases hk' with rfl | hk'
            · intro e; rw [e] at hcs; simp at hcs
            · exact b3 k' hk'
          · have e1 := a3 j hj
            rw [← e1]; exact b4 j (by rw [e1]; exact hj)

/-- **Phase one**: either every non-section copy is resolved, or something is wrong with the document. -/
def NOutcome (h0 : Heap) : Except RExc Heap → Prop
  | .ok h' => NInv h0 h' ∧ (∀ i, i < h0.length → (h0.at i).type ≠ .section → (h'.at i).copy = none) ∧
      (∀ i, i < h0.length → (h0.at i).type ≠ .section → (h0.at i).copy.isSome → ∃ t, TemplateIs h0 i t)
  | .error x => NFail h0 x

theorem phaseN (ok : HeapOk h0) (hd : DictOk h0 false d) (hu : Unambiguous h0 false d) :
    NOutcome h0 (resolveAll .nonSectionElementNotFound (fun h i => resolveNonSection (filled h0 false d) (h.length + 1) h i []) (filled h0 false d) h0) := by
  have := phaseN_fold ok hd hu _ rfl d h0 NInv.refl (fun _ h => h)
  revert this
  generalize resolveAll .nonSectionElementNotFound (fun h i => resolveNonSection (filled h0 false d) (h.length + 1) h i []) (filled h0 false d) h0 = r
  intro this
  cases r with
  | error x => exact this
  | ok h' =>
    obtain ⟨b1, b2, b3, b4⟩ := this
    have hkey : ∀ i k, i < h0.length → (h0.at i).type ≠ .section → (h0.at i).copy = some k → k ∈ d.map Prod.fst := by
      intro i k hi hs hk
      obtain ⟨c, hc⟩ := hd.all k (List.ne_nil_of_mem (mem_copiers.2 ⟨hi, hk, by simp [hs]⟩))
      exact List.mem_map.2 ⟨_, hc, rfl⟩
    refine ⟨b1, ?_, ?_⟩
    · intro i hi hs
      cases hc : (h0.at i).copy with
      | none => rw [b4 i hc]; exact hc
      | some k => exact b2 i k hi hs hc (hkey i k hi hs hc)
    · intro i hi hs hc
      obtain ⟨k, hk⟩ := Option.isSome_iff_exists.1 hc
      have h1 := b3 k (hkey i k hi hs hk)
      have h2 := hu k (hkey i k hi hs hk)
      match hcs : candidates h0 false k, h1, h2 with
      | [], h1, _ => exact absurd rfl h1
      | [t], _, _ => exact ⟨t, hi, k, hk, by simpa [hs] using hcs⟩

end Eno
