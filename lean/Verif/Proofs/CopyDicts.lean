import Verif.Proofs.Outcome
import Verif.Resolver
import Verif.Spec.Copies

/-! # The copy dictionaries that the analyzer leaves behind -/

namespace Eno

open Spec

variable {h h' : Heap} {s s' : AS} {i j n p : Nat} {e : Elem} {sec : Bool} {k : Str} {d : Copies} {ev : Event} {es : List Event}

/-- A dictionary is exactly the copies of the document. -/
structure DictOk (h : Heap) (sec : Bool) (d : Copies) : Prop where
  nodup : (d.map Prod.fst).Nodup
  mem : ∀ k c, (k, c) ∈ d → c.template = none ∧ c.targets = copiers h sec k ∧ c.targets ≠ []
  all : ∀ k, copiers h sec k ≠ [] → ∃ c, (k, c) ∈ d

theorem copiers_congr (hl : h'.length = h.length)
    (hi : ∀ i, i < h.length → (h'.at i).copy = (h.at i).copy ∧ ((h'.at i).type = .section ↔ (h.at i).type = .section)) :
    copiers h' sec k = copiers h sec k := by
  unfold copiers
  rw [hl]
  apply List.filter_congr
  intro i hi'
  obtain ⟨h1, h2⟩ := hi i (by simpa using hi')
  simp only [h1, h2]

theorem copiers_snoc (hl : h'.length = h.length + 1)
    (hi : ∀ i, i < h.length → (h'.at i).copy = (h.at i).copy ∧ ((h'.at i).type = .section ↔ (h.at i).type = .section)) :
    copiers h' sec k = copiers h sec k ++
      if (h'.at h.length).copy = some k ∧ decide ((h'.at h.length).type = .section) = sec then [h.length] else [] := by
  unfold copiers
  rw [hl, List.range_succ, List.filter_append]
  congr 1
  · apply List.filter_congr
    intro i hi'
    obtain ⟨h1, h2⟩ := hi i (by simpa using hi')
    simp only [h1, h2]
  · by_cases hc : (h'.at h.length).copy = some k ∧ decide ((h'.at h.length).type = .section) = sec
    · rw [if_pos hc]; simp [hc.1, hc.2]
    · rw [if_neg hc]
      simp only [List.filter_cons, List.filter_nil]
      rw [if_neg]
      simpa using hc

theorem addTarget_mem {d : Copies} {t : Str} {i : Nat} {k : Str} {c : CopyData} (hn : (d.map Prod.fst).Nodup) (h : (k, c) ∈ addTarget d t i) :
    (k ≠ t ∧ (k, c) ∈ d) ∨ (k = t ∧ ((∃ c0, (k, c0) ∈ d ∧ c = { c0 with targets := c0.targets ++ [i] }) ∨ (k ∉ d.map Prod.fst ∧ c = { targets := [i] }))) := by
  induction d with
  | nil => simp [addTarget] at h; right; simp [h]
  | cons a d ih =>
    obtain ⟨k', c'⟩ := a
    simp only [List.map_cons, List.nodup_cons] at hn
    simp only [addTarget] at h
    split at h
    · rename_i hk; subst hk
      simp at h
      rcases h with ⟨rfl, rfl⟩ | h
      · right; exact ⟨rfl, .inl ⟨c', by simp, rfl⟩⟩
      · left
        refine ⟨?_, by simp [h]⟩
        intro e; subst e
        exact hn.1 (List.mem_map.2 ⟨_, h, rfl⟩)
    · rename_i hk
      simp at h
      rcases h with ⟨rfl, rfl⟩ | h
      · left; exact ⟨hk, by simp⟩
      · rcases ih hn.2 h with ⟨h1, h2⟩ | ⟨h1, h2⟩
        · left; exact ⟨h1, by simp [h2]⟩
        · right
          refine ⟨h1, ?_⟩
          rcases h2 with ⟨c0, h2, h3⟩ | ⟨h2, h3⟩
          · exact .inl ⟨c0, by simp [h2], h3⟩
          · exact .inr ⟨by simp at h2 ⊢; exact ⟨by rw [h1]; exact fun e => hk e.symm, h2⟩, h3⟩

theorem addTarget_keys (d : Copies) (t : Str) (i : Nat) : (addTarget d t i).map Prod.fst =
    if t ∈ d.map Prod.fst then d.map Prod.fst else d.map Prod.fst ++ [t] := by
  induction d with
  | nil => simp [addTarget]
  | cons a d ih =>
    obtain ⟨k', c'⟩ := a
    simp only [addTarget]
    split
    · rename_i hk; subst hk; simp
    · rename_i hk
      simp only [List.map_cons, ih]
      have : ¬ t = k' := fun e => hk e.symm
      by_cases ht : t ∈ d.map Prod.fst
      · simp [ht]
      · simp [ht, this]

theorem DictOk.nil (hl : h.length = 1) (hd : (h.at 0).copy = none) : DictOk h sec [] := by
  refine ⟨by simp, by simp, ?_⟩
  intro k hk
  exfalso; apply hk
  unfold copiers
  rw [hl]; simp [List.range_succ, hd]

theorem DictOk.congr (ok : DictOk h sec d) (hl : h'.length = h.length)
    (hi : ∀ i, i < h.length → (h'.at i).copy = (h.at i).copy ∧ ((h'.at i).type = .section ↔ (h.at i).type = .section)) : DictOk h' sec d := by
  refine ⟨ok.nodup, ?_, ?_⟩
  · intro k c hc; rw [copiers_congr hl hi]; exact ok.mem k c hc
  · intro k hk; rw [copiers_congr hl hi] at hk; exact ok.all k hk

/-- A new element that is not a copy of this sort. -/
theorem DictOk.skip (ok : DictOk h sec d) (hl : h'.length = h.length + 1)
    (hi : ∀ i, i < h.length → (h'.at i).copy = (h.at i).copy ∧ ((h'.at i).type = .section ↔ (h.at i).type = .section))
    (hn : (h'.at h.length).copy = none ∨ decide ((h'.at h.length).type = .section) ≠ sec) : DictOk h' sec d := by
  have key : ∀ k, copiers h' sec k = copiers h sec k := by
    intro k
    rw [copiers_snoc hl hi, if_neg, List.append_nil]
    rintro ⟨h1, h2⟩
    rcases hn with hn | hn
    · rw [hn] at h1; simp at h1
    · exact hn h2
  refine ⟨ok.nodup, ?_, ?_⟩
  · intro k c hc; rw [key]; exact ok.mem k c hc
  · intro k hk; rw [key] at hk; exact ok.all k hk

/-- A new copy. -/
theorem DictOk.add (ok : DictOk h sec d) (hl : h'.length = h.length + 1)
    (hi : ∀ i, i < h.length → (h'.at i).copy = (h.at i).copy ∧ ((h'.at i).type = .section ↔ (h.at i).type = .section)) {t : Str}
    (hn : (h'.at h.length).copy = some t) (hs : decide ((h'.at h.length).type = .section) = sec) : DictOk h' sec (addTarget d t h.length) := by
  have key : ∀ k, copiers h' sec k = copiers h sec k ++ if t = k then [h.length] else [] := by
    intro k
    rw [copiers_snoc hl hi, hn]
    by_cases hk : t = k
    · simp [hk, hs]
    · simp [hk]
  refine ⟨?_, ?_, ?_⟩
  · rw [addTarget_keys]
    split
    · exact ok.nodup
    · rename_i h1
      rw [List.nodup_append]
      refine ⟨ok.nodup, by simp, ?_⟩
      intro a ha b hb; simp at hb; subst hb
      intro e; subst e; exact h1 ha
  · intro k c hc
    rw [key]
    rcases addTarget_mem ok.nodup hc with ⟨h1, h2⟩ | ⟨rfl, ⟨c0, h2, rfl⟩ | ⟨h2, rfl⟩⟩
    · rw [if_neg (fun e => h1 e.symm), List.append_nil]; exact ok.mem k c h2
    · obtain ⟨h3, h4, h5⟩ := ok.mem k c0 h2
      exact ⟨h3, by simp [h4], by simp⟩
    · have : copiers h sec k = [] := by
        apply Classical.byContradiction
        intro hne
        obtain ⟨c, hc⟩ := ok.all k hne
        exact h2 (List.mem_map.2 ⟨_, hc, rfl⟩)
      exact ⟨rfl, by simp [this], by simp⟩
  · intro k hk
    have : k ∈ (addTarget d t h.length).map Prod.fst := by
      rw [addTarget_keys]
      rw [key] at hk
      by_cases hkt : t = k
      · subst hkt; split
        · assumption
        · simp
      · rw [if_neg hkt, List.append_nil] at hk
        obtain ⟨c, hc⟩ := ok.all k hk
        have : k ∈ d.map Prod.fst := List.mem_map.2 ⟨_, hc, rfl⟩
        split
        · exact this
        · exact List.mem_append_left _ this
    obtain ⟨⟨k', c⟩, h1, rfl⟩ := List.mem_map.1 this
    exact ⟨c, h1⟩

/-- Deep marks reach up to the document. -/
def DeepOk (h : Heap) : Prop := ∀ i p, i < h.length → (h.at i).type = .section → (h.at i).pending = true → (h.at i).parent = some p → p ≠ 0 →
  (h.at p).deepResolve = true

/-- Deep marks are only set above copied sections. -/
def MarkOk (h : Heap) : Prop := ∀ i, (h.at i).deepResolve = true → ∃ j, j < h.length ∧ (h.at j).type = .section ∧ (h.at j).copy.isSome ∧ Above h i j

theorem above_mono {a : Nat} (hp : ∀ j p, (h.at j).parent = some p → (h'.at j).parent = some p) (ha : Above h a j) : Above h' a j := by
  induction ha with
  | parent h1 => exact .parent (hp _ _ h1)
  | step h1 _ ih => exact .step (hp _ _ h1) ih

theorem MarkOk.mono (m : MarkOk h) (hl : h.length ≤ h'.length)
    (hi : ∀ i, i < h.length → (h'.at i).copy = (h.at i).copy ∧ ((h'.at i).type = .section ↔ (h.at i).type = .section) ∧ (h'.at i).parent = (h.at i).parent)
    (hd : ∀ i, (h'.at i).deepResolve = true → (h.at i).deepResolve = true ∨
      ∃ j, j < h'.length ∧ (h'.at j).type = .section ∧ (h'.at j).copy.isSome ∧ Above h' i j) : MarkOk h' := by
  intro i hdi
  rcases hd i hdi with q | q
  · obtain ⟨j, j1, j2, j3, j4⟩ := m i q
    obtain ⟨a1, a2, a3⟩ := hi j j1
    refine ⟨j, by omega, a2.2 j2, by rw [a1]; exact j3, above_mono ?_ j4⟩
    intro x p hx
    by_cases hxl : x < h.length
    · rw [(hi x hxl).2.2]; exact hx
    · rw [Heap.at_ge (by omega)] at hx; simp [Elem.document] at hx
  · exact q

/-- What the resolver finds. -/
structure CopyInv (s : AS) : Prop where
  secs : DictOk s.heap true s.copySections
  nons : DictOk s.heap false s.copyNonSections
  deep : DeepOk s.heap
  doc : (s.heap.at 0).deepResolve = false
  mark : MarkOk s.heap

theorem pending_eq {a b : Elem} (h1 : a.copy = b.copy) (h2 : a.deepResolve = b.deepResolve) : a.pending = b.pending := by
  simp [Elem.pending, h1, h2]

/-- Nothing relevant changed. -/
theorem CopyInv.congr (c : CopyInv s) (hl : s'.heap.length = s.heap.length) (hd : s'.copySections = s.copySections)
    (hd' : s'.copyNonSections = s.copyNonSections)
    (hi : ∀ i, (s'.heap.at i).copy = (s.heap.at i).copy ∧ ((s'.heap.at i).type = .section ↔ (s.heap.at i).type = .section) ∧
      (s'.heap.at i).parent = (s.heap.at i).parent ∧ (s'.heap.at i).deepResolve = (s.heap.at i).deepResolve) : CopyInv s' := by
  refine ⟨?_, ?_, ?_, ?_, ?_⟩
  · rw [hd]; exact c.secs.congr hl (fun i _ => ⟨(hi i).1, (hi i).2.1⟩)
  · rw [hd']; exact c.nons.congr hl (fun i _ => ⟨(hi i).1, (hi i).2.1⟩)
  · intro i p h1 h2 h3 h4 h5
    obtain ⟨a1, a2, a3, a4⟩ := hi i
    rw [(hi p).2.2.2]
    exact c.deep i p (by omega) (a2.1 h2) (by rw [← pending_eq a1 a4]; exact h3) (by rw [← a3]; exact h4) h5
  · rw [(hi 0).2.2.2]; exact c.doc
  · exact c.mark.mono (by omega) (fun i _ => ⟨(hi i).1, (hi i).2.1, (hi i).2.2.1⟩) (fun i h => .inl (by rw [← (hi i).2.2.2]; exact h))

theorem copyInv_init : CopyInv AS.init := by
  have hat : ∀ i, AS.init.heap.at i = Elem.document := by
    intro i
    cases i with
    | zero => rfl
    | succ i => exact Heap.at_ge (by simp [AS.init])
  refine ⟨DictOk.nil rfl (by rw [hat]; rfl), DictOk.nil rfl (by rw [hat]; rfl), ?_, by rw [hat]; rfl, ?_⟩
  · intro i p _ h; rw [hat] at h; simp [Elem.document] at h
  · intro i h; rw [hat] at h; simp [Elem.document] at h

theorem append_at_more (s : AS) (p : Nat) (e : Elem) (hi : i < s.heap.length) :
    ((s.append p e).at i).copy = (s.heap.at i).copy ∧ ((s.append p e).at i).type = (s.heap.at i).type ∧
    ((s.append p e).at i).parent = (s.heap.at i).parent ∧ ((s.append p e).at i).deepResolve = (s.heap.at i).deepResolve := by
  rw [at_AS_append_lt s p e hi]; split <;> simp

theorem DeepOk.append (ok : HeapOk s.heap) (h : DeepOk s.heap) (he : e.pending = false ∨ e.type ≠ .section) : DeepOk (s.append p e) := by
  intro i q h1 h2 h3 h4 h5
  rw [append_length] at h1
  by_cases hi : i = s.heap.length
  · subst hi
    rw [at_AS_append_last] at h2 h3
    rcases he with he | he
    · rw [he] at h3; simp at h3
    · exact absurd h2 he
  · obtain ⟨a1, a2, a3, a4⟩ := append_at_more s p e (i := i) (by omega)
    rw [pending_eq a1 a4] at h3
    rw [a2] at h2; rw [a3] at h4
    have hq : q < s.heap.length := by
      by_cases hi0 : i = 0
      · subst hi0; rw [ok.doc.2.1] at h4; simp at h4
      · obtain ⟨_, q', hq', hqi, _⟩ := ok.par i (by omega) (by omega)
        rw [h4] at hq'; injection hq' with hq'; omega
    rw [(append_at_more s p e hq).2.2.2]
    exact h i q (by omega) h2 h3 h4 h5

theorem MarkOk.append (m : MarkOk s.heap) (he : e.deepResolve = false) : MarkOk (s.append p e) := by
  refine m.mono (by rw [append_length]; omega) ?_ ?_
  · intro i hi; obtain ⟨a1, a2, a3, _⟩ := append_at_more s p e hi; exact ⟨a1, by rw [a2], a3⟩
  · intro i h
    left
    by_cases hi : i < s.heap.length
    · rw [← (append_at_more s p e hi).2.2.2]; exact h
    · by_cases hi' : i = s.heap.length
      · subst hi'; rw [at_AS_append_last, he] at h; simp at h
      · rw [Heap.at_ge (by rw [append_length]; omega)] at h; simp [Elem.document] at h

/-- A new element that is neither a copy nor a section. -/
theorem CopyInv.append (ok : HeapOk s.heap) (c : CopyInv s) (hp : p < s.heap.length) (he : e.copy = none) (hdr : e.deepResolve = false)
    (hpar : e.parent = some p) (hh : s'.heap = s.append p e) (hd : s'.copySections = s.copySections) (hd' : s'.copyNonSections = s.copyNonSections) : CopyInv s' := by
  have hlen := append_length s p e
  have hi : ∀ i, i < s.heap.length → ((s.append p e).at i).copy = (s.heap.at i).copy ∧ (((s.append p e).at i).type = .section ↔ (s.heap.at i).type = .section) := by
    intro i hi; obtain ⟨a1, a2, _⟩ := append_at_more s p e hi; exact ⟨a1, by rw [a2]⟩
  refine ⟨?_, ?_, ?_, ?_, ?_⟩
  · rw [hh, hd]; exact c.secs.skip hlen hi (.inl (by rw [at_AS_append_last]; exact he))
  · rw [hh, hd']; exact c.nons.skip hlen hi (.inl (by rw [at_AS_append_last]; exact he))
  · rw [hh]; exact c.deep.append ok (.inl (by simp [Elem.pending, he, hdr]))
  · rw [hh, (append_at_more s p e ok.pos).2.2.2]; exact c.doc
  · rw [hh]; exact c.mark.append hdr

/-- What marking does. -/
theorem markDeep_deep (ok : HeapOk h) : ∀ (fuel : Nat) (h1 : Heap) (i : Nat) (h2 : Heap), markDeep fuel h1 i = some h2 →
    (∀ j, (h1.at j).type = (h.at j).type ∧ (h1.at j).parent = (h.at j).parent) → h1.length = h.length → i < h.length →
    (∀ j, (h1.at j).deepResolve = true → (h2.at j).deepResolve = true) ∧ (i ≠ 0 → (h2.at i).deepResolve = true) ∧
    ((h2.at 0).deepResolve = (h1.at 0).deepResolve) ∧
    (∀ j p, (h2.at j).deepResolve = true → (h1.at j).deepResolve = false → (h.at j).parent = some p → p ≠ 0 → (h2.at p).deepResolve = true) ∧
    (∀ j, (h2.at j).deepResolve = true → (h1.at j).deepResolve = true ∨ j = i ∨ Above h j i) := by
  intro fuel
  induction fuel with
  | zero => intro h1 i h2 e; simp [markDeep] at e
  | succ fuel ih =>
    intro h1 i h2 e hj hl hi
    unfold markDeep at e
    split at e
    · rename_i hd
      simp at e; subst e
      refine ⟨fun _ h => h, ?_, rfl, ?_, fun _ h => .inl h⟩
      · intro hi0
        rw [(hj i).1] at hd
        exact absurd hd (ok.par i (by omega) hi).1
      · intro j p a b; rw [a] at b; simp at b
    · rename_i hd
      rw [(hj i).1] at hd
      have hi0 : i ≠ 0 := by intro h0; subst h0; exact hd ok.doc.1
      obtain ⟨_, p, hp, hpi, hpc⟩ := ok.par i (by omega) hi
      rw [(hj i).2, hp] at e
      simp only at e
      obtain ⟨b1, b2, b3, b4, b5⟩ := ih _ p h2 e (by
        intro j
        rw [Heap.at_modify]
        split
        · rename_i h; rw [h.1]; exact hj i
        · exact hj j) (by simpa using hl) (by omega)
      refine ⟨?_, ?_, ?_, ?_, ?_⟩
      · intro j hjd
        apply b1
        rw [Heap.at_modify]; split
        · rfl
        · exact hjd
      · intro _
        apply b1
        rw [Heap.at_modify_self (by omega)]
      · rw [b3, Heap.at_modify_ne (Ne.symm hi0)]
      · intro j q a b c hq
        by_cases hji : j = i
        · subst hji
          rw [hp] at c; injection c with c; subst c
          exact b2 hq
        · exact b4 j q a (by rw [Heap.at_modify_ne hji]; exact b) c hq
      · intro j hjd
        by_cases hji : j = i
        · exact .inr (.inl hji)
        · rcases b5 j hjd with q | q | q
          · rw [Heap.at_modify_ne hji] at q; exact .inl q
          · subst q; exact .inr (.inr (.parent hp))
          · exact .inr (.inr (.step hp q))

theorem copyInv_stepHeading (inv : Inv s) (c : CopyInv s) {line index fin : Nat} {op : Cap} {k : KeyTok} {cp : Option (Cap × Cap)}
    (hop : op.b < op.e) (h : stepHeading s line index fin op k cp = .ok s') : CopyInv s' := by
  unfold stepHeading at h
  simp only at h
  split at h
  · simp at h
  · rename_i p hp
    rcases headingParent_eq inv.heap inv.sec (d := op.e - op.b) (by omega) with ⟨hd, p', hp', hanc⟩ | ⟨hd, hp'⟩
    rotate_left
    · rw [hp'] at hp; simp at hp
    rw [hp] at hp'; injection hp' with hp'; subst hp'
    obtain ⟨hpl, hpc⟩ := ancestor_spec inv.heap _ _ p inv.sec.lt inv.sec.con hanc
    have hplt : p < s.heap.length := Nat.lt_of_le_of_lt hpl inv.sec.lt
    cases cp with
    | none =>
      simp at h; subst h
      exact c.append inv.heap hplt rfl rfl rfl rfl rfl rfl
    | some ct =>
      obtain ⟨co, t⟩ := ct
      simp only at h
      generalize hE : ({ line := line, ranges := _, comments := s.comments, key := k.text, type := Ty.section, parent := some p, template := _, deepCopy := _, copy := _ } : Elem) = e at h
      have e1 : e.parent = some p := by rw [← hE]
      have e2 : e.copy = some t.text := by rw [← hE]; rfl
      have e3 : e.type = .section := by rw [← hE]
      have e5 : ElemOk e := by
        rw [← hE]
        refine ⟨by simp, by simp, by simp, by simp, by simp, by simp, by simp, by simp, by simp, by simp, inv.comments, by simp, rfl, ?_, rfl, rfl, deep_heading line index fin op k (some (co, t))⟩
        intro h; exact ⟨rfl, rfl⟩
      have e6 : e.elements = [] := by rw [← hE]
      have e7 : e.deepResolve = false := by rw [← hE]
      clear hE
      have hOk : HeapOk (s.append p e) := inv.heap.append hplt hpc e1 e6 (by rw [e3]; simp) e5
      split at h
      · simp at h
      · rename_i h' hm
        simp at h; subst h
        obtain ⟨hml, hmf⟩ := markDeep_inv_fields hm
        have hlen := append_length s p e
        have hi : ∀ i, i < s.heap.length → (h'.at i).copy = (s.heap.at i).copy ∧ ((h'.at i).type = .section ↔ (s.heap.at i).type = .section) := by
          intro i hi
          obtain ⟨a1, a2, _⟩ := append_at_more s p e hi
          rw [(hmf i).2.2.2.2.1, (hmf i).1, a1, a2]; exact ⟨rfl, Iff.rfl⟩
        have hnew : (h'.at s.heap.length).copy = some t.text ∧ (h'.at s.heap.length).type = .section := by
          rw [(hmf _).2.2.2.2.1, (hmf _).1, at_AS_append_last]; exact ⟨e2, e3⟩
        obtain ⟨b1, b2, b3, b4, b5⟩ := markDeep_deep hOk _ _ _ _ hm (fun _ => ⟨rfl, rfl⟩) rfl (by rw [hlen]; omega)
        refine ⟨?_, ?_, ?_, ?_, ?_⟩
        · exact c.secs.add (by simp only [hml, hlen]) hi hnew.1 (by simp [hnew.2])
        · exact c.nons.skip (by simp only [hml, hlen]) hi (.inr (by simp [hnew.2]))
        · intro i q h1 h2 h3 h4 h5
          simp only at h1 h2 h3 h4 ⊢
          rw [hml, hlen] at h1
          rw [(hmf i).2.1] at h4
          by_cases hii : i = s.heap.length
          · subst hii
            rw [at_AS_append_last, e1] at h4
            injection h4 with h4; subst h4
            exact b2 h5
          · obtain ⟨a1, a2, a3, a4⟩ := append_at_more s p e (i := i) (by omega)
            by_cases hdr : (h'.at i).deepResolve = true ∧ ((s.append p e).at i).deepResolve = false
            · exact b4 i q hdr.1 hdr.2 h4 h5
            · have hq : q < s.heap.length := by
                have h4' := h4
                rw [a3] at h4'
                by_cases hi0 : i = 0
                · subst hi0; rw [inv.heap.doc.2.1] at h4'; simp at h4'
                · obtain ⟨_, q', hq', hqi, _⟩ := inv.heap.par i (by omega) (by omega)
                  rw [h4'] at hq'; injection hq' with hq'; omega
              apply b1
              rw [(append_at_more s p e hq).2.2.2]
              rw [a3] at h4
              refine c.deep i q (by omega) ?_ ?_ h4 h5
              · exact (hi i (by omega)).2.1 h2
              · simp only [Elem.pending, Bool.or_eq_true] at h3 ⊢
                rcases h3 with h3 | h3
                · left; rw [← (hi i (by omega)).1]; exact h3
                · right
                  simp only [h3, true_and] at hdr
                  rw [a4] at hdr
                  simpa using hdr
        · simp only
          rw [b3, (append_at_more s p e inv.heap.pos).2.2.2]; exact c.doc
        · simp only
          refine (c.mark.append (p := p) e7).mono (by rw [hml]; exact Nat.le_refl _) ?_ ?_
          · intro i _; exact ⟨(hmf i).2.2.2.2.1, by rw [(hmf i).1], (hmf i).2.1⟩
          · intro i hid
            have hpar : ∀ j p', ((s.append p e).at j).parent = some p' → (h'.at j).parent = some p' := by
              intro j p' hj; rw [(hmf j).2.1]; exact hj
            have hnp : (h'.at s.heap.length).parent = some p := by rw [(hmf _).2.1, at_AS_append_last, e1]
            rcases b5 i hid with q | q | q
            · exact .inl q
            · refine .inr ⟨_, by rw [hml, hlen]; omega, hnew.2, by rw [hnew.1]; rfl, ?_⟩
              subst q; exact .parent hnp
            · refine .inr ⟨_, by rw [hml, hlen]; omega, hnew.2, by rw [hnew.1]; rfl, ?_⟩
              exact .step hnp (above_mono hpar q)

theorem copyInv_applyEvent (inv : Inv s) (c : CopyInv s) (hev : ev.Shaped) (h : applyEvent s ev = .ok s') : CopyInv s' := by
  cases ev with
  | multi n b fin op key body T =>
    simp only [applyEvent] at h; injection h with h; subst h
    have c1 : CopyInv (openMultiline s n b fin op key) := c.append inv.heap inv.sec.lt rfl rfl rfl rfl rfl rfl
    refine c1.congr (by simp [closeMultiline]) rfl rfl ?_
    intro i
    simp only [closeMultiline]
    rw [Heap.at_modify]
    split
    · rename_i hh; rw [hh.1]; simp
    · simp
  | line n b t =>
    obtain ⟨hs, ho⟩ := hev
    simp only [applyEvent] at h
    unfold step at h
    cases hb : t.body with
    | empty =>
      rw [hb] at h; simp at h; subst h
      exact c.congr rfl rfl rfl (fun i => ⟨rfl, Iff.rfl, rfl, rfl⟩)
    | comment op v =>
      rw [hb] at h; simp at h; subst h
      exact c.congr rfl rfl rfl (fun i => ⟨rfl, Iff.rfl, rfl, rfl⟩)
    | element k op v =>
      rw [hb] at h; simp at h; subst h
      exact c.append inv.heap inv.sec.lt rfl rfl rfl rfl rfl rfl
    | copy k op tm =>
      rw [hb] at h; simp at h; subst h
      unfold stepCopy
      simp only
      generalize hE : ({ line := n, ranges := _, comments := s.comments, key := k.text, type := Ty.empty, template := _, copy := _, parent := _ } : Elem) = e
      have e1 : e.parent = some s.lastSection := by rw [← hE]
      have e2 : e.copy = some tm.text := by rw [← hE]
      have e3 : e.type = .empty := by rw [← hE]
      have e4 : e.deepResolve = false := by rw [← hE]
      clear hE
      have hlen := append_length s s.lastSection e
      have hi : ∀ i, i < s.heap.length → ((s.append s.lastSection e).at i).copy = (s.heap.at i).copy ∧ (((s.append s.lastSection e).at i).type = .section ↔ (s.heap.at i).type = .section) := by
        intro i hi; obtain ⟨a1, a2, _⟩ := append_at_more s s.lastSection e hi; exact ⟨a1, by rw [a2]⟩
      refine ⟨?_, ?_, ?_, ?_, ?_⟩
      · exact c.secs.skip hlen hi (.inr (by rw [at_AS_append_last, e3]; decide))
      · exact c.nons.add hlen hi (by rw [at_AS_append_last, e2]) (by rw [at_AS_append_last, e3]; decide)
      · exact c.deep.append inv.heap (.inr (by rw [e3]; decide))
      · exact (append_at_more s _ e inv.heap.pos).2.2.2.trans c.doc
      · exact c.mark.append e4
    | heading op k cp =>
      rw [hb] at h hs
      obtain ⟨h1, h2, _⟩ := hs
      exact copyInv_stepHeading inv c (by omega) h
    | multiline op key => exact absurd hb (ho op key)
    | listItem op v =>
      rw [hb] at h; simp only at h
      unfold stepListItem at h
      simp only at h
      split at h
      · simp at h
      · rename_i m hm
        obtain ⟨hl, hty⟩ := inv.cur.non_some m hm
        split at h
        · split at h
          · simp at h
          · simp at h; subst h
            refine c.congr (by simp) rfl rfl ?_
            intro i
            simp only [Heap.at_modify]
            split
            · rename_i hh; rw [hh.1]; simp
            · simp
        · split at h
          · rename_i hty'
            simp at h; subst h
            refine c.congr (by simp) rfl rfl ?_
            intro i
            simp only [Heap.at_modify]
            split
            · rename_i hh; rw [hh.1]; simp [hty']
            · simp
          · simp at h
    | entry k op v =>
      rw [hb] at h; simp only at h
      unfold stepEntry at h
      simp only at h
      split at h
      · simp at h
      · rename_i m hm
        obtain ⟨hl, hty⟩ := inv.cur.non_some m hm
        split at h
        · split at h
          · simp at h
          · simp at h; subst h
            refine c.congr (by simp) rfl rfl ?_
            intro i
            simp only [Heap.at_modify]
            split
            · rename_i hh; rw [hh.1]; simp
            · simp
        · split at h
          · rename_i hty'
            simp at h; subst h
            refine c.congr (by simp) rfl rfl ?_
            intro i
            simp only [Heap.at_modify]
            split
            · rename_i hh; rw [hh.1]; simp [hty']
            · simp
          · simp at h
    | continuation sp op v =>
      rw [hb] at h; simp only at h
      unfold stepContinuation at h
      simp only at h
      split at h
      · simp at h
      · simp at h; subst h
        refine c.congr (by simp) rfl rfl ?_
        intro i
        simp only [Heap.at_modify]
        split
        · rename_i hh; rw [hh.1]
          unfold Elem.addCont
          split
          · simp
          · simp only [true_and, and_true]
            split
            · rename_i he; simp [he]
            · rfl
        · simp
      · simp at h; subst h
        refine c.congr (by simp) rfl rfl ?_
        intro i
        simp only [Heap.at_modify]
        split
        · rename_i hh; rw [hh.1]; simp [Elem.addContLast]
        · simp

theorem copyInv_runEvents : ∀ {es : List Event} {s s' : AS}, Inv s → CopyInv s → (∀ ev ∈ es, ev.Shaped) → runEvents s es = .ok s' → CopyInv s' := by
  intro es
  induction es with
  | nil => intro s s' _ c _ h; simp [runEvents] at h; subst h; exact c
  | cons e es ih =>
    intro s s' inv c hev h
    unfold runEvents at h
    split at h
    · rename_i s1 h1
      exact ih (inv_applyEvent inv (hev e (by simp)) h1) (copyInv_applyEvent inv c (hev e (by simp)) h1) (fun x hx => hev x (by simp [hx])) h
    · simp at h

/-- What is known about an analysed document before copies are resolved. -/
structure Analysed (ctx : Ctx) : Prop where
  heap : HeapOk ctx.heap
  secs : DictOk ctx.heap true ctx.copySections
  nons : DictOk ctx.heap false ctx.copyNonSections
  deep : DeepOk ctx.heap
  doc : (ctx.heap.at 0).deepResolve = false
  mark : MarkOk ctx.heap

theorem analyze_analysed {input : Str} {ctx : Ctx} (h : analyze input = .ok ctx) : Analysed ctx := by
  obtain ⟨es, n, s, ht, hr, rfl⟩ := analyze_ok h
  have inv := inv_trace ht hr
  have c := copyInv_runEvents inv_init copyInv_init (trace_shaped ht) hr
  exact ⟨inv.heap, c.secs, c.nons, c.deep, c.doc, c.mark⟩

end Eno
