import Verif.Proofs.NonSectionPhase

/-! # Merging a section with its template -/

namespace Eno

open Spec

variable {h h' h0 h1 : Heap} {i j n p t t' : Nat} {sec : Bool} {k : Str} {d : Copies}

/-- A section copy after it has been resolved. -/
def consS (e t : Elem) (tid : Nat) : Elem :=
  let e := { inheritC e t with copy := none, deepResolve := false }
  if e.elements = [] then { e with mirror := some (t.mirror.getD tid) } else { e with extend := some tid }

/-- Only comments and links differ. -/
def Linked (a b : Elem) : Prop := a = { b with comments := a.comments, mirror := a.mirror, extend := a.extend }

theorem Linked.refl {a : Elem} : Linked a a := rfl

theorem Linked.trans {a b c : Elem} (h1 : Linked a b) (h2 : Linked b c) : Linked a c := by
  unfold Linked at *
  rw [h1, h2]

theorem Linked.fields {a b : Elem} (h : Linked a b) : a.type = b.type ∧ a.elements = b.elements ∧ a.copy = b.copy ∧ a.deepResolve = b.deepResolve ∧
    a.parent = b.parent ∧ a.key = b.key ∧ a.template = b.template ∧ a.deepCopy = b.deepCopy := by
  unfold Linked at h; rw [h]; simp

/-- The part of the heap that consolidation may change. -/
structure SecFrame (h h' : Heap) (s : Nat) (deep : Bool) : Prop where
  len : h'.length = h.length
  linked : ∀ j, Linked (h'.at j) (h.at j)
  only : ∀ j, h'.at j = h.at j ∨ j = s ∨ (deep = true ∧ (h.at j).type = .section ∧ Above h s j)

theorem Spec.Above.congr (hp : ∀ j, (h'.at j).parent = (h.at j).parent) {a : Nat} (ha : Above h' a j) : Above h a j := by
  induction ha with
  | parent h1 => exact .parent (by rw [← hp]; exact h1)
  | step h1 _ ih => exact .step (by rw [← hp]; exact h1) ih

theorem Spec.Above.trans {a b c : Nat} (h1 : Above h a b) (h2 : Above h b c) : Above h a c := by
  induction h2 with
  | parent h3 => exact .step h3 h1
  | step h3 _ ih => exact .step h3 (ih h1)

theorem lookup_mapSet {m : List (Str × Merger)} {k' : Str} {v : Merger} : List.lookup k' (mapSet m k v) = if k' = k then some v else List.lookup k' m := by
  induction m with
  | nil => simp [mapSet, List.lookup_cons]; split <;> simp_all
  | cons a m ih =>
    obtain ⟨q, w⟩ := a
    simp only [mapSet]
    split
    · rename_i hq; subst hq
      simp only [List.lookup_cons]
      by_cases hk : k' = q
      · simp [hk]
      · have : (k' == q) = false := by simpa using hk
        simp [this, hk]
    · rename_i hq
      simp only [List.lookup_cons]
      by_cases hk : k' = q
      · subst hk; simp [hq]
      · have : (k' == q) = false := by simpa using hk
        simp only [this]; exact ih

theorem mem_mapSet {m : List (Str × Merger)} {v : Merger} {kv : Str × Merger} (hm : kv ∈ mapSet m k v) : kv ∈ m ∨ kv = (k, v) := by
  induction m with
  | nil => simp [mapSet] at hm; exact .inr hm
  | cons a m ih =>
    obtain ⟨q, w⟩ := a
    simp only [mapSet] at hm
    split at hm
    · rename_i hq; subst hq
      rcases List.mem_cons.1 hm with e | e
      · exact .inr e
      · exact .inl (by simp [e])
    · rcases List.mem_cons.1 hm with e | e
      · exact .inl (by simp [e])
      · rcases ih e with e | e
        · exact .inl (by simp [e])
        · exact .inr e

theorem mem_of_lookup {m : List (Str × Merger)} {v : Merger} (h : List.lookup k m = some v) : (k, v) ∈ m := by
  induction m with
  | nil => simp at h
  | cons a m ih =>
    obtain ⟨k', c'⟩ := a
    rw [List.lookup_cons] at h
    split at h
    · rename_i hk; simp at h hk; subst h; subst hk; simp
    · exact List.mem_cons_of_mem _ (ih h)

theorem mergeOwn_mem (h : Heap) (els : List Nat) : ∀ kv ∈ mergeOwn h els, ∀ s t, kv.2 = .yes s t → s ∈ els ∧ (h.at s).type = .section ∧ t = none ∧ (h.at s).key = kv.1 := by
  unfold mergeOwn
  have : ∀ (l : List Nat) (m : List (Str × Merger)), (∀ i ∈ l, i ∈ els) →
      (∀ kv ∈ m, ∀ s t, kv.2 = .yes s t → s ∈ els ∧ (h.at s).type = .section ∧ t = none ∧ (h.at s).key = kv.1) →
      ∀ kv ∈ l.foldl (fun m i => if (h.at i).type ≠ .section ∨ (List.lookup (h.at i).key m).isSome then mapSet m (h.at i).key .no
        else mapSet m (h.at i).key (.yes i none)) m, ∀ s t, kv.2 = .yes s t → s ∈ els ∧ (h.at s).type = .section ∧ t = none ∧ (h.at s).key = kv.1 := by
    intro l
    induction l with
    | nil => intro m _ hm; exact hm
    | cons i l ih =>
      intro m hl hm
      rw [List.foldl_cons]
      apply ih _ (fun j hj => hl j (by simp [hj]))
      intro kv hkv s t hst
      split at hkv
      · rcases mem_mapSet hkv with h1 | h1
        · exact hm kv h1 s t hst
        · subst h1; simp at hst
      · rename_i hc
        simp only [not_or, Decidable.not_not] at hc
        rcases mem_mapSet hkv with h1 | h1
        · exact hm kv h1 s t hst
        · subst h1; simp at hst
          obtain ⟨rfl, rfl⟩ := hst
          exact ⟨hl i (by simp), hc.1, rfl, rfl⟩
  exact this els [] (fun _ h => h) (by simp)

theorem mergeTemplate_mem (h : Heap) (own els : List Nat) : ∀ kv ∈ mergeTemplate h els (mergeOwn h own), ∀ s t, kv.2 = .yes s (some t) →
    s ∈ own ∧ (h.at s).type = .section ∧ t ∈ els ∧ (h.at t).type = .section ∧ (h.at s).key = (h.at t).key := by
  unfold mergeTemplate
  have : ∀ (l : List Nat) (m : List (Str × Merger)), (∀ i ∈ l, i ∈ els) →
      (∀ kv ∈ m, ∀ s t, kv.2 = .yes s t → s ∈ own ∧ (h.at s).type = .section ∧ (h.at s).key = kv.1 ∧
        ∀ t', t = some t' → t' ∈ els ∧ (h.at t').type = .section ∧ (h.at s).key = (h.at t').key) →
      ∀ kv ∈ l.foldl (fun (m : List (Str × Merger)) i =>
        match List.lookup (h.at i).key m with
        | none => m
        | some .no => m
        | some (.yes s t) =>
          if (h.at i).type ≠ .section ∨ t.isSome then mapSet m (h.at i).key .no
          else mapSet m (h.at i).key (.yes s (some i))) m, ∀ s t, kv.2 = .yes s t → s ∈ own ∧ (h.at s).type = .section ∧ (h.at s).key = kv.1 ∧
        ∀ t', t = some t' → t' ∈ els ∧ (h.at t').type = .section ∧ (h.at s).key = (h.at t').key := by
    intro l
    induction l with
    | nil => intro m _ hm; exact hm
    | cons i l ih =>
      intro m hl hm
      rw [List.foldl_cons]
      apply ih _ (fun j hj => hl j (by simp [hj]))
      intro kv hkv s t hst
      split at hkv
      · exact hm kv hkv s t hst
      · exact hm kv hkv s t hst
      · rename_i s' t' hlk
        have hold := hm _ (mem_of_lookup hlk) s' t' rfl
        split at hkv
        · rcases mem_mapSet hkv with h1 | h1
          · exact hm kv h1 s t hst
          · subst h1; simp at hst
        · rename_i hc
          simp only [not_or, Decidable.not_not] at hc
          rcases mem_mapSet hkv with h1 | h1
          · exact hm kv h1 s t hst
          · subst h1; simp at hst
            obtain ⟨rfl, rfl⟩ := hst
            refine ⟨hold.1, hold.2.1, hold.2.2.1, ?_⟩
            intro t' ht'; simp at ht'; subst ht'
            exact ⟨hl i (by simp), hc.1, hold.2.2.1⟩
  intro kv hkv s t hst
  have hown : ∀ kv ∈ mergeOwn h own, ∀ s t, kv.2 = .yes s t → s ∈ own ∧ (h.at s).type = .section ∧ (h.at s).key = kv.1 ∧
        ∀ t', t = some t' → t' ∈ els ∧ (h.at t').type = .section ∧ (h.at s).key = (h.at t').key := by
    intro kv hkv s t hst
    obtain ⟨a, b, c, e⟩ := mergeOwn_mem h own kv hkv s t hst
    subst c
    exact ⟨a, b, e, by simp⟩
  obtain ⟨a, b, c, e⟩ := this els _ (fun _ h => h) hown kv hkv s (some t) hst
  obtain ⟨f1, f2, f3⟩ := e t rfl
  exact ⟨a, b, f1, f2, f3⟩

/-- The shape of the heap that makes the recursion end. -/
structure TreeOk (h : Heap) : Prop where
  kids : ∀ s, s < h.length → ∀ c ∈ (h.at s).elements, c < h.length ∧ s < c ∧ (h.at c).parent = some s
  up : ∀ j p, (h.at j).parent = some p → p < j

theorem TreeOk.congr (ok : TreeOk h) (hl' : h'.length = h.length) (hl : ∀ j, Linked (h'.at j) (h.at j)) : TreeOk h' := by
  refine ⟨?_, ?_⟩
  · intro s hs c hc
    rw [(hl s).fields.2.1] at hc
    obtain ⟨a, b, e⟩ := ok.kids s (by omega) c hc
    exact ⟨by omega, b, by rw [(hl c).fields.2.2.2.2.1]; exact e⟩
  · intro j p hp
    rw [(hl j).fields.2.2.2.2.1] at hp
    exact ok.up j p hp

theorem HeapOk.tree (ok : HeapOk h) : TreeOk h := by
  refine ⟨?_, ?_⟩
  · intro s hs c hc
    obtain ⟨a, b⟩ := (mem_elements ok hs).1 hc
    exact ⟨a, (child_gt ok a b).2.1, b⟩
  · intro j p hp
    by_cases hj : j < h.length
    · exact (child_gt ok hj hp).2.1
    · rw [Heap.at_ge (by omega)] at hp; simp [Elem.document] at hp

theorem TreeOk.above_lt (ok : TreeOk h) {a : Nat} (ha : Above h a j) : a < j := by
  induction ha with
  | parent h1 => exact ok.up _ _ h1
  | step h1 _ ih => have := ok.up _ _ h1; omega

theorem linked_inheritC {e t : Elem} : Linked (inheritC e t) e := by
  unfold inheritC; split <;> rfl

theorem SecFrame.refl {s : Nat} {deep : Bool} : SecFrame h h s deep := ⟨rfl, fun _ => .refl, fun _ => .inl rfl⟩

theorem SecFrame.set {s : Nat} {deep : Bool} {e : Elem} (hs : s < h.length) (he : Linked e (h.at s)) : SecFrame h (h.set s e) s deep := by
  refine ⟨by simp, ?_, ?_⟩
  · intro j
    by_cases hj : j = s
    · subst hj; rw [Heap.at_set_self hs]; exact he
    · rw [Heap.at_set_ne hj]; exact .refl
  · intro j
    by_cases hj : j = s
    · exact .inr (.inl hj)
    · left; rw [Heap.at_set_ne hj]

/-- What remains in a section of merging it with its template. -/
def linkS (e t : Elem) (tid : Nat) : Elem :=
  if e.elements = [] then { inheritC e t with mirror := some (t.mirror.getD tid) } else { inheritC e t with extend := some tid }

theorem linked_linkS {e t : Elem} {tid : Nat} : Linked (linkS e t tid) e := by
  unfold linkS inheritC; split <;> split <;> rfl

/-- Merging always ends and touches nothing but the section and sections below it. -/
theorem consolidate_frame : ∀ (n : Nat) (h : Heap) (s t : Nat) (deep : Bool), TreeOk h → s < h.length → h.length - s < n →
    ∃ h', consolidateSections n h s t deep = .ok h' ∧ SecFrame h h' s deep ∧ (t ≠ s → h'.at s = linkS (h.at s) (h.at t) t) := by
  intro n
  induction n with
  | zero => intro h s t deep ok hs hn; omega
  | succ n ih =>
    intro h s t deep ok hs hn
    unfold consolidateSections
    have hic := inheritComments_eq (t := t) hs
    have hs' : s < (inheritComments h s t).length := by rw [hic]; simpa using hs
    have hel : (Heap.at (inheritComments h s t) s).elements = (h.at s).elements := by
      rw [hic, Heap.at_set_self hs]; exact linked_inheritC.fields.2.1
    simp only [hel]
    split
    · rename_i he
      refine ⟨_, rfl, ?_, ?_⟩
      · rw [mirrorTo_eq hs', hic, List.set_set, Heap.at_set_self hs]
        apply SecFrame.set hs
        unfold inheritC; split <;> rfl
      · intro hts
        rw [mirrorTo_eq hs', hic, List.set_set, Heap.at_set_self hs, Heap.at_set_self hs, Heap.at_set_ne hts]
        simp [linkS, he]
    · rename_i he
      have hse : ((inheritComments h s t).modify s fun e => { e with extend := some t }) =
          h.set s { inheritC (h.at s) (h.at t) with extend := some t } := by
        rw [Heap.modify_eq_set hs', hic, List.set_set, Heap.at_set_self hs]
      have f2 : SecFrame h ((inheritComments h s t).modify s fun e => { e with extend := some t }) s deep := by
        rw [hse]
        apply SecFrame.set hs
        unfold inheritC; split <;> rfl
      have g2 : Heap.at ((inheritComments h s t).modify s fun e => { e with extend := some t }) s = linkS (h.at s) (h.at t) t := by
        rw [hse, Heap.at_set_self hs]; simp [linkS, he]
      split
      · exact ⟨_, rfl, f2, fun _ => g2⟩
      · rename_i hdeep
        have hdeep : deep = true := by simpa using hdeep
        subst hdeep
        generalize hh2 : ((inheritComments h s t).modify s fun e => { e with extend := some t }) = h2 at f2 g2 ⊢
        have hm : ∀ kv ∈ mergeTemplate h2 (Heap.at h2 t).elements (mergeOwn h2 (Heap.at h2 s).elements), ∀ a b, kv.2 = .yes a (some b) →
            a ∈ (h.at s).elements ∧ (h.at a).type = .section := by
          intro kv hkv a b hab
          obtain ⟨g1, g2, _⟩ := mergeTemplate_mem h2 _ _ kv hkv a b hab
          rw [(f2.linked s).fields.2.1] at g1
          rw [(f2.linked a).fields.1] at g2
          exact ⟨g1, g2⟩
        revert hm f2
        generalize mergeTemplate h2 (Heap.at h2 t).elements (mergeOwn h2 (Heap.at h2 s).elements) = m
        clear hh2 hse
        intro f2 hm
        induction m generalizing h2 with
        | nil => exact ⟨h2, rfl, f2, fun _ => g2⟩
        | cons kv m ihm =>
          rw [List.foldlM_cons]
          have hstep : ∀ a b, kv.2 = .yes a (some b) → ∃ h3, consolidateSections n h2 a b true = .ok h3 ∧ SecFrame h h3 s true ∧
              h3.at s = linkS (h.at s) (h.at t) t := by
            intro a b hab
            obtain ⟨g1, g3⟩ := hm kv (by simp) a b hab
            obtain ⟨t1, t2, t3⟩ := ok.kids s hs a g1
            have ok2 := ok.congr f2.len f2.linked
            obtain ⟨h3, e3, f3, _⟩ := ih h2 a b true ok2 (by rw [f2.len]; exact t1) (by rw [f2.len]; omega)
            refine ⟨h3, e3, ⟨by rw [f3.len, f2.len], fun j => (f3.linked j).trans (f2.linked j), ?_⟩, ?_⟩
            · intro j
              have hp : ∀ j, (Heap.at h2 j).parent = (h.at j).parent := fun j => (f2.linked j).fields.2.2.2.2.1
              rcases f3.only j with q | q | ⟨_, q1, q2⟩
              · rcases f2.only j with r | r | r
                · left; rw [q, r]
                · exact .inr (.inl r)
                · exact .inr (.inr r)
              · subst q; right; right; exact ⟨rfl, g3, .parent t3⟩
              · right; right
                refine ⟨rfl, by rw [← (f2.linked j).fields.1]; exact q1, ?_⟩
                exact (Spec.Above.parent t3).trans (q2.congr hp)
            · rcases f3.only s with q | q | ⟨_, _, q2⟩
              · rw [q]; exact g2
              · omega
              · have := ok2.above_lt q2; omega
          have hm' : ∀ kv ∈ m, ∀ a b, kv.2 = .yes a (some b) → a ∈ (h.at s).elements ∧ (h.at a).type = .section := fun kv hkv => hm kv (by simp [hkv])
          split
          · rename_i a b hab
            obtain ⟨h3, e3, f3, g3⟩ := hstep a b hab
            rw [e3]
            exact ihm h3 g3 f3 hm'
          · exact ihm h2 g2 f2 hm'

end Eno
