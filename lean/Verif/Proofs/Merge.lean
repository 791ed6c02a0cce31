import Verif.Proofs.Consolidate
import Verif.Spec.Merge

/-! # Which sections a deep copy merges -/

namespace Eno

open Spec

variable {h h' h0 h1 : Heap} {i j n p q t s x y : Nat} {k : Str} {els own : List Nat} {deep : Bool}

/-! ## The map of sections to merge -/

theorem keys_mapSet {m : List (Str × Merger)} {v : Merger} (hn : (m.map Prod.fst).Nodup) : ((mapSet m k v).map Prod.fst).Nodup ∧
    ∀ k', k' ∈ (mapSet m k v).map Prod.fst ↔ k' ∈ m.map Prod.fst ∨ k' = k := by
  induction m with
  | nil => simp [mapSet]
  | cons a m ih =>
    obtain ⟨q, w⟩ := a
    simp only [List.map_cons, List.nodup_cons] at hn
    obtain ⟨i1, i2⟩ := ih hn.2
    simp only [mapSet]
    split
    · rename_i hq; subst hq
      simp only [List.map_cons, List.nodup_cons, List.mem_cons]
      refine ⟨hn, fun k' => ?_⟩
      constructor
      · exact .inl
      · rintro (h | h)
        · exact h
        · exact .inl h
    · rename_i hq
      simp only [List.map_cons, List.nodup_cons, List.mem_cons]
      refine ⟨⟨?_, i1⟩, fun k' => ?_⟩
      · rw [i2]
        rintro (h | h)
        · exact hn.1 h
        · exact hq h
      · rw [i2]
        constructor
        · rintro (h | h | h)
          · exact .inl (.inl h)
          · exact .inl (.inr h)
          · exact .inr h
        · rintro ((h | h) | h)
          · exact .inl h
          · exact .inr (.inl h)
          · exact .inr (.inr h)

theorem lookup_of_mem {m : List (Str × Merger)} {v : Merger} (hn : (m.map Prod.fst).Nodup) (hm : (k, v) ∈ m) : List.lookup k m = some v := by
  induction m with
  | nil => simp at hm
  | cons a m ih =>
    obtain ⟨q, w⟩ := a
    simp only [List.map_cons, List.nodup_cons] at hn
    rw [List.lookup_cons]
    rcases List.mem_cons.1 hm with e | e
    · injection e with e1 e2; subst e1; subst e2; simp
    · have : k ≠ q := by
        rintro rfl
        exact hn.1 (List.mem_map.2 ⟨_, e, rfl⟩)
      have : (k == q) = false := by simpa using this
      simp only [this]
      exact ih hn.2 e

/-- What is recorded for a key after the elements of the section. -/
def ownMerger (h : Heap) : List Nat → Option Merger
  | [] => none
  | [x] => some (if (h.at x).type = .section then .yes x none else .no)
  | _ => some .no

/-- One round of resolver.py:60-64. -/
def ownStep (h : Heap) (m : List (Str × Merger)) (i : Nat) : List (Str × Merger) :=
  if (h.at i).type ≠ .section ∨ (List.lookup (h.at i).key m).isSome then mapSet m (h.at i).key .no else mapSet m (h.at i).key (.yes i none)

/-- One round of resolver.py:66-76. -/
def templateStep (h : Heap) (m : List (Str × Merger)) (i : Nat) : List (Str × Merger) :=
  match List.lookup (h.at i).key m with
  | none => m
  | some .no => m
  | some (.yes s t) =>
    if (h.at i).type ≠ .section ∨ t.isSome then mapSet m (h.at i).key .no
    else mapSet m (h.at i).key (.yes s (some i))

theorem mergeOwn_eq : mergeOwn h els = els.foldl (ownStep h) [] := rfl

theorem mergeTemplate_eq {m : List (Str × Merger)} : mergeTemplate h els m = els.foldl (templateStep h) m := rfl

theorem filter_key_snoc (l : List Nat) (i : Nat) (k : Str) :
    (l ++ [i]).filter (fun j => (h.at j).key = k) = l.filter (fun j => (h.at j).key = k) ++ (if (h.at i).key = k then [i] else []) := by
  rw [List.filter_append]
  congr 1
  simp only [List.filter_cons, List.filter_nil]
  by_cases hk : (h.at i).key = k <;> simp [hk]

theorem mergeOwn_spec (h : Heap) (els : List Nat) : ((mergeOwn h els).map Prod.fst).Nodup ∧
    ∀ k, List.lookup k (mergeOwn h els) = ownMerger h (els.filter fun i => (h.at i).key = k) := by
  rw [mergeOwn_eq]
  induction els using snoc_induction with
  | h0 => exact ⟨by simp, fun k => rfl⟩
  | h1 l i ih =>
    obtain ⟨ih1, ih2⟩ := ih
    rw [List.foldl_append, List.foldl_cons, List.foldl_nil]
    generalize l.foldl (ownStep h) [] = m' at *
    refine ⟨?_, fun k => ?_⟩
    · unfold ownStep; split <;> exact (keys_mapSet ih1).1
    · rw [filter_key_snoc]
      have hi := ih2 (h.at i).key
      unfold ownStep
      by_cases hk : (h.at i).key = k
      · subst hk
        simp only [if_true]
        rw [hi]
        cases hf : l.filter (fun j => (h.at j).key = (h.at i).key) with
        | nil =>
          simp only [ownMerger, Option.isSome_none, Bool.false_eq_true, or_false, List.nil_append]
          by_cases hs : (h.at i).type = .section
          · simp [hs, lookup_mapSet]
          · simp [hs, lookup_mapSet]
        | cons a as =>
          have h1 : (ownMerger h (a :: as)).isSome = true := by cases as <;> rfl
          have h2 : ownMerger h (a :: as ++ [i]) = some .no := by cases as <;> rfl
          rw [h2]
          simp [h1, lookup_mapSet]
      · have hk' : ¬ k = (h.at i).key := fun e => hk e.symm
        rw [if_neg hk, List.append_nil, ← ih2 k]
        split <;> rw [lookup_mapSet, if_neg hk']

/-- What is recorded for a key after the elements of the template. -/
def templateMerger (h : Heap) : Option Merger → List Nat → Option Merger
  | some (.yes x none), [] => some (.yes x none)
  | some (.yes x none), [y] => some (if (h.at y).type = .section then .yes x (some y) else .no)
  | some (.yes _ none), _ => some .no
  | v, _ => v

theorem mergeTemplate_spec (h : Heap) (els : List Nat) (m : List (Str × Merger)) (hm : (m.map Prod.fst).Nodup)
    (hn : ∀ k x y, List.lookup k m ≠ some (.yes x (some y))) : ((mergeTemplate h els m).map Prod.fst).Nodup ∧
    ∀ k, List.lookup k (mergeTemplate h els m) = templateMerger h (List.lookup k m) (els.filter fun i => (h.at i).key = k) := by
  rw [mergeTemplate_eq]
  induction els using snoc_induction with
  | h0 =>
    refine ⟨hm, fun k => ?_⟩
    have hnk := hn k
    show List.lookup k m = templateMerger h (List.lookup k m) []
    generalize List.lookup k m = v at *
    rcases v with _ | v
    · rfl
    · rcases v with _ | ⟨x, _ | y⟩
      · rfl
      · rfl
      · exact absurd rfl (hnk x y)
  | h1 l i ih =>
    obtain ⟨ih1, ih2⟩ := ih
    rw [List.foldl_append, List.foldl_cons, List.foldl_nil]
    generalize l.foldl (templateStep h) m = m' at *
    refine ⟨?_, fun k => ?_⟩
    · unfold templateStep
      split
      · exact ih1
      · exact ih1
      · split <;> exact (keys_mapSet ih1).1
    · rw [filter_key_snoc]
      by_cases hk : (h.at i).key = k
      · subst hk
        simp only [if_true]
        have hi := ih2 (h.at i).key
        have hnk := hn (h.at i).key
        unfold templateStep
        generalize hv : List.lookup (h.at i).key m = v at hi hnk ⊢
        generalize l.filter (fun j => (h.at j).key = (h.at i).key) = f at hi ⊢
        rcases v with _ | v
        · have : List.lookup (h.at i).key m' = none := hi
          rw [this]; simp only [this]; rfl
        · rcases v with _ | ⟨x, _ | y⟩
          · have : List.lookup (h.at i).key m' = some .no := hi
            rw [this]; simp only [this]; rfl
          · cases f with
            | nil =>
              have : List.lookup (h.at i).key m' = some (.yes x none) := hi
              rw [this]
              simp only [Option.isSome_none, Bool.false_eq_true, or_false, List.nil_append, templateMerger]
              by_cases hs : (h.at i).type = .section
              · simp [hs, lookup_mapSet]
              · simp [hs, lookup_mapSet]
            | cons a as =>
              have h2 : templateMerger h (some (.yes x none)) (a :: as ++ [i]) = some .no := by cases as <;> rfl
              rw [h2]
              cases as with
              | nil =>
                simp only [templateMerger] at hi
                by_cases hs : (h.at a).type = .section
                · rw [if_pos hs] at hi; rw [hi]; simp [lookup_mapSet]
                · rw [if_neg hs] at hi; rw [hi]; exact hi
              | cons b bs =>
                have : List.lookup (h.at i).key m' = some .no := hi
                rw [this]; exact this
          · exact absurd rfl (hnk x y)
      · have hk' : ¬ k = (h.at i).key := fun e => hk e.symm
        rw [if_neg hk, List.append_nil, ← ih2 k]
        unfold templateStep
        split
        · rfl
        · rfl
        · split <;> rw [lookup_mapSet, if_neg hk']

/-- What is to be merged: sections that are the only elements with their key. -/
theorem merge_map (h : Heap) (p q : Nat) : ((mergeTemplate h (h.at q).elements (mergeOwn h (h.at p).elements)).map Prod.fst).Nodup ∧
    ∀ k x y, (k, Merger.yes x (some y)) ∈ mergeTemplate h (h.at q).elements (mergeOwn h (h.at p).elements) ↔
      (h.at x).key = k ∧ (h.at y).key = k ∧ LoneSection h p x ∧ LoneSection h q y := by
  obtain ⟨o1, o2⟩ := mergeOwn_spec h (h.at p).elements
  have hn : ∀ k x y, List.lookup k (mergeOwn h (h.at p).elements) ≠ some (.yes x (some y)) := by
    intro k x y e
    rw [o2] at e
    generalize List.filter _ _ = f at e
    rcases f with _ | ⟨a, _ | ⟨b, bs⟩⟩
    · cases e
    · simp only [ownMerger] at e; split at e <;> cases e
    · cases e
  obtain ⟨t1, t2⟩ := mergeTemplate_spec h (h.at q).elements _ o1 hn
  refine ⟨t1, fun k x y => ?_⟩
  constructor
  · intro hm
    have e := lookup_of_mem t1 hm
    rw [t2, o2] at e
    generalize hf : (h.at p).elements.filter (fun i => (h.at i).key = k) = f at e
    generalize hg : (h.at q).elements.filter (fun i => (h.at i).key = k) = g at e
    rcases f with _ | ⟨a, _ | ⟨b, bs⟩⟩
    · cases e
    · simp only [ownMerger] at e
      by_cases ha : (h.at a).type = .section
      · rw [if_pos ha] at e
        rcases g with _ | ⟨c, _ | ⟨d, ds⟩⟩
        · cases e
        · simp only [templateMerger] at e
          by_cases hc : (h.at c).type = .section
          · rw [if_pos hc] at e
            simp only [Option.some.injEq, Merger.yes.injEq] at e
            obtain ⟨rfl, rfl⟩ := e
            have ka : (h.at a).key = k := by
              have : a ∈ (h.at p).elements.filter (fun i => (h.at i).key = k) := by rw [hf]; simp
              simpa using (List.mem_filter.1 this).2
            have kc : (h.at c).key = k := by
              have : c ∈ (h.at q).elements.filter (fun i => (h.at i).key = k) := by rw [hg]; simp
              simpa using (List.mem_filter.1 this).2
            exact ⟨ka, kc, ⟨ha, by rw [ka]; exact hf⟩, ⟨hc, by rw [kc]; exact hg⟩⟩
          · rw [if_neg hc] at e; cases e
        · cases e
      · rw [if_neg ha] at e
        cases e
    · cases e
  · rintro ⟨ka, kc, ⟨ha, hf⟩, ⟨hc, hg⟩⟩
    apply mem_of_lookup
    rw [ka] at hf
    rw [kc] at hg
    rw [t2, o2, hf, hg]
    simp [ownMerger, templateMerger, ha, hc]

/-! ## Pairs -/

/-- Nothing that matters for merging differs. -/
def SameShape (h h' : Heap) : Prop := ∀ j, (h'.at j).key = (h.at j).key ∧ (h'.at j).elements = (h.at j).elements ∧
  ((h'.at j).type = .section ↔ (h.at j).type = .section)

theorem SameShape.symm (S : SameShape h h') : SameShape h' h := fun j => ⟨(S j).1.symm, (S j).2.1.symm, (S j).2.2.symm⟩

theorem SameShape.trans {h'' : Heap} (S : SameShape h h') (S' : SameShape h' h'') : SameShape h h'' :=
  fun j => ⟨(S' j).1.trans (S j).1, (S' j).2.1.trans (S j).2.1, (S' j).2.2.trans (S j).2.2⟩

theorem SameShape.of_linked (hl : ∀ j, Linked (h'.at j) (h.at j)) : SameShape h h' := by
  intro j
  obtain ⟨a, b, _, _, _, c, _⟩ := (hl j).fields
  exact ⟨c, b, by rw [a]⟩

theorem Spec.LoneSection.congr (S : SameShape h h') (o : LoneSection h p x) : LoneSection h' p x := by
  refine ⟨(S x).2.2.2 o.1, ?_⟩
  rw [(S p).2.1, ← o.2]
  apply List.filter_congr
  intro i _
  simp only [(S i).1, (S x).1]

theorem Spec.Pairs.congr (S : SameShape h h') (P : Pairs h deep s t x y) : Pairs h' deep s t x y := by
  induction P with
  | top => exact .top
  | sub d _ o1 o2 hk ih => exact .sub d ih (o1.congr S) (o2.congr S) (by rw [(S _).1, (S _).1]; exact hk)

theorem Spec.LoneSection.mem (o : LoneSection h p x) : x ∈ (h.at p).elements := by
  have : x ∈ (h.at p).elements.filter (fun i => (h.at i).key = (h.at x).key) := by rw [o.2]; simp
  exact (List.mem_filter.1 this).1

theorem lt_of_elements (hx : x ∈ (h.at p).elements) : p < h.length := by
  apply Classical.byContradiction
  intro hn
  rw [Heap.at_ge (by omega)] at hx
  simp [Elem.document] at hx

/-- Going one step down first. -/
theorem Spec.Pairs.head (P : Pairs h true x y i j) (o1 : LoneSection h s x) (o2 : LoneSection h t y) (hk : (h.at x).key = (h.at y).key) :
    Pairs h true s t i j := by
  induction P with
  | top => exact .sub rfl .top o1 o2 hk
  | sub d _ o1' o2' hk' ih => exact .sub d ih o1' o2' hk'

theorem Spec.Pairs.uncons (P : Pairs h deep s t i j) : (i = s ∧ j = t) ∨
    (deep = true ∧ ∃ x y, LoneSection h s x ∧ LoneSection h t y ∧ (h.at x).key = (h.at y).key ∧ Pairs h true x y i j) := by
  induction P with
  | top => exact .inl ⟨rfl, rfl⟩
  | @sub p q x y d P o1 o2 hk ih =>
    subst d
    right
    refine ⟨rfl, ?_⟩
    rcases ih with ⟨rfl, rfl⟩ | ⟨_, a, b, q1, q2, q3, q4⟩
    · exact ⟨x, y, o1, o2, hk, .top⟩
    · exact ⟨a, b, q1, q2, q3, .sub rfl q4 o1 o2 hk⟩

/-- `j` is `s` or below it. -/
def InSubtree (h : Heap) (s j : Nat) : Prop := j = s ∨ Above h s j

theorem Spec.Pairs.within (ok : TreeOk h) (P : Pairs h deep s t i j) : InSubtree h s i := by
  induction P with
  | top => exact .inl rfl
  | sub _ _ o1 _ _ ih =>
    have hp := (ok.kids _ (lt_of_elements o1.mem) _ o1.mem).2.2
    rcases ih with e | e
    · subst e; exact .inr (.parent hp)
    · exact .inr (.step hp e)

/-- Above is linear. -/
theorem Spec.Above.comparable {a b : Nat} (h1 : Above h a j) (h2 : Above h b j) : a = b ∨ Above h a b ∨ Above h b a := by
  induction h1 with
  | parent e =>
    cases h2 with
    | parent e' => rw [e] at e'; injection e' with e'; exact .inl e'
    | step e' h2 => rw [e] at e'; injection e' with e'; subst e'; exact .inr (.inr h2)
  | step e h1 ih =>
    cases h2 with
    | parent e' => rw [e] at e'; injection e' with e'; subst e'; exact .inr (.inl h1)
    | step e' h2 => rw [e] at e'; injection e' with e'; subst e'; exact ih h2

/-- Different children have nothing below them in common. -/
theorem within_disjoint (ok : TreeOk h) {a b : Nat} (ha : (h.at a).parent = some s) (hb : (h.at b).parent = some s) (wa : InSubtree h a j) (wb : InSubtree h b j) : a = b := by
  have up : ∀ {c d : Nat}, (h.at c).parent = some s → (h.at d).parent = some s → ¬ Above h c d := by
    intro c d hc hd hab
    have l1 := ok.up _ _ hc
    cases hab with
    | parent e => rw [hd] at e; injection e with e; omega
    | step e q => rw [hd] at e; injection e with e; subst e; have := ok.above_lt q; omega
  rcases wa with e | wa
  · rcases wb with e' | wb
    · rw [← e, ← e']
    · subst e; exact absurd wb (up hb ha)
  · rcases wb with e' | wb
    · subst e'; exact absurd wa (up ha hb)
    · rcases wa.comparable wb with e | e | e
      · exact e
      · exact absurd e (up ha hb)
      · exact absurd e (up hb ha)

/-- A section is merged with at most one. -/
theorem Spec.Pairs.det (ok : TreeOk h) (P : Pairs h deep s t x y) : ∀ {z}, Pairs h deep s t x z → y = z := by
  induction P with
  | top =>
    intro z Q
    cases Q with
    | top => rfl
    | sub d Q o1 o2 hk =>
      have hp := (ok.kids _ (lt_of_elements o1.mem) _ o1.mem).2.2
      have l := ok.up _ _ hp
      rcases Q.within ok with e | e
      · omega
      · have := ok.above_lt e; omega
  | @sub p q x y d P o1 o2 hk ih =>
    intro z Q
    have hp := (ok.kids _ (lt_of_elements o1.mem) _ o1.mem).2.2
    cases Q with
    | top =>
      have l := ok.up _ _ hp
      rcases P.within ok with e | e
      · omega
      · have := ok.above_lt e; omega
    | @sub p' q' _ _ d' Q o1' o2' hk' =>
      have hp' := (ok.kids _ (lt_of_elements o1'.mem) _ o1'.mem).2.2
      rw [hp] at hp'; injection hp' with hp'; subst hp'
      have e := ih Q
      subst e
      have h1 := o2.2
      have h2 := o2'.2
      rw [← hk] at h1
      rw [← hk', h1] at h2
      simpa using h2

/-! ## Merging -/

/-- What merging does to the heap: every section that is merged is linked, to a template as it was before or as it is afterwards. -/
structure Merged (h h' : Heap) (deep : Bool) (s t : Nat) : Prop where
  linked : ∀ j, Linked (h'.at j) (h.at j)
  len : h'.length = h.length
  only : ∀ j, (∀ y, ¬ Pairs h deep s t j y) → h'.at j = h.at j
  done : ∀ j y, Pairs h deep s t j y → ∃ e, (e = h.at y ∨ e = h'.at y) ∧ h'.at j = linkS (h.at j) e y

/-- What merging several children of `s` does. -/
structure MergedAll (h h' : Heap) (m : List (Str × Merger)) : Prop where
  linked : ∀ j, Linked (h'.at j) (h.at j)
  len : h'.length = h.length
  only : ∀ j, (∀ k x y z, (k, Merger.yes x (some y)) ∈ m → ¬ Pairs h true x y j z) → h'.at j = h.at j
  done : ∀ k x y j z, (k, Merger.yes x (some y)) ∈ m → Pairs h true x y j z → ∃ e, (e = h.at z ∨ e = h'.at z) ∧ h'.at j = linkS (h.at j) e z

theorem merged_fold {n : Nat} (ih : ∀ (h : Heap) (x y : Nat), TreeOk h → x < h.length → h.length - x < n → ∃ h', consolidateSections n h x y true = .ok h' ∧ Merged h h' true x y) :
    ∀ (m : List (Str × Merger)) (h : Heap), TreeOk h → (m.map Prod.fst).Nodup →
    (∀ k x y, (k, Merger.yes x (some y)) ∈ m → (h.at x).parent = some s ∧ (h.at x).key = k ∧ x < h.length ∧ h.length - x < n) →
    ∃ h', m.foldlM (fun h kv => match kv.2 with | .yes s (some t) => consolidateSections n h s t true | _ => .ok h) h = .ok h' ∧ MergedAll h h' m := by
  intro m
  induction m with
  | nil => intro h ok _ _; exact ⟨h, rfl, fun _ => .refl, rfl, fun _ _ => rfl, by simp⟩
  | cons kv m ihm =>
    intro h ok hnd hm
    simp only [List.map_cons, List.nodup_cons] at hnd
    rw [List.foldlM_cons]
    have skip : (∀ x y, kv.2 ≠ .yes x (some y)) → ∃ h', m.foldlM (fun h kv => match kv.2 with | .yes s (some t) => consolidateSections n h s t true | _ => .ok h) h = .ok h' ∧
        MergedAll h h' (kv :: m) := by
      intro hno
      obtain ⟨h', e, M⟩ := ihm h ok hnd.2 (fun k x y hk => hm k x y (by simp [hk]))
      have hin : ∀ k x y, (k, Merger.yes x (some y)) ∈ kv :: m → (k, Merger.yes x (some y)) ∈ m := by
        intro k x y hk
        rcases List.mem_cons.1 hk with e | e
        · exact absurd (by rw [← e]) (hno x y)
        · exact e
      exact ⟨h', e, M.linked, M.len, fun j hj => M.only j (fun k x y z hk => hj k x y z (by simp [hk])), fun k x y j z hk => M.done k x y j z (hin k x y hk)⟩
    split
    · rename_i a b hab
      obtain ⟨pa, ka, la, na⟩ := hm kv.1 a b (by simp [← hab])
      obtain ⟨h2, e2, M2⟩ := ih h a b ok la na
      rw [e2]
      have ok2 := ok.congr M2.len M2.linked
      have S := SameShape.of_linked M2.linked
      have fld := fun j => (M2.linked j).fields
      obtain ⟨h', e, M⟩ := ihm h2 ok2 hnd.2 (by
        intro k x y hk
        obtain ⟨p1, p2, p3, p4⟩ := hm k x y (by simp [hk])
        exact ⟨by rw [(fld x).2.2.2.2.1]; exact p1, by rw [(fld x).2.2.2.2.2.1]; exact p2, by rw [M2.len]; exact p3, by rw [M2.len]; exact p4⟩)
      refine ⟨h', e, fun j => (M.linked j).trans (M2.linked j), by rw [M.len, M2.len], ?_, ?_⟩
      · intro j hj
        rw [M.only j (fun k x y z hk P => hj k x y z (by simp [hk]) (P.congr S.symm)), M2.only j (fun y => hj kv.1 a b y (by simp [← hab]))]
      · -- the subtrees of the first child and of the others are disjoint
        have apart : ∀ {k x y : _} {j : Nat}, (k, Merger.yes x (some y)) ∈ m → InSubtree h a j → InSubtree h x j → False := by
          intro k x y j hk wa wx
          obtain ⟨p1, p2, _⟩ := hm k x y (by simp [hk])
          have e := within_disjoint ok pa p1 wa wx
          subst e
          rw [ka] at p2
          exact hnd.1 (List.mem_map.2 ⟨_, hk, p2.symm⟩)
        have first : ∀ j, InSubtree h a j → h'.at j = h2.at j := by
          intro j wj
          apply M.only
          intro k x y z hk P
          exact apart hk wj ((P.congr S.symm).within ok)
        have second : ∀ j, ¬ InSubtree h a j → h2.at j = h.at j := by
          intro j wj
          apply M2.only
          intro z P
          exact wj (P.within ok)
        have mid : ∀ z, h2.at z = h.at z ∨ h2.at z = h'.at z := by
          intro z
          by_cases wz : InSubtree h a z
          · exact .inr (first z wz).symm
          · exact .inl (second z wz)
        intro k x y j z hk P
        rcases List.mem_cons.1 hk with e | e
        · have e1 : Merger.yes x (some y) = kv.2 := by rw [← e]
          rw [hab] at e1
          simp only [Merger.yes.injEq, Option.some.injEq] at e1
          obtain ⟨rfl, rfl⟩ := e1
          obtain ⟨w, hw, hj⟩ := M2.done j z P
          have wj := P.within ok
          refine ⟨w, ?_, by rw [first j wj]; exact hj⟩
          rcases hw with rfl | rfl
          · exact .inl rfl
          · exact mid z
        · obtain ⟨w, hw, hj⟩ := M.done k x y j z e (P.congr S)
          have wj := P.within ok
          refine ⟨w, ?_, by rw [hj, second j (fun wa => apart e wa wj)]⟩
          rcases hw with rfl | rfl
          · exact mid z
          · exact .inr rfl
    · rename_i hno
      exact skip hno

theorem inheritC_self (e : Elem) : inheritC e e = e := by
  unfold inheritC
  split
  · rfl
  · rfl

/-- Merging a section with its template links exactly the sections that are paired. -/
theorem consolidate_merged : ∀ (n : Nat) (h : Heap) (s t : Nat) (deep : Bool), TreeOk h → s < h.length → h.length - s < n →
    ∃ h', consolidateSections n h s t deep = .ok h' ∧ Merged h h' deep s t := by
  intro n
  induction n with
  | zero => intro h s t deep ok hs hn; omega
  | succ n ih =>
    intro h s t deep ok hs hn
    unfold consolidateSections
    have hic := inheritComments_eq (t := t) hs
    have hs' : s < (inheritComments h s t).length := by rw [hic]; simpa using hs
    have hel : (Heap.at (inheritComments h s t) s).elements = (h.at s).elements := by
      rw [hic, Heap.at_set_self hs]; exact linked_inheritC.fields.2.1
    simp only [hel]
    -- setting the links of `s` alone
    have one : ∀ h2 : Heap, h2 = h.set s (linkS (h.at s) (h.at t) t) → (∀ j y, Pairs h deep s t j y → j = s ∧ y = t) → Merged h h2 deep s t := by
      rintro h2 rfl hp
      refine ⟨?_, by simp, ?_, ?_⟩
      · intro j
        by_cases hj : j = s
        · subst hj; rw [Heap.at_set_self hs]; exact linked_linkS
        · rw [Heap.at_set_ne hj]; exact .refl
      · intro j hj
        have : j ≠ s := by rintro rfl; exact hj t .top
        rw [Heap.at_set_ne this]
      · intro j y P
        obtain ⟨rfl, rfl⟩ := hp j y P
        exact ⟨_, .inl rfl, Heap.at_set_self hs⟩
    split
    · rename_i he
      refine ⟨_, rfl, one _ ?_ ?_⟩
      · rw [mirrorTo_eq hs', hic, List.set_set, Heap.at_set_self hs]
        congr 1
        simp only [linkS, he, if_true]
        by_cases hts : t = s
        · subst hts; rw [Heap.at_set_self hs, inheritC_self]
        · rw [Heap.at_set_ne hts]
      · intro j y P
        rcases P.uncons with e | ⟨_, x, y', o, _⟩
        · exact e
        · have := o.mem; rw [he] at this; simp at this
    · rename_i he
      have hse : ((inheritComments h s t).modify s fun e => { e with extend := some t }) = h.set s (linkS (h.at s) (h.at t) t) := by
        rw [Heap.modify_eq_set hs', hic, List.set_set, Heap.at_set_self hs]; simp [linkS, he]
      split
      · rename_i hd
        refine ⟨_, rfl, one _ hse ?_⟩
        intro j y P
        rcases P.uncons with e | ⟨d, _⟩
        · exact e
        · rw [hd] at d; cases d
      · rename_i hdeep
        have hdeep : deep = true := by simpa using hdeep
        subst hdeep
        rw [hse]
        generalize hh2 : (h.set s (linkS (h.at s) (h.at t) t) : Heap) = h3
        obtain ⟨h2, e3⟩ : ∃ h2 : Heap, h2 = h3 := ⟨h3, rfl⟩
        subst e3
        have l2 : ∀ j, Linked (h2.at j) (h.at j) := by
          intro j
          rw [← hh2]
          by_cases hj : j = s
          · subst hj; rw [Heap.at_set_self hs]; exact linked_linkS
          · rw [Heap.at_set_ne hj]; exact .refl
        have len2 : h2.length = h.length := by rw [← hh2]; simp
        have self : h2.at s = linkS (h.at s) (h.at t) t := by rw [← hh2]; exact Heap.at_set_self hs
        have other : ∀ j, j ≠ s → h2.at j = h.at j := by intro j hj; rw [← hh2]; exact Heap.at_set_ne hj
        have ok2 := ok.congr len2 l2
        have S := SameShape.of_linked l2
        obtain ⟨m1, m2⟩ := merge_map h2 s t
        have kids : ∀ x, LoneSection h2 s x → (h2.at x).parent = some s ∧ s < x ∧ x < h2.length := by
          intro x o
          obtain ⟨a, b, c⟩ := ok2.kids s (by rw [len2]; exact hs) x o.mem
          exact ⟨c, b, a⟩
        obtain ⟨h', e, M⟩ := merged_fold (s := s) (fun h x y a b c => ih h x y true a b c) _ h2 ok2 m1 (by
          intro k x y hk
          obtain ⟨k1, _, o1, _⟩ := (m2 k x y).1 hk
          obtain ⟨c1, c2, c3⟩ := kids x o1
          exact ⟨c1, k1, c3, by omega⟩)
        refine ⟨h', e, fun j => (M.linked j).trans (l2 j), by rw [M.len, len2], ?_, ?_⟩
        · intro j hj
          have hjs : j ≠ s := by rintro rfl; exact hj t .top
          rw [M.only j ?_, other j hjs]
          intro k x y z hk P
          obtain ⟨k1, k2, o1, o2⟩ := (m2 k x y).1 hk
          exact hj z ((P.congr S.symm).head (o1.congr S.symm) (o2.congr S.symm) (by rw [← (S x).1, ← (S y).1, k1, k2]))
        · have hs2 : h'.at s = h2.at s := by
            apply M.only
            intro k x y z hk P
            obtain ⟨c1, c2, c3⟩ := kids x ((m2 k x y).1 hk).2.2.1
            rcases P.within ok2 with e | e
            · omega
            · have := ok2.above_lt e; omega
          intro j y P
          rcases P.uncons with ⟨rfl, rfl⟩ | ⟨_, x, y', o1, o2, hk, P'⟩
          · exact ⟨_, .inl rfl, by rw [hs2]; exact self⟩
          · have hjs : j ≠ s := by
              rintro rfl
              have c := (kids x (o1.congr S)).2.1
              rcases P'.within ok with e | e
              · omega
              · have := ok.above_lt e; omega
            obtain ⟨w, hw, hj⟩ := M.done (h2.at x).key x y' j y ((m2 _ x y').2 ⟨rfl, by rw [(S x).1, (S y').1]; exact hk.symm, o1.congr S, o2.congr S⟩) (P'.congr S)
            refine ⟨w, ?_, by rw [hj, other j hjs]⟩
            rcases hw with rfl | rfl
            · by_cases hy : y = s
              · subst hy; exact .inr hs2.symm
              · exact .inl (other y hy)
            · exact .inr rfl

end Eno
