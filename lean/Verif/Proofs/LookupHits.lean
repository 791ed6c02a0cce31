import Verif.Proofs.LookupLemmas
import Verif.Spec.Position

/-! # What lookup finds -/

namespace Eno

open Spec

/-- `n` lies within the extent of an instruction. -/
def On (m : Extent) (b : Base) (n : Nat) : Prop := (m b).1 ≤ n ∧ n ≤ (m b).2

/-- The instructions are ordered. -/
structure Ordered (m : Extent) (h : Heap) : Prop where
  le : ∀ i, 0 < i → i < h.length → ∀ b ∈ (h.at i).rows, (m b).1 ≤ (m b).2
  inner : ∀ i, 0 < i → i < h.length → (h.at i).rows.Pairwise fun a b => (m a).2 < (m b).1
  outer : ∀ i j, 0 < i → i < j → j < h.length → ∀ a ∈ (h.at i).rows, ∀ b ∈ (h.at j).rows, (m a).2 < (m b).1

/-- What a lookup in a multiline field gives. -/
def MlOk (m : Extent) (ml : Ref → Elem → Nat → Except PyExc (Option Hit)) (h : Heap) : Prop :=
  ∀ i, i < h.length → (h.at i).type = .mlBegin → (h.at i).template = none ∧ ∃ f, (h.at i).fin = some f ∧ ∀ n, (m (h.at i).toBase).2 < n →
    (n > (m f).2 → ml (.elem i) (h.at i) n = .ok none) ∧
    (n ≤ (m f).2 → ∃ o, ml (.elem i) (h.at i) n = .ok (some ⟨.elem i, o⟩) ∧ ∀ b, b = f ∨ b ∈ (h.at i).lines.getD [] → On m b n → o = some b)

/-- The kinds go with the contents. -/
structure Kinds (h : Heap) : Prop where
  root : (h.at 0).rows = [(h.at 0).toBase]
  conts : ∀ i cs, i < h.length → (h.at i).continuations = some cs → (h.at i).type = .field ∧ cs ≠ []
  items : ∀ i xs, i < h.length → (h.at i).items = some xs → (h.at i).type = .list ∧ xs ≠ [] ∧ ∀ x ∈ xs, x.continuations ≠ some []
  entries : ∀ i xs, i < h.length → (h.at i).entries = some xs → (h.at i).type = .fieldset ∧ xs ≠ [] ∧ ∀ x ∈ xs, x.continuations ≠ some []
  lines : ∀ i, i < h.length → (h.at i).lines ≠ none ∨ (h.at i).fin ≠ none → (h.at i).type = .mlBegin

variable {m : Extent} {h : Heap} {ml : Ref → Elem → Nat → Except PyExc (Option Hit)}

theorem rows_head (e : Elem) : e.toBase ∈ e.rows := by simp [Elem.rows]

theorem Ordered.begins (O : Ordered m h) : Begins m h := by
  intro i j hi hij hj
  exact ⟨O.le i hi (by omega) _ (rows_head _), O.outer i j hi hij hj _ (rows_head _) _ (rows_head _)⟩

/-- There is a last element that begins at or before any position. -/
theorem exists_last (m : Extent) (hp : 0 < h.length) (n : Nat) : ∃ e, LastAt m h n e := by
  have key : ∀ k, k ≤ h.length → 0 < k → ∃ e, e < k ∧ (e ≠ 0 → (m (h.at e).toBase).1 ≤ n) ∧ ∀ j, e < j → j < k → n < (m (h.at j).toBase).1 := by
    intro k
    induction k with
    | zero => intro _ h0; omega
    | succ k ih =>
      intro hk _
      by_cases hk0 : k = 0
      · subst hk0; exact ⟨0, by omega, by simp, by intro j; omega⟩
      · by_cases hle : (m (h.at k).toBase).1 ≤ n
        · exact ⟨k, by omega, fun _ => hle, by intro j; omega⟩
        · obtain ⟨e, h1, h2, h3⟩ := ih (by omega) (by omega)
          refine ⟨e, by omega, h2, fun j hj1 hj2 => ?_⟩
          by_cases hjk : j = k
          · subst hjk; omega
          · exact h3 j hj1 (by omega)
  obtain ⟨e, h1, h2, h3⟩ := key h.length (Nat.le_refl _) hp
  exact ⟨e, h1, h2, h3⟩

/-- The element that carries the position is the last one that begins there or before. -/
theorem last_of_row (O : Ordered m h) (hi : 0 < i) (hl : i < h.length) (hb : b ∈ (h.at i).rows) (hn : On m b n) : LastAt m h n i := by
  refine ⟨hl, fun _ => ?_, fun j h1 h2 => ?_⟩
  · have hin := O.inner i hi hl
    have hle := O.le i hi hl _ (rows_head _)
    have hcons : ∃ tl, (h.at i).rows = (h.at i).toBase :: tl := ⟨_, by simp [Elem.rows]; rfl⟩
    obtain ⟨tl, e⟩ := hcons
    rw [e] at hb hin
    rcases List.mem_cons.1 hb with rfl | q
    · exact hn.1
    · have := (List.pairwise_cons.1 hin).1 b q
      have := hn.1
      omega
  · have := O.outer i j hi h1 h2 _ hb _ (rows_head _)
    have := hn.2
    omega

/-- The result of a lookup in the document. -/
theorem gCheck_root (T : Tree h) (O : Ordered m h) (L : LastAt m h n e) : gCheck m ml h n (h.length + 1) 0 = gAt m ml h n e := by
  rw [gCheck_at T O.begins L (h.length + 1) 0 (T.under_root e L.lt) (by omega)]
  split
  · rename_i h0
    subst h0
    unfold gAt
    rw [T.root]
  · rfl

/-! ## Within an element -/

theorem gConts_hit (cs : List Cont) (hc : c ∈ cs) (hn : On m c.toBase n) (hp : (cs.map Cont.toBase).Pairwise fun a b => (m a).2 < (m b).1)
    (hle : ∀ c ∈ cs, (m c.toBase).1 ≤ (m c.toBase).2) : gConts m r n cs = some ⟨r, some c.toBase⟩ := by
  induction cs with
  | nil => simp at hc
  | cons d cs ih =>
    simp only [List.map_cons, List.pairwise_cons] at hp
    rw [gConts]
    rcases List.mem_cons.1 hc with rfl | q
    · rw [if_neg (by have := hn.1; omega), if_pos hn.2]
    · have h1 := hp.1 c.toBase (List.mem_map_of_mem q)
      have h2 := hle d (by simp)
      have := hn.1
      rw [if_neg (by omega), if_neg (by omega)]
      exact ih q hp.2 fun c hc => hle c (List.mem_cons_of_mem _ hc)

theorem gField_hit {cs : List Cont} (hc : c ∈ cs) (hn : On m c.toBase n)
    (hp : (b :: cs.map Cont.toBase).Pairwise fun a b => (m a).2 < (m b).1) (hle : ∀ x ∈ b :: cs.map Cont.toBase, (m x).1 ≤ (m x).2) :
    gField m r b (some cs) n = .ok (some ⟨r, some c.toBase⟩) := by
  have hp' := List.pairwise_cons.1 hp
  have h1 := hp'.1 c.toBase (List.mem_map_of_mem hc)
  have h2 := hle b (by simp)
  have := hn.1
  unfold gField
  rw [if_neg (by omega), if_neg (by omega)]
  cases hl : cs.getLast? with
  | none => rw [List.getLast?_eq_none_iff] at hl; subst hl; simp at hc
  | some l =>
    simp only [hl]
    have hlast : n ≤ (m l.toBase).2 := by
      obtain ⟨ys, rfl⟩ := List.getLast?_eq_some_iff.1 hl
      rcases List.mem_append.1 hc with q | q
      · simp only [List.map_append, List.map_cons, List.map_nil] at hp'
        have h3 := (List.pairwise_append.1 hp'.2).2.2 c.toBase (List.mem_map_of_mem q) l.toBase (by simp)
        have h4 := hle l.toBase (by simp)
        have := hn.2; omega
      · simp at q; subst q; exact hn.2
    rw [if_neg (by omega), gConts_hit cs hc hn hp'.2 fun c hc => hle _ (by simp; exact .inr ⟨c, hc, rfl⟩)]

/-- Beyond a field. -/
theorem gField_beyond {conts : Option (List Cont)} (h1 : (m b).2 < n) (h2 : ∀ c ∈ conts.getD [], (m c.toBase).2 < n) (hne : conts ≠ some [])
    (hb : (m b).1 ≤ (m b).2) : gField m r b conts n = .ok none := by
  unfold gField
  rw [if_neg (by omega), if_neg (by omega)]
  cases conts with
  | none => rfl
  | some cs =>
    simp only
    cases hl : cs.getLast? with
    | none => rw [List.getLast?_eq_none_iff] at hl; subst hl; simp at hne
    | some l =>
      simp only
      have := h2 l (by simpa using List.mem_of_getLast? hl)
      rw [if_pos (by omega)]

/-- A lookup in a field never fails. -/
theorem gField_total {conts : Option (List Cont)} (hne : conts ≠ some []) : ∃ o, gField m r b conts n = .ok o ∧ ∀ x, o = some x → x.element = r := by
  unfold gField
  split
  · exact ⟨_, rfl, by simp⟩
  split
  · exact ⟨_, rfl, by simp⟩
  cases conts with
  | none => exact ⟨_, rfl, by simp⟩
  | some cs =>
    simp only
    cases hl : cs.getLast? with
    | none => rw [List.getLast?_eq_none_iff] at hl; subst hl; simp at hne
    | some l =>
      simp only
      split
      · exact ⟨_, rfl, by simp⟩
      · refine ⟨_, rfl, ?_⟩
        clear hl hne
        induction cs with
        | nil => simp [gConts]
        | cons c cs ih =>
          unfold gConts
          split
          · simp
          split
          · simp
          · exact ih

/-- The items or entries are ordered. -/
structure SubsOrdered (m : Extent) (xs : List Sub) : Prop where
  le : ∀ x ∈ xs, ∀ b ∈ x.rows, (m b).1 ≤ (m b).2
  order : (xs.flatMap Sub.rows).Pairwise fun a b => (m a).2 < (m b).1
  conts : ∀ x ∈ xs, x.continuations ≠ some []

theorem SubsOrdered.tail (O : SubsOrdered m (x :: xs)) : SubsOrdered m xs := by
  refine ⟨fun y hy => O.le y (List.mem_cons_of_mem _ hy), ?_, fun y hy => O.conts y (List.mem_cons_of_mem _ hy)⟩
  have := O.order
  rw [List.flatMap_cons] at this
  exact (List.pairwise_append.1 this).2.1

theorem SubsOrdered.before (O : SubsOrdered m (x :: xs)) (hy : y ∈ xs) (ha : a ∈ x.rows) (hb : b ∈ y.rows) : (m a).2 < (m b).1 := by
  have := O.order
  rw [List.flatMap_cons] at this
  exact (List.pairwise_append.1 this).2.2 a ha b (List.mem_flatMap.2 ⟨y, hy, hb⟩)

theorem sub_head (x : Sub) : x.toBase ∈ x.rows := by simp [Sub.rows]

theorem sub_cont {x : Sub} (hc : c ∈ x.continuations.getD []) : c.toBase ∈ x.rows := by
  simp only [Sub.rows, List.mem_cons, List.mem_map]; exact .inr ⟨c, hc, rfl⟩

theorem gSubs_skip (O : SubsOrdered m (x :: xs)) (hy : y ∈ xs) (hb : b ∈ y.rows) (hn : (m b).1 ≤ n) :
    gSubs m whole ref n k (x :: xs) = gSubs m whole ref n (k + 1) xs := by
  have h1 := O.before hy (sub_head x) hb
  have h2 := O.le x (by simp) _ (sub_head x)
  rw [gSubs, if_neg (by omega), if_neg (by omega), gField_beyond (by omega) ?_ (O.conts x (by simp)) h2]
  intro c hc
  have := O.before hy (sub_cont hc) hb
  omega

theorem gSubs_hit (xs : List Sub) : ∀ (k j : Nat), SubsOrdered m xs → xs[j]? = some x → On m x.toBase n →
    gSubs m whole ref n k xs = .ok (some ⟨ref (k + j), some x.toBase⟩) := by
  induction xs with
  | nil => intro k j _ hj; simp at hj
  | cons y xs ih =>
    intro k j O hj hn
    cases j with
    | zero =>
      simp at hj; subst hj
      rw [gSubs, if_neg (by have := hn.1; omega), if_pos hn.2]; rfl
    | succ j =>
      simp at hj
      rw [gSubs_skip O (List.mem_of_getElem? hj) (sub_head x) hn.1, ih (k + 1) j O.tail hj hn]
      congr 4; omega

theorem gSubs_cont (xs : List Sub) : ∀ (k j : Nat), SubsOrdered m xs → xs[j]? = some x → x.continuations = some cs → c ∈ cs → On m c.toBase n →
    gSubs m whole ref n k xs = .ok (some ⟨ref (k + j), some c.toBase⟩) := by
  induction xs with
  | nil => intro k j _ hj; simp at hj
  | cons y xs ih =>
    intro k j O hj hcs hc hn
    cases j with
    | zero =>
      simp at hj; subst hj
      have hp : (y.toBase :: cs.map Cont.toBase).Pairwise fun a b => (m a).2 < (m b).1 := by
        have := O.order
        rw [List.flatMap_cons] at this
        have := (List.pairwise_append.1 this).1
        simpa [Sub.rows, hcs] using this
      have hle : ∀ b ∈ y.toBase :: cs.map Cont.toBase, (m b).1 ≤ (m b).2 := by
        have := O.le y (by simp)
        simpa [Sub.rows, hcs] using this
      have h1 := (List.pairwise_cons.1 hp).1 c.toBase (List.mem_map_of_mem hc)
      have h2 := hle y.toBase (by simp)
      have h3 := hn.1
      rw [gSubs, if_neg (by omega), if_neg (by omega), hcs, gField_hit hc hn hp hle]; rfl
    | succ j =>
      simp at hj
      rw [gSubs_skip O (List.mem_of_getElem? hj) (sub_cont (by rw [hcs]; exact hc)) hn.1, ih (k + 1) j O.tail hj hcs hc hn]
      congr 4; omega

theorem gSubs_total (xs : List Sub) (hc : ∀ x ∈ xs, x.continuations ≠ some []) : ∀ k, ∃ o, gSubs m whole ref n k xs = .ok o ∧
    ∀ x, o = some x → x.element = whole ∨ ∃ j < xs.length, x.element = ref (k + j) := by
  induction xs with
  | nil => intro k; exact ⟨none, rfl, by simp⟩
  | cons y xs ih =>
    intro k
    rw [gSubs]
    split
    · exact ⟨_, rfl, by simp⟩
    split
    · exact ⟨_, rfl, by intro x hx; injection hx with hx; subst hx; exact .inr ⟨0, by simp, rfl⟩⟩
    obtain ⟨o, h1, h2⟩ := gField_total (m := m) (r := ref k) (b := y.toBase) (n := n) (hc y (by simp))
    rw [h1]
    cases o with
    | some x => exact ⟨_, rfl, by intro x' hx'; injection hx' with hx'; subst hx'; exact .inr ⟨0, by simp, h2 _ rfl⟩⟩
    | none =>
      obtain ⟨o, h3, h4⟩ := ih (fun x hx => hc x (List.mem_cons_of_mem _ hx)) (k + 1)
      refine ⟨o, h3, fun x hx => ?_⟩
      rcases h4 x hx with q | ⟨j, hj, q⟩
      · exact .inl q
      · exact .inr ⟨j + 1, by simpa using hj, by rw [q]; congr 1; omega⟩

/-- The last item begins after the others. -/
theorem SubsOrdered.last (O : SubsOrdered m xs) (hl : xs.getLast? = some l) (hj : xs[j]? = some x) (hlt : j + 1 < xs.length) (hb : b ∈ x.rows) :
    (m b).2 < (m l.toBase).1 := by
  obtain ⟨ys, rfl⟩ := List.getLast?_eq_some_iff.1 hl
  simp at hlt
  rw [List.getElem?_append_left hlt] at hj
  have := O.order
  rw [List.flatMap_append] at this
  exact (List.pairwise_append.1 this).2.2 b (List.mem_flatMap.2 ⟨x, List.mem_of_getElem? hj, hb⟩) l.toBase (by simp [Sub.rows])

theorem gWhole_reach {xs : List Sub} (h1 : (m b).2 < n) (h0 : (m b).1 ≤ (m b).2) (hl : xs.getLast? = some l) (h2 : n ≤ (m l.toBase).2) :
    gWhole m whole ref b (some xs) n = gSubs m whole ref n 0 xs := by
  unfold gWhole
  rw [if_neg (by omega), if_neg (by omega)]
  simp only [hl]
  rw [if_neg (by omega)]

theorem getLast?_isSome {α} {x : α} {xs : List α} (hx : x ∈ xs) : ∃ l, xs.getLast? = some l := by
  cases hl : xs.getLast? with
  | none => rw [List.getLast?_eq_none_iff] at hl; subst hl; simp at hx
  | some l => exact ⟨l, rfl⟩

theorem gWhole_hit {xs : List Sub} (O : SubsOrdered m xs) (hb : ∀ y ∈ xs, ∀ a ∈ y.rows, (m b).2 < (m a).1) (h0 : (m b).1 ≤ (m b).2) (hj : xs[j]? = some x)
    (hn : On m x.toBase n) : gWhole m whole ref b (some xs) n = .ok (some ⟨ref j, some x.toBase⟩) := by
  have hx := List.mem_of_getElem? hj
  obtain ⟨l, hl⟩ := getLast?_isSome hx
  have h1 := hb x hx _ (sub_head x)
  have hn' : n ≤ (m l.toBase).2 := by
    by_cases hlt : j + 1 < xs.length
    · have := O.last hl hj hlt (sub_head x)
      have := O.le l (List.mem_of_getLast? hl) _ (sub_head l)
      have := hn.2; omega
    · have hjl : j < xs.length := (List.getElem?_eq_some_iff.1 hj).1
      have : l = x := by
        rw [List.getLast?_eq_getElem?] at hl
        have e : xs.length - 1 = j := by omega
        rw [e, hj] at hl; injection hl with hl; exact hl.symm
      subst this; exact hn.2
  rw [gWhole_reach (by have := hn.1; omega) h0 hl hn', gSubs_hit xs 0 j O hj hn, Nat.zero_add]

theorem gWhole_cont {xs : List Sub} (O : SubsOrdered m xs) (hb : ∀ y ∈ xs, ∀ a ∈ y.rows, (m b).2 < (m a).1) (h0 : (m b).1 ≤ (m b).2) (hj : xs[j]? = some x)
    (hlt : j + 1 < xs.length) (hcs : x.continuations = some cs) (hc : c ∈ cs) (hn : On m c.toBase n) :
    gWhole m whole ref b (some xs) n = .ok (some ⟨ref j, some c.toBase⟩) := by
  have hx := List.mem_of_getElem? hj
  obtain ⟨l, hl⟩ := getLast?_isSome hx
  have hcr : c.toBase ∈ x.rows := sub_cont (by rw [hcs]; exact hc)
  have h1 := hb x hx _ hcr
  have := O.last hl hj hlt hcr
  have := O.le l (List.mem_of_getLast? hl) _ (sub_head l)
  rw [gWhole_reach (by have := hn.1; omega) h0 hl (by have := hn.2; omega), gSubs_cont xs 0 j O hj hcs hc hn, Nat.zero_add]

theorem gWhole_total {subs : Option (List Sub)} (h1 : ∀ xs, subs = some xs → xs ≠ [] ∧ ∀ x ∈ xs, x.continuations ≠ some []) :
    ∃ o, gWhole m whole ref b subs n = .ok o ∧ ∀ x, o = some x → x.element = whole ∨ ∃ j < (subs.getD []).length, x.element = ref j := by
  unfold gWhole
  split
  · exact ⟨_, rfl, by simp⟩
  split
  · exact ⟨_, rfl, by simp⟩
  cases subs with
  | none => exact ⟨_, rfl, by simp⟩
  | some xs =>
    simp only
    obtain ⟨hne, hc⟩ := h1 xs rfl
    cases hl : xs.getLast? with
    | none => rw [List.getLast?_eq_none_iff] at hl; exact absurd hl hne
    | some l =>
      simp only
      split
      · exact ⟨_, rfl, by simp⟩
      · obtain ⟨o, h2, h3⟩ := gSubs_total (m := m) (whole := whole) (ref := ref) (n := n) xs hc 0
        exact ⟨o, h2, by simpa using h3⟩

theorem gWhole_beyond {subs : Option (List Sub)} (h0 : (m b).1 ≤ (m b).2) (hb : (m b).2 < n) (h1 : ∀ xs, subs = some xs → xs ≠ [])
    (h2 : ∀ x ∈ subs.getD [], (m x.toBase).2 < n) : gWhole m whole ref b subs n = .ok none := by
  unfold gWhole
  rw [if_neg (by omega), if_neg (by omega)]
  cases subs with
  | none => rfl
  | some xs =>
    simp only
    cases hl : xs.getLast? with
    | none => rw [List.getLast?_eq_none_iff] at hl; exact absurd hl (h1 xs rfl)
    | some l =>
      simp only
      rw [if_pos (h2 l (by simpa using List.mem_of_getLast? hl))]

/-! ## In the document -/

theorem Ordered.items (O : Ordered m h) (K : Kinds h) (hi : 0 < i) (hl : i < h.length) (hx : (h.at i).items = some xs) :
    SubsOrdered m xs ∧ ∀ y ∈ xs, ∀ a ∈ y.rows, (m (h.at i).toBase).2 < (m a).1 := by
  have e : (h.at i).rows = (h.at i).toBase :: ((h.at i).continuations.getD []).map Cont.toBase ++ (h.at i).lines.getD [] ++ (h.at i).fin.toList ++
      xs.flatMap Sub.rows ++ ((h.at i).entries.getD []).flatMap Sub.rows := by unfold Elem.rows; rw [hx]; rfl
  have hin := O.inner i hi hl
  have hle := O.le i hi hl
  rw [e] at hin hle
  have h1 := (List.pairwise_append.1 hin).1
  refine ⟨⟨fun x hx b hb => hle b ?_, (List.pairwise_append.1 h1).2.1, (K.items i xs hl hx).2.2⟩, fun y hy a ha => ?_⟩
  · simp only [List.mem_append, List.mem_flatMap]
    exact .inl (.inr ⟨x, hx, hb⟩)
  · exact (List.pairwise_append.1 h1).2.2 _ (by simp) a (List.mem_flatMap.2 ⟨y, hy, ha⟩)

theorem Ordered.entries (O : Ordered m h) (K : Kinds h) (hi : 0 < i) (hl : i < h.length) (hx : (h.at i).entries = some xs) :
    SubsOrdered m xs ∧ ∀ y ∈ xs, ∀ a ∈ y.rows, (m (h.at i).toBase).2 < (m a).1 := by
  have e : (h.at i).rows = (h.at i).toBase :: ((h.at i).continuations.getD []).map Cont.toBase ++ (h.at i).lines.getD [] ++ (h.at i).fin.toList ++
      ((h.at i).items.getD []).flatMap Sub.rows ++ xs.flatMap Sub.rows := by unfold Elem.rows; rw [hx]; rfl
  have hin := O.inner i hi hl
  have hle := O.le i hi hl
  rw [e] at hin hle
  refine ⟨⟨fun x hx b hb => hle b ?_, (List.pairwise_append.1 hin).2.1, (K.entries i xs hl hx).2.2⟩, fun y hy a ha => ?_⟩
  · simp only [List.mem_append, List.mem_flatMap]
    exact .inr ⟨x, hx, hb⟩
  · exact (List.pairwise_append.1 hin).2.2 _ (by simp) a (List.mem_flatMap.2 ⟨y, hy, ha⟩)

theorem Kinds.pos (K : Kinds h) (hm : b ∈ (h.at i).rows) (hb : b ≠ (h.at i).toBase) : 0 < i := by
  apply Nat.pos_of_ne_zero; rintro rfl
  rw [K.root] at hm
  simp at hm; exact hb hm

theorem gBody_of (hty : (h.at i).type = .list) (hn : (m (h.at i).toBase).2 < n) (hg : gWhole m (.elem i) (.item i) (h.at i).toBase (h.at i).items n = .ok (some x)) :
    gBody m ml h s n inner i = .ok x := by
  unfold gBody
  rw [if_neg (by omega), hty]
  simp only
  rw [hg]; rfl

theorem gBody_of' (hty : (h.at i).type = .fieldset) (hn : (m (h.at i).toBase).2 < n)
    (hg : gWhole m (.elem i) (.entry i) (h.at i).toBase (h.at i).entries n = .ok (some x)) : gBody m ml h s n inner i = .ok x := by
  unfold gBody
  rw [if_neg (by omega), hty]
  simp only
  rw [hg]; rfl

theorem gAt_body (T : Tree h) (hi : 0 < i) (hl : i < h.length) :
    ∃ p, (h.at i).parent = some p ∧ gAt m ml h n i = gBody m ml h p n (fun i => .ok ⟨.elem i, none⟩) i := by
  obtain ⟨p, hp, _⟩ := T.par i hi hl
  exact ⟨p, hp, by unfold gAt; rw [hp]⟩

theorem owner_pos (_hl : i < h.length) (h1 : (h.at i).type ≠ .document) (hd : (h.at 0).type = .document) : 0 < i := by
  apply Nat.pos_of_ne_zero; rintro rfl; exact h1 hd

/-- Lookup on the first line of an element, item or entry. -/
theorem hit_first (T : Tree h) (O : Ordered m h) (K : Kinds h) (hd : (h.at 0).type = .document) (hf : FirstLine h r b) (hn : On m b n) :
    gCheck m ml h n (h.length + 1) 0 = .ok ⟨r, some b⟩ := by
  cases hf with
  | @elem i hi hl =>
    rw [gCheck_root T O (last_of_row O hi hl (rows_head _) hn)]
    obtain ⟨p, _, e⟩ := gAt_body (m := m) (ml := ml) (n := n) T hi hl
    rw [e]; unfold gBody; rw [if_pos hn.2]
  | @item i k xs x hl hx hk =>
    obtain ⟨hty, _, _⟩ := K.items i xs hl hx
    have hi := owner_pos hl (by rw [hty]; decide) hd
    have hmem : x.toBase ∈ (h.at i).rows := by
      simp only [Elem.rows, List.mem_append, List.mem_flatMap, hx]
      exact .inl (.inr ⟨x, List.mem_of_getElem? hk, sub_head x⟩)
    rw [gCheck_root T O (last_of_row O hi hl hmem hn)]
    obtain ⟨p, _, e⟩ := gAt_body (m := m) (ml := ml) (n := n) T hi hl
    obtain ⟨so, hb⟩ := O.items K hi hl hx
    have h1 := hb x (List.mem_of_getElem? hk) _ (sub_head x)
    rw [e, gBody_of hty (by have := hn.1; omega) (by rw [hx]; exact gWhole_hit so hb (O.le i hi hl _ (rows_head _)) hk hn)]
  | @entry i k xs x hl hx hk =>
    obtain ⟨hty, _, _⟩ := K.entries i xs hl hx
    have hi := owner_pos hl (by rw [hty]; decide) hd
    have hmem : x.toBase ∈ (h.at i).rows := by
      simp only [Elem.rows, List.mem_append, List.mem_flatMap, hx]
      exact .inr ⟨x, List.mem_of_getElem? hk, sub_head x⟩
    rw [gCheck_root T O (last_of_row O hi hl hmem hn)]
    obtain ⟨p, _, e⟩ := gAt_body (m := m) (ml := ml) (n := n) T hi hl
    obtain ⟨so, hb⟩ := O.entries K hi hl hx
    have h1 := hb x (List.mem_of_getElem? hk) _ (sub_head x)
    rw [e, gBody_of' hty (by have := hn.1; omega) (by rw [hx]; exact gWhole_hit so hb (O.le i hi hl _ (rows_head _)) hk hn)]

/-- Lookup on a further line. -/
theorem hit_further (T : Tree h) (O : Ordered m h) (K : Kinds h) (hd : (h.at 0).type = .document) (M : MlOk m ml h) (hf : FurtherLine h r b) (hn : On m b n) :
    gCheck m ml h n (h.length + 1) 0 = .ok ⟨r, some b⟩ := by
  cases hf with
  | @cont i cs c hl hcs hc =>
    obtain ⟨hty, _⟩ := K.conts i cs hl hcs
    have hi := owner_pos hl (by rw [hty]; decide) hd
    have e : (h.at i).rows = ((h.at i).toBase :: cs.map Cont.toBase) ++ ((h.at i).lines.getD [] ++ (h.at i).fin.toList ++
      ((h.at i).items.getD []).flatMap Sub.rows ++ ((h.at i).entries.getD []).flatMap Sub.rows) := by unfold Elem.rows; rw [hcs]; simp
    have hin := O.inner i hi hl
    have hle := O.le i hi hl
    have hmem : c.toBase ∈ (h.at i).rows := by rw [e]; simp; exact .inr (.inl ⟨c, hc, rfl⟩)
    rw [gCheck_root T O (last_of_row O hi hl hmem hn)]
    rw [e] at hin hle
    have hp := (List.pairwise_append.1 hin).1
    have hle' : ∀ x ∈ (h.at i).toBase :: cs.map Cont.toBase, (m x).1 ≤ (m x).2 := fun x hx => hle x (List.mem_append_left _ hx)
    obtain ⟨p, _, e⟩ := gAt_body (m := m) (ml := ml) (n := n) T hi hl
    have h1 := (List.pairwise_cons.1 hp).1 c.toBase (List.mem_map_of_mem hc)
    rw [e]; unfold gBody
    rw [if_neg (by have := hn.1; omega), hty]
    simp only
    rw [hcs, gField_hit hc hn hp hle']; rfl
  | @line i ls _ hl hls hb =>
    have hty := K.lines i hl (.inl (by rw [hls]; simp))
    have hi := owner_pos hl (by rw [hty]; decide) hd
    have hmem : b ∈ (h.at i).rows := by simp [Elem.rows, hls, hb]
    rw [gCheck_root T O (last_of_row O hi hl hmem hn)]
    obtain ⟨p, _, e⟩ := gAt_body (m := m) (ml := ml) (n := n) T hi hl
    obtain ⟨ht, f, hf, hM⟩ := M i hl hty
    have hin := O.inner i hi hl
    have e1 : (h.at i).rows = ((h.at i).toBase :: ((h.at i).continuations.getD []).map Cont.toBase ++ ls) ++ (f :: (
      ((h.at i).items.getD []).flatMap Sub.rows ++ ((h.at i).entries.getD []).flatMap Sub.rows)) := by unfold Elem.rows; rw [hls, hf]; simp
    rw [e1] at hin
    have h1 := (List.pairwise_append.1 hin).2.2 b (by simp [hb]) f (by simp)
    have h2 := (List.pairwise_append.1 (List.pairwise_append.1 hin).1).2.2 (h.at i).toBase (by simp) b hb
    have h3 := O.le i hi hl f (by rw [e1]; simp)
    have hn1 := hn.1
    have hn2 := hn.2
    obtain ⟨_, hM2⟩ := hM n (by omega)
    obtain ⟨o, ho1, ho2⟩ := hM2 (by omega)
    rw [e]; unfold gBody
    rw [if_neg (by omega), hty]
    simp only
    rw [if_pos ht, ho1, ho2 b (.inr (by rw [hls]; exact hb)) hn]; rfl
  | @fin i _ hl hf =>
    have hty := K.lines i hl (.inr (by rw [hf]; simp))
    have hi := owner_pos hl (by rw [hty]; decide) hd
    have hmem : b ∈ (h.at i).rows := by simp [Elem.rows, hf]
    rw [gCheck_root T O (last_of_row O hi hl hmem hn)]
    obtain ⟨p, _, e⟩ := gAt_body (m := m) (ml := ml) (n := n) T hi hl
    obtain ⟨ht, f, hf', hM⟩ := M i hl hty
    rw [hf] at hf'; injection hf' with hf'; subst hf'
    have hin := O.inner i hi hl
    have e1 : (h.at i).rows = ((h.at i).toBase :: (((h.at i).continuations.getD []).map Cont.toBase ++ (h.at i).lines.getD [] ++ b :: (
      ((h.at i).items.getD []).flatMap Sub.rows ++ ((h.at i).entries.getD []).flatMap Sub.rows))) := by unfold Elem.rows; rw [hf]; simp
    rw [e1] at hin
    have h1 := (List.pairwise_cons.1 hin).1 b (by simp)
    have hn1 := hn.1
    have hn2 := hn.2
    obtain ⟨_, hM2⟩ := hM n (by omega)
    obtain ⟨o, ho1, ho2⟩ := hM2 (by omega)
    rw [e]; unfold gBody
    rw [if_neg (by omega), hty]
    simp only
    rw [if_pos ht, ho1, ho2 b (.inl rfl) hn]; rfl
  | @item i k xs x cs c hl hx hk hlt hcs hc =>
    obtain ⟨hty, _, _⟩ := K.items i xs hl hx
    have hi := owner_pos hl (by rw [hty]; decide) hd
    have hcr : c.toBase ∈ x.rows := sub_cont (by rw [hcs]; exact hc)
    have hmem : c.toBase ∈ (h.at i).rows := by
      simp only [Elem.rows, List.mem_append, List.mem_flatMap, hx]
      exact .inl (.inr ⟨x, List.mem_of_getElem? hk, hcr⟩)
    rw [gCheck_root T O (last_of_row O hi hl hmem hn)]
    obtain ⟨p, _, e⟩ := gAt_body (m := m) (ml := ml) (n := n) T hi hl
    obtain ⟨so, hb⟩ := O.items K hi hl hx
    have h1 := hb x (List.mem_of_getElem? hk) _ hcr
    rw [e, gBody_of hty (by have := hn.1; omega) (by rw [hx]; exact gWhole_cont so hb (O.le i hi hl _ (rows_head _)) hk hlt hcs hc hn)]
  | @entry i k xs x cs c hl hx hk hlt hcs hc =>
    obtain ⟨hty, _, _⟩ := K.entries i xs hl hx
    have hi := owner_pos hl (by rw [hty]; decide) hd
    have hcr : c.toBase ∈ x.rows := sub_cont (by rw [hcs]; exact hc)
    have hmem : c.toBase ∈ (h.at i).rows := by
      simp only [Elem.rows, List.mem_append, List.mem_flatMap, hx]
      exact .inr ⟨x, List.mem_of_getElem? hk, hcr⟩
    rw [gCheck_root T O (last_of_row O hi hl hmem hn)]
    obtain ⟨p, _, e⟩ := gAt_body (m := m) (ml := ml) (n := n) T hi hl
    obtain ⟨so, hb⟩ := O.entries K hi hl hx
    have h1 := hb x (List.mem_of_getElem? hk) _ hcr
    rw [e, gBody_of' hty (by have := hn.1; omega) (by rw [hx]; exact gWhole_cont so hb (O.le i hi hl _ (rows_head _)) hk hlt hcs hc hn)]

/-- An element, one of its items, or one of its entries. -/
def PartOf (h : Heap) (e : Nat) (r : Ref) : Prop :=
  r = .elem e ∨ (∃ k < ((h.at e).items.getD []).length, r = .item e k) ∨ ∃ k < ((h.at e).entries.getD []).length, r = .entry e k

theorem orSection_total {P : Ref → Prop} {o : Option Hit} {x : Except PyExc (Option Hit)} (hx : x = .ok o) (ho : ∀ y, o = some y → P y.element) :
    ∃ z, orSection s x = .ok z ∧ (P z.element ∨ z = ⟨.elem s, none⟩) := by
  subst hx
  cases o with
  | none => exact ⟨_, rfl, .inr rfl⟩
  | some y => exact ⟨_, rfl, .inl (ho y rfl)⟩

/-- Lookup never fails, and finds the last element that begins at or before the position, one of its items or entries, or the section it is in. -/
theorem lookup_total (T : Tree h) (O : Ordered m h) (K : Kinds h) (M : MlOk m ml h) (L : LastAt m h n e) :
    ∃ z, gCheck m ml h n (h.length + 1) 0 = .ok z ∧
      (PartOf h e z.element ∨ ∃ p, (h.at e).parent = some p ∧ (h.at e).type ≠ .section ∧ z = ⟨.elem p, none⟩) := by
  rw [gCheck_root T O L]
  by_cases he : e = 0
  · subst he
    unfold gAt; rw [T.root]
    exact ⟨_, rfl, .inl (.inl rfl)⟩
  · have hi : 0 < e := by omega
    obtain ⟨p, hp, eq⟩ := gAt_body (m := m) (ml := ml) (n := n) T hi L.lt
    rw [eq]
    unfold gBody
    by_cases hin : n ≤ (m (h.at e).toBase).2
    · rw [if_pos hin]; exact ⟨_, rfl, .inl (.inl rfl)⟩
    · rw [if_neg hin]
      have wrap : ∀ (x : Except PyExc (Option Hit)) (o : Option Hit), (h.at e).type ≠ .section → x = .ok o → (∀ y, o = some y → PartOf h e y.element) →
          ∃ z, orSection p x = .ok z ∧ (PartOf h e z.element ∨ ∃ p, (h.at e).parent = some p ∧ (h.at e).type ≠ .section ∧ z = ⟨.elem p, none⟩) := by
        intro x o hns hx ho
        obtain ⟨z, h1, h2⟩ := orSection_total (s := p) hx ho
        exact ⟨z, h1, h2.imp id fun q => ⟨p, hp, hns, q⟩⟩
      cases hty : (h.at e).type <;> simp only
      case field =>
        obtain ⟨o, h1, h2⟩ := gField_total (m := m) (r := .elem e) (b := (h.at e).toBase) (n := n) (conts := (h.at e).continuations)
          (by intro q; exact (K.conts e [] L.lt q).2 rfl)
        obtain ⟨z, h3, h4⟩ := wrap _ o (by rw [hty]; decide) h1 fun y hy => .inl (h2 y hy)
        exact ⟨z, h3, by simpa [hty] using h4⟩
      case fieldset =>
        obtain ⟨o, h1, h2⟩ := gWhole_total (m := m) (whole := .elem e) (ref := .entry e) (b := (h.at e).toBase) (n := n) (subs := (h.at e).entries)
          (fun xs hx => (K.entries e xs L.lt hx).2)
        obtain ⟨z, h3, h4⟩ := wrap _ o (by rw [hty]; decide) h1 fun y hy => (h2 y hy).imp id fun q => .inr q
        exact ⟨z, h3, by simpa [hty] using h4⟩
      case list =>
        obtain ⟨o, h1, h2⟩ := gWhole_total (m := m) (whole := .elem e) (ref := .item e) (b := (h.at e).toBase) (n := n) (subs := (h.at e).items)
          (fun xs hx => (K.items e xs L.lt hx).2)
        obtain ⟨z, h3, h4⟩ := wrap _ o (by rw [hty]; decide) h1 fun y hy => (h2 y hy).imp id fun q => .inl q
        exact ⟨z, h3, by simpa [hty] using h4⟩
      case mlBegin =>
        obtain ⟨ht, f, hf, hM⟩ := M e L.lt hty
        rw [if_pos ht]
        obtain ⟨hM1, hM2⟩ := hM n (by omega)
        by_cases hnf : n ≤ (m f).2
        · obtain ⟨o, ho, _⟩ := hM2 hnf
          obtain ⟨z, h3, h4⟩ := wrap _ _ (by rw [hty]; decide) ho fun y hy => by injection hy with hy; subst hy; exact .inl rfl
          exact ⟨z, h3, by simpa [hty] using h4⟩
        · obtain ⟨z, h3, h4⟩ := wrap _ _ (by rw [hty]; decide) (hM1 (by omega)) fun y hy => by simp at hy
          exact ⟨z, h3, by simpa [hty] using h4⟩
      case «section» => exact ⟨_, rfl, .inl (.inl rfl)⟩
      all_goals exact ⟨_, rfl, .inr ⟨p, hp, by simp, rfl⟩⟩

/-- Beyond the last line of a non-section element lookup finds the section it is in. -/
theorem lookup_beyond (T : Tree h) (O : Ordered m h) (K : Kinds h) (M : MlOk m ml h) (L : LastAt m h n e) (he : 0 < e) (hs : (h.at e).type ≠ .section)
    (hb : ∀ b ∈ (h.at e).rows, (m b).2 < n) : ∃ p, (h.at e).parent = some p ∧ gCheck m ml h n (h.length + 1) 0 = .ok ⟨.elem p, none⟩ := by
  rw [gCheck_root T O L]
  obtain ⟨p, hp, eq⟩ := gAt_body (m := m) (ml := ml) (n := n) T he L.lt
  refine ⟨p, hp, ?_⟩
  have h0 := O.le e he L.lt _ (rows_head _)
  have h1 := hb _ (rows_head _)
  rw [eq]
  unfold gBody
  rw [if_neg (by omega)]
  cases hty : (h.at e).type <;> simp only
  case field =>
    rw [gField_beyond h1 (fun c hc => hb _ (by simp [Elem.rows]; exact .inr (.inl ⟨c, hc, rfl⟩))) (fun q => (K.conts e [] L.lt q).2 rfl) h0]; rfl
  case fieldset =>
    rw [gWhole_beyond h0 h1 (fun xs hx => (K.entries e xs L.lt hx).2.1) (fun x hx => hb _ (by
      simp only [Elem.rows, List.mem_append, List.mem_flatMap]; exact .inr ⟨x, hx, sub_head x⟩))]; rfl
  case list =>
    rw [gWhole_beyond h0 h1 (fun xs hx => (K.items e xs L.lt hx).2.1) (fun x hx => hb _ (by
      simp only [Elem.rows, List.mem_append, List.mem_flatMap]; exact .inl (.inr ⟨x, hx, sub_head x⟩)))]; rfl
  case mlBegin =>
    obtain ⟨ht, f, hf, hM⟩ := M e L.lt hty
    rw [if_pos ht, (hM n h1).1 (hb f (by simp [Elem.rows, hf]))]; rfl
  case «section» => exact absurd hty hs

/-! ## The instruction found is on the line -/

/-- Whatever instruction an outcome reports is one of `bs` and lies at `n`. -/
def Sound (m : Extent) (n : Nat) (bs : List Base) (x : Except PyExc (Option Hit)) : Prop :=
  ∀ r b, x = .ok (some ⟨r, some b⟩) → b ∈ bs ∧ On m b n

theorem gConts_sound (r : Ref) (cs : List Cont) : Sound m n (cs.map Cont.toBase) (.ok (gConts m r n cs)) := by
  induction cs with
  | nil => intro r' b hb; simp [gConts] at hb
  | cons c cs ih =>
    intro r' b hb
    unfold gConts at hb
    split at hb
    · simp at hb
    · rename_i h1
      split at hb
      · rename_i h2
        simp only [Except.ok.injEq, Option.some.injEq, Hit.mk.injEq] at hb
        obtain ⟨_, rfl⟩ := hb
        exact ⟨by simp, by omega, h2⟩
      · obtain ⟨q1, q2⟩ := ih r' b hb
        exact ⟨by simp only [List.map_cons]; exact List.mem_cons_of_mem _ q1, q2⟩

theorem gField_sound {conts : Option (List Cont)} : Sound m n (b :: (conts.getD []).map Cont.toBase) (gField m r b conts n) := by
  intro r' b' hb
  unfold gField at hb
  split at hb
  · simp at hb
  · rename_i h1
    split at hb
    · rename_i h2
      simp only [Except.ok.injEq, Option.some.injEq, Hit.mk.injEq] at hb
      obtain ⟨_, rfl⟩ := hb
      exact ⟨by simp, by omega, h2⟩
    · cases conts with
      | none => simp at hb
      | some cs =>
        simp only at hb
        split at hb
        · simp at hb
        · split at hb
          · simp at hb
          · obtain ⟨q1, q2⟩ := gConts_sound r cs r' b' hb
            exact ⟨List.mem_cons_of_mem _ q1, q2⟩

theorem gSubs_sound (xs : List Sub) : ∀ k, Sound m n (xs.flatMap Sub.rows) (gSubs m whole ref n k xs) := by
  induction xs with
  | nil => intro k r b hb; simp [gSubs] at hb
  | cons x xs ih =>
    intro k r b hb
    rw [gSubs] at hb
    rw [List.flatMap_cons]
    split at hb
    · simp at hb
    · rename_i h1
      split at hb
      · rename_i h2
        simp only [Except.ok.injEq, Option.some.injEq, Hit.mk.injEq] at hb
        obtain ⟨_, rfl⟩ := hb
        exact ⟨List.mem_append_left _ (sub_head x), by omega, h2⟩
      · split at hb
        · simp at hb
        · rename_i hx
          rw [hb] at hx
          obtain ⟨q1, q2⟩ := gField_sound r b hx
          exact ⟨List.mem_append_left _ q1, q2⟩
        · obtain ⟨q1, q2⟩ := ih (k + 1) r b hb
          exact ⟨List.mem_append_right _ q1, q2⟩

theorem gWhole_sound {subs : Option (List Sub)} : Sound m n (b :: (subs.getD []).flatMap Sub.rows) (gWhole m whole ref b subs n) := by
  intro r' b' hb
  unfold gWhole at hb
  split at hb
  · simp at hb
  · rename_i h1
    split at hb
    · rename_i h2
      simp only [Except.ok.injEq, Option.some.injEq, Hit.mk.injEq] at hb
      obtain ⟨_, rfl⟩ := hb
      exact ⟨by simp, by omega, h2⟩
    · cases subs with
      | none => simp at hb
      | some xs =>
        simp only at hb
        split at hb
        · simp at hb
        · split at hb
          · simp at hb
          · obtain ⟨q1, q2⟩ := gSubs_sound xs 0 r' b' hb
            exact ⟨List.mem_cons_of_mem _ q1, q2⟩

theorem orSection_sound {bs : List Base} {x : Except PyExc (Option Hit)} (hx : Sound m n bs x) (hz : orSection s x = .ok z) (hb : z.instruction = some b) :
    b ∈ bs ∧ On m b n := by
  cases x with
  | error e => simp [orSection] at hz
  | ok o =>
    cases o with
    | none => simp only [orSection, Except.ok.injEq] at hz; subst hz; simp at hb
    | some y =>
      simp only [orSection, Except.ok.injEq] at hz; subst hz
      refine hx y.element b ?_
      rw [← hb]

/-- The instruction that lookup finds is one of those of the last element that begins at or before the position, and lies there. -/
theorem lookup_sound (T : Tree h) (O : Ordered m h) (hM : ∀ i, i < h.length → 0 < i → (m (h.at i).toBase).1 ≤ n → Sound m n (h.at i).rows (ml (.elem i) (h.at i) n))
    (L : LastAt m h n e) (hz : gCheck m ml h n (h.length + 1) 0 = .ok z) (hb : z.instruction = some b) : 0 < e ∧ b ∈ (h.at e).rows ∧ On m b n := by
  rw [gCheck_root T O L] at hz
  by_cases he : e = 0
  · subst he
    unfold gAt at hz; rw [T.root] at hz
    simp only [Except.ok.injEq] at hz; subst hz; simp at hb
  · have hi : 0 < e := by omega
    refine ⟨hi, ?_⟩
    obtain ⟨p, hp, eq⟩ := gAt_body (m := m) (ml := ml) (n := n) T hi L.lt
    rw [eq] at hz
    unfold gBody at hz
    by_cases hin : n ≤ (m (h.at e).toBase).2
    · rw [if_pos hin] at hz
      simp only [Except.ok.injEq] at hz; subst hz
      simp only [Option.some.injEq] at hb; subst hb
      exact ⟨rows_head _, L.le he, hin⟩
    · rw [if_neg hin] at hz
      have none' : ∀ {x : Nat}, (Except.ok (ε := PyExc) ⟨.elem x, none⟩ : Except PyExc Hit) = .ok z → False := by
        intro x q; simp only [Except.ok.injEq] at q; subst q; simp at hb
      cases hty : (h.at e).type <;> rw [hty] at hz <;> simp only at hz
      case field =>
        obtain ⟨q1, q2⟩ := orSection_sound gField_sound hz hb
        refine ⟨?_, q2⟩
        simp only [Elem.rows, List.mem_append]
        exact .inl (.inl (.inl (.inl q1)))
      case fieldset =>
        obtain ⟨q1, q2⟩ := orSection_sound gWhole_sound hz hb
        refine ⟨?_, q2⟩
        simp only [Elem.rows, List.mem_append, List.mem_cons] at q1 ⊢
        rcases q1 with q1 | q1
        · exact .inl (.inl (.inl (.inl (.inl q1))))
        · exact .inr q1
      case list =>
        obtain ⟨q1, q2⟩ := orSection_sound gWhole_sound hz hb
        refine ⟨?_, q2⟩
        simp only [Elem.rows, List.mem_append, List.mem_cons] at q1 ⊢
        rcases q1 with q1 | q1
        · exact .inl (.inl (.inl (.inl (.inl q1))))
        · exact .inl (.inr q1)
      case mlBegin =>
        split at hz
        · exact orSection_sound (hM e L.lt hi (L.le he)) hz hb
        · exact (none' hz).elim
      all_goals exact (none' hz).elim

end Eno
