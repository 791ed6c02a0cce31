import Verif.Proofs.CopyDicts

/-! # Indexing finds the templates -/

namespace Eno

open Spec

variable {h h' : Heap} {i j n p : Nat} {sec : Bool} {k : Str} {d : Copies}

/-! ## The order in which elements are visited -/

/-- Elements below a section, subsections after their contents. -/
def walk (h : Heap) : Nat → Nat → List Nat
  | 0, _ => []
  | n + 1, s => (h.at s).elements.flatMap fun i => if (h.at i).type = .section then walk h n i ++ [i] else [i]

/-- Registering one element. -/
def reg (h : Heap) (d : Copies × Copies) (i : Nat) : Except RExc (Copies × Copies) :=
  if (h.at i).type = .section then
    match register h d.1 i with
    | .error x => .error x
    | .ok c => .ok (c, d.2)
  else
    match register h d.2 i with
    | .error x => .error x
    | .ok c => .ok (d.1, c)

theorem mem_elements (ok : HeapOk h) (hp : p < h.length) : i ∈ (h.at p).elements ↔ i < h.length ∧ (h.at i).parent = some p := by
  rw [ok.els p hp]; simp

theorem child_gt (ok : HeapOk h) (hi : i < h.length) (hp : (h.at i).parent = some p) : 0 < i ∧ p < i ∧ (h.at p).isContainer := by
  by_cases hi0 : i = 0
  · subst hi0; rw [ok.doc.2.1] at hp; simp at hp
  · obtain ⟨_, q, hq, hqi, hc⟩ := ok.par i (by omega) hi
    rw [hp] at hq; injection hq with hq; subst hq
    exact ⟨by omega, hqi, hc⟩

theorem indexSection_eq (ok : HeapOk h) : ∀ (n s : Nat) (d : Copies × Copies), s < h.length → h.length - s ≤ n →
    indexSection h n s d = (walk h n s).foldlM (reg h) d := by
  intro n
  induction n with
  | zero => intro s d h1 h2; omega
  | succ n ih =>
    intro s d hs hn
    unfold indexSection walk
    have hall : ∀ i ∈ (h.at s).elements, i < h.length ∧ s < i := by
      intro i hi
      obtain ⟨h1, h2⟩ := (mem_elements ok hs).1 hi
      exact ⟨h1, (child_gt ok h1 h2).2.1⟩
    revert d
    generalize (h.at s).elements = els at *
    induction els with
    | nil => intro d; rfl
    | cons i els ihe =>
      intro d
      obtain ⟨hi, hsi⟩ := hall i (by simp)
      rw [List.foldlM_cons, List.flatMap_cons, List.foldlM_append]
      have hrest : ∀ d', _ := fun d' => ihe (fun j hj => hall j (by simp [hj])) d'
      by_cases hty : (h.at i).type = .section
      · rw [if_pos hty, if_pos hty, ih i d hi (by omega), List.foldlM_append]
        cases hw : (walk h n i).foldlM (reg h) d with
        | error x => rfl
        | ok d1 =>
          simp only [List.foldlM_cons, List.foldlM_nil, reg, if_pos hty]
          cases hr : register h d1.1 i with
          | error x => simp only [bind, Except.bind, hr]
          | ok c =>
            simp only [bind, Except.bind, hr, pure, Except.pure]
            exact hrest _
      · rw [if_neg hty, if_neg hty]
        simp only [List.foldlM_cons, List.foldlM_nil, reg, if_neg hty]
        cases hr : register h d.2 i with
        | error x => rfl
        | ok c =>
          simp only [bind, Except.bind, pure, Except.pure]
          exact hrest _

theorem walk_lt (ok : HeapOk h) : ∀ (n s : Nat), s < h.length → ∀ j ∈ walk h n s, j < h.length ∧ s < j := by
  intro n
  induction n with
  | zero => intro s _ j hj; simp [walk] at hj
  | succ n ih =>
    intro s hs j hj
    simp only [walk, List.mem_flatMap] at hj
    obtain ⟨i, hi, hj⟩ := hj
    obtain ⟨h1, h2⟩ := (mem_elements ok hs).1 hi
    have h3 := (child_gt ok h1 h2).2.1
    split at hj
    · simp at hj
      rcases hj with hj | hj
      · obtain ⟨a, b⟩ := ih i h1 j hj
        exact ⟨a, by omega⟩
      · subst hj; exact ⟨h1, h3⟩
    · simp at hj; subst hj; exact ⟨h1, h3⟩

theorem walk_child (ok : HeapOk h) : ∀ (n s : Nat), s < h.length → h.length - s ≤ n → ∀ j ∈ walk h n s, (h.at j).type = .section →
    ∀ c ∈ (h.at j).elements, c ∈ walk h n s := by
  intro n
  induction n with
  | zero => intro s h1 h2; omega
  | succ n ih =>
    intro s hs hn j hj hty c hc
    simp only [walk, List.mem_flatMap] at hj ⊢
    obtain ⟨i, hi, hj⟩ := hj
    refine ⟨i, hi, ?_⟩
    obtain ⟨h1, h2⟩ := (mem_elements ok hs).1 hi
    have h3 := (child_gt ok h1 h2).2.1
    split at hj
    · rename_i hit
      simp only [List.mem_append, List.mem_singleton] at hj
      rw [if_pos hit]
      rcases hj with hj | rfl
      · exact List.mem_append_left _ (ih i h1 (by omega) j hj hty c hc)
      · have hcl := (mem_elements ok h1).1 hc
        refine List.mem_append_left _ ?_
        obtain ⟨m, rfl⟩ : ∃ m, n = m + 1 := ⟨n - 1, by omega⟩
        simp only [walk, List.mem_flatMap]
        exact ⟨c, hc, by split <;> simp⟩
    · rename_i hit
      simp at hj; subst hj
      exact absurd hty hit

theorem walk_all (ok : HeapOk h) (hn : h.length ≤ n) : ∀ j, 0 < j → j < h.length → j ∈ walk h n 0 := by
  intro j
  induction j using Nat.strongRecOn with
  | ind j ih =>
    intro h0 hj
    obtain ⟨_, p, hp, hpj, hpc⟩ := ok.par j h0 hj
    have hmem : j ∈ (h.at p).elements := (mem_elements ok (by omega)).2 ⟨hj, hp⟩
    by_cases hp0 : p = 0
    · subst hp0
      have hpos := ok.pos
      obtain ⟨m, rfl⟩ : ∃ m, n = m + 1 := ⟨n - 1, by omega⟩
      simp only [walk, List.mem_flatMap]
      exact ⟨j, hmem, by split <;> simp⟩
    · refine walk_child ok n 0 ok.pos (by omega) p (ih p hpj (by omega) (by omega)) ?_ j hmem
      rcases hpc with hpc | hpc
      · exact absurd hpc (ok.par p (by omega) (by omega)).1
      · exact hpc

theorem ancestor_le (ok : HeapOk h) : ∀ (k i a : Nat), i < h.length → ancestor h k i = some a → a ≤ i := by
  intro k
  induction k with
  | zero => intro i a _ h; simp [ancestor] at h; omega
  | succ k ih =>
    intro i a hi hh
    rw [ancestor] at hh
    cases hp : (h.at i).parent with
    | none => rw [hp] at hh; simp at hh
    | some p =>
      rw [hp] at hh; simp at hh
      have := (child_gt ok hi hp).2.1
      have := ih p a (by omega) hh
      omega

theorem walk_ancestor (ok : HeapOk h) : ∀ (n s : Nat), s < h.length → ∀ j ∈ walk h n s, ∃ k, ancestor h (k + 1) j = some s := by
  intro n
  induction n with
  | zero => intro s _ j hj; simp [walk] at hj
  | succ n ih =>
    intro s hs j hj
    simp only [walk, List.mem_flatMap] at hj
    obtain ⟨i, hi, hj⟩ := hj
    obtain ⟨h1, h2⟩ := (mem_elements ok hs).1 hi
    split at hj
    · simp at hj
      rcases hj with hj | hj
      · obtain ⟨k, hk⟩ := ih i h1 j hj
        refine ⟨k + 1, ?_⟩
        rw [ancestor_add h (k + 1) 1, hk]; simp [ancestor, h2]
      · subst hj; exact ⟨0, by simp [ancestor, h2]⟩
    · simp at hj; subst hj; exact ⟨0, by simp [ancestor, h2]⟩

/-- Two children of a section have no common descendant. -/
theorem siblings_disjoint (ok : HeapOk h) {s i i' a b : Nat} (hi : i < h.length) (hi' : i' < h.length) (hj : j < h.length)
    (h1 : (h.at i).parent = some s) (h2 : (h.at i').parent = some s)
    (ha : ancestor h a j = some i) (hb : ancestor h b j = some i') : i = i' := by
  have main : ∀ (i i' a b : Nat), i < h.length → i' < h.length → (h.at i).parent = some s → (h.at i').parent = some s → ancestor h a j = some i →
      ancestor h b j = some i' → a ≤ b → i = i' := by
    intro i i' a b hi hi' h1 h2 ha hb hab
    obtain ⟨c, rfl⟩ : ∃ c, b = a + c := ⟨b - a, by omega⟩
    rw [ancestor_add, ha] at hb
    simp only [Option.bind_some] at hb
    cases c with
    | zero => simp [ancestor] at hb; exact hb
    | succ c =>
      rw [ancestor, h1] at hb; simp at hb
      have h3 := (child_gt ok hi' h2).2.1
      have h4 := (child_gt ok hi h1).2.1
      have := ancestor_le ok c s i' (by omega) hb
      omega
  by_cases hab : a ≤ b
  · exact main i i' a b hi hi' h1 h2 ha hb hab
  · exact (main i' i b a hi' hi h2 h1 hb ha (by omega)).symm

theorem walk_nodup (ok : HeapOk h) : ∀ (n s : Nat), s < h.length → (walk h n s).Nodup := by
  intro n
  induction n with
  | zero => intro s _; simp [walk]
  | succ n ih =>
    intro s hs
    simp only [walk]
    have hnd : (h.at s).elements.Nodup := by rw [ok.els s hs]; exact List.nodup_range.filter _
    have hall : ∀ i ∈ (h.at s).elements, i < h.length ∧ (h.at i).parent = some s := fun i hi => (mem_elements ok hs).1 hi
    generalize (h.at s).elements = els at *
    induction els with
    | nil => simp
    | cons i els ihe =>
      obtain ⟨hi, hp⟩ := hall i (by simp)
      simp only [List.nodup_cons] at hnd
      rw [List.flatMap_cons, List.nodup_append]
      refine ⟨?_, ihe hnd.2 (fun j hj => hall j (by simp [hj])), ?_⟩
      · split
        · rw [List.nodup_append]
          refine ⟨ih i hi, by simp, ?_⟩
          intro a ha b hb
          simp at hb; subst hb
          have := (walk_lt ok n b hi a ha).2
          omega
        · simp
      · intro a ha b hb hab
        subst hab
        have up : ∀ x, x < h.length → a ∈ (if (h.at x).type = .section then walk h n x ++ [x] else [x]) → ∃ c, ancestor h c a = some x ∧ a < h.length := by
          intro x hx hm
          split at hm
          · simp at hm
            rcases hm with hm | hm
            · obtain ⟨c, hc⟩ := walk_ancestor ok n x hx a hm
              exact ⟨c + 1, hc, (walk_lt ok n x hx a hm).1⟩
            · subst hm; exact ⟨0, rfl, hx⟩
          · simp at hm; subst hm; exact ⟨0, rfl, hx⟩
        simp only [List.mem_flatMap] at hb
        obtain ⟨i', hi', hb⟩ := hb
        obtain ⟨hil', hp'⟩ := hall i' (by simp [hi'])
        obtain ⟨c, hc, hal⟩ := up i hi ha
        obtain ⟨c', hc', _⟩ := up i' hil' hb
        have := siblings_disjoint ok hi hil' hal hp hp' hc hc'
        subst this
        exact hnd.1 hi'

/-! ## Registering -/

/-- Whether an element may be the template for a name. -/
def isCand (h : Heap) (sec : Bool) (k : Str) (i : Nat) : Bool :=
  decide (0 < i) && decide ((h.at i).key = k) && decide ((h.at i).template ≠ some k) && (decide ((h.at i).type = .section) == sec)

/-- The dictionary after some elements have been registered. -/
def fill (h : Heap) (sec : Bool) (l : List Nat) (d : Copies) : Copies :=
  d.map fun kc => (kc.1, { kc.2 with template := (l.filter (isCand h sec kc.1)).head? })

/-- No name has two candidates among some elements. -/
def Uniq (h : Heap) (sec : Bool) (l : List Nat) (d : Copies) : Prop := ∀ k ∈ d.map Prod.fst, (l.filter (isCand h sec k)).length ≤ 1

theorem lookup_fill (l : List Nat) (d : Copies) (k : Str) : (fill h sec l d).get? k =
    (d.get? k).map fun c => { c with template := (l.filter (isCand h sec k)).head? } := by
  unfold Copies.get? fill
  induction d with
  | nil => rfl
  | cons a d ih =>
    obtain ⟨k', c⟩ := a
    simp only [List.map_cons, List.lookup_cons]
    by_cases hk : k = k'
    · subst hk; simp
    · have : (k == k') = false := by simpa using hk
      rw [this]; exact ih

theorem get?_mem {c : CopyData} (h : d.get? k = some c) : (k, c) ∈ d := by
  unfold Copies.get? at h
  induction d with
  | nil => simp at h
  | cons a d ih =>
    obtain ⟨k', c'⟩ := a
    rw [List.lookup_cons] at h
    split at h
    · rename_i hk; simp at h hk; subst h; subst hk; simp
    · exact List.mem_cons_of_mem _ (ih h)

theorem get?_none (h : d.get? k = none) : k ∉ d.map Prod.fst := by
  unfold Copies.get? at h
  induction d with
  | nil => simp
  | cons a d ih =>
    obtain ⟨k', c'⟩ := a
    rw [List.lookup_cons] at h
    split at h
    · simp at h
    · rename_i hk
      simp at hk
      simp only [List.map_cons, List.mem_cons, not_or]
      exact ⟨hk, ih h⟩

theorem get?_of_mem {c : CopyData} (hn : (d.map Prod.fst).Nodup) (h : (k, c) ∈ d) : d.get? k = some c := by
  unfold Copies.get?
  induction d with
  | nil => simp at h
  | cons a d ih =>
    obtain ⟨k', c'⟩ := a
    simp only [List.map_cons, List.nodup_cons] at hn
    rw [List.lookup_cons]
    simp only [List.mem_cons, Prod.mk.injEq] at h
    rcases h with ⟨rfl, rfl⟩ | h
    · simp
    · have hk : k ≠ k' := by
        intro e; subst e
        exact hn.1 (List.mem_map.2 ⟨_, h, rfl⟩)
      have : (k == k') = false := by simpa using hk
      rw [this]; exact ih hn.2 h

/-- Elements that are no candidates change nothing. -/
theorem fill_snoc_not {l : List Nat} (h1 : ∀ k ∈ d.map Prod.fst, isCand h sec k i = false) : fill h sec (l ++ [i]) d = fill h sec l d := by
  unfold fill
  apply List.map_congr_left
  intro kc hkc
  have := h1 kc.1 (List.mem_map.2 ⟨_, hkc, rfl⟩)
  simp [this]

theorem uniq_snoc_not {l : List Nat} (h1 : ∀ k ∈ d.map Prod.fst, isCand h sec k i = false) (hu : Uniq h sec l d) : Uniq h sec (l ++ [i]) d := by
  intro k hk
  simp [h1 k hk]; exact hu k hk

theorem setTemplate_fill {l : List Nat} (hn : (d.map Prod.fst).Nodup) (hc : isCand h sec k i = true) (he : l.filter (isCand h sec k) = [])
    (hk : (h.at i).key = k) : (fill h sec l d).setTemplate k i = fill h sec (l ++ [i]) d := by
  have hne : ∀ k', k' ≠ k → isCand h sec k' i = false := by
    intro k' hk'
    have : ¬ (h.at i).key = k' := by rw [hk]; exact fun e => hk' e.symm
    simp [isCand, this]
  induction d with
  | nil => rfl
  | cons a d ih =>
    obtain ⟨k', c⟩ := a
    simp only [List.map_cons, List.nodup_cons] at hn
    simp only [fill, List.map_cons, Copies.setTemplate]
    by_cases hkk : k' = k
    · subst hkk
      simp only [if_true]
      have e1 : (l ++ [i]).filter (isCand h sec k') = [i] := by simp [List.filter_append, he, hc]
      rw [e1]
      simp only [List.head?_cons, List.cons.injEq, true_and]
      apply List.map_congr_left
      intro kc hkc
      have : kc.1 ≠ k' := by
        intro e; exact hn.1 (List.mem_map.2 ⟨_, hkc, e⟩)
      simp [hne _ this]
    · simp only [if_neg hkk]
      have e1 : (l ++ [i]).filter (isCand h sec k') = l.filter (isCand h sec k') := by simp [List.filter_append, hne _ hkk]
      rw [e1]
      simp only [List.cons.injEq, true_and]
      exact ih hn.2

theorem register_fill {l : List Nat} (hn : (d.map Prod.fst).Nodup) (ht : ∀ k c, (k, c) ∈ d → c.targets ≠ []) (hi : 0 < i)
    (hs : decide ((h.at i).type = .section) = sec) (hu : Uniq h sec l d) :
    (register h (fill h sec l d) i = .ok (fill h sec (l ++ [i]) d) ∧ Uniq h sec (l ++ [i]) d) ∨
    (∃ k c copy rest t, (k, c) ∈ d ∧ c.targets = copy :: rest ∧ isCand h sec k i = true ∧ l.filter (isCand h sec k) = [t] ∧
      register h (fill h sec l d) i = .error (.parse (.twoOrMoreTemplatesFound copy t i) h)) := by
  have hother : ∀ k', k' ≠ (h.at i).key → isCand h sec k' i = false := by
    intro k' hk'
    have : ¬ (h.at i).key = k' := fun e => hk' e.symm
    simp [isCand, this]
  unfold register
  rw [lookup_fill]
  cases hg : d.get? (h.at i).key with
  | none =>
    left
    have : ∀ k ∈ d.map Prod.fst, isCand h sec k i = false := by
      intro k hk
      apply hother
      intro e; subst e; exact get?_none hg hk
    exact ⟨by simp [fill_snoc_not this], uniq_snoc_not this hu⟩
  | some c =>
    have hmem := get?_mem hg
    simp only [Option.map_some]
    by_cases hself : (h.at i).template = some (h.at i).key
    · left
      have : ∀ k ∈ d.map Prod.fst, isCand h sec k i = false := by
        intro k hk
        by_cases e : k = (h.at i).key
        · subst e; simp [isCand, hself]
        · exact hother k e
      exact ⟨by rw [if_pos hself, fill_snoc_not this], uniq_snoc_not this hu⟩
    · rw [if_neg hself]
      have hcand : isCand h sec (h.at i).key i = true := by simp [isCand, hself, hs, hi]
      cases hf : l.filter (isCand h sec (h.at i).key) with
      | nil =>
        left
        simp only [List.head?_nil]
        rw [setTemplate_fill hn hcand hf rfl]
        refine ⟨rfl, ?_⟩
        intro k hk
        by_cases e : k = (h.at i).key
        · subst e; simp [List.filter_append, hf, hcand]
        · simp [List.filter_append, hother k e]; exact hu k hk
      | cons t rest =>
        right
        have hone := hu _ (List.mem_map.2 ⟨_, hmem, rfl⟩)
        simp only at hone
        rw [hf] at hone
        have hr : rest = [] := by
          cases rest with
          | nil => rfl
          | cons a b => simp at hone
        subst hr
        cases hct : c.targets with
        | nil => exact absurd hct (ht _ _ hmem)
        | cons copy rest =>
          exact ⟨_, c, copy, rest, t, hmem, hct, hcand, hf, by simp [hct]⟩

/-- What indexing does to both dictionaries. -/
theorem fold_reg (ok : HeapOk h) {ds dn : Copies} (h1 : DictOk h true ds) (h2 : DictOk h false dn) :
    ∀ (l l0 : List Nat), (∀ i ∈ l, 0 < i) → Uniq h true l0 ds → Uniq h false l0 dn →
    (l.foldlM (reg h) (fill h true l0 ds, fill h false l0 dn) = .ok (fill h true (l0 ++ l) ds, fill h false (l0 ++ l) dn) ∧
      Uniq h true (l0 ++ l) ds ∧ Uniq h false (l0 ++ l) dn) ∨
    (∃ sec k c copy rest t i a b, (k, c) ∈ (if sec then ds else dn) ∧ c.targets = copy :: rest ∧ isCand h sec k i = true ∧ isCand h sec k t = true ∧
      l = a ++ i :: b ∧ t ∈ l0 ++ a ∧ l.foldlM (reg h) (fill h true l0 ds, fill h false l0 dn) = .error (.parse (.twoOrMoreTemplatesFound copy t i) h)) := by
  intro l
  induction l with
  | nil => intro l0 _ u1 u2; left; simpa [pure, Except.pure] using ⟨u1, u2⟩
  | cons i l ih =>
    intro l0 hpos u1 u2
    have hi := hpos i (by simp)
    have hpos' : ∀ j ∈ l, 0 < j := fun j hj => hpos j (by simp [hj])
    rw [List.foldlM_cons]
    by_cases hs : (h.at i).type = .section
    · have hnot : ∀ k ∈ dn.map Prod.fst, isCand h false k i = false := by
        intro k _; simp [isCand, hs]
      rcases register_fill h1.nodup (fun k c hc => (h1.mem k c hc).2.2) hi (by simp [hs]) u1 with ⟨hr, hu⟩ | ⟨k, c, copy, rest, t, hm, hct, hca, hf, hr⟩
      · have hreg : reg h (fill h true l0 ds, fill h false l0 dn) i = .ok (fill h true (l0 ++ [i]) ds, fill h false (l0 ++ [i]) dn) := by
          simp [reg, hs, hr, fill_snoc_not hnot]
        rw [hreg]
        have e : l0 ++ i :: l = (l0 ++ [i]) ++ l := by simp
        rcases ih (l0 ++ [i]) hpos' hu (uniq_snoc_not hnot u2) with ⟨a1, a2, a3⟩ | ⟨sec, k, c, copy, rest, t, j, a, b, b1, b2, b3, b4, b5, b6, b7⟩
        · left; rw [e]; exact ⟨a1, a2, a3⟩
        · right
          refine ⟨sec, k, c, copy, rest, t, j, i :: a, b, b1, b2, b3, b4, by rw [b5]; rfl, ?_, b7⟩
          simp at b6 ⊢; exact b6
      · right
        have hreg : reg h (fill h true l0 ds, fill h false l0 dn) i = .error (.parse (.twoOrMoreTemplatesFound copy t i) h) := by
          simp [reg, hs, hr]
        have htm : t ∈ l0.filter (isCand h true k) := by rw [hf]; simp
        rw [List.mem_filter] at htm
        rw [hreg]
        exact ⟨true, k, c, copy, rest, t, i, [], l, hm, hct, hca, htm.2, rfl, by simpa using htm.1, rfl⟩
    · have hnot : ∀ k ∈ ds.map Prod.fst, isCand h true k i = false := by
        intro k _; simp [isCand, hs]
      rcases register_fill h2.nodup (fun k c hc => (h2.mem k c hc).2.2) hi (by simp [hs]) u2 with ⟨hr, hu⟩ | ⟨k, c, copy, rest, t, hm, hct, hca, hf, hr⟩
      · have hreg : reg h (fill h true l0 ds, fill h false l0 dn) i = .ok (fill h true (l0 ++ [i]) ds, fill h false (l0 ++ [i]) dn) := by
          simp [reg, hs, hr, fill_snoc_not hnot]
        rw [hreg]
        have e : l0 ++ i :: l = (l0 ++ [i]) ++ l := by simp
        rcases ih (l0 ++ [i]) hpos' (uniq_snoc_not hnot u1) hu with ⟨a1, a2, a3⟩ | ⟨sec, k, c, copy, rest, t, j, a, b, b1, b2, b3, b4, b5, b6, b7⟩
        · left; rw [e]; exact ⟨a1, a2, a3⟩
        · right
          refine ⟨sec, k, c, copy, rest, t, j, i :: a, b, b1, b2, b3, b4, by rw [b5]; rfl, ?_, b7⟩
          simp at b6 ⊢; exact b6
      · right
        have hreg : reg h (fill h true l0 ds, fill h false l0 dn) i = .error (.parse (.twoOrMoreTemplatesFound copy t i) h) := by
          simp [reg, hs, hr]
        have htm : t ∈ l0.filter (isCand h false k) := by rw [hf]; simp
        rw [List.mem_filter] at htm
        rw [hreg]
        exact ⟨false, k, c, copy, rest, t, i, [], l, hm, hct, hca, htm.2, rfl, by simpa using htm.1, rfl⟩

/-- The dictionary with templates: the only candidate, if there is one. -/
def filled (h : Heap) (sec : Bool) (d : Copies) : Copies :=
  d.map fun kc => (kc.1, { kc.2 with template := (candidates h sec kc.1).head? })

theorem candidates_eq (h : Heap) (sec : Bool) (k : Str) : candidates h sec k = (List.range h.length).filter (isCand h sec k) := rfl

theorem walk_perm (ok : HeapOk h) (hn : h.length ≤ n) (k : Str) : ((walk h n 0).filter (isCand h sec k)).Perm (candidates h sec k) := by
  rw [candidates_eq]
  apply (List.perm_ext_iff_of_nodup ((walk_nodup ok n 0 ok.pos).filter _) (List.nodup_range.filter _)).2
  intro j
  simp only [List.mem_filter, List.mem_range]
  constructor
  · rintro ⟨h1, h2⟩; exact ⟨(walk_lt ok n 0 ok.pos j h1).1, h2⟩
  · rintro ⟨h1, h2⟩
    refine ⟨walk_all ok hn j ?_ h1, h2⟩
    simp [isCand] at h2; omega

/-- Every name has at most one candidate. -/
def Unambiguous (h : Heap) (sec : Bool) (d : Copies) : Prop := ∀ k ∈ d.map Prod.fst, (candidates h sec k).length ≤ 1

/-- **Indexing**: it succeeds exactly if no copied name is ambiguous, and then assigns to every name its only candidate; otherwise it reports an
ambiguous name. -/
theorem index_spec (ok : HeapOk h) {ds dn : Copies} (h1 : DictOk h true ds) (h2 : DictOk h false dn) :
    (Unambiguous h true ds ∧ Unambiguous h false dn ∧ indexSection h (h.length + 1) 0 (ds, dn) = .ok (filled h true ds, filled h false dn)) ∨
    (∃ sec k c copy rest t i, (k, c) ∈ (if sec then ds else dn) ∧ c.targets = copy :: rest ∧ i ∈ candidates h sec k ∧ t ∈ candidates h sec k ∧ t ≠ i ∧
      indexSection h (h.length + 1) 0 (ds, dn) = .error (.parse (.twoOrMoreTemplatesFound copy t i) h)) := by
  have hpos := ok.pos
  rw [indexSection_eq ok _ _ _ ok.pos (by omega)]
  have e1 : ∀ {sec d}, DictOk h sec d → fill h sec [] d = d := by
    intro sec d hd
    unfold fill
    have : ∀ kc ∈ d, (fun kc : Str × CopyData => (kc.1, ({ kc.2 with template := (([] : List Nat).filter (isCand h sec kc.1)).head? } : CopyData))) kc = id kc := by
      intro kc hkc
      obtain ⟨k, c⟩ := kc
      obtain ⟨h1, _⟩ := hd.mem k c hkc
      cases c; simp at h1; subst h1; rfl
    rw [List.map_congr_left this]; simp
  have u0 : ∀ sec d, Uniq h sec [] d := by intro sec d k _; simp
  have hperm := fun sec k => walk_perm (sec := sec) ok (n := h.length + 1) (by omega) k
  have hw := fold_reg ok h1 h2 (walk h (h.length + 1) 0) [] (fun i hi => by have := (walk_lt ok _ _ ok.pos i hi).2; omega) (u0 _ _) (u0 _ _)
  rw [e1 h1, e1 h2] at hw
  rcases hw with ⟨a1, a2, a3⟩ | ⟨sec, k, c, copy, rest, t, i, a, b, b1, b2, b3, b4, b5, b6, b7⟩
  · left
    simp only [List.nil_append] at a1 a2 a3
    have fe : ∀ sec d, Uniq h sec (walk h (h.length + 1) 0) d → Unambiguous h sec d ∧ fill h sec (walk h (h.length + 1) 0) d = filled h sec d := by
      intro sec d hu
      refine ⟨fun k hk => by rw [← (hperm sec k).length_eq]; exact hu k hk, ?_⟩
      unfold fill filled
      apply List.map_congr_left
      intro kc hkc
      have hl := hu kc.1 (List.mem_map.2 ⟨_, hkc, rfl⟩)
      have hp := hperm sec kc.1
      have : ((walk h (h.length + 1) 0).filter (isCand h sec kc.1)) = candidates h sec kc.1 := by
        revert hl hp
        generalize (walk h (h.length + 1) 0).filter (isCand h sec kc.1) = u
        intro hl hp
        match u, hl with
        | [], _ => exact (List.nil_perm.1 hp).symm
        | [x], _ => exact List.singleton_perm.1 hp
      rw [this]
    obtain ⟨f1, f2⟩ := fe true ds a2
    obtain ⟨f3, f4⟩ := fe false dn a3
    refine ⟨f1, f3, ?_⟩
    rw [a1, f2, f4]
  · right
    simp only [List.nil_append] at b6
    have hmem : ∀ x ∈ walk h (h.length + 1) 0, isCand h sec k x = true → x ∈ candidates h sec k := by
      intro x hx hc
      exact (hperm sec k).mem_iff.1 (List.mem_filter.2 ⟨hx, hc⟩)
    refine ⟨sec, k, c, copy, rest, t, i, b1, b2, hmem i (by rw [b5]; simp) b3, hmem t (by rw [b5]; simp [b6]) b4, ?_, b7⟩
    have hnd := walk_nodup ok (h.length + 1) 0 ok.pos
    rw [b5, List.nodup_append] at hnd
    exact hnd.2.2 t b6 i (by simp)

end Eno
