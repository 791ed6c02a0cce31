import Verif.Proofs.ReadCache
import Verif.Instantiate

/-! # The typed readers of lists and fieldsets -/

namespace Eno

open Spec

variable {h h' h0 h1 : Heap} {i j n p t t' s m : Nat} {k : Str} {ctx ctx' : Ctx} {input : Str} {xs ys : List Ref}

theorem copyKind_inv {ty ty' : Ty} (h1 : ty = copyKind ty') (h2 : ty = .list ∨ ty = .fieldset) : ty' = ty := by
  subst h1; revert h2; cases ty' <;> simp [copyKind]

theorem Final.hasItems (F : Final h0 h) (hi : i < h0.length) (hty : (h0.at i).type = .list) : h.ownItems i = some (itemsAt h0 i) := by
  have := F.ownItems_eq i
  cases ho : h.ownItems i with
  | some o => rw [ho] at this; exact congrArg some this
  | none =>
    have hl := (F.ok.elem i hi).list hty
    unfold Heap.ownItems at ho
    rw [(F.items_all i).1] at ho
    cases hq : (h0.at i).items with
    | none => rw [hq] at hl; simp at hl
    | some z => rw [hq] at ho; simp at ho

theorem Final.hasEntries (F : Final h0 h) (hi : i < h0.length) (hty : (h0.at i).type = .fieldset) : h.ownEntries i = some (entriesAt h0 i) := by
  have := F.ownEntries_eq i
  cases ho : h.ownEntries i with
  | some o => rw [ho] at this; exact congrArg some this
  | none =>
    have hl := (F.ok.elem i hi).fieldset hty
    unfold Heap.ownEntries at ho
    rw [(F.items_all i).2.1] at ho
    cases hq : (h0.at i).entries with
    | none => rw [hq] at hl; simp at hl
    | some z => rw [hq] at ho; simp at ho

/-- A typed list holds its items. -/
theorem instItems_spec (F : Final h0 h) : ∀ (n i fuel : Nat), GroundedIn h0 n i → n < fuel → i < h0.length → (h0.at i).type ≠ .section →
    (h.at i).type = .list → ∀ xs, ItemsOf h0 i xs → instItems h fuel i = .ok xs := by
  intro n
  induction n using Nat.strongRecOn with
  | ind n ih =>
    intro i fuel g hf hi hs hty xs hx
    obtain ⟨fuel, rfl⟩ : ∃ f, fuel = f + 1 := ⟨fuel - 1, by omega⟩
    simp only [instItems]
    cases hm : (h.at i).mirror with
    | some m =>
      have r := F.root g hi hs hm
      obtain ⟨k, hk, gk⟩ := r.depth
      exact ih k hk m fuel gk (by omega) r.lt r.nonsec (by rw [copyKind_inv r.kind (.inl hty)]; exact hty) xs (r.items xs hx)
    | none =>
      simp only
      cases g with
      | own hcn =>
        have hx' := hx.det (.own hcn)
        have : (h.at i).extend = none := by rw [F.plain i hi hs hcn]; exact (F.ok.elem i hi).extend
        rw [this]
        simp only
        rw [F.ownItems_eq, hx']
      | @copy _ t n ht gt =>
        obtain ⟨h1, h2⟩ := F.nonsec hs ht
        obtain ⟨ys, hy⟩ := gt.grounded.items
        have hx' := hx.det (.copy ht hy)
        cases F.link hs ht with
        | mirrored _ _ _ e4 _ => rw [e4] at hm; simp at hm
        | nothing e1 e2 e3 e4 e5 => rw [e3] at hty; simp at hty
        | extended e1 e2 e3 e4 e5 =>
          simp only [e5]
          rw [ih n (by omega) t fuel gt (by omega) h1 h2 (by rw [e2, ← e3]; exact hty) ys hy]
          simp only [F.hasItems hi (e3 ▸ hty)]
          rw [hx']
        | fresh e1 e2 e3 e4 e5 =>
          simp only [e5]
          have : ys = [] := F.no_items hy h1 h2 (by intro q; rw [q] at e2; simp at e2)
          rw [F.ownItems_eq, hx', this]; rfl

/-- What is left of `xs` if the keys of `map` are taken. -/
def untaken (h : Heap) (map xs : List Ref) : List Ref := xs.filter fun r => !(map.map (entryKey h)).contains (entryKey h r)

theorem untaken_append (h : Heap) (map a b : List Ref) : untaken h map (a ++ b) = untaken h map a ++ untaken h map b := by
  simp [untaken]

theorem mem_untaken {h : Heap} {map xs : List Ref} {r : Ref} : r ∈ untaken h map xs ↔ r ∈ xs ∧ ∀ o ∈ map, entryKey h o ≠ entryKey h r := by
  simp [untaken]

theorem untaken_step (h : Heap) (i : Nat) (map xs : List Ref) :
    untaken h (map ++ untaken h map (entriesAt h i)) xs = untaken h map (notRedefined h i xs) := by
  unfold untaken notRedefined
  rw [List.filter_filter]
  apply List.filter_congr
  intro r hr
  rw [Bool.eq_iff_iff]
  simp only [Bool.and_eq_true, Bool.not_eq_true', decide_eq_true_eq]
  rw [← Bool.not_eq_true, ← Bool.not_eq_true, List.contains_iff_mem, List.contains_iff_mem]
  simp only [List.mem_map, List.mem_append, not_exists, not_and]
  constructor
  · intro hh
    refine ⟨fun o ho => hh o (.inl ho), fun o ho e => ?_⟩
    by_cases hq : ∃ q ∈ map, entryKey h q = entryKey h o
    · obtain ⟨q, q1, q2⟩ := hq
      exact hh q (.inl q1) (q2.trans e)
    · refine hh o (.inr ?_) e
      rw [List.mem_filter]
      refine ⟨ho, ?_⟩
      simp only [not_exists, not_and] at hq
      simp only [Bool.not_eq_true']
      rw [← Bool.not_eq_true, List.contains_iff_mem, List.mem_map]
      rintro ⟨q, q1, q2⟩
      exact hq q q1 q2
  · rintro ⟨a, b⟩ o (ho | ho) e
    · exact a o ho e
    · exact b o (List.mem_filter.1 ho).1 e

theorem key_entry (F : Final h0 h) {r : Ref} (hr : ∃ a b, r = Ref.entry a b) : h.key? r = entryKey h0 r := by
  obtain ⟨a, b, rfl⟩ := hr
  simp only [Heap.key?, F.sub_eq]; rfl

theorem entriesAt_refs {r : Ref} (hr : r ∈ entriesAt h i) : ∃ a b, r = Ref.entry a b := by
  simp [entriesAt] at hr; obtain ⟨b, _, e⟩ := hr; exact ⟨i, b, e.symm⟩

/-- A typed fieldset holds its entries. -/
theorem instEntries_spec (F : Final h0 h) : ∀ (n i fuel : Nat), GroundedIn h0 n i → n < fuel → i < h0.length → (h0.at i).type ≠ .section →
    (h.at i).type = .fieldset → ∀ xs, EntriesOf h0 i xs → ∀ map, (∀ r ∈ map, ∃ a b, r = Ref.entry a b) →
    ∃ map', instEntries h fuel i map = .ok (map ++ map', untaken h0 map xs) ∧ List.Perm map' (untaken h0 map xs) ∧ ∀ r ∈ map', ∃ a b, r = Ref.entry a b := by
  intro n
  induction n using Nat.strongRecOn with
  | ind n ih =>
    intro i fuel g hf hi hs hty xs hx map hmap
    obtain ⟨fuel, rfl⟩ : ∃ f, fuel = f + 1 := ⟨fuel - 1, by omega⟩
    simp only [instEntries]
    cases hm : (h.at i).mirror with
    | some m =>
      have r := F.root g hi hs hm
      obtain ⟨k, hk, gk⟩ := r.depth
      exact ih k hk m fuel gk (by omega) r.lt r.nonsec (by rw [copyKind_inv r.kind (.inr hty)]; exact hty) xs (r.entries xs hx) map hmap
    | none =>
      simp only
      have hft : (h0.at i).type = .fieldset := by
        cases g with
        | own hcn => rw [F.plain i hi hs hcn] at hty; exact hty
        | @copy _ t n ht gt =>
          cases F.link hs ht with
          | mirrored _ _ _ e4 _ => rw [e4] at hm; simp at hm
          | nothing e1 e2 e3 e4 e5 => rw [e3] at hty; simp at hty
          | extended e1 e2 e3 e4 e5 => rw [← e3]; exact hty
          | fresh e1 e2 e3 e4 e5 => rw [← e3]; exact hty
      simp only [F.hasEntries hi hft]
      have nat : ((entriesAt h0 i).filter fun r => !(map.map h.key?).contains (h.key? r)) = untaken h0 map (entriesAt h0 i) := by
        unfold untaken
        apply List.filter_congr
        intro r hr
        rw [key_entry F (entriesAt_refs hr), List.map_congr_left (fun o ho => key_entry F (hmap o ho))]
      rw [nat]
      have nref : ∀ r ∈ untaken h0 map (entriesAt h0 i), ∃ a b, r = Ref.entry a b := fun r hr => entriesAt_refs (mem_untaken.1 hr).1
      cases g with
      | own hcn =>
        have hx' := hx.det (.own hcn)
        have : (h.at i).extend = none := by rw [F.plain i hi hs hcn]; exact (F.ok.elem i hi).extend
        rw [this, hx']
        exact ⟨_, rfl, .refl _, nref⟩
      | @copy _ t n ht gt =>
        obtain ⟨h1, h2⟩ := F.nonsec hs ht
        obtain ⟨ys, hy⟩ := gt.grounded.entries
        have hx' := hx.det (.copy ht hy)
        cases F.link hs ht with
        | mirrored _ _ _ e4 _ => rw [e4] at hm; simp at hm
        | nothing e1 e2 e3 e4 e5 => rw [e3] at hty; simp at hty
        | extended e1 e2 e3 e4 e5 =>
          simp only [e5]
          obtain ⟨map', r1, r2, r3⟩ := ih n (by omega) t fuel gt (by omega) h1 h2 (by rw [e2, ← e3]; exact hty) ys hy
            (map ++ untaken h0 map (entriesAt h0 i)) (by intro r hr; simp at hr; rcases hr with hr | hr; exact hmap r hr; exact nref r hr)
          rw [r1, hx', untaken_append, ← untaken_step]
          refine ⟨untaken h0 map (entriesAt h0 i) ++ map', by simp, ?_, ?_⟩
          · exact (List.Perm.append_left _ r2).trans List.perm_append_comm
          · intro r hr; simp at hr; rcases hr with hr | hr; exact nref r hr; exact r3 r hr
        | fresh e1 e2 e3 e4 e5 =>
          have : ys = [] := F.no_entries hy h1 h2 (by intro q; rw [q] at e2; simp at e2)
          have hx'' : xs = entriesAt h0 i := by rw [hx', this]; rfl
          simp only [e5]
          rw [hx'']
          exact ⟨_, rfl, .refl _, nref⟩

/-- An empty element has neither items nor entries. -/
theorem inst_empty (F : Final h0 h) (hi : i < h0.length) (hty : (h.at i).type = .empty) (hs : (h0.at i).type ≠ .section) (fuel : Nat) :
    instItems h (fuel + 1) i = .ok [] ∧ ∀ map, instEntries h (fuel + 1) i map = .ok (map, []) := by
  have key : (h.at i).mirror = none ∧ (h.at i).extend = none ∧ (h0.at i).type = .empty := by
    have g := F.grounded i hi hs
    cases g with
    | own hc => rw [F.plain i hi hs hc] at hty ⊢; exact ⟨(F.ok.elem i hi).mirror, (F.ok.elem i hi).extend, hty⟩
    | copy ht _ =>
      cases F.link hs ht with
      | mirrored e1 e2 e3 e4 e5 => rw [hty] at e3; simp at e2; rcases e2 with q | q | q | q <;> rw [q] at e3 <;> simp [copyKind] at e3
      | nothing e1 e2 e3 e4 e5 => exact ⟨e4, e5, e1⟩
      | extended e1 e2 e3 e4 e5 => rw [e3] at hty; rcases e1 with q | q <;> rw [q] at hty <;> simp at hty
      | fresh e1 e2 e3 e4 e5 => rw [e3] at hty; rcases e1 with q | q <;> rw [q] at hty <;> simp at hty
  obtain ⟨k1, k2, k3⟩ := key
  constructor
  · simp only [instItems, k1, k2]
    rw [F.ownItems_eq, F.itemsAt_nil hi (by rw [k3]; decide)]
  · intro map
    simp only [instEntries, k1]
    have : h.ownEntries i = none := by
      unfold Heap.ownEntries
      rw [(F.items_all i).2.1]
      cases hq : (h0.at i).entries with
      | none => rfl
      | some z => have := ((F.ok.elem i hi).entries z hq).1; rw [k3] at this; simp at this
    rw [this]

end Eno
