import Verif.Context

/-! # Reading values and comments does not depend on what was read before -/

namespace Eno

variable {α : Type} {input : Str} {h : Heap} {c : Cache} {r : Ref}

/-- An item of some list. -/
def ItemRef (h : Heap) (r : Ref) : Prop := ∃ j k x, r = .item j k ∧ h.sub? r = some x

/-- An entry of some fieldset. -/
def EntryRef (h : Heap) (r : Ref) : Prop := ∃ j k x, r = .entry j k ∧ h.sub? r = some x

/-- An element of some section. -/
def ElementIn (h : Heap) (j : Nat) : Prop := ∃ s, j ∈ (h.at s).elements

/-- What is cached as items, entries and elements are items, entries and elements. -/
structure Filed (h : Heap) (c : Cache) : Prop where
  items : ∀ i xs, c.items i = some xs → ∀ r ∈ xs, ItemRef h r
  entries : ∀ i xs, c.entries i = some xs → ∀ r ∈ xs, EntryRef h r
  elements : ∀ i xs, c.elements i = some xs → ∀ j ∈ xs, ElementIn h j

/-- The cached comments and values are those that would be computed. -/
structure Honest (input : Str) (h : Heap) (c : Cache) : Prop where
  comment : ∀ r v, c.comment r = some v → computeComment (h.comments r) = .ok v
  value : ∀ r v, c.value r = some v → h.mirror? r = none ∧ computeValue input h r = .ok v
  filed : Filed h c

theorem filed_empty : Filed h .empty := ⟨fun _ _ e => (by cases e), fun _ _ e => (by cases e), fun _ _ e => (by cases e)⟩

theorem honest_empty : Honest input h .empty := ⟨fun _ _ e => (by cases e), fun _ _ e => (by cases e), filed_empty⟩

theorem Honest.same {c' : Cache} (f : Honest input h c) (h1 : c'.comment = c.comment ∧ c'.value = c.value) (F : Filed h c') : Honest input h c' :=
  ⟨by rw [h1.1]; exact f.comment, by rw [h1.2]; exact f.value, F⟩

theorem Filed.addItems (F : Filed h c) {i : Nat} {xs : List Ref} (hx : ∀ r ∈ xs, ItemRef h r) : Filed h { c with items := upd c.items i xs } := by
  refine ⟨fun j ys e => ?_, F.entries, F.elements⟩
  simp only [upd] at e
  split at e
  · cases e; exact hx
  · exact F.items j ys e

theorem Filed.addEntries (F : Filed h c) {i : Nat} {xs : List Ref} (hx : ∀ r ∈ xs, EntryRef h r) : Filed h { c with entries := upd c.entries i xs } := by
  refine ⟨F.items, fun j ys e => ?_, F.elements⟩
  simp only [upd] at e
  split at e
  · cases e; exact hx
  · exact F.entries j ys e

theorem Filed.addElements (F : Filed h c) {i : Nat} {xs : List Nat} (hx : ∀ j ∈ xs, ElementIn h j) : Filed h { c with elements := upd c.elements i xs } := by
  refine ⟨F.items, F.entries, fun j ys e => ?_⟩
  simp only [upd] at e
  split at e
  · cases e; exact hx
  · exact F.elements j ys e

theorem ownItems_refs {i : Nat} {xs : List Ref} (hx : h.ownItems i = some xs) : ∀ r ∈ xs, ItemRef h r := by
  intro r hr
  unfold Heap.ownItems at hx
  cases hi : (h.at i).items with
  | none => rw [hi] at hx; cases hx
  | some ys =>
    rw [hi] at hx
    cases hx
    obtain ⟨k, hk, rfl⟩ := List.mem_map.1 hr
    have hk := List.mem_range.1 hk
    exact ⟨i, k, ys[k], rfl, by simp [Heap.sub?, hi, hk]⟩

theorem ownEntries_refs {i : Nat} {xs : List Ref} (hx : h.ownEntries i = some xs) : ∀ r ∈ xs, EntryRef h r := by
  intro r hr
  unfold Heap.ownEntries at hx
  cases hi : (h.at i).entries with
  | none => rw [hi] at hx; cases hx
  | some ys =>
    rw [hi] at hx
    cases hx
    obtain ⟨k, hk, rfl⟩ := List.mem_map.1 hr
    have hk := List.mem_range.1 hk
    exact ⟨i, k, ys[k], rfl, by simp [Heap.sub?, hi, hk]⟩

theorem readComment_fresh (f : Honest input h c) : Honest input h (readComment h r c).2 := by
  unfold readComment
  split
  · exact f
  · split
    · exact f
    · rename_i v hv
      refine ⟨fun r' v' e => ?_, f.value, ⟨f.filed.items, f.filed.entries, f.filed.elements⟩⟩
      simp only [upd] at e
      split at e
      · rename_i er
        cases e
        rw [er]; exact hv
      · exact f.comment r' v' e

theorem readComment_same (f : Honest input h c) : (readComment h r c).1 = computeComment (h.comments r) := by
  unfold readComment
  split
  · rename_i v hv
    exact (f.comment r v hv).symm
  · split <;> rename_i e <;> exact e.symm

theorem readValue_fresh (hv : ∀ r, ∃ v, computeValue input h r = .ok v) : ∀ (n : Nat) {r : Ref} {c : Cache}, Honest input h c → Honest input h (readValue input h n r c).2
  | 0, _, _, f => f
  | n + 1, r, c, f => by
    unfold readValue
    split
    · exact f
    · split
      · exact readValue_fresh hv n f
      · rename_i hm
        obtain ⟨v, hv⟩ := hv r
        rw [hv]
        refine ⟨f.comment, fun r' v' e => ?_, ⟨f.filed.items, f.filed.entries, f.filed.elements⟩⟩
        simp only [upd] at e
        split at e
        · rename_i er
          cases e
          rw [er]; exact ⟨hm, hv⟩
        · exact f.value r' v' e

theorem readValue_same : ∀ (n : Nat) {r : Ref} {c c' : Cache}, Honest input h c → Honest input h c' → (readValue input h n r c).1 = (readValue input h n r c').1
  | 0, _, _, _, _, _ => rfl
  | n + 1, r, c, c', f, f' => by
    unfold readValue
    cases hm : h.mirror? r with
    | some m =>
      have e : ∀ c, Honest input h c → c.value r = none := fun c f => by
        cases hc : c.value r with
        | none => rfl
        | some v => have := (f.value r v hc).1; rw [hm] at this; cases this
      rw [e c f, e c' f']
      exact readValue_same n f f'
    | none =>
      have e : ∀ c, Honest input h c → (match c.value r with
          | some v => ((.ok v, c) : Except PyExc (Option Str) × Cache)
          | none => match computeValue input h r with
            | .error e => (.error e, { c with value := upd c.value r none })
            | .ok v => (.ok v, { c with value := upd c.value r v })).1 = computeValue input h r := fun c f => by
        split
        · rename_i v hv
          exact (f.value r v hv).2.symm
        · split <;> rename_i e <;> exact e.symm
      exact (e c f).trans (e c' f').symm

theorem readItems_texts : ∀ (n : Nat) {i : Nat} {c : Cache}, (readItems h n i c).2.comment = c.comment ∧ (readItems h n i c).2.value = c.value
  | 0, _, _ => ⟨rfl, rfl⟩
  | n + 1, i, c => by
    unfold readItems
    split
    · exact readItems_texts n
    · split
      · split
        · exact ⟨rfl, rfl⟩
        · rename_i t _ _ _
          have := readItems_texts n (i := t) (c := c)
          split <;> rename_i e <;> rw [e] at this
          · exact this
          · split <;> exact this
      · exact ⟨rfl, rfl⟩

theorem readItems_filed : ∀ (n : Nat) {i : Nat} {c : Cache}, Filed h c → Filed h (readItems h n i c).2 ∧ ∀ xs, (readItems h n i c).1 = .ok xs → ∀ r ∈ xs, ItemRef h r
  | 0, _, _, F => ⟨F, fun _ e => (by cases e)⟩
  | n + 1, i, c, F => by
    unfold readItems
    split
    · exact readItems_filed n F
    · split
      · split
        · rename_i hc
          exact ⟨F, fun ys e => by cases e; exact F.items i _ hc⟩
        · rename_i t _ _ _
          have := readItems_filed n (i := t) F
          split <;> rename_i e <;> rw [e] at this
          · exact ⟨this.1, fun _ e => (by cases e)⟩
          · split
            · exact ⟨this.1, fun _ e => (by cases e)⟩
            · rename_i xs _ _ own ho
              have hx : ∀ r ∈ xs ++ own, ItemRef h r := fun r hr => (List.mem_append.1 hr).elim (this.2 xs rfl r) (ownItems_refs ho r)
              exact ⟨this.1.addItems hx, fun ys e => by cases e; exact hx⟩
      · refine ⟨F, fun ys e => ?_⟩
        cases e
        cases ho : h.ownItems i with
        | none => intro r hr; cases hr
        | some own => exact ownItems_refs ho

theorem readItems_fresh (n : Nat) {i : Nat} {c : Cache} (f : Honest input h c) : Honest input h (readItems h n i c).2 :=
  f.same (readItems_texts n) (readItems_filed n f.filed).1

theorem readEntries_texts : ∀ (n : Nat) {i : Nat} {c : Cache}, (readEntries h n i c).2.comment = c.comment ∧ (readEntries h n i c).2.value = c.value
  | 0, _, _ => ⟨rfl, rfl⟩
  | n + 1, i, c => by
    unfold readEntries
    split
    · exact readEntries_texts n
    · split
      · exact ⟨rfl, rfl⟩
      · split
        · exact ⟨rfl, rfl⟩
        · rename_i own _
          dsimp only
          split
          · exact ⟨rfl, rfl⟩
          · rename_i t _
            have := readEntries_texts n (i := t) (c := { c with entries := upd c.entries i own })
            split <;> rename_i e <;> rw [e] at this <;> exact this

theorem readEntries_filed : ∀ (n : Nat) {i : Nat} {c : Cache}, Filed h c → Filed h (readEntries h n i c).2 ∧ ∀ xs, (readEntries h n i c).1 = .ok xs → ∀ r ∈ xs, EntryRef h r
  | 0, _, _, F => ⟨F, fun _ e => (by cases e)⟩
  | n + 1, i, c, F => by
    unfold readEntries
    split
    · exact readEntries_filed n F
    · split
      · rename_i hc
        exact ⟨F, fun ys e => by cases e; exact F.entries i _ hc⟩
      · split
        · exact ⟨F, fun _ e => (by cases e)⟩
        · rename_i own ho
          have F := F.addEntries (i := i) (ownEntries_refs ho)
          dsimp only
          split
          · exact ⟨F, fun ys e => by cases e; exact ownEntries_refs ho⟩
          · rename_i t _
            have := readEntries_filed n (i := t) F
            split <;> rename_i e <;> rw [e] at this
            · exact ⟨this.1, fun _ e => (by cases e)⟩
            · rename_i xs _
              have hx : ∀ r ∈ notIn h own xs ++ own, EntryRef h r := fun r hr =>
                (List.mem_append.1 hr).elim (fun hr => this.2 xs rfl r (List.mem_filter.1 hr).1) (ownEntries_refs ho r)
              exact ⟨this.1.addEntries hx, fun ys e => by cases e; exact hx⟩

theorem readEntries_fresh (n : Nat) {i : Nat} {c : Cache} (f : Honest input h c) : Honest input h (readEntries h n i c).2 :=
  f.same (readEntries_texts n) (readEntries_filed n f.filed).1

theorem readElements_texts : ∀ (n : Nat) {i : Nat} {c : Cache}, (readElements h n i c).2.comment = c.comment ∧ (readElements h n i c).2.value = c.value
  | 0, _, _ => ⟨rfl, rfl⟩
  | n + 1, i, c => by
    unfold readElements
    split
    · rename_i m _
      have := readElements_texts n (i := m) (c := c)
      split <;> rename_i e <;> rw [e] at this <;> exact this
    · split
      · exact ⟨rfl, rfl⟩
      · dsimp only
        split
        · exact ⟨rfl, rfl⟩
        · rename_i t _
          have := readElements_texts n (i := t) (c := { c with elements := upd c.elements i (h.at i).elements })
          split <;> rename_i e <;> rw [e] at this <;> exact this

theorem readElements_filed : ∀ (n : Nat) {i : Nat} {c : Cache}, Filed h c → Filed h (readElements h n i c).2 ∧ ∀ xs, (readElements h n i c).1 = .ok (some xs) → ∀ j ∈ xs, ElementIn h j
  | 0, _, _, F => ⟨F, fun _ e => (by cases e)⟩
  | n + 1, i, c, F => by
    unfold readElements
    split
    · rename_i m _
      have := readElements_filed n (i := m) F
      split <;> rename_i e <;> rw [e] at this <;> exact ⟨this.1, fun _ e => (by cases e)⟩
    · split
      · rename_i hc
        exact ⟨F, fun ys e => by cases e; exact F.elements i _ hc⟩
      · have own : ∀ j ∈ (h.at i).elements, ElementIn h j := fun j hj => ⟨i, hj⟩
        have F := F.addElements (i := i) own
        dsimp only
        split
        · exact ⟨F, fun ys e => by cases e; exact own⟩
        · rename_i t _
          have := readElements_filed n (i := t) F
          split <;> rename_i e <;> rw [e] at this
          · exact ⟨this.1, fun _ e => (by cases e)⟩
          · exact ⟨this.1, fun _ e => (by cases e)⟩
          · rename_i xs _
            have hx : ∀ j ∈ (xs.filter fun k => !((h.at i).elements.map fun j => (h.at j).key).contains (h.at k).key) ++ (h.at i).elements, ElementIn h j := fun j hj =>
              (List.mem_append.1 hj).elim (fun hj => this.2 xs rfl j (List.mem_filter.1 hj).1) (own j)
            exact ⟨this.1.addElements hx, fun ys e => by cases e; exact hx⟩

theorem readElements_fresh (n : Nat) {i : Nat} {c : Cache} (f : Honest input h c) : Honest input h (readElements h n i c).2 :=
  f.same (readElements_texts n) (readElements_filed n f.filed).1

theorem readAll_fresh {g : Ref → Read α} (hg : ∀ r c, Honest input h c → Honest input h (g r c).2) : ∀ (rs : List Ref) {c : Cache}, Honest input h c → Honest input h (readAll g rs c).2
  | [], _, f => f
  | r :: rs, c, f => by
    have := hg r c f
    unfold readAll
    split <;> rename_i e <;> rw [e] at this
    · exact this
    · have := readAll_fresh hg rs this
      split <;> rename_i e <;> rw [e] at this <;> exact this

theorem readRaw_fresh (hv : ∀ r, ∃ v, computeValue input h r = .ok v) : ∀ (n : Nat) {r : Ref} {c : Cache}, Honest input h c → Honest input h (readRaw input h n r c).2
  | 0, _, _, f => f
  | n + 1, r, c, f => by
    have k : Honest input h (readCommentKey h r c).2 := by
      unfold readCommentKey
      split
      · have := readComment_fresh (r := r) f
        split <;> rename_i e <;> rw [e] at this <;> exact this
      · exact f
    have kids : ∀ (cm : Option (Option Str)) (xs : List Ref) (c : Cache), Honest input h c → Honest input h (match readAll (readRaw input h n) xs c with
        | (.error e, c) => ((.error e, c) : Except PyExc Raw × Cache)
        | (.ok l, c) => (.ok (.node (h.type r) cm (h.key? r) l), c)).2 := fun cm xs c f => by
      have := readAll_fresh (fun r c f => readRaw_fresh hv n (r := r) f) xs f
      split <;> rename_i e <;> rw [e] at this <;> exact this
    unfold readRaw
    split
    · rename_i e; rw [e] at k; exact k
    · rename_i cm c1 e
      rw [e] at k
      dsimp only at k ⊢
      split
      · rename_i i
        split
        · exact k
        · have := readItems_fresh n (i := i) k
          split <;> rename_i e <;> rw [e] at this
          · exact this
          · exact kids _ _ _ this
        · have := readEntries_fresh n (i := i) k
          split <;> rename_i e <;> rw [e] at this
          · exact this
          · exact kids _ _ _ this
        · have := readElements_fresh n (i := i) k
          split <;> rename_i e <;> rw [e] at this
          · exact this
          · exact this
          · exact kids _ _ _ this
        · have := readElements_fresh n (i := i) k
          split <;> rename_i e <;> rw [e] at this
          · exact this
          · exact this
          · exact kids _ _ _ this
        · have := readValue_fresh hv n (r := .elem i) k
          split <;> rename_i e <;> rw [e] at this <;> exact this
      · have := readValue_fresh hv n (r := r) k
        split <;> rename_i e <;> rw [e] at this <;> exact this

end Eno
