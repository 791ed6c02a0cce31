import Verif.Proofs.ResolveFacts

/-! # What resolving never changes, even if it fails -/

namespace Eno

/-- What the resolver never writes. -/
def Elem.still (e : Elem) : Elem := { e with type := .document, comments := none, copy := none, deepResolve := false, mirror := none, extend := none }

/-- A heap that resolving can leave behind. -/
structure Shadow (h0 h : Heap) : Prop where
  len : h.length = h0.length
  own : ∀ i, (h.at i).still = (h0.at i).still
  written : ∀ i, ∃ j, (h.at i).comments = (h0.at j).comments
  kept : ∀ i cs, (h0.at i).comments = some cs → (h.at i).comments = some cs
  type : ∀ i, (h.at i).type = (h0.at i).type ∨ ((h0.at i).type = .empty ∧ ((h.at i).type = .field ∨ (h.at i).type = .list ∨ (h.at i).type = .fieldset))

theorem Shadow.refl (h : Heap) : Shadow h h := ⟨rfl, fun _ => rfl, fun i => ⟨i, rfl⟩, fun _ _ h => h, fun _ => .inl rfl⟩

variable {h0 h : Heap} {n : Nat} {f : Elem → Elem}

theorem Shadow.modify (S : Shadow h0 h) (h1 : (f (h.at n)).still = (h.at n).still) (h2 : (f (h.at n)).comments = (h.at n).comments ∨ ((h.at n).comments = none ∧ ∃ j, (f (h.at n)).comments = (h.at j).comments))
    (h3 : (f (h.at n)).type = (h.at n).type ∨ ((h.at n).type = .empty ∧ ((f (h.at n)).type = .field ∨ (f (h.at n)).type = .list ∨ (f (h.at n)).type = .fieldset))) :
    Shadow h0 (h.modify n f) := by
  refine ⟨by rw [List.length_modify, S.len], ?_, ?_, ?_, ?_⟩
  · intro i
    rw [Heap.at_modify]
    split
    · rename_i hi; rw [hi.1, h1]; exact S.own n
    · exact S.own i
  · intro i
    rw [Heap.at_modify]
    split
    · rcases h2 with h2 | ⟨_, j, h2⟩
      · rw [h2]; exact S.written n
      · rw [h2]; exact S.written j
    · exact S.written i
  · intro i cs hc
    rw [Heap.at_modify]
    split
    · rename_i hi
      rw [hi.1] at hc
      rcases h2 with h2 | ⟨h2, _⟩
      · rw [h2]; exact S.kept n cs hc
      · rw [S.kept n cs hc] at h2; cases h2
    · exact S.kept i cs hc
  · intro i
    rw [Heap.at_modify]
    split
    · rename_i hi
      rw [hi.1]
      rcases h3 with h3 | ⟨h3, h4⟩
      · rw [h3]; exact S.type n
      · refine .inr ⟨?_, h4⟩
        rcases S.type n with h5 | ⟨h5, _⟩
        · rw [← h5]; exact h3
        · exact h5
    · exact S.type i

theorem Shadow.mirrorTo (S : Shadow h0 h) (e t : Nat) : Shadow h0 (mirrorTo h e t) := by
  unfold Eno.mirrorTo
  split <;> exact S.modify rfl (.inl rfl) (.inl rfl)

theorem Shadow.inheritComments (S : Shadow h0 h) (e t : Nat) : Shadow h0 (inheritComments h e t) := by
  unfold Eno.inheritComments
  split
  · exact S.modify rfl (.inr ⟨by rename_i hc; exact hc.2, t, rfl⟩) (.inl rfl)
  · exact S

theorem Shadow.setType (S : Shadow h0 h) (e : Nat) {t : Ty} (he : (h.at e).type = .empty) (ht : t = .field ∨ t = .list ∨ t = .fieldset) :
    Shadow h0 (setType h e t) := S.modify rfl (.inl rfl) (.inr ⟨he, ht⟩)

/-- What is left, unless Python itself fails. -/
def Leaves (h0 : Heap) : Except RExc Heap → Prop
  | .ok h => Shadow h0 h
  | .error (.parse _ h) => Shadow h0 h
  | .error (.py _) => True

theorem shadow_consolidateNonSection (S : Shadow h0 h) (e t : Nat) : Leaves h0 (consolidateNonSection h e t) := by
  unfold consolidateNonSection
  simp only
  have S := S.inheritComments e t
  generalize inheritComments h e t = h at S ⊢
  split
  · rename_i he
    split
    · exact (S.setType e he (.inl rfl)).mirrorTo e t
    split
    · exact (S.setType e he (.inl rfl)).mirrorTo e t
    split
    · exact (S.setType e he (.inr (.inr rfl))).mirrorTo e t
    split
    · exact (S.setType e he (.inr (.inl rfl))).mirrorTo e t
    · exact S
  split
  · split
    · exact S.modify rfl (.inl rfl) (.inl rfl)
    split
    · split
      · trivial
      · trivial
      · exact S
    · exact S
  split
  · split
    · exact S.modify rfl (.inl rfl) (.inl rfl)
    split
    · split
      · trivial
      · trivial
      · exact S
    · exact S
  · exact S

theorem shadow_foldlM {α : Type} {f : Heap → α → Except RExc Heap} (hf : ∀ h x, Shadow h0 h → Leaves h0 (f h x)) (l : List α) :
    ∀ {h}, Shadow h0 h → Leaves h0 (l.foldlM f h) := by
  induction l with
  | nil => intro h S; exact S
  | cons x l ih =>
    intro h S
    rw [List.foldlM_cons]
    have := hf h x S
    cases hx : f h x with
    | error e => rw [hx] at this; exact this
    | ok h' => rw [hx] at this; exact ih this

theorem shadow_fold {α ε : Type} {f : Heap → α → Except ε Heap} (hf : ∀ h x h', Shadow h0 h → f h x = .ok h' → Shadow h0 h') (l : List α) :
    ∀ {h h'}, Shadow h0 h → l.foldlM f h = .ok h' → Shadow h0 h' := by
  induction l with
  | nil => intro h h' S e; cases e; exact S
  | cons x l ih =>
    intro h h' S e
    rw [List.foldlM_cons] at e
    cases hx : f h x with
    | error e' => rw [hx] at e; cases e
    | ok h1 => rw [hx] at e; exact ih (hf _ _ _ S hx) e

theorem shadow_consolidateSections : ∀ (n : Nat) {h h' : Heap} {s t : Nat} {d : Bool}, Shadow h0 h → consolidateSections n h s t d = .ok h' → Shadow h0 h'
  | 0, _, _, _, _, _, _, e => by simp [consolidateSections] at e
  | n + 1, h, h', s, t, d, S, e => by
    unfold consolidateSections at e
    simp only at e
    have S := S.inheritComments s t
    generalize inheritComments h s t = h at S e
    split at e
    · injection e with e; subst e; exact S.mirrorTo s t
    · have S : Shadow h0 (h.modify s fun e => { e with extend := some t }) := S.modify rfl (.inl rfl) (.inl rfl)
      generalize h.modify s (fun e => { e with extend := some t }) = h at S e
      split at e
      · injection e with e; subst e; exact S
      · refine shadow_fold ?_ _ S e
        intro h kv h1 S hx
        split at hx
        · exact shadow_consolidateSections n S hx
        · cases hx; exact S

theorem shadow_cyclic (S : Shadow h0 h) (e : Nat) (c : List Nat) : Leaves h0 (.error (cyclicDependency h e c)) := by
  unfold cyclicDependency
  simp only
  split
  · split
    · exact S
    split
    · exact S
    · trivial
  · trivial

theorem shadow_resolveNonSection {d : Copies} : ∀ (n : Nat) {h : Heap} (e : Nat) (prev : List Nat), Shadow h0 h → Leaves h0 (resolveNonSection d n h e prev)
  | 0, _, _, _, _ => trivial
  | n + 1, h, e, prev, S => by
    unfold resolveNonSection
    split
    · exact shadow_cyclic S e prev
    · split
      · trivial
      · rename_i t _
        have h1 : Leaves h0 (if (h.at t).copy.isSome then resolveNonSection d n h t (prev ++ [e]) else .ok h) := by
          split
          · exact shadow_resolveNonSection n t _ S
          · exact S
        split
        · rename_i hx; rw [hx] at h1; exact h1
        · rename_i h' hx
          rw [hx] at h1
          have h2 := shadow_consolidateNonSection h1 e t
          split
          · rename_i hy; rw [hy] at h2; exact h2
          · rename_i hy
            rw [hy] at h2
            exact Shadow.modify h2 rfl (.inl rfl) (.inl rfl)

theorem shadow_resolveSection {d : Copies} : ∀ (n : Nat) {h : Heap} (s : Nat) (prev : List Nat), Shadow h0 h → Leaves h0 (resolveSection d n h s prev)
  | 0, _, _, _, _ => trivial
  | n + 1, h, s, prev, S => by
    unfold resolveSection
    split
    · exact shadow_cyclic S s prev
    · have hF := shadow_foldlM (h0 := h0) (f := fun (h : Heap) c =>
              if (h.at c).type = .section ∧ (h.at c).pending then resolveSection d n h c (prev ++ [s]) else .ok h) (by
            intro h x S
            show Leaves h0 (if _ then _ else _)
            split
            · exact shadow_resolveSection n x _ S
            · exact S) (h.at s).elements S
      split
      · rename_i hx
        split at hx
        · split at hx
          · rename_i hy; rw [hy] at hF; injection hx with hx; rw [← hx]; exact hF
          · cases hx
        · cases hx
      · rename_i h' hx
        have h1 : Shadow h0 h' := by
          split at hx
          · split at hx
            · cases hx
            · rename_i hy; rw [hy] at hF; injection hx with hx; rw [← hx]
              exact Shadow.modify hF rfl (.inl rfl) (.inl rfl)
          · injection hx with hx; rw [← hx]; exact S
        split
        · split
          · trivial
          · rename_i t _
            have h2 : Leaves h0 (if (h'.at t).pending then resolveSection d n h' t (prev ++ [s]) else .ok h') := by
              split
              · exact shadow_resolveSection n t _ h1
              · exact h1
            split
            · rename_i hy; rw [hy] at h2; exact h2
            · rename_i h'' hy
              rw [hy] at h2
              split
              · trivial
              · rename_i hz
                have h3 := shadow_consolidateSections _ h2 hz
                exact Shadow.modify h3 rfl (.inl rfl) (.inl rfl)
        · exact h1

theorem shadow_resolveAll {nf : Nat → RFail} {one : Heap → Nat → Except RExc Heap} (d : Copies)
    (hone : ∀ h i, Shadow h0 h → Leaves h0 (one h i)) (S : Shadow h0 h) : Leaves h0 (resolveAll nf one d h) := by
  unfold resolveAll
  refine shadow_foldlM ?_ d S
  intro h kc S
  split
  · split
    · trivial
    · exact S
  · refine shadow_foldlM ?_ _ S
    intro h i S
    split
    · exact hone h i S
    · exact S

theorem index_heap : ∀ (n s : Nat) (d : Copies × Copies) {k : RFail} {h' : Heap}, indexSection h n s d = .error (.parse k h') → h' = h
  | 0, _, _, _, _, e => by simp [indexSection] at e
  | n + 1, s, d, k, h', e => by
    have reg : ∀ (d : Copies) i, register h d i = .error (.parse k h') → h' = h := by
      intro d i e
      unfold register at e
      repeat' split at e
      all_goals first | (cases e; done) | (injection e with e; injection e with _ e; exact e.symm)
    unfold indexSection at e
    generalize (h.at s).elements = l at e
    induction l generalizing d with
    | nil => cases e
    | cons i l ih =>
      rw [List.foldlM_cons] at e
      split at e
      · cases hi : indexSection h n i d with
        | error x => rw [hi] at e; injection e with e; subst e; exact index_heap n i d hi
        | ok d' =>
          simp only [hi] at e
          cases hr : register h d'.1 i with
          | error x => rw [hr] at e; injection e with e; subst e; exact reg _ _ hr
          | ok c => simp only [hr] at e; exact ih _ e
      · cases hr : register h d.2 i with
        | error x => rw [hr] at e; injection e with e; subst e; exact reg _ _ hr
        | ok c => simp only [hr] at e; exact ih _ e

/-- However resolving ends. -/
theorem shadow_resolve (ctx : Ctx) : match resolve ctx with
    | .ok ctx' => Shadow ctx.heap ctx'.heap
    | .error (.parse _ h) => Shadow ctx.heap h
    | .error (.py _) => True := by
  unfold resolve
  cases hi : indexSection ctx.heap (ctx.heap.length + 1) 0 (ctx.copySections, ctx.copyNonSections) with
  | error x =>
    cases x with
    | py => trivial
    | parse k h => simp only; rw [index_heap _ _ _ hi]; exact Shadow.refl _
  | ok d =>
    simp only
    have h1 := shadow_resolveAll (nf := .nonSectionElementNotFound) (one := fun h i => resolveNonSection d.2 (h.length + 1) h i []) d.2
      (fun h i S => shadow_resolveNonSection _ i _ S) (Shadow.refl ctx.heap)
    cases hr : resolveAll .nonSectionElementNotFound (fun h i => resolveNonSection d.2 (h.length + 1) h i []) d.2 ctx.heap with
    | error x =>
      rw [hr] at h1
      cases x with
      | py => trivial
      | parse k h => exact h1
    | ok h =>
      rw [hr] at h1
      simp only
      have h2 := shadow_resolveAll (nf := .sectionNotFound) (one := fun h i => resolveSection d.1 (h.length + 1) h i []) d.1
        (fun h i S => shadow_resolveSection _ i _ S) h1
      cases hs : resolveAll .sectionNotFound (fun h i => resolveSection d.1 (h.length + 1) h i []) d.1 h with
      | error x =>
        rw [hs] at h2
        cases x with
        | py => trivial
        | parse k h => exact h2
      | ok h => rw [hs] at h2; exact h2

end Eno
