import Verif.Proofs.ReadLemmas

/-! # Reading with caches -/

namespace Eno

open Spec

variable {h h' h0 h1 : Heap} {i j n p t t' s m : Nat} {k : Str} {ctx ctx' : Ctx} {input : Str} {c : Cache} {v v' : Option Str} {xs ys : List Ref}

/-! ## The specification is functional and total -/

theorem copy_none_not (hc : (h.at i).copy = none) (ht : TemplateIs h i t) : False := by
  have := ht.cand.2.2.1; rw [hc] at this; simp at this

theorem Spec.ValueOf.det (h1 : ValueOf input h i v) (h2 : ValueOf input h i v') : v = v' := by
  induction h1 with
  | own hc =>
    cases h2 with
    | own => rfl
    | copy ht _ => exact (copy_none_not hc ht).elim
  | copy ht _ ih =>
    cases h2 with
    | own hc => exact (copy_none_not hc ht).elim
    | copy ht' h' => have := ht.det ht'; subst this; exact ih h'

theorem Spec.ItemsOf.det (h1 : ItemsOf h i xs) (h2 : ItemsOf h i ys) : xs = ys := by
  induction h1 generalizing ys with
  | own hc =>
    cases h2 with
    | own => rfl
    | copy ht _ => exact (copy_none_not hc ht).elim
  | copy ht _ ih =>
    cases h2 with
    | own hc => exact (copy_none_not hc ht).elim
    | copy ht' h' => have := ht.det ht'; subst this; rw [ih h']

theorem Spec.EntriesOf.det (h1 : EntriesOf h i xs) (h2 : EntriesOf h i ys) : xs = ys := by
  induction h1 generalizing ys with
  | own hc =>
    cases h2 with
    | own => rfl
    | copy ht _ => exact (copy_none_not hc ht).elim
  | copy ht _ ih =>
    cases h2 with
    | own hc => exact (copy_none_not hc ht).elim
    | copy ht' h' => have := ht.det ht'; subst this; rw [ih h']

theorem Spec.Grounded.value (g : Grounded h i) : ∃ v, ValueOf input h i v := by
  induction g with
  | own hc => exact ⟨_, .own hc⟩
  | copy ht _ ih => obtain ⟨v, hv⟩ := ih; exact ⟨v, .copy ht hv⟩

theorem Spec.Grounded.items (g : Grounded h i) : ∃ xs, ItemsOf h i xs := by
  induction g with
  | own hc => exact ⟨_, .own hc⟩
  | copy ht _ ih => obtain ⟨v, hv⟩ := ih; exact ⟨_, .copy ht hv⟩

theorem Spec.Grounded.entries (g : Grounded h i) : ∃ xs, EntriesOf h i xs := by
  induction g with
  | own hc => exact ⟨_, .own hc⟩
  | copy ht _ ih => obtain ⟨v, hv⟩ := ih; exact ⟨_, .copy ht hv⟩

theorem Spec.ItemsOf.refs (hx : ItemsOf h i xs) : ∀ r ∈ xs, ∃ a b, r = .item a b := by
  have own : ∀ j, ∀ r ∈ itemsAt h j, ∃ a b, r = .item a b := by
    intro j r hr; simp [itemsAt] at hr; obtain ⟨b, _, e⟩ := hr; exact ⟨j, b, e.symm⟩
  induction hx with
  | own => exact own _
  | copy _ _ ih => intro r hr; simp at hr; rcases hr with hr | hr; exact ih r hr; exact own _ r hr

theorem Spec.EntriesOf.refs (hx : EntriesOf h i xs) : ∀ r ∈ xs, ∃ a b, r = .entry a b := by
  have own : ∀ j, ∀ r ∈ entriesAt h j, ∃ a b, r = .entry a b := by
    intro j r hr; simp [entriesAt] at hr; obtain ⟨b, _, e⟩ := hr; exact ⟨j, b, e.symm⟩
  induction hx with
  | own => exact own _
  | copy _ _ ih =>
    intro r hr
    simp [notRedefined] at hr
    rcases hr with hr | hr
    · exact ih r hr.1
    · exact own _ r hr

/-! ## Mirrors -/

/-- What is known about the target of a mirror. -/
structure Root (h0 h : Heap) (i n m : Nat) : Prop where
  lt : m < h0.length
  nonsec : (h0.at m).type ≠ .section
  mirror : (h.at m).mirror = none
  depth : ∃ k, k < n ∧ GroundedIn h0 k m
  leads : Leads h0 i m
  kind : (h.at i).type = copyKind (h.at m).type
  value : ∀ input v, ValueOf input h0 i v → ValueOf input h0 m v
  items : ∀ xs, ItemsOf h0 i xs → ItemsOf h0 m xs
  entries : ∀ xs, EntriesOf h0 i xs → EntriesOf h0 m xs

theorem copyKind_idem (ty : Ty) : copyKind (copyKind ty) = copyKind ty := by cases ty <;> rfl

theorem Final.root (F : Final h0 h) (g : GroundedIn h0 n i) (hi : i < h0.length) (hs : (h0.at i).type ≠ .section) (hm : (h.at i).mirror = some m) :
    Root h0 h i n m := by
  induction g with
  | own hc =>
    rw [F.plain _ hi hs hc, (F.ok.elem _ hi).mirror] at hm; simp at hm
  | @copy i t n ht g ih =>
    obtain ⟨h1, h2⟩ := F.nonsec hs ht
    cases F.link hs ht with
    | mirrored e1 e2 e3 e4 e5 =>
      have ei : itemsAt h0 i = [] := F.itemsAt_nil hi (by rw [e1]; decide)
      have ee : entriesAt h0 i = [] := F.entriesAt_nil hi (by rw [e1]; decide)
      have tv : ∀ input v, ValueOf input h0 i v → ValueOf input h0 t v := by
        intro input v hv
        cases hv with
        | own hc => exact (copy_none_not hc ht).elim
        | copy ht' h' => have := ht.det ht'; subst this; exact h'
      have ti : ∀ xs, ItemsOf h0 i xs → ItemsOf h0 t xs := by
        intro xs hv
        cases hv with
        | own hc => exact (copy_none_not hc ht).elim
        | copy ht' h' => have := ht.det ht'; subst this; rw [ei]; simpa using h'
      have te : ∀ xs, EntriesOf h0 i xs → EntriesOf h0 t xs := by
        intro xs hv
        cases hv with
        | own hc => exact (copy_none_not hc ht).elim
        | @copy _ t' ys ht' h' =>
          have := ht.det ht'; subst this
          have : notRedefined h0 i ys = ys := by unfold notRedefined; rw [ee]; simp
          rw [this, ee]; simpa using h'
      rw [e4] at hm; injection hm with hm
      cases htm : (h.at t).mirror with
      | none =>
        rw [htm] at hm; simp at hm; subst hm
        exact ⟨h1, h2, htm, ⟨n, by omega, g⟩, .one ht, e3, tv, ti, te⟩
      | some mm =>
        rw [htm] at hm; simp at hm; subst hm
        have r := ih h1 h2 htm
        obtain ⟨k, hk, gk⟩ := r.depth
        exact ⟨r.lt, r.nonsec, r.mirror, ⟨k, by omega, gk⟩, .step ht r.leads, by rw [e3, r.kind, copyKind_idem],
          fun input v hv => r.value input v (tv input v hv), fun xs hx => r.items xs (ti xs hx), fun xs hx => r.entries xs (te xs hx)⟩
    | nothing _ _ _ e4 _ => rw [e4] at hm; simp at hm
    | extended _ _ _ e4 _ => rw [e4] at hm; simp at hm
    | fresh _ _ _ e4 _ => rw [e4] at hm; simp at hm

/-! ## Coherent caches -/

/-- Entries are cached correctly, except where `X`. -/
def EntriesOk (h0 : Heap) (X : Nat → Prop) (c : Nat → Option (List Ref)) : Prop :=
  ∀ i xs, i < h0.length → (h0.at i).type ≠ .section → ¬ X i → c i = some xs → EntriesOf h0 i xs

/-- Elements of straight sections are cached correctly, except where `X`. -/
def ElementsOk (h0 : Heap) (X : Nat → Prop) (c : Nat → Option (List Nat)) : Prop :=
  ∀ s xs, s < h0.length → (h0.at s).type = .section ∨ s = 0 → Straight h0 s → ¬ X s → c s = some xs → CopiedFirst h0 s xs

/-- Everything that is cached is what a first read returns. -/
structure Coherent (input : Str) (h0 h : Heap) (c : Cache) : Prop where
  comment : ∀ r v, c.comment r = some v → computeComment (h.comments r) = .ok v
  value : ∀ i v, i < h0.length → (h0.at i).type ≠ .section → c.value (.elem i) = some v → ValueOf input h0 i v
  subs : ∀ r v, (∀ i, r ≠ .elem i) → c.value r = some v → v = subValue h0 r
  items : ∀ i xs, i < h0.length → (h0.at i).type ≠ .section → c.items i = some xs → ItemsOf h0 i xs
  entries : EntriesOk h0 (fun _ => False) c.entries
  elements : ElementsOk h0 (fun _ => False) c.elements

theorem coherent_empty : Coherent input h0 h .empty :=
  ⟨by simp [Cache.empty], by simp [Cache.empty], by simp [Cache.empty], by simp [Cache.empty], by simp [Cache.empty, EntriesOk],
    by simp [Cache.empty, ElementsOk]⟩

/-- What `f` does on a coherent cache. -/
def Returns (input : Str) (h0 h : Heap) {α} (f : Read α) (res : Except PyExc α) : Prop :=
  ∀ c, Coherent input h0 h c → ∃ c', f c = (res, c') ∧ Coherent input h0 h c'

theorem readComment_spec (r : Ref) : Returns input h0 h (readComment h r) (computeComment (h.comments r)) := by
  intro c co
  unfold readComment
  cases hc : c.comment r with
  | some v => exact ⟨c, by simp only; rw [co.comment r v hc], co⟩
  | none =>
    simp only
    cases hr : computeComment (h.comments r) with
    | error e => exact ⟨c, rfl, co⟩
    | ok v =>
      refine ⟨_, rfl, ⟨?_, co.value, co.subs, co.items, co.entries, co.elements⟩⟩
      intro r' v' h'
      simp only [upd] at h'
      split at h'
      · rename_i e; subst e; injection h' with h'; subst h'; exact hr
      · exact co.comment r' v' h'

theorem Coherent.setValue (co : Coherent input h0 h c) (hv : ValueOf input h0 i v) : Coherent input h0 h { c with value := upd c.value (.elem i) v } := by
  refine ⟨co.comment, ?_, ?_, co.items, co.entries, co.elements⟩
  · intro j w hj hs hw
    simp only [upd] at hw
    split at hw
    · rename_i e; injection e with e; subst e; injection hw with hw; subst hw; exact hv
    · exact co.value j w hj hs hw
  · intro r w hr hw
    simp only [upd] at hw
    rw [if_neg (hr i)] at hw
    exact co.subs r w hr hw

theorem range?_of_lines {l : Base} (hl : l.ranges.map Prod.fst = [.line, .value]) : l.range? .line = some l.span := by
  unfold Base.span Base.range?
  match hr : l.ranges, hl with
  | (a, x) :: t, hl =>
    simp at hl
    obtain ⟨rfl, _⟩ := hl
    rfl

theorem computeValue_own (F : Final h0 h) (hi : i < h0.length) (hs : (h0.at i).type ≠ .section) (hc : (h0.at i).copy = none) :
    computeValue input h (.elem i) = .ok (ownValue input (h0.at i)) := by
  unfold computeValue ownValue
  simp only [F.plain i hi hs hc]
  have ok := F.ok.elem i hi
  by_cases hm : (h0.at i).type = .mlBegin
  · rw [if_pos hm, if_pos hm]
    cases hl : (h0.at i).lines with
    | none => rfl
    | some ls =>
      obtain ⟨_, hne, hr⟩ := ok.lines ls hl
      obtain ⟨a, ha⟩ : ∃ a, ls.head? = some a := by cases ls with | nil => exact absurd rfl hne | cons a t => exact ⟨a, rfl⟩
      obtain ⟨b, hb⟩ : ∃ b, ls.getLast? = some b := ⟨ls.getLast hne, List.getLast?_eq_some_getLast hne⟩
      simp only [ha, hb]
      rw [range?_of_lines (hr a (List.mem_of_mem_head? (by rw [ha]; rfl))), range?_of_lines (hr b (List.mem_of_getLast? hb))]
      simp only [Option.bind_some, ha, hb, Option.map_some]
  · rw [if_neg hm, if_neg hm, composeValue_eq]

theorem readValue_spec (F : Final h0 h) : ∀ (n i fuel : Nat), GroundedIn h0 n i → n < fuel → i < h0.length → (h0.at i).type ≠ .section →
    ∀ v, ValueOf input h0 i v → Returns input h0 h (readValue input h fuel (.elem i)) (.ok v) := by
  intro n
  induction n using Nat.strongRecOn with
  | ind n ih =>
    intro i fuel g hf hi hs v hv c co
    obtain ⟨fuel, rfl⟩ : ∃ f, fuel = f + 1 := ⟨fuel - 1, by omega⟩
    simp only [readValue]
    cases hc : c.value (.elem i) with
    | some w => exact ⟨c, by rw [(co.value i w hi hs hc).det hv], co⟩
    | none =>
      simp only [Heap.mirror?]
      cases hm : (h.at i).mirror with
      | some m =>
        have r := F.root g hi hs hm
        obtain ⟨k, hk, gk⟩ := r.depth
        exact ih k hk m fuel gk (by omega) r.lt r.nonsec v (r.value input v hv) c co
      | none =>
        simp only
        have : computeValue input h (.elem i) = .ok v := by
          cases g with
          | own hcn =>
            rw [computeValue_own F hi hs hcn]
            exact congrArg _ ((ValueOf.own hcn).det hv)
          | @copy _ t _ ht gt =>
            have hvn : v = none := by
              cases F.link hs ht with
              | mirrored _ _ _ e4 _ => rw [e4] at hm; simp at hm
              | nothing e1 e2 e3 e4 e5 => exact F.no_value hv hi hs (by rw [e3]; decide) (by rw [e3]; decide)
              | extended e1 e2 e3 e4 e5 => exact F.no_value hv hi hs (by rw [e3]; rcases e1 with q | q <;> rw [q] <;> decide) (by rw [e3]; rcases e1 with q | q <;> rw [q] <;> decide)
              | fresh e1 e2 e3 e4 e5 => exact F.no_value hv hi hs (by rw [e3]; rcases e1 with q | q <;> rw [q] <;> decide) (by rw [e3]; rcases e1 with q | q <;> rw [q] <;> decide)
            have hty : (h.at i).type ≠ .mlBegin := by
              cases F.link hs ht with
              | mirrored _ _ _ e4 _ => rw [e4] at hm; simp at hm
              | nothing e1 e2 e3 e4 e5 => rw [e3]; decide
              | extended e1 e2 e3 e4 e5 => rw [e3]; rcases e1 with q | q <;> rw [q] <;> decide
              | fresh e1 e2 e3 e4 e5 => rw [e3]; rcases e1 with q | q <;> rw [q] <;> decide
            have hnf : (h0.at i).type ≠ .field := by
              have := (F.ok.elem i hi).template (by rw [← (F.ok.elem i hi).copy, ht.cand.2.2.1]; rfl)
              intro q; rw [q] at this; simp at this
            have hv0 : (h.at i).value = none ∧ (h.at i).continuations = none := by
              rw [F.own i hi]
              simp only
              have ok := F.ok.elem i hi
              constructor
              · cases hx : (h0.at i).value with
                | none => rfl
                | some x => exact absurd (ok.value (by rw [hx]; rfl)) hnf
              · cases hx : (h0.at i).continuations with
                | none => rfl
                | some x => exact absurd (ok.conts x hx).1 hnf
            simp only [computeValue, if_neg hty, hv0.1, hv0.2, hvn]
            rfl
        rw [this]
        exact ⟨_, rfl, co.setValue hv⟩

theorem readValue_sub (F : Final h0 h) (r : Ref) (hr : ∀ i, r ≠ .elem i) (fuel : Nat) : Returns input h0 h (readValue input h (fuel + 1) r) (.ok (subValue h0 r)) := by
  intro c co
  simp only [readValue]
  cases hc : c.value r with
  | some w => exact ⟨c, by rw [co.subs r w hr hc], co⟩
  | none =>
    have hm : h.mirror? r = none := by cases r with | elem i => exact absurd rfl (hr i) | _ => rfl
    have hcv : computeValue input h r = .ok (subValue h0 r) := by
      have : computeValue input h r = match h.sub? r with | some x => .ok (composeValue x.value x.continuations) | none => .ok none := by
        cases r with | elem i => exact absurd rfl (hr i) | _ => rfl
      rw [this, F.sub_eq]
      unfold subValue
      cases h0.sub? r with
      | none => rfl
      | some x => simp only [Option.bind_some, composeValue_eq]
    simp only [hm, hcv]
    refine ⟨_, rfl, ⟨co.comment, ?_, ?_, co.items, co.entries, co.elements⟩⟩
    · intro j w hj hs hw
      simp only [upd] at hw
      rw [if_neg (fun e => hr j e.symm)] at hw
      exact co.value j w hj hs hw
    · intro r' w hr' hw
      simp only [upd] at hw
      split at hw
      · rename_i e; subst e; injection hw with hw; exact hw.symm
      · exact co.subs r' w hr' hw

theorem readItems_spec (F : Final h0 h) : ∀ (n i fuel : Nat), GroundedIn h0 n i → n < fuel → i < h0.length → (h0.at i).type ≠ .section → (h.at i).type = .list →
    ∀ xs, ItemsOf h0 i xs → Returns input h0 h (readItems h fuel i) (.ok xs) := by
  intro n
  induction n using Nat.strongRecOn with
  | ind n ih =>
    intro i fuel g hf hi hs hty xs hx c co
    obtain ⟨fuel, rfl⟩ : ∃ f, fuel = f + 1 := ⟨fuel - 1, by omega⟩
    simp only [readItems]
    cases hm : (h.at i).mirror with
    | some m =>
      have r := F.root g hi hs hm
      obtain ⟨k, hk, gk⟩ := r.depth
      refine ih k hk m fuel gk (by omega) r.lt r.nonsec ?_ xs (r.items xs hx) c co
      have := r.kind; rw [hty] at this
      revert this; cases (h.at m).type <;> simp [copyKind]
    | none =>
      simp only
      cases g with
      | own hcn =>
        have hx' := hx.det (.own hcn)
        have : (h.at i).extend = none := by rw [F.plain i hi hs hcn]; exact (F.ok.elem i hi).extend
        rw [this]
        exact ⟨c, by simp only; rw [F.ownItems_eq, hx'], co⟩
      | @copy _ t n ht gt =>
        obtain ⟨h1, h2⟩ := F.nonsec hs ht
        obtain ⟨ys, hy⟩ := gt.grounded.items
        have hx' := hx.det (.copy ht hy)
        cases F.link hs ht with
        | mirrored _ _ _ e4 _ => rw [e4] at hm; simp at hm
        | nothing e1 e2 e3 e4 e5 => rw [e3] at hty; simp at hty
        | extended e1 e2 e3 e4 e5 =>
          simp only [e5]
          cases hc : c.items i with
          | some ws => exact ⟨c, by simp only; rw [(co.items i ws hi hs hc).det hx], co⟩
          | none =>
            simp only
            obtain ⟨c', r1, r2⟩ := ih n (by omega) t fuel gt (by omega) h1 h2 (by rw [e2, ← e3]; exact hty) ys hy c co
            rw [r1]
            simp only
            have hown : h.ownItems i = some (itemsAt h0 i) := by
              have := F.ownItems_eq i
              cases ho : h.ownItems i with
              | some o => rw [ho] at this; exact congrArg some this
              | none =>
                have hl := (F.ok.elem i hi).list (by rw [← e3]; exact hty)
                unfold Heap.ownItems at ho
                rw [(F.items_all i).1] at ho
                cases hq : (h0.at i).items with
                | none => rw [hq] at hl; simp at hl
                | some z => rw [hq] at ho; simp at ho
            rw [hown]
            simp only
            subst hx'
            refine ⟨_, rfl, r2.comment, r2.value, r2.subs, ?_, r2.entries, r2.elements⟩
            intro j ws hj hsj hw
            simp only [upd] at hw
            split at hw
            · rename_i e; subst e; injection hw with hw; subst hw; exact hx
            · exact r2.items j ws hj hsj hw
        | fresh e1 e2 e3 e4 e5 =>
          simp only [e5]
          have : ys = [] := F.no_items hy h1 h2 (by intro q; rw [q] at e2; simp at e2)
          exact ⟨c, by rw [F.ownItems_eq, hx', this]; rfl, co⟩

theorem notIn_eq (F : Final h0 h) (hx : ∀ r ∈ xs, ∃ a b, r = .entry a b) : notIn h (entriesAt h0 i) xs = notRedefined h0 i xs := by
  have key : ∀ r, (∃ a b, r = Ref.entry a b) → h.key? r = entryKey h0 r := by
    rintro r ⟨a, b, rfl⟩
    simp only [Heap.key?, F.sub_eq]; rfl
  unfold notIn notRedefined
  apply List.filter_congr
  intro r hr
  rw [key r (hx r hr)]
  have : (entriesAt h0 i).map h.key? = (entriesAt h0 i).map (entryKey h0) := by
    apply List.map_congr_left
    intro o ho
    apply key
    simp [entriesAt] at ho; obtain ⟨b, _, e⟩ := ho; exact ⟨i, b, e.symm⟩
  rw [this, Bool.eq_iff_iff]
  simp

theorem readEntries_spec (F : Final h0 h) : ∀ (n i fuel : Nat), GroundedIn h0 n i → n < fuel → i < h0.length → (h0.at i).type ≠ .section → (h.at i).type = .fieldset →
    ∀ xs, EntriesOf h0 i xs → ∀ (X : Nat → Prop), (∀ x, X x → x ≠ i ∧ ¬ Leads h0 i x) → ∀ c, EntriesOk h0 X c.entries →
    ∃ E, readEntries h fuel i c = (.ok xs, { c with entries := E }) ∧ EntriesOk h0 X E := by
  intro n
  induction n using Nat.strongRecOn with
  | ind n ih =>
    intro i fuel g hf hi hs hty xs hx X hX c co
    obtain ⟨fuel, rfl⟩ : ∃ f, fuel = f + 1 := ⟨fuel - 1, by omega⟩
    simp only [readEntries]
    cases hm : (h.at i).mirror with
    | some m =>
      have r := F.root g hi hs hm
      obtain ⟨k, hk, gk⟩ := r.depth
      refine ih k hk m fuel gk (by omega) r.lt r.nonsec ?_ xs (r.entries xs hx) X ?_ c co
      · have := r.kind; rw [hty] at this
        revert this; cases (h.at m).type <;> simp [copyKind]
      · intro x hx
        exact ⟨fun e => by subst e; exact (hX _ hx).2 r.leads, fun l => (hX x hx).2 (r.leads.trans l)⟩
    | none =>
      simp only
      cases hc : c.entries i with
      | some ws =>
        have : ¬ X i := fun q => (hX i q).1 rfl
        exact ⟨c.entries, by simp only; rw [(co i ws hi hs this hc).det hx], co⟩
      | none =>
        have hft : (h0.at i).type = .fieldset := by
          cases g with
          | own hcn => rw [F.plain i hi hs hcn] at hty; exact hty
          | @copy _ t n ht gt =>
            cases F.link hs ht with
            | mirrored _ _ _ e4 _ => rw [e4] at hm; simp at hm
            | nothing e1 e2 e3 e4 e5 => rw [e3] at hty; simp at hty
            | extended e1 e2 e3 e4 e5 => rw [← e3]; exact hty
            | fresh e1 e2 e3 e4 e5 => rw [← e3]; exact hty
        have hown : h.ownEntries i = some (entriesAt h0 i) := by
          have := F.ownEntries_eq i
          cases ho : h.ownEntries i with
          | some o => rw [ho] at this; exact congrArg some this
          | none =>
            have hl := (F.ok.elem i hi).fieldset hft
            unfold Heap.ownEntries at ho
            rw [(F.items_all i).2.1] at ho
            cases hq : (h0.at i).entries with
            | none => rw [hq] at hl; simp at hl
            | some z => rw [hq] at ho; simp at ho
        simp only [hown]
        have done : ∀ (E : Nat → Option (List Ref)), EntriesOk h0 (fun x => X x ∨ x = i) E → EntriesOk h0 X (upd E i xs) := by
          intro E hE j ws hj hsj hX' hw
          simp only [upd] at hw
          split at hw
          · rename_i e; subst e; injection hw with hw; subst hw; exact hx
          · rename_i e; exact hE j ws hj hsj (by simp only [not_or]; exact ⟨hX', e⟩) hw
        have tmp : ∀ ys, EntriesOk h0 (fun x => X x ∨ x = i) (upd c.entries i ys) := by
          intro ys j ws hj hsj hX' hw
          simp only [not_or] at hX'
          simp only [upd] at hw
          rw [if_neg hX'.2] at hw
          exact co j ws hj hsj hX'.1 hw
        cases g with
        | own hcn =>
          have hx' := hx.det (.own hcn)
          have : (h.at i).extend = none := by rw [F.plain i hi hs hcn]; exact (F.ok.elem i hi).extend
          rw [this]
          refine ⟨upd c.entries i xs, by simp only [hx'], done _ ?_⟩
          intro j ws hj hsj hX' hw
          simp only [not_or] at hX'
          exact co j ws hj hsj hX'.1 hw
        | @copy _ t n ht gt =>
          obtain ⟨h1, h2⟩ := F.nonsec hs ht
          obtain ⟨ys, hy⟩ := gt.grounded.entries
          have hx' := hx.det (.copy ht hy)
          cases F.link hs ht with
          | mirrored _ _ _ e4 _ => rw [e4] at hm; simp at hm
          | nothing e1 e2 e3 e4 e5 => rw [e3] at hty; simp at hty
          | extended e1 e2 e3 e4 e5 =>
            simp only [e5]
            obtain ⟨E, r1, r2⟩ := ih n (by omega) t fuel gt (by omega) h1 h2 (by rw [e2, ← e3]; exact hty) ys hy (fun x => X x ∨ x = i) (by
              rintro x (hx | rfl)
              · exact ⟨fun e => by subst e; exact (hX _ hx).2 (.one ht), fun l => (hX x hx).2 (.step ht l)⟩
              · have nc := (GroundedIn.copy ht gt).grounded.not_cycle
                exact ⟨fun e => by subst e; exact nc (.one ht), fun l => nc (.step ht l)⟩) { c with entries := upd c.entries i (entriesAt h0 i) } (tmp _)
            rw [r1]
            simp only [notIn_eq F hy.refs]
            refine ⟨upd E i xs, by rw [hx'], done _ r2⟩
          | fresh e1 e2 e3 e4 e5 =>
            have : ys = [] := F.no_entries hy h1 h2 (by intro q; rw [q] at e2; simp at e2)
            have hx'' : xs = entriesAt h0 i := by rw [hx', this]; rfl
            simp only [e5]
            refine ⟨upd c.entries i xs, by rw [hx''], done _ ?_⟩
            intro j ws hj hsj hX' hw
            simp only [not_or] at hX'
            exact co j ws hj hsj hX'.1 hw

end Eno
