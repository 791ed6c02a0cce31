import Verif.Proofs.ResolveFacts
import Verif.Spec.Reading
import Verif.Context

/-! # Links of a loaded document; values with continuations -/

namespace Eno

open Spec

variable {h h' h0 h1 : Heap} {i j n p t t' s : Nat} {k : Str} {ctx ctx' : Ctx} {input : Str} {c : Cache}

/-! ## Continuations -/

theorem applyCont_some (cs : List Cont) : ∀ (v : Str) (sp : Bool),
    (cs.foldl applyCont (some v, sp)).1 = some (v ++ tailText sp (cs.map fun c => (c.spaced, c.value))) := by
  induction cs with
  | nil => intro v sp; simp [tailText]
  | cons c cs ih =>
    intro v sp
    simp only [List.foldl_cons, List.map_cons, applyCont]
    cases hv : c.value with
    | none => simp only [tailText]; exact ih _ _
    | some x =>
      simp only [tailText]
      by_cases hs : (c.spaced || sp) = true
      · rw [if_pos hs, ih, if_pos (by rw [Bool.or_comm]; exact hs)]
        simp
      · rw [if_neg hs, ih, if_neg (by rw [Bool.or_comm]; exact hs)]
        simp

theorem applyCont_none (cs : List Cont) : ∀ sp, (cs.foldl applyCont (none, sp)).1 = joined (cs.map fun c => (c.spaced, c.value)) := by
  induction cs with
  | nil => intro sp; rfl
  | cons c cs ih =>
    intro sp
    simp only [List.foldl_cons, List.map_cons, applyCont]
    cases hv : c.value with
    | none => simp only [joined]; exact ih _
    | some x => simp only [joined]; exact applyCont_some cs x false

/-- The loop over continuations is the joining of parts. -/
theorem composeValue_eq (v : Option Str) (cs : Option (List Cont)) : composeValue v cs = joined (valueParts v cs) := by
  unfold composeValue valueParts
  cases v with
  | none => simp only [joined]; exact applyCont_none _ _
  | some x => simp only [joined]; exact applyCont_some _ x false

/-! ## Following templates takes less steps than there are elements -/

/-- Following templates ends after `n` steps. -/
inductive GroundedIn (h : Heap) : Nat → Nat → Prop where
  | own {i : Nat} : (h.at i).copy = none → GroundedIn h 0 i
  | copy {i t n : Nat} : TemplateIs h i t → GroundedIn h n t → GroundedIn h (n + 1) i

theorem GroundedIn.grounded (g : GroundedIn h n i) : Grounded h i := by
  induction g with
  | own hc => exact .own hc
  | copy ht _ ih => exact .copy ht ih

theorem GroundedIn.chain (g : GroundedIn h n i) (hi : i < h.length) :
    ∃ l : List Nat, l.length = n ∧ l.Nodup ∧ (∀ x ∈ l, x < h.length ∧ Leads h i x) := by
  induction g with
  | own _ => exact ⟨[], rfl, by simp, by simp⟩
  | @copy i t n ht g ih =>
    obtain ⟨l, h1, h2, h3⟩ := ih ht.cand.1
    refine ⟨t :: l, by simp [h1], ?_, ?_⟩
    · exact .cons (fun x hx e => by subst e; exact g.grounded.not_cycle (h3 _ hx).2) h2
    · intro x hx
      simp at hx
      rcases hx with rfl | hx
      · exact ⟨ht.cand.1, .one ht⟩
      · exact ⟨(h3 x hx).1, .step ht (h3 x hx).2⟩

theorem Spec.Grounded.bounded (g : Grounded h i) (hi : i < h.length) : ∃ n, n < h.length ∧ GroundedIn h n i := by
  have hex : ∃ n, GroundedIn h n i := by
    clear hi
    induction g with
    | own hc => exact ⟨0, .own hc⟩
    | copy ht _ ih => obtain ⟨n, hn⟩ := ih; exact ⟨n + 1, .copy ht hn⟩
  obtain ⟨n, hn⟩ := hex
  refine ⟨n, ?_, hn⟩
  obtain ⟨l, h1, h2, h3⟩ := hn.chain hi
  have := nodup_bound h.length (i :: l)
    (.cons (fun x hx e => by subst e; exact g.not_cycle (h3 _ hx).2) h2)
    (by intro x hx; simp at hx; rcases hx with rfl | hx; exact hi; exact (h3 x hx).1)
  simp at this
  omega

/-! ## The non-section elements of a loaded document -/

/-- What resolving has done to non-section elements. -/
structure Final (h0 h : Heap) : Prop where
  ok : HeapOk h0
  len : h.length = h0.length
  own : ∀ i, i < h0.length → h.at i = { h0.at i with
      type := (h.at i).type, comments := (h.at i).comments, copy := none, deepResolve := (h.at i).deepResolve,
      mirror := (h.at i).mirror, extend := (h.at i).extend }
  plain : ∀ i, i < h0.length → (h0.at i).type ≠ .section → (h0.at i).copy = none → h.at i = h0.at i
  copied : ∀ i t, (h0.at i).type ≠ .section → TemplateIs h0 i t → consN (h0.at i) (h.at t) t = .ok (h.at i)
  grounded : ∀ i, i < h0.length → (h0.at i).type ≠ .section → Grounded h0 i

theorem final_of_load (ha : analyze input = .ok ctx) (hl : load input = .ok ctx') : Final ctx.heap ctx'.heap := by
  have a := analyze_analysed ha
  obtain ⟨c, hc', r, _, hlen⟩ := load_ok_analyze hl
  rw [ha] at hc'; injection hc' with hc'; subst hc'
  have hcp := r.copies
  obtain ⟨h1, n1, n2, s1⟩ := r.mid
  refine ⟨a.heap, hlen, ?_, ?_, ?_, fun i hi hs => n1.grounded hi (n2 i hi hs)⟩
  · intro i hi
    have hcp := hcp i hi
    by_cases hs : (ctx.heap.at i).type = .section
    · have hk := s1.kept i hs
      unfold Kept at hk
      rw [hk] at hcp ⊢
      simp only at hcp
      rw [hcp]
    · rw [s1.non i hs] at hcp ⊢
      rcases n1.all i hi with e | ⟨_, t, _, _, e, _⟩
      · rw [e] at hcp ⊢
        rw [← hcp]
      · rw [consN_keeps e]
  · intro i hi hs hc
    rw [s1.non i hs]
    rcases n1.all i hi with e | ⟨_, t, ht, _⟩
    · exact e
    · have := ht.cand.2.2.1; rw [hc] at this; simp at this
  · intro i t hs ht
    have hts : (ctx.heap.at t).type ≠ .section := fun q => hs (ht.cand.2.2.2.2.1 q)
    rw [s1.non i hs, s1.non t hts]
    rcases n1.all i ht.1 with e | ⟨_, t', ht', _, e, _⟩
    · have := n2 i ht.1 hs
      rw [e, ht.cand.2.2.1] at this; simp at this
    · have := ht.det ht'; subst this; exact e

/-- How a copy is linked to its template. -/
inductive CopyLink (e0 e t : Elem) (tid : Nat) : Prop where
  | mirrored : e0.type = .empty → t.type ∈ [Ty.mlBegin, .field, .fieldset, .list] → e.type = copyKind t.type →
      e.mirror = some (t.mirror.getD tid) → e.extend = none → CopyLink e0 e t tid
  | nothing : e0.type = .empty → t.type ∉ [Ty.mlBegin, .field, .fieldset, .list] → e.type = .empty → e.mirror = none → e.extend = none → CopyLink e0 e t tid
  | extended : e0.type = .fieldset ∨ e0.type = .list → t.type = e0.type → e.type = e0.type → e.mirror = none → e.extend = some tid → CopyLink e0 e t tid
  | fresh : e0.type = .fieldset ∨ e0.type = .list → t.type ∉ [Ty.mlBegin, .field, .fieldset, .list] → e.type = e0.type → e.mirror = none → e.extend = none →
      CopyLink e0 e t tid

theorem copyLink {e0 e t : Elem} {tid : Nat} (ok : ElemOk e0) (hc : e0.copy.isSome) (hs : e0.type ≠ .section) (hh : consN e0 t tid = .ok e) : CopyLink e0 e t tid := by
  have hty : (inheritC e0 t).type = e0.type := by unfold inheritC; split <;> rfl
  have hmi : (inheritC e0 t).mirror = none := by have := ok.mirror; unfold inheritC; split <;> exact this
  have hex : (inheritC e0 t).extend = none := by have := ok.extend; unfold inheritC; split <;> exact this
  have hk : e0.type ∈ [Ty.section, .empty, .list, .fieldset] := ok.template (by rw [← ok.copy]; exact hc)
  simp only [consN, hty] at hh
  simp [hs] at hk
  rcases hk with hk | hk | hk
  · simp only [hk, if_true] at hh
    split at hh
    · rename_i q; simp at hh; subst hh
      exact .mirrored hk (by rcases q with q | q <;> rw [q] <;> simp) (by rcases q with q | q <;> rw [q] <;> rfl) rfl hex
    · split at hh
      · rename_i q; simp at hh; subst hh
        exact .mirrored hk (by rw [q]; simp) (by rw [q]; rfl) rfl hex
      · split at hh
        · rename_i q; simp at hh; subst hh
          exact .mirrored hk (by rw [q]; simp) (by rw [q]; rfl) rfl hex
        · rename_i a b d; simp at hh; subst hh
          simp at a
          exact .nothing hk (by simp [a, b, d]) (by simp) hmi hex
  · simp [hk] at hh
    split at hh
    · rename_i q; simp at hh; subst hh
      exact .extended (.inr hk) (by rw [q, hk]) (by simp [hk]) hmi rfl
    · split at hh
      · simp at hh
      · rename_i a b; simp at hh; subst hh
        simp only [not_or] at b
        exact .fresh (.inr hk) (by simp [a, b]) (by simp [hk]) hmi hex
  · simp [hk] at hh
    split at hh
    · rename_i q; simp at hh; subst hh
      exact .extended (.inl hk) (by rw [q, hk]) (by simp [hk]) hmi rfl
    · split at hh
      · simp at hh
      · rename_i a b; simp at hh; subst hh
        simp only [not_or] at b
        exact .fresh (.inl hk) (by simp [a, b]) (by simp [hk]) hmi hex

namespace Final

variable (F : Final h0 h)
include F

theorem link (hs : (h0.at i).type ≠ .section) (ht : TemplateIs h0 i t) : CopyLink (h0.at i) (h.at i) (h.at t) t :=
  copyLink (F.ok.elem i ht.1) (by rw [ht.cand.2.2.1]; rfl) hs (F.copied i t hs ht)

theorem nonsec (hs : (h0.at i).type ≠ .section) (ht : TemplateIs h0 i t) : t < h0.length ∧ (h0.at t).type ≠ .section :=
  ⟨ht.cand.1, fun q => hs (ht.cand.2.2.2.2.1 q)⟩

theorem items_eq (hi : i < h0.length) : (h.at i).items = (h0.at i).items ∧ (h.at i).entries = (h0.at i).entries ∧ (h.at i).elements = (h0.at i).elements ∧
    (h.at i).key = (h0.at i).key := by
  have e := F.own i hi
  exact ⟨by rw [e], by rw [e], by rw [e], by rw [e]⟩

theorem at_ge (hi : h0.length ≤ i) : h.at i = h0.at i := by rw [Heap.at_ge hi, Heap.at_ge (by rw [F.len]; exact hi)]

theorem items_all (i : Nat) : (h.at i).items = (h0.at i).items ∧ (h.at i).entries = (h0.at i).entries ∧ (h.at i).elements = (h0.at i).elements ∧
    (h.at i).key = (h0.at i).key := by
  by_cases hi : i < h0.length
  · exact F.items_eq hi
  · rw [F.at_ge (by omega)]; exact ⟨rfl, rfl, rfl, rfl⟩

theorem sub_eq (r : Ref) : h.sub? r = h0.sub? r := by
  cases r with
  | elem i => rfl
  | item i k => simp [Heap.sub?, (F.items_all i).1]
  | entry i k => simp [Heap.sub?, (F.items_all i).2.1]

theorem ownItems_eq (i : Nat) : (h.ownItems i).getD [] = itemsAt h0 i := by
  unfold Heap.ownItems itemsAt
  rw [(F.items_all i).1]
  cases (h0.at i).items <;> rfl

theorem ownEntries_eq (i : Nat) : (h.ownEntries i).getD [] = entriesAt h0 i := by
  unfold Heap.ownEntries entriesAt
  rw [(F.items_all i).2.1]
  cases (h0.at i).entries <;> rfl

theorem itemsAt_nil (hi : i < h0.length) (ht : (h0.at i).type ≠ .list) : itemsAt h0 i = [] := by
  unfold itemsAt
  cases hx : (h0.at i).items with
  | none => rfl
  | some xs => exact absurd ((F.ok.elem i hi).items xs hx).1 ht

theorem entriesAt_nil (hi : i < h0.length) (ht : (h0.at i).type ≠ .fieldset) : entriesAt h0 i = [] := by
  unfold entriesAt
  cases hx : (h0.at i).entries with
  | none => rfl
  | some xs => exact absurd ((F.ok.elem i hi).entries xs hx).1 ht

/-- Only lists have items. -/
theorem no_items {xs : List Ref} (hx : ItemsOf h0 i xs) (hi : i < h0.length) (hs : (h0.at i).type ≠ .section) (ht : (h.at i).type ≠ .list) : xs = [] := by
  induction hx with
  | own hc => rw [F.plain _ hi hs hc] at ht; exact F.itemsAt_nil hi ht
  | copy htm _ ih =>
    obtain ⟨h1, h2⟩ := F.nonsec hs htm
    cases F.link hs htm with
    | mirrored e1 e2 e3 e4 e5 =>
      rw [F.itemsAt_nil hi (by rw [e1]; decide), ih h1 h2 (by intro q; rw [q] at e3; exact ht e3)]; rfl
    | nothing e1 e2 e3 e4 e5 =>
      rw [F.itemsAt_nil hi (by rw [e1]; decide), ih h1 h2 (by intro q; rw [q] at e2; simp at e2)]; rfl
    | extended e1 e2 e3 e4 e5 =>
      rw [e3] at ht
      rw [F.itemsAt_nil hi ht, ih h1 h2 (by rw [e2]; exact ht)]; rfl
    | fresh e1 e2 e3 e4 e5 =>
      rw [e3] at ht
      rw [F.itemsAt_nil hi ht, ih h1 h2 (by intro q; rw [q] at e2; simp at e2)]; rfl

/-- Only fieldsets have entries. -/
theorem no_entries {xs : List Ref} (hx : EntriesOf h0 i xs) (hi : i < h0.length) (hs : (h0.at i).type ≠ .section) (ht : (h.at i).type ≠ .fieldset) : xs = [] := by
  induction hx with
  | own hc => rw [F.plain _ hi hs hc] at ht; exact F.entriesAt_nil hi ht
  | copy htm _ ih =>
    obtain ⟨h1, h2⟩ := F.nonsec hs htm
    cases F.link hs htm with
    | mirrored e1 e2 e3 e4 e5 =>
      rw [F.entriesAt_nil hi (by rw [e1]; decide), ih h1 h2 (by intro q; rw [q] at e3; exact ht e3)]; rfl
    | nothing e1 e2 e3 e4 e5 =>
      rw [F.entriesAt_nil hi (by rw [e1]; decide), ih h1 h2 (by intro q; rw [q] at e2; simp at e2)]; rfl
    | extended e1 e2 e3 e4 e5 =>
      rw [e3] at ht
      rw [F.entriesAt_nil hi ht, ih h1 h2 (by rw [e2]; exact ht)]; rfl
    | fresh e1 e2 e3 e4 e5 =>
      rw [e3] at ht
      rw [F.entriesAt_nil hi ht, ih h1 h2 (by intro q; rw [q] at e2; simp at e2)]; rfl

theorem ownValue_none (hi : i < h0.length) (ht : (h0.at i).type ≠ .field) (hm : (h0.at i).type ≠ .mlBegin) : ownValue input (h0.at i) = none := by
  have ok := F.ok.elem i hi
  unfold ownValue
  rw [if_neg hm]
  cases hv : (h0.at i).value with
  | some v => exact absurd (ok.value (by rw [hv]; rfl)) ht
  | none =>
    cases hc : (h0.at i).continuations with
    | some cs => exact absurd (ok.conts cs hc).1 ht
    | none => rfl

/-- Only fields have a value. -/
theorem no_value {v : Option Str} (hx : ValueOf input h0 i v) (hi : i < h0.length) (hs : (h0.at i).type ≠ .section) (ht : (h.at i).type ≠ .field)
    (hm : (h.at i).type ≠ .mlBegin) : v = none := by
  induction hx with
  | own hc => rw [F.plain _ hi hs hc] at ht hm; exact F.ownValue_none hi ht hm
  | copy htm _ ih =>
    obtain ⟨h1, h2⟩ := F.nonsec hs htm
    cases F.link hs htm with
    | mirrored e1 e2 e3 e4 e5 =>
      refine ih h1 h2 ?_ ?_ <;> (intro q; rw [q] at e3; exact ht e3)
    | nothing e1 e2 e3 e4 e5 =>
      refine ih h1 h2 ?_ ?_ <;> (intro q; rw [q] at e2; simp at e2)
    | extended e1 e2 e3 e4 e5 =>
      rw [e3] at ht hm
      exact ih h1 h2 (by rw [e2]; exact ht) (by rw [e2]; exact hm)
    | fresh e1 e2 e3 e4 e5 =>
      refine ih h1 h2 ?_ ?_ <;> (intro q; rw [q] at e2; simp at e2)

end Final

end Eno
