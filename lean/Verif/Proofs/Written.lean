import Verif.Proofs.ElementErrors
import Verif.Props.AnalyzerProps
import Verif.Spec.ErrorKinds

/-! # The instructions of the elements of loaded documents -/

namespace Eno

open Spec

variable {input : Str} {ctx ctx' : Ctx} {h : Heap} {o : Options} {s s' : Snippet} {r : Ref} {b : Base} {N n : Nat}

theorem hasRanges_iff {l : List RangeName} (h : HasRanges b l) (m : RangeName) : (b.range? m).isSome ↔ m ∈ l := by
  unfold HasRanges at h
  rw [← h.mem_iff, List.mem_map, Option.isSome_iff_exists]
  constructor
  · rintro ⟨p, hp⟩; exact ⟨_, range_mem hp, rfl⟩
  · rintro ⟨⟨m', p⟩, hp, rfl⟩
    cases hq : b.range? m' with
    | some p => exact ⟨p, rfl⟩
    | none =>
      unfold Base.range? at hq
      rw [List.lookup_eq_none_iff] at hq
      have := hq _ hp
      simp at this

/-- What resolving keeps of an element. -/
theorem still_more {a b : Elem} (h : a.still = b.still) : a.value = b.value ∧ a.deepCopy = b.deepCopy := by
  have h1 := congrArg Elem.value h
  have h2 := congrArg Elem.deepCopy h
  exact ⟨h1, h2⟩

/-- What is known about the instruction that an element, item or entry is written with. -/
structure Written (input : Str) (h : Heap) (r : Ref) (b : Base) : Prop where
  ranges : RangesOk input b
  key : TextAt input b .key (writtenKey h r)
  value : TextAt input b .value (lineValue h r)
  elem : ∀ i, r = .elem i → TextAt input b .template (h.at i).template ∧ ∃ esc, HasRanges b (.line :: .key :: (escapeNames esc ++ elementNames (h.at i)))
  item : ∀ i k, r = .item i k → HasRanges b (.line :: .itemOperator :: valueNames (lineValue h r))
  entry : ∀ i k, r = .entry i k → (writtenKey h r).isSome ∧ ∃ esc, HasRanges b (.line :: .key :: (escapeNames esc ++ .entryOperator :: valueNames (lineValue h r)))
  conts : ∀ c ∈ lineConts h r, RangesOk input c.toBase

theorem still_parts {a b : Elem} (h : a.still = b.still) : a.parts = b.parts := by
  obtain ⟨_, e2, e3, e4, e5, e6, e7, e8, e9, _⟩ := still_elements h
  obtain ⟨f1, _⟩ := still_more h
  unfold Elem.parts Elem.head Elem.piece
  rw [e2, e3, e4, e5, e6, e7, e8, e9, f1]

theorem elementNames_shadow (S : Shadow ctx.heap h) (i : Nat) : elementNames (h.at i) = elementNames (ctx.heap.at i) := by
  obtain ⟨_, _, _, _, _, _, _, e8, _⟩ := still_elements (S.own i)
  obtain ⟨f1, f2⟩ := still_more (S.own i)
  unfold elementNames
  rw [e8, f1, f2]
  rcases S.type i with q | ⟨q1, q2 | q2 | q2⟩
  · rw [q]
  all_goals rw [q1, q2]; cases (ctx.heap.at i).template <;> rfl

theorem written (ha : analyze input = .ok ctx) (hl : load input = .ok ctx') (hr : FirstLine ctx'.heap r b) : Written input ctx'.heap r b := by
  obtain ⟨C, hin, _, S⟩ := loaded_complete ha hl
  have sh := loaded_shown ha hl
  have hd := C.grown.doc
  have ok := (analyze_analysed ha).heap
  have pos : ∀ i, (ctx'.heap.at i).type ≠ .document → 0 < i := by
    intro i hi; apply Nat.pos_of_ne_zero; rintro rfl; exact hi hd
  have mem : ∀ i, 0 < i → i < ctx'.heap.length → ctx.heap.at i ∈ ctx.heap.tail := fun i h0 hi => mem_tail h0 (by rw [← S.len]; exact hi)
  have part : ∀ i, 0 < i → i < ctx'.heap.length → ∀ g ∈ (ctx'.heap.at i).parts, ∀ p ∈ g,
      RangesOk input p.toBase ∧ TextAt input p.toBase .key p.key ∧ TextAt input p.toBase .value p.value ∧ TextAt input p.toBase .template p.template := by
    intro i h0 hi g hg p hp
    rw [still_parts (S.own i)] at hg
    refine ⟨?_, C10_texts ha _ (mem i h0 hi) g hg p hp⟩
    obtain ⟨es, n, s, ht, hL, inv, lay, rfl⟩ := analyze_facts ha
    exact (parts_faithful ht lay (mem i h0 hi) g hg p hp).ranges
  cases hr with
  | @elem i h0 hi =>
    have P := part i h0 hi _ (List.mem_cons_self ..)
    obtain ⟨p1, p2, p3, p4⟩ := P (ctx'.heap.at i).piece (by simp [Elem.head])
    refine ⟨p1, p2, p3, ?_, ?_, ?_, ?_⟩
    · rintro j ⟨⟩
      obtain ⟨esc, q⟩ := (C10_names ha _ (mem i h0 hi)).1
      obtain ⟨_, _, _, _, _, _, e7, _⟩ := still_elements (S.own i)
      exact ⟨p4, esc, by rw [e7, elementNames_shadow S]; exact q⟩
    · rintro j k ⟨⟩
    · rintro j k ⟨⟩
    · intro c hc
      exact (P c.piece (by simp only [Elem.head, List.mem_cons, List.mem_append, List.mem_map]; exact .inl (.inl (.inr ⟨c, hc, rfl⟩)))).1
  | @item i k xs x hi hx hk =>
    have h0 : 0 < i := pos i (by rw [(sh.kinds.items i xs hi hx).1]; simp)
    have hm := List.mem_of_getElem? hk
    have P := part i h0 hi x.part (by simp only [Elem.parts, hx, Option.getD_some, List.mem_cons, List.mem_append, List.mem_map]; exact .inl (.inr ⟨x, hm, rfl⟩))
    obtain ⟨p1, p2, p3, _⟩ := P x.piece (by simp [Sub.part])
    obtain ⟨_, e2, _⟩ := still_elements (S.own i)
    have hv : lineValue ctx'.heap (.item i k) = x.value := by simp [lineValue, hx, hk]
    refine ⟨p1, (fun _ h => by cases h), by rw [hv]; exact p3, ?_, ?_, ?_, ?_⟩
    · rintro j ⟨⟩
    · rintro j k' ⟨⟩
      rw [hv]
      exact (C10_names ha _ (mem i h0 hi)).2.1 xs (by rw [← e2]; exact hx) x hm
    · rintro j k' ⟨⟩
    · intro c hc
      simp only [lineConts, hx, Option.getD_some, hk, Option.bind_some] at hc
      exact (P c.piece (by simp only [Sub.part, List.mem_cons, List.mem_map]; exact .inr ⟨c, hc, rfl⟩)).1
  | @entry i k xs x hi hx hk =>
    have h0 : 0 < i := pos i (by rw [(sh.kinds.entries i xs hi hx).1]; simp)
    have hm := List.mem_of_getElem? hk
    have P := part i h0 hi x.part (by simp only [Elem.parts, hx, Option.getD_some, List.mem_cons, List.mem_append, List.mem_map]; exact .inr ⟨x, hm, rfl⟩)
    obtain ⟨p1, p2, p3, _⟩ := P x.piece (by simp [Sub.part])
    obtain ⟨_, _, e3, _⟩ := still_elements (S.own i)
    have hv : lineValue ctx'.heap (.entry i k) = x.value := by simp [lineValue, hx, hk]
    have hk' : writtenKey ctx'.heap (.entry i k) = x.key := by simp [writtenKey, hx, hk]
    refine ⟨p1, by rw [hk']; exact p2, by rw [hv]; exact p3, ?_, ?_, ?_, ?_⟩
    · rintro j ⟨⟩
    · rintro j k' ⟨⟩
    · rintro j k' ⟨⟩
      rw [hv, hk']
      have := ((ok.elem i (by rw [← S.len]; exact hi)).entries xs (by rw [← e3]; exact hx)).2.2 x hm
      exact ⟨by rw [this.key], (C10_names ha _ (mem i h0 hi)).2.2.1 xs (by rw [← e3]; exact hx) x hm⟩
    · intro c hc
      simp only [lineConts, hx, Option.getD_some, hk, Option.bind_some] at hc
      exact (P c.piece (by simp only [Sub.part, List.mem_cons, List.mem_map]; exact .inr ⟨c, hc, rfl⟩)).1

end Eno
