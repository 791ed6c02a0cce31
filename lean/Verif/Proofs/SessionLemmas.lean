import Verif.Proofs.ReadRaw

/-! # Every answer is right -/

namespace Eno

open Spec

variable {h h0 : Heap} {i n fuel : Nat} {input : Str} {ctx ctx' : Ctx} {c : Cache} {r : Ref} {q : Query} {a b : Answer}

theorem returns_map {α β} {f : Read α} {x : α} (g : α → β) (hf : Returns input h0 h f (.ok x)) : Returns input h0 h (Read.map g f) (.ok (g x)) := by
  intro c co
  obtain ⟨c', h1, h2⟩ := hf c co
  exact ⟨c', by simp only [Read.map, h1], h2⟩

theorem returns_map_error {α β} {f : Read α} {e : PyExc} (g : α → β) (hf : Returns input h0 h f (.error e)) : Returns input h0 h (Read.map g f) (.error e) := by
  intro c co
  obtain ⟨c', h1, h2⟩ := hf c co
  exact ⟨c', by simp only [Read.map, h1], h2⟩

/-- The recursion depth that reading a document needs. -/
def Enough (input : Str) (h0 h : Heap) (fuel : Nat) : Prop :=
  h0.length + 2 ≤ fuel ∧ (CommentsReadable h0 → ∀ i, i < h0.length → (Plain h0 (.elem i) ∨ AllStraight h0) → ∀ x, RawOf input h0 (.elem i) x →
    Returns input h0 h (readRaw input h fuel (.elem i)) (.ok x))

theorem Loaded.enough (L : Loaded h0 h) : ∃ N, ∀ fuel, N ≤ fuel → Enough input h0 h fuel := by
  have key : ∃ N, ∀ i, i < h0.length → ∀ fuel, N ≤ fuel → CommentsReadable h0 → (Plain h0 (.elem i) ∨ AllStraight h0) → ∀ x, RawOf input h0 (.elem i) x →
      Returns input h0 h (readRaw input h fuel (.elem i)) (.ok x) := by
    apply uniform_bound (P := fun i fuel => CommentsReadable h0 → (Plain h0 (.elem i) ∨ AllStraight h0) → ∀ x, RawOf input h0 (.elem i) x →
      Returns input h0 h (readRaw input h fuel (.elem i)) (.ok x))
    intro i hi
    by_cases hq : CommentsReadable h0 ∧ (Plain h0 (.elem i) ∨ AllStraight h0)
    · obtain ⟨x, hx⟩ := L.hasRaw (input := input) hi
      obtain ⟨N, hN⟩ := L.runRaw hq.1 hq.2 hx
      refine ⟨N, fun fuel hf _ _ y hy => ?_⟩
      obtain ⟨M, hM⟩ := L.runRaw hq.1 hq.2 hy
      obtain ⟨_, h1, _⟩ := hN (max N M) (by omega) .empty coherent_empty
      obtain ⟨_, h2, _⟩ := hM (max N M) (by omega) .empty coherent_empty
      rw [h1] at h2
      injection h2 with h2 _
      injection h2 with h2
      subst h2
      exact hN fuel hf
    · exact ⟨0, fun fuel _ a b => absurd ⟨a, b⟩ hq⟩
  obtain ⟨N, hN⟩ := key
  exact ⟨max N (h0.length + 2), fun fuel hf => ⟨by omega, fun cr i hi hp x hx => hN i hi fuel (by omega) cr hp x hx⟩⟩

theorem Loaded.exists_answer (L : Loaded h0 h) (hq : Sensible h0 q) : ∃ a, AnswerOf input h0 q a := by
  have gr : ∀ i, i < h0.length → Grounded h0 i := by
    intro i hi
    by_cases hs : (h0.at i).type = .section
    · exact L.sec.grounded i hi (.inl hs)
    · exact L.non.grounded i hi hs
  cases q with
  | value r =>
    cases r with
    | elem i => obtain ⟨v, hv⟩ := (gr i hq.1).value (input := input); exact ⟨_, .value hv⟩
    | item i k => obtain ⟨x, hx⟩ := Option.isSome_iff_exists.1 hq; exact ⟨_, .subValue hx⟩
    | entry i k => obtain ⟨x, hx⟩ := Option.isSome_iff_exists.1 hq; exact ⟨_, .subValue hx⟩
  | comment r =>
    cases r with
    | elem i => obtain ⟨v, hv⟩ := (gr i hq.1).comments; exact ⟨_, .comment hv⟩
    | item i k => obtain ⟨x, hx, _⟩ := hq; exact ⟨_, .subComment hx⟩
    | entry i k => obtain ⟨x, hx, _⟩ := hq; exact ⟨_, .subComment hx⟩
  | items i => obtain ⟨v, hv⟩ := (gr i hq.1).items; exact ⟨_, .items hv⟩
  | entries i => obtain ⟨v, hv⟩ := (gr i hq.1).entries; exact ⟨_, .entries hv⟩
  | elements i => obtain ⟨v, hv⟩ := (gr i hq.1).copied; exact ⟨_, .elements hv⟩
  | raw r =>
    cases r with
    | elem i => obtain ⟨x, hx⟩ := L.hasRaw (input := input) hq.1; exact ⟨_, .raw hx⟩
    | item i k => obtain ⟨x, hx⟩ := hasRaw_sub (input := input) hq.1; exact ⟨_, .raw hx⟩
    | entry i k => obtain ⟨x, hx⟩ := hasRaw_sub (input := input) hq.1; exact ⟨_, .raw hx⟩

theorem not_sub {i : Nat} {x : Sub} (hx : h.sub? (.elem i) = some x) : False := by simp [Heap.sub?] at hx

theorem Loaded.answer (L : Loaded h0 h) (en : Enough input h0 h fuel) (hq : Sensible h0 q) (ha : AnswerOf input h0 q a) :
    Returns input h0 h (q.run input h fuel) (.ok a) := by
  have hf := en.1
  cases ha with
  | value hv => exact returns_map _ (L.value hq.1 hq.2 hv (by omega))
  | @subValue r x hx =>
    obtain ⟨fuel, rfl⟩ : ∃ f, fuel = f + 1 := ⟨fuel - 1, by omega⟩
    have := readValue_sub (input := input) L.non r (by rintro i rfl; exact not_sub hx) fuel
    simp only [subValue, hx, Option.bind_some] at this
    exact returns_map _ this
  | @comment i c hc =>
    obtain ⟨q1, q2, q3⟩ := hq
    have hcm : h.comments (.elem i) = c := by
      by_cases hs : (h0.at i).type = .section
      · exact L.sec.comments_of hc q1 (.inl hs) (q2.resolve_left (fun n => n hs))
      · exact L.non.comments hc q1 hs
    have := L.comment (input := input) (.elem i) (by
      intro cs hcs x e
      subst e
      rw [hcm] at hcs; subst hcs
      exact q3 _ hc x rfl)
    rw [hcm] at this
    exact returns_map _ this
  | @subComment r x hx =>
    have hcm : h.comments r = x.comments := by
      cases r with
      | elem i => exact (not_sub hx).elim
      | item i k => simp [Heap.comments, L.non.sub_eq, hx]
      | entry i k => simp [Heap.comments, L.non.sub_eq, hx]
    have hrd : Readable x.comments := by
      cases r with
      | elem i => exact (not_sub hx).elim
      | item i k => obtain ⟨y, h1, h2⟩ := hq; rw [hx] at h1; injection h1 with h1; subst h1; exact h2
      | entry i k => obtain ⟨y, h1, h2⟩ := hq; rw [hx] at h1; injection h1 with h1; subst h1; exact h2
    have := L.comment (input := input) r (by
      intro cs hcs y e
      subst e
      exact hrd y (by rw [← hcm, hcs]))
    rw [hcm] at this
    exact returns_map _ this
  | @items i xs hx =>
    obtain ⟨q1, q2, q3⟩ := hq
    exact returns_map _ (L.items q1 q2 ((L.kind i q1 q2).det q3) hx (by omega))
  | @entries i xs hx =>
    obtain ⟨q1, q2, q3⟩ := hq
    exact returns_map _ (L.entries q1 q2 ((L.kind i q1 q2).det q3) hx (by omega))
  | elements hx =>
    obtain ⟨q1, q2, q3⟩ := hq
    exact returns_map _ (L.elements q1 q2 q3 hx (by omega))
  | @raw r x hx =>
    cases r with
    | elem i => exact returns_map _ (en.2 hq.2.1 i hq.1 hq.2.2 x hx)
    | item i k => cases hx with | item hx => exact returns_map _ (L.runRaw_item hq.2 hx (by omega))
    | entry i k => cases hx with | entry hx => exact returns_map _ (L.runRaw_entry hq.2 hx (by omega))

/-- Every harmless question has one result on all coherent caches. -/
theorem Loaded.harmless (L : Loaded h0 h) (en : Enough input h0 h fuel) (hq : Harmless h0 q) : ∃ res, Returns input h0 h (q.run input h fuel) res := by
  by_cases hs : Sensible h0 q
  · obtain ⟨a, ha⟩ := L.exists_answer (input := input) hs
    exact ⟨_, L.answer en hs ha⟩
  · cases q with
    | comment r =>
      have := readComment_spec (input := input) (h0 := h0) (h := h) r
      cases hc : computeComment (h.comments r) with
      | ok v => rw [hc] at this; exact ⟨_, returns_map _ this⟩
      | error e => rw [hc] at this; exact ⟨_, returns_map_error _ this⟩
    | value r => exact absurd hq hs
    | items i => exact absurd hq hs
    | entries i => exact absurd hq hs
    | elements i => exact absurd hq hs
    | raw r => exact absurd hq hs

/-- Harmless sessions only produce coherent caches. -/
theorem Loaded.coherent (L : Loaded h0 h) (en : Enough input h0 h fuel) (hc : Session input h fuel (Harmless h0) c) : Coherent input h0 h c := by
  induction hc with
  | start => exact coherent_empty
  | ask _ hq ih =>
    obtain ⟨res, hr⟩ := L.harmless en hq
    obtain ⟨c', h1, h2⟩ := hr _ ih
    rw [h1]; exact h2

end Eno
