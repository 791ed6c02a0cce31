import Verif.Proofs.AnySession

/-!
# More about C21 and C35: any session with a document without deep copies
-/

namespace Eno

open Spec

variable {input : Str} {ctx ctx' : Ctx} {h0 h : Heap} {q : Query}

theorem Loaded.askable (L : Loaded h0 h) (nd : NoDeepCopies h0) : ∃ N, ∀ fuel, N ≤ fuel → ∀ q, Askable h0 q → Tame input h0 h (q.run input h fuel) := by
  obtain ⟨N, hN⟩ := L.enough (input := input)
  obtain ⟨M, hM⟩ := uniform_bound (P := fun i fuel => (h0.at i).type = .section ∨ i = 0 → Tame input h0 h (readElements h fuel i)) h0.length fun i hi => by
    by_cases hs : (h0.at i).type = .section ∨ i = 0
    · obtain ⟨K, hK⟩ := L.elements_tame (input := input) nd hi hs
      exact ⟨K, fun fuel hf _ => hK fuel hf⟩
    · exact ⟨0, fun _ _ q => absurd q hs⟩
  obtain ⟨K, hK⟩ := uniform_bound (P := fun i fuel => Tame input h0 h (readRaw input h fuel (.elem i))) h0.length fun i hi => by
    obtain ⟨x, hx⟩ := L.hasRaw (input := input) hi
    exact L.raw_tame nd hx
  refine ⟨max (max N M) K, fun fuel hf q hq => ?_⟩
  have en := hN fuel (by omega)
  have hlen := en.1
  have gr : ∀ i, i < h0.length → Grounded h0 i := fun i hi => by
    by_cases hs : (h0.at i).type = .section
    · exact L.sec.grounded i hi (.inl hs)
    · exact L.non.grounded i hi hs
  have sub : ∀ {r : Ref}, (∀ i, r ≠ .elem i) → Tame input h0 h (readValue input h fuel r) := by
    intro r hr
    obtain ⟨fuel, rfl⟩ : ∃ f, fuel = f + 1 := ⟨fuel - 1, by omega⟩
    exact tame_returns (readValue_sub (input := input) L.non r hr fuel) (fun _ q => by cases q) (readValue_elements _)
  cases q with
  | value r =>
    cases r with
    | elem i =>
      obtain ⟨v, hv⟩ := (gr i hq.1).value (input := input)
      exact (tame_returns (L.value hq.1 hq.2 hv (by omega)) (fun _ q => by cases q) (readValue_elements _)).map _
    | item i k => exact (sub (by simp)).map _
    | entry i k => exact (sub (by simp)).map _
  | comment r => exact (L.tame_comment r).map _
  | items i =>
    obtain ⟨v, hv⟩ := (gr i hq.1).items
    exact (tame_returns (L.items hq.1 hq.2.1 ((L.kind i hq.1 hq.2.1).det hq.2.2) hv (by omega)) (fun _ q => by cases q) (readItems_elements _)).map _
  | entries i =>
    obtain ⟨v, hv⟩ := (gr i hq.1).entries
    exact (tame_returns (L.entries hq.1 hq.2.1 ((L.kind i hq.1 hq.2.1).det hq.2.2) hv (by omega)) (fun _ q => by cases q) (readEntries_elements _)).map _
  | elements s => exact (hM s hq.1 fuel (by omega) hq.2).map _
  | raw r =>
    cases r with
    | elem i => exact (hK i hq fuel (by omega)).map _
    | item i k => exact (L.item_tame (by simp) (by omega)).map _
    | entry i k => exact (L.item_tame (by simp) (by omega)).map _

theorem Loaded.sane {fuel : Nat} (T : ∀ q, Askable h0 q → Tame input h0 h (q.run input h fuel)) {c : Cache} (hc : Session input h fuel (Askable h0) c) : Sane input h0 h c := by
  induction hc with
  | start => exact sane_empty
  | ask _ hq ih => exact (T _ hq _ ih).1

/-- In a document without deep copies, whatever was asked before (including questions that raised) does not matter: sensible questions still get their right answers. -/
theorem C21_any_session (ha : analyze input = .ok ctx) (hl : load input = .ok ctx') (nd : NoDeepCopies ctx.heap) :
    ∃ N, ∀ fuel, N ≤ fuel → ∀ c, Session input ctx'.heap fuel (Askable ctx.heap) c → ∀ q, Sensible ctx.heap q →
      ∃ a, AnswerOf input ctx.heap q a ∧ (q.run input ctx'.heap fuel c).1 = .ok a := by
  have L := loaded ha hl
  obtain ⟨N, hN⟩ := L.enough (input := input)
  obtain ⟨M, hM⟩ := L.askable (input := input) nd
  refine ⟨max N M, fun fuel hf c hc q hq => ?_⟩
  obtain ⟨a, h1⟩ := L.exists_answer (input := input) hq
  obtain ⟨c', h2, _⟩ := L.answer (hN fuel (by omega)) hq h1 c (Loaded.sane (hM fuel (by omega)) hc).1
  exact ⟨a, h1, by rw [h2]⟩

/-- The same for all harmless questions, whether they are answered or raise: the result is that of a first read. -/
theorem C21_any_idempotent (ha : analyze input = .ok ctx) (hl : load input = .ok ctx') (nd : NoDeepCopies ctx.heap) :
    ∃ N, ∀ fuel, N ≤ fuel → ∀ c, Session input ctx'.heap fuel (Askable ctx.heap) c → ∀ q, Harmless ctx.heap q → (q.run input ctx'.heap fuel c).1 = answer input ctx'.heap fuel q := by
  have L := loaded ha hl
  obtain ⟨N, hN⟩ := L.enough (input := input)
  obtain ⟨M, hM⟩ := L.askable (input := input) nd
  refine ⟨max N M, fun fuel hf c hc q hq => ?_⟩
  obtain ⟨res, hr⟩ := L.harmless (hN fuel (by omega)) hq
  obtain ⟨c1, h1, _⟩ := hr c (Loaded.sane (hM fuel (by omega)) hc).1
  obtain ⟨c2, h2, _⟩ := hr .empty coherent_empty
  unfold answer
  rw [h1, h2]

/-- And no question, sensible or not, does anything but answer, raise KeyError, which only happens if some comment is a single empty line (see C22), or raise TypeError, which only
happens if some section is a copy without own elements; in particular none recurses for ever. -/
theorem C21_any_outcome (ha : analyze input = .ok ctx) (hl : load input = .ok ctx') (nd : NoDeepCopies ctx.heap) :
    ∃ N, ∀ fuel, N ≤ fuel → ∀ c, Session input ctx'.heap fuel (Askable ctx.heap) c → ∀ q, Askable ctx.heap q →
      (∃ a, (q.run input ctx'.heap fuel c).1 = .ok a) ∨ ((q.run input ctx'.heap fuel c).1 = .error .keyError ∧ ¬ CommentsReadable ctx.heap) ∨
        ((q.run input ctx'.heap fuel c).1 = .error .typeError ∧ BareCopy ctx.heap) := by
  have L := loaded ha hl
  obtain ⟨M, hM⟩ := L.askable (input := input) nd
  refine ⟨M, fun fuel hf c hc q hq => ?_⟩
  have T := (hM fuel hf q hq c (Loaded.sane (hM fuel hf) hc)).2
  cases hr : (q.run input ctx'.heap fuel c).1 with
  | ok a => exact .inl ⟨a, rfl⟩
  | error e =>
    rcases T e hr with ⟨rfl, hb⟩ | ⟨rfl, hb⟩
    · exact .inr (.inl ⟨rfl, hb⟩)
    · exact .inr (.inr ⟨rfl, hb⟩)

/-- All sensible and all harmless questions can be asked. -/
theorem C21_askable (hq : Harmless h q) : Askable h q := by
  cases q with
  | value r => cases r <;> exact hq
  | comment r => trivial
  | items i => exact hq
  | entries i => exact hq
  | elements s => exact ⟨hq.1, hq.2.1⟩
  | raw r => cases r <;> exact hq.1

/-- The document of `C21_refuted`, where the elements of the section `C` cannot be asked for: the questions about `A` are sensible, before and after. -/
example : ∃ ctx ctx', analyze (chars!"# A\nx: 1\n# B < A\n# C < B\ny: 2") = .ok ctx ∧ load (chars!"# A\nx: 1\n# B < A\n# C < B\ny: 2") = .ok ctx' ∧ NoDeepCopies ctx.heap ∧
    Askable ctx.heap (.elements 4) ∧ Askable ctx.heap (.raw (.elem 0)) ∧ failure (answer [] ctx'.heap 9 (.elements 4)) = some .typeError ∧
    elementsOf ((Query.elements 1).run [] ctx'.heap 9 ((Query.elements 4).run [] ctx'.heap 9 .empty).2).1 = some (some [2]) := by
  obtain ⟨ctx, ctx', h1, h2, h3, h4, h5, h6, h7⟩ : ∃ ctx ctx', analyze (chars!"# A\nx: 1\n# B < A\n# C < B\ny: 2") = .ok ctx ∧ load (chars!"# A\nx: 1\n# B < A\n# C < B\ny: 2") = .ok ctx' ∧
      ctx.heap.all (fun e => !e.deepCopy) = true ∧ 4 < ctx.heap.length ∧ (ctx.heap.at 4).type = .section ∧ failure (answer [] ctx'.heap 9 (.elements 4)) = some .typeError ∧
      elementsOf ((Query.elements 1).run [] ctx'.heap 9 ((Query.elements 4).run [] ctx'.heap 9 .empty).2).1 = some (some [2]) := by
    refine ⟨_, _, rfl, rfl, ?_⟩; decide +kernel
  exact ⟨ctx, ctx', h1, h2, fun i => by simpa using at_all h3 (by decide) i, ⟨h4, .inl h5⟩, Nat.lt_of_le_of_lt (Nat.zero_le _) h4, h6, h7⟩

end Eno
