import Verif.Props.AnySessionProps
import Verif.Proofs.Shaky

/-!
# More about C21: exactly which sections of documents without deep copies show the same elements every time
-/

namespace Eno

open Spec

variable {input : Str} {ctx ctx' : Ctx} {h0 h : Heap}

/-- What is revealed is revealed by only one. -/
theorem Spec.Reveals.det {s m k : Nat} (h1 : Reveals h s m) (h2 : Reveals h s k) : m = k := by
  induction h1 with
  | self hb => cases h2 with
    | self => rfl
    | copy q => exact absurd q hb
  | copy hb ht _ ih => cases h2 with
    | self q => exact absurd hb q
    | copy _ ht' h2 => rw [ht'.det ht] at h2; exact ih h2

theorem Loaded.exists_reveals (L : Loaded h0 h) {s : Nat} (hi : s < h0.length) (hs : (h0.at s).type = .section ∨ s = 0) : ∃ m, Reveals h0 s m := by
  have g := L.sec.grounded s hi hs
  induction g with
  | own hc => exact ⟨_, .self fun b => by have := b.2.1; rw [hc] at this; cases this⟩
  | @copy s t ht g ih =>
    obtain ⟨_, q2, q3⟩ := L.sec.holder s t hs ht
    obtain ⟨m, hm⟩ := ih q2 (.inl q3)
    by_cases hb : HollowCopy h0 s
    · exact ⟨m, .copy hb ht hm⟩
    · exact ⟨s, .self hb⟩

/-- A first read of a shaky section fails, and a second one does not. -/
theorem Loaded.shaky (L : Loaded h0 h) (nd : NoDeepCopies h0) {s : Nat} (hi : s < h0.length) (hs : (h0.at s).type = .section ∨ s = 0) (H : Shaky h0 s) :
    ∃ N, ∀ n, N ≤ n → (readElements h n s .empty).1 = .error .typeError ∧ ∃ xs, (readElements h n s (readElements h n s .empty).2).1 = .ok xs := by
  obtain ⟨m, b, R, hl, hb⟩ := H
  obtain ⟨h1, h2, h3, h4⟩ := L.reveals nd hi hs R
  obtain ⟨N, hN⟩ := L.shaky_first nd h1 h2 h3 ⟨b, hl, hb⟩
  have mm := (L.mirror_iff nd h1 h2).2 h3
  refine ⟨N + 2, fun n hn => ?_⟩
  obtain ⟨n, rfl⟩ : ∃ k, n = k + 1 + 1 := ⟨n - 2, by omega⟩
  rcases h4 with ⟨rfl, _⟩ | ⟨_, h4⟩
  · refine ⟨hN _ (by omega) _ rfl fun _ _ => rfl, ?_⟩
    obtain ⟨xs, e⟩ := readElements_stored (n := n + 1) mm (readElements_stores (n := n + 1) mm .empty)
    exact ⟨_, e⟩
  · have E : ∀ c, readElements h (n + 1 + 1) s c = (match readElements h (n + 1) m c with
        | (.error e, c) => (.error e, c)
        | (.ok _, c) => (.ok none, c)) := fun c => by simp only [readElements, h4]; rfl
    have e1 := hN (n + 1) (by omega) .empty rfl fun _ _ => rfl
    have st := readElements_stores (n := n) mm Cache.empty
    obtain ⟨xs, e2⟩ := readElements_stored (n := n) mm st
    have e3 : (readElements h (n + 1 + 1) s .empty).2 = (readElements h (n + 1) m .empty).2 := (readElements_mirror h4 _).1
    rw [e3, E, E]
    generalize readElements h (n + 1) m .empty = q at e1 e2 ⊢
    obtain ⟨p1, p2⟩ := q
    dsimp only at e1 e2 ⊢
    subst e1
    refine ⟨rfl, none, ?_⟩
    generalize readElements h (n + 1) m p2 = q at e2
    obtain ⟨r1, r2⟩ := q
    dsimp only at e2
    subst e2
    rfl

/-- A section that is not shaky is read alike every time. -/
theorem Loaded.firm (L : Loaded h0 h) (nd : NoDeepCopies h0) {s : Nat} (hi : s < h0.length) (hs : (h0.at s).type = .section ∨ s = 0) (H : ¬ Shaky h0 s) :
    ∃ N, ∀ n, N ≤ n → ∃ xs, Returns input h0 h (readElements h n s) (.ok xs) := by
  obtain ⟨m, R⟩ := L.exists_reveals hi hs
  obtain ⟨h1, h2, h3, h4⟩ := L.reveals nd hi hs R
  have sh : ∀ j, Shielded h0 j := fun j a _ => nd a
  have copies : ∀ u, (h0.at u).type = .section ∨ u = 0 → u < h0.length → (h0.at u).copy.isSome → ¬ HollowCopy h0 u → (h0.at u).elements ≠ [] := by
    intro u hu hlen hc hb q
    cases L.sec.grounded u hlen hu with
    | own e => rw [e] at hc; cases hc
    | copy ht _ => exact hb ⟨(L.sec.holder u _ hu ht).1, hc, q⟩
  have along : ∀ {a u}, Leads h0 a u → (h0.at a).type = .section ∨ a = 0 → (h0.at u).type = .section ∧ u < h0.length := by
    intro a u hl
    induction hl with
    | one q => exact fun ha => ⟨(L.sec.holder _ _ ha q).2.2, (L.sec.holder _ _ ha q).2.1⟩
    | step q _ ih => exact fun ha => ih (.inl (L.sec.holder _ _ ha q).2.2)
  have st : Straight h0 m := ⟨⟨sh m, fun t _ => sh t⟩, fun hc => copies m h2 h1 hc h3, fun t hl hc => by
    obtain ⟨a1, a2⟩ := along hl h2
    exact copies t (.inl a1) a2 hc fun hb => H ⟨m, t, R, hl, hb⟩⟩
  obtain ⟨xs, hx⟩ := (L.sec.grounded m h1 h2).copied
  refine ⟨h0.length + 1, fun n hn => ?_⟩
  obtain ⟨n, rfl⟩ : ∃ k, n = k + 1 := ⟨n - 1, by omega⟩
  rcases h4 with ⟨rfl, _⟩ | ⟨_, h4⟩
  · exact ⟨_, L.elements h1 h2 st hx (by omega)⟩
  · refine ⟨none, fun c co => ?_⟩
    obtain ⟨c', e, co'⟩ := L.elements (input := input) (fuel := n) h1 h2 st hx (by omega) c co
    exact ⟨c', by simp only [readElements, h4, e], co'⟩

/-- In a document without deep copies, `elements` of a section gives the same whatever was asked before exactly if the section is not shaky. -/
theorem C21_elements_iff (ha : analyze input = .ok ctx) (hl : load input = .ok ctx') (nd : NoDeepCopies ctx.heap) :
    ∃ N, ∀ fuel, N ≤ fuel → ∀ s, Askable ctx.heap (.elements s) →
      ((∀ c, Session input ctx'.heap fuel (Askable ctx.heap) c → ((Query.elements s).run input ctx'.heap fuel c).1 = answer input ctx'.heap fuel (.elements s)) ↔ ¬ Shaky ctx.heap s) := by
  have L := loaded ha hl
  obtain ⟨M, hM⟩ := L.askable (input := input) nd
  obtain ⟨K, hK⟩ := uniform_bound (P := fun s fuel => (ctx.heap.at s).type = .section ∨ s = 0 →
      (Shaky ctx.heap s → (readElements ctx'.heap fuel s .empty).1 = .error .typeError ∧ ∃ xs, (readElements ctx'.heap fuel s (readElements ctx'.heap fuel s .empty).2).1 = .ok xs) ∧
        (¬ Shaky ctx.heap s → ∃ xs, Returns input ctx.heap ctx'.heap (readElements ctx'.heap fuel s) (.ok xs))) ctx.heap.length fun s hi => by
    by_cases hs : (ctx.heap.at s).type = .section ∨ s = 0
    · by_cases H : Shaky ctx.heap s
      · obtain ⟨N, hN⟩ := L.shaky nd hi hs H
        exact ⟨N, fun n hn _ => ⟨fun _ => hN n hn, fun q => absurd H q⟩⟩
      · obtain ⟨N, hN⟩ := L.firm (input := input) nd hi hs H
        exact ⟨N, fun n hn _ => ⟨fun q => absurd q H, fun _ => hN n hn⟩⟩
    · exact ⟨0, fun _ _ q => absurd q hs⟩
  refine ⟨max M K, fun fuel hf s hq => ?_⟩
  obtain ⟨k1, k2⟩ := hK s hq.1 fuel (by omega) hq.2
  constructor
  · intro same H
    obtain ⟨e1, xs, e2⟩ := k1 H
    have S := same _ (.ask .start (q := .elements s) hq)
    unfold answer Query.run Read.map at S
    dsimp only at S
    generalize hq1 : readElements ctx'.heap fuel s .empty = q at e1 e2 S
    obtain ⟨p1, p2⟩ := q
    dsimp only at e1 e2
    subst e1
    dsimp only at S
    generalize readElements ctx'.heap fuel s p2 = q at e2 S
    obtain ⟨r1, r2⟩ := q
    dsimp only at e2
    subst e2
    cases S
  · intro H c hc
    obtain ⟨xs, R⟩ := k2 H
    obtain ⟨c1, e1, _⟩ := R c (Loaded.sane (hM fuel (by omega)) hc).1
    obtain ⟨c2, e2, _⟩ := R .empty coherent_empty
    unfold answer Query.run Read.map
    dsimp only
    rw [e1, e2]

/-- If it is shaky, asking for the first time raises TypeError and asking again does not. -/
theorem C21_shaky (ha : analyze input = .ok ctx) (hl : load input = .ok ctx') (nd : NoDeepCopies ctx.heap) {s : Nat} (hq : Askable ctx.heap (.elements s)) (H : Shaky ctx.heap s) :
    ∃ N, ∀ fuel, N ≤ fuel → answer input ctx'.heap fuel (.elements s) = .error .typeError ∧
      ∃ a, ((Query.elements s).run input ctx'.heap fuel ((Query.elements s).run input ctx'.heap fuel .empty).2).1 = .ok a := by
  obtain ⟨N, hN⟩ := (loaded ha hl).shaky nd hq.1 hq.2 H
  refine ⟨N, fun fuel hf => ?_⟩
  obtain ⟨e1, xs, e2⟩ := hN fuel hf
  unfold answer Query.run Read.map
  dsimp only
  generalize readElements ctx'.heap fuel s .empty = q at e1 e2
  obtain ⟨p1, p2⟩ := q
  dsimp only at e1 e2
  subst e1
  refine ⟨rfl, .elements xs, ?_⟩
  dsimp only
  generalize readElements ctx'.heap fuel s p2 = q at e2
  obtain ⟨r1, r2⟩ := q
  dsimp only at e2
  subst e2
  rfl

/-- In the document of `C21_refuted` the section `C` is shaky, and `B`, a copy without own elements, is not. -/
example : ∃ ctx, analyze (chars!"# A\nx: 1\n# B < A\n# C < B\ny: 2") = .ok ctx ∧ NoDeepCopies ctx.heap ∧ Askable ctx.heap (.elements 4) ∧ Shaky ctx.heap 4 ∧
    Askable ctx.heap (.elements 3) ∧ ¬ Shaky ctx.heap 3 := by
  obtain ⟨ctx, h1, h3, h4, h5, c1, c2, c3, c4, c5, k4, d4, k3, d3⟩ : ∃ ctx, analyze (chars!"# A\nx: 1\n# B < A\n# C < B\ny: 2") = .ok ctx ∧
      ctx.heap.all (fun e => !e.deepCopy) = true ∧ 4 < ctx.heap.length ∧ (ctx.heap.at 4).type = .section ∧ (ctx.heap.at 4).elements ≠ [] ∧
      (ctx.heap.at 3).type = .section ∧ (ctx.heap.at 3).copy.isSome = true ∧ (ctx.heap.at 3).elements = [] ∧ (ctx.heap.at 1).copy = none ∧
      (ctx.heap.at 4).copy = some (chars!"B") ∧ candidates ctx.heap true (chars!"B") = [3] ∧ (ctx.heap.at 3).copy = some (chars!"A") ∧ candidates ctx.heap true (chars!"A") = [1] := by
    refine ⟨_, rfl, ?_⟩; decide +kernel
  have n4 : ¬ HollowCopy ctx.heap 4 := fun b => c1 b.2.2
  have n1 : ¬ HollowCopy ctx.heap 1 := fun b => by have := b.2.1; rw [c5] at this; cases this
  have t4 : TemplateIs ctx.heap 4 3 := ⟨h4, _, k4, by rw [h5]; exact d4⟩
  have t3 : TemplateIs ctx.heap 3 1 := ⟨by omega, _, k3, by rw [c2]; exact d3⟩
  refine ⟨ctx, h1, fun i => by simpa using at_all h3 (by decide) i, ⟨h4, .inl h5⟩, ⟨4, 3, .self n4, .one t4, c2, c3, c4⟩, ⟨by omega, .inl c2⟩, ?_⟩
  rintro ⟨m, b, R, hl, hb⟩
  rw [← (Reveals.copy ⟨c2, c3, c4⟩ t3 (.self n1)).det R] at hl
  cases hl with
  | one q => obtain ⟨_, k, q, _⟩ := q; rw [c5] at q; cases q
  | step q => obtain ⟨_, k, q, _⟩ := q; rw [c5] at q; cases q

end Eno
