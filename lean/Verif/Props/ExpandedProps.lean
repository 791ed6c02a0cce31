import Verif.Proofs.Expanded
import Verif.Props.CopiedProps
import Verif.Props.DocumentProps

/-!
# C87: writing out copies

When a document with copies can be replaced by one without that shows the same.
-/

namespace Eno

open Spec

variable {i : Str} {es : List Said} {T : Doc} {R : Raw}

/-- **C87**: what a document with copies means can be said without copies exactly if sections come last wherever it shows some. -/
theorem C87_iff (hv : T.Valid) (hR : T.Means R) : (∃ D : Document, D.Valid ∧ D.raw.dict = R.dict) ↔ Orderly R :=
  ⟨fun ⟨D, _, e⟩ => orderly_dict (document_orderly D) e, document_spelled hv hR⟩

/-- The same about texts and what `raw` returns for them, with enough recursion depth. -/
theorem C87_texts (S : Says i es .finished) (ht : told es = T.said) (hT : T.Ok) (hs : T.Shown) (hc : T.Shallow) (hR : T.Means R) :
    (∃ (i' : Str) (D : Document) (ctx ctx' : Ctx), D.Text i' ∧ load i = .ok ctx ∧ load i' = .ok ctx' ∧
      ∃ N, ∀ fuel, N ≤ fuel → ∃ x x', answer i ctx.heap fuel (.raw (.elem 0)) = .ok (.raw x) ∧ answer i' ctx'.heap fuel (.raw (.elem 0)) = .ok (.raw x') ∧ x'.dict = x.dict) ↔
    Orderly R := by
  have hv : T.Valid := doc_valid hT hs fun e he => says_trim S e (mem_told (ht ▸ he))
  obtain ⟨ctx0, ctx, _, hl, N, hN⟩ := C84_raw S ht hT hs hc hR
  constructor
  · rintro ⟨i', D, c, c', h1, h2, h3, M, hM⟩
    obtain ⟨c'', h4, K, hK⟩ := C68_round_trip h1
    rw [hl] at h2; injection h2 with h2; subst h2
    rw [h3] at h4; injection h4 with h4; subst h4
    obtain ⟨x, x', e1, e2, e3⟩ := hM (max M (max N K)) (by omega)
    have f1 := hN (max M (max N K)) (by omega) .empty .start
    have f2 := hK (max M (max N K)) (by omega) .empty .start
    unfold answer at e1 e2
    rw [e1] at f1; rw [e2] at f2
    injection f1 with f1; injection f1 with f1; subst f1
    injection f2 with f2; injection f2 with f2; subst f2
    exact orderly_dict (document_orderly D) e3
  · intro O
    obtain ⟨D, d1, d2⟩ := document_spelled hv hR O
    obtain ⟨i', h1⟩ := document_of d1
    obtain ⟨ctx', h2, M, hM⟩ := C68_round_trip h1
    exact ⟨i', D, ctx, ctx', h1, hl, h2, max N M, fun fuel hf => ⟨R, D.raw, hN fuel (by omega) .empty .start, hM fuel (by omega) .empty .start, d2⟩⟩

/-- In particular copies of elements that are not sections can always be written out. -/
theorem C87_elements (hR : T.Means R) (hn : ∀ x ∈ T.nodes, x.NoSectionCopy) : Orderly R := by
  obtain ⟨_, h2⟩ := hR
  exact orderly_more (parts_orderly h2 fun x hx => hn x (List.mem_append_right _ hx))

/-- What `raw` shows of a document without copies has sections last. -/
theorem C87_plain (D : Document) : Orderly D.raw := document_orderly D

/-! ## Concrete cases -/

/-- The document of C84 can be written without copies. -/
example : copiedSample.Valid ∧ copiedSample.Means copiedRaw ∧ Orderly copiedRaw := by
  refine ⟨doc_valid copiedSample_ok copiedSample_shown fun e he => says_trim copiedSaid_says e (mem_told (copiedSample_said ▸ he)), copiedSample_means, ?_⟩
  have leaf : ∀ {t c k xs}, (∀ x ∈ xs, ∃ t' c' k' v', x = Raw.leaf t' c' k' v' ∧ t' ≠ .section) → Orderly (.node t c k xs) := by
    intro t c k xs H
    refine orderly_leaves fun x hx => ?_
    obtain ⟨t', c', k', v', rfl, q⟩ := H x hx
    exact ⟨q, .leaf⟩
  show Orderly (.node .document none none ([_, _] ++ [_, _]))
  refine .node (fun x hx => ?_) (fun x hx => ?_) (fun x hx => ?_)
  · simp at hx; rcases hx with rfl | rfl <;> simp [rawType]
  · simp at hx; rcases hx with rfl | rfl <;> rfl
  · simp at hx; rcases hx with rfl | rfl | rfl | rfl <;> exact leaf (by simp)

/-- A section with a subsection and a copy of it with a field: the copy shows the subsection before the field. -/
def disorderly : Doc :=
  ⟨[], [.mk [] (chars!"A") none [] [.mk [] (chars!"X") none [] []], .mk [] (chars!"B") (some (false, chars!"A")) [.plain ⟨[], chars!"y", .parts ⟨some (chars!"1"), []⟩⟩] []]⟩

/-- What it means. -/
def disorderlyRaw : Raw :=
  .node .document none none
    [.node .section none (some (chars!"A")) [.node .section none (some (chars!"X")) []],
      .node .section none (some (chars!"B")) [.node .section none (some (chars!"X")) [], .leaf .field none (some (chars!"y")) (some (some (chars!"1")))]]

/-- It cannot be written without copies. -/
theorem C87_not_all : disorderly.Valid ∧ disorderly.Shallow ∧ disorderly.Means disorderlyRaw ∧ ¬ ∃ D : Document, D.Valid ∧ D.raw.dict = disorderlyRaw.dict := by
  have hv : disorderly.Valid := by
    simp [disorderly, Doc.Valid, PartsValid, Part.Valid, Thing.Valid, Element.Valid, Content.Valid, Parts.Valid, Remark.Valid]
    refine ⟨⟨?_, ?_⟩, ?_, ?_, ?_, ?_⟩ <;> exact trimmed_of (by decide)
  have hX : Part.Means disorderly.nodes (.mk [] (chars!"X") none [] []) [] [] := .own .nil .nil
  have hA : Part.Means disorderly.nodes (.mk [] (chars!"A") none [] [.mk [] (chars!"X") none [] []]) [] [.node .section none (some (chars!"X")) []] := .own .nil (.cons hX .nil)
  have hB := Part.Means.copy (ns := disorderly.nodes) (r := []) (k := chars!"B") (d := false) (t := chars!"A") (ts := [.plain ⟨[], chars!"y", .parts ⟨some (chars!"1"), []⟩⟩]) rfl hA
    (.cons .plain .nil) .nil
  have hm : disorderly.Means disorderlyRaw := .mk (ms := []) .nil (.cons hA (.cons hB .nil))
  refine ⟨hv, ?_, hm, fun q => ?_⟩
  · simp [disorderly, Doc.Shallow, Doc.nodes, partsNodes, Part.nodes, Node.Shallow]
  · have O := (C87_iff hv hm).1 q
    unfold disorderlyRaw at O
    generalize hxs : [Raw.node .section none (some (chars!"A")) _, _] = xs at O
    cases O with
    | @node _ _ _ a b _ _ h3 =>
      have O := h3 (.node .section none (some (chars!"B")) [.node .section none (some (chars!"X")) [], .leaf .field none (some (chars!"y")) (some (some (chars!"1")))]) (by rw [← hxs]; simp)
      generalize hys : [Raw.node .section none (some (chars!"X")) _, _] = ys at O
      cases O with
      | @node _ _ _ a b h1 h2 _ =>
        cases a with
        | nil =>
          rw [List.nil_append] at hys
          have := h2 (.leaf .field none (some (chars!"y")) (some (some (chars!"1")))) (by rw [← hys]; simp)
          cases this
        | cons x a =>
          injection hys with e _
          exact h1 x (by simp) (by rw [← e]; rfl)

end Eno
