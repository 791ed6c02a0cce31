import Verif.Proofs.QuietTree
import Verif.Props.TreeProps
import Verif.Props.ResolverProps
import Verif.Props.UncommentedProps

/-!
# C84: what documents with copies mean

The trees of C83, with their copies: which of them can be loaded, and what `raw` shows of them, said without references, resolution or merging in place (`Spec/Copied.lean`).
-/

namespace Eno

open Spec

variable {i : Str} {es : List Said} {T : Doc}

/-- If no comment is a single empty line (a step to `C84_loads_iff`). -/
theorem loads_iff_shown (S : Says i es .finished) (ht : told es = T.said) (hT : T.Ok) (hs : T.Shown) : (∃ ctx, load i = .ok ctx) ↔ ∃ R, T.Means R := by
  have hv : T.Valid := doc_valid hT hs fun e he => says_trim S e (mem_told (ht ▸ he))
  obtain ⟨i', hx⟩ := doc_of hv
  obtain ⟨es', S', ht'⟩ := doc_says hx
  obtain ⟨ctx, ha, D⟩ := written_doc hx
  have A := same_load S S' (ht.trans ht'.symm)
  have : (∃ ctx, load i = .ok ctx) ↔ ∃ ctx, load i' = .ok ctx := by
    constructor
    · rintro ⟨c, hc⟩
      rw [hc] at A
      generalize load i' = x at A
      cases A with | ok => exact ⟨_, rfl⟩
    · rintro ⟨c, hc⟩
      rw [hc] at A
      generalize load i = x at A
      cases A with | ok => exact ⟨_, rfl⟩
  rw [this]
  constructor
  · rintro ⟨c, hc⟩
    exact D.means ((C53_loads_iff ha).1 ⟨c, hc⟩) (loaded ha hc)
  · rintro ⟨R, hR⟩
    exact (C53_loads_iff ha).2 (D.wellCopied hR)

/-- A text that says a document is loaded if and only if the document means something: each copied name has one template in the whole document, what is added to a template goes with
it, and no copy is needed for its own meaning. -/
theorem C84_loads_iff (S : Says i es .finished) (ht : told es = T.said) (hT : T.Ok) : (∃ ctx, load i = .ok ctx) ↔ ∃ R, T.Means R := by
  have hw : wordless es = T.quiet.said := by rw [← wordless_told, ht, quiet_said]
  have hv : T.quiet.Valid := doc_valid (quiet_ok hT) (quiet_shown T) fun e he => says_trim S e (mem_wordless (hw ▸ he))
  obtain ⟨i', hx⟩ := doc_of hv
  obtain ⟨es', S', ht'⟩ := doc_says hx
  have hw' : wordless es' = T.quiet.said := by rw [← wordless_told, ht', ← quiet_said, wordless_twice]
  rw [C86_loads S S' (hw.trans hw'.symm), loads_iff_shown S' ht' (quiet_ok hT) (quiet_shown T)]
  exact quiet_means.symm

/-- The texts that are loaded: those whose lines say a document that means something. -/
theorem C84_loadable : (∃ ctx, load i = .ok ctx) ↔ ∃ (es : List Said) (T : Doc) (R : Raw), Says i es .finished ∧ T.Ok ∧ told es = T.said ∧ T.Means R := by
  constructor
  · rintro ⟨ctx, h⟩
    obtain ⟨ctx0, ha⟩ : ∃ c, analyze i = .ok c := by
      cases ha : analyze i with
      | ok c => exact ⟨c, rfl⟩
      | error x => simp [load, ha] at h
    obtain ⟨es, T, S, hT, ht⟩ := C83_accepted.1 ⟨ctx0, ha⟩
    obtain ⟨R, hR⟩ := (C84_loads_iff S ht hT).1 ⟨ctx, h⟩
    exact ⟨es, T, R, S, hT, ht, hR⟩
  · rintro ⟨es, T, R, S, hT, ht, hR⟩
    exact (C84_loads_iff S ht hT).2 ⟨R, hR⟩

/-- In any session, `raw` shows what the document means, whatever the text looks like. (No comment is a single empty line, see C22; no section is a deep copy or a copy without contents
of its own, see C21.) -/
theorem C84_raw {R : Raw} (S : Says i es .finished) (ht : told es = T.said) (hT : T.Ok) (hs : T.Shown) (hc : T.Shallow) (hR : T.Means R) :
    ∃ ctx ctx', analyze i = .ok ctx ∧ load i = .ok ctx' ∧
      ∃ N, ∀ fuel, N ≤ fuel → ∀ c, Session i ctx'.heap fuel (Harmless ctx.heap) c → ((Query.raw (.elem 0)).run i ctx'.heap fuel c).1 = .ok (.raw R) := by
  have hv : T.Valid := doc_valid hT hs fun e he => says_trim S e (mem_told (ht ▸ he))
  obtain ⟨i', hx⟩ := doc_of hv
  obtain ⟨es', S', ht'⟩ := doc_says hx
  obtain ⟨ctx1, ha1, D⟩ := written_doc hx
  obtain ⟨ctx1', hl1⟩ := (C53_loads_iff ha1).2 (D.wellCopied hR)
  have A := same_analysis S' S (ht'.trans ht.symm)
  have B := same_load S' S (ht'.trans ht.symm)
  rw [ha1] at A
  rw [hl1] at B
  cases ha : analyze i with
  | error x => rw [ha] at A; cases A
  | ok ctx =>
    rw [ha] at A
    cases A with
    | ok C =>
      cases hl : load i with
      | error x => rw [hl] at B; cases B
      | ok ctx' =>
        rw [hl] at B
        cases B with
        | ok C' =>
          have sh := D.shallow hc
          have hq1 : Sensible ctx1.heap (.raw (.elem 0)) := ⟨(loaded ha1 hl1).non.ok.pos, D.readable, .inr (sh.straight D.root_copy.1)⟩
          have hq : Sensible ctx.heap (.raw (.elem 0)) :=
            ⟨(loaded ha hl).non.ok.pos, same_readable C.heap D.readable, .inr ((same_shallow C.heap sh).straight (by rw [(C.heap.at 0).copy]; exact D.root_copy.1))⟩
          obtain ⟨N, hN⟩ := C21_answers ha hl
          obtain ⟨N1, hN1⟩ := C21_answers ha1 hl1
          refine ⟨ctx, ctx', rfl, rfl, N, fun fuel hf c hc => ?_⟩
          obtain ⟨a, h1, h2⟩ := hN fuel hf c hc _ hq
          obtain ⟨b, h3, h4⟩ := hN (N + N1) (by omega) _ .start _ hq
          obtain ⟨b1, h5, h6⟩ := hN1 (N + N1) (by omega) _ .start _ hq1
          rw [same_query C'.heap, h6] at h4
          injection h4 with h4
          rw [h2, C21_unique ha hl hq h1 h3, ← h4, C21_unique ha1 hl1 hq1 h5 (.raw (D.rawOf hR))]

/-- A document means at most one thing. -/
theorem C84_unique {R R' : Raw} (h : T.Means R) (h' : T.Means R') : R = R' := by
  obtain ⟨a, b⟩ := h
  obtain ⟨a', b'⟩ := h'
  rw [things_det a a', parts_det b b']

/-- However a document is written, its lines say it. -/
theorem C84_written (h : T.Text i) : ∃ es, Says i es .finished ∧ told es = T.said := doc_says h

/-- Every document with trimmed keys, texts and names of templates can be written. -/
theorem C84_expressible (h : T.Valid) : ∃ input, T.Text input := doc_of h

/-- A document without copies means what `raw` shows of it (C68, C83). -/
theorem C84_plain (D : Document) : D.doc.Means D.raw := document_means D

/-! ## Concrete cases -/

/-- A list, a copy of it with an item of its own, a section, and a copy of the section that redefines an element. -/
def copiedSample : Doc :=
  ⟨[.plain ⟨[(2, some (chars!"c"))], chars!"a", .items ⟨[], some (chars!"1"), []⟩ []⟩, .copy [] (chars!"b") (chars!"a") (.items ⟨[], some (chars!"2"), []⟩ [])],
    [.mk [] (chars!"s") none [.plain ⟨[], chars!"x", .parts ⟨some (chars!"1"), []⟩⟩, .plain ⟨[], chars!"y", .parts ⟨some (chars!"2"), []⟩⟩] [],
      .mk [] (chars!"t") (some (false, chars!"s")) [.plain ⟨[], chars!"x", .parts ⟨some (chars!"3"), []⟩⟩] []]⟩

/-- What it means. -/
def copiedRaw : Raw :=
  .node .document none none
    [.node .list (some (chars!"c")) (some (chars!"a")) [.leaf .listItem none none (some (some (chars!"1")))],
      .node .list (some (chars!"c")) (some (chars!"b")) [.leaf .listItem none none (some (some (chars!"1"))), .leaf .listItem none none (some (some (chars!"2")))],
      .node .section none (some (chars!"s")) [.leaf .field none (some (chars!"x")) (some (some (chars!"1"))), .leaf .field none (some (chars!"y")) (some (some (chars!"2")))],
      .node .section none (some (chars!"t")) [.leaf .field none (some (chars!"y")) (some (some (chars!"2"))), .leaf .field none (some (chars!"x")) (some (some (chars!"3")))]]

theorem copiedSample_means : copiedSample.Means copiedRaw := by
  have h1 : ThingsMean copiedSample.nodes copiedSample.things [⟨[(2, some (chars!"c"))], chars!"a", .items [⟨[], some (chars!"1"), []⟩]⟩,
      ⟨[(2, some (chars!"c"))], chars!"b", .items [⟨[], some (chars!"1"), []⟩, ⟨[], some (chars!"2"), []⟩]⟩] :=
    .cons .plain (.cons (.copy (r := []) (x := .plain ⟨[(2, some (chars!"c"))], chars!"a", .items ⟨[], some (chars!"1"), []⟩ []⟩) rfl .plain rfl) .nil)
  have hs : Part.Means copiedSample.nodes (.mk [] (chars!"s") none [.plain ⟨[], chars!"x", .parts ⟨some (chars!"1"), []⟩⟩, .plain ⟨[], chars!"y", .parts ⟨some (chars!"2"), []⟩⟩] []) []
      [.leaf .field none (some (chars!"x")) (some (some (chars!"1"))), .leaf .field none (some (chars!"y")) (some (some (chars!"2")))] :=
    .own (.cons .plain (.cons .plain .nil)) .nil
  have ht := Part.Means.copy (ns := copiedSample.nodes) (r := []) (k := chars!"t") (d := false) (t := chars!"s") (ts := [.plain ⟨[], chars!"x", .parts ⟨some (chars!"3"), []⟩⟩]) rfl hs
    (.cons .plain .nil) .nil
  exact .mk h1 (.cons hs (.cons ht .nil))

def copiedSaid : List Said :=
  [.comment (some (2, chars!"c")), .line (.element (chars!"a") none), .line (.listItem (some (chars!"1"))), .line (.copy (chars!"b") (chars!"a")), .line (.listItem (some (chars!"2"))),
    .line (.heading 1 (chars!"s") none), .line (.element (chars!"x") (some (chars!"1"))), .line (.element (chars!"y") (some (chars!"2"))),
    .line (.heading 1 (chars!"t") (some (false, chars!"s"))), .line (.element (chars!"x") (some (chars!"3")))]

theorem copiedSaid_says : Says (chars!"> c\na:\n- 1\nb < a\n- 2\n# s\nx: 1\ny: 2\n# t < s\nx: 3") copiedSaid .finished := by
  refine .line (l := .comment (some (chars!"c"))) (rest := chars!"\na:\n- 1\nb < a\n- 2\n# s\nx: 1\ny: 2\n# t < s\nx: 3") (by decide) (by decide +kernel) (by simp) ?_
  refine .line (l := .element (chars!"a") none) (rest := chars!"\n- 1\nb < a\n- 2\n# s\nx: 1\ny: 2\n# t < s\nx: 3") (by decide) (by decide +kernel) (by simp) ?_
  refine .line (l := .listItem (some (chars!"1"))) (rest := chars!"\nb < a\n- 2\n# s\nx: 1\ny: 2\n# t < s\nx: 3") (by decide) (by decide +kernel) (by simp) ?_
  refine .line (l := .copy (chars!"b") (chars!"a")) (rest := chars!"\n- 2\n# s\nx: 1\ny: 2\n# t < s\nx: 3") (by decide) (by decide +kernel) (by simp) ?_
  refine .line (l := .listItem (some (chars!"2"))) (rest := chars!"\n# s\nx: 1\ny: 2\n# t < s\nx: 3") (by decide) (by decide +kernel) (by simp) ?_
  refine .line (l := .heading 1 (chars!"s") none) (rest := chars!"\nx: 1\ny: 2\n# t < s\nx: 3") (by decide) (by decide +kernel) (by simp) ?_
  refine .line (l := .element (chars!"x") (some (chars!"1"))) (rest := chars!"\ny: 2\n# t < s\nx: 3") (by decide) (by decide +kernel) (by simp) ?_
  refine .line (l := .element (chars!"y") (some (chars!"2"))) (rest := chars!"\n# t < s\nx: 3") (by decide) (by decide +kernel) (by simp) ?_
  refine .line (l := .heading 1 (chars!"t") (some (false, chars!"s"))) (rest := chars!"\nx: 3") (by decide) (by decide +kernel) (by simp) ?_
  exact .line (l := .element (chars!"x") (some (chars!"3"))) (rest := []) (by decide) (by decide +kernel) (by simp) .done

theorem copiedSample_said : told copiedSaid = copiedSample.said := by
  simp [copiedSaid, copiedSample, told, leftAlone, Doc.said, Thing.said, Element.said, Inner.said, Item.said, saidMore, Remark.said, partsSaid, Part.said]

theorem copiedSample_ok : copiedSample.Ok := by
  simp [copiedSample, Doc.Ok, Thing.Ok, Content.Ok, Inner.Ok, Remark.Ok, PartsOk, Part.Ok]

theorem copiedSample_shown : copiedSample.Shown := by
  simp [copiedSample, Doc.Shown, Thing.Shown, Element.Shown, Content.Shown, Inner.Shown, Remark.Shown, PartsShown, Part.Shown]

/-- The text is loaded. -/
example : ∃ ctx, load (chars!"> c\na:\n- 1\nb < a\n- 2\n# s\nx: 1\ny: 2\n# t < s\nx: 3") = .ok ctx :=
  (C84_loads_iff copiedSaid_says copiedSample_said copiedSample_ok).2 ⟨_, copiedSample_means⟩

/-- A comment that is a single empty line, and a copy. -/
def hollowSample : Doc := ⟨[.plain ⟨[(0, none)], chars!"a", .parts ⟨some (chars!"1"), []⟩⟩, .copy [] (chars!"b") (chars!"a") .nothing], []⟩

theorem hollowSample_means : ∃ R, hollowSample.Means R := by
  have h : ThingsMean hollowSample.nodes hollowSample.things [⟨[(0, none)], chars!"a", .text (some (chars!"1"))⟩, ⟨[(0, none)], chars!"b", .text (some (chars!"1"))⟩] :=
    .cons .plain (.cons (.copy (r := []) (x := .plain ⟨[(0, none)], chars!"a", .parts ⟨some (chars!"1"), []⟩⟩) rfl .plain rfl) .nil)
  exact ⟨_, .mk h .nil⟩

/-- Such a text is loaded, too. -/
example : ∃ ctx, load (chars!">\na: 1\nb < a") = .ok ctx := by
  have S : Says (chars!">\na: 1\nb < a") [.comment none, .line (.element (chars!"a") (some (chars!"1"))), .line (.copy (chars!"b") (chars!"a"))] .finished := by
    refine .line (l := .comment none) (rest := chars!"\na: 1\nb < a") (by decide) (by decide +kernel) (by simp) ?_
    refine .line (l := .element (chars!"a") (some (chars!"1"))) (rest := chars!"\nb < a") (by decide) (by decide +kernel) (by simp) ?_
    exact .line (l := .copy (chars!"b") (chars!"a")) (rest := []) (by decide) (by decide +kernel) (by simp) .done
  obtain ⟨R, hR⟩ := hollowSample_means
  refine C84_loadable.2 ⟨_, hollowSample, R, S, ?_, ?_, hR⟩
  · simp [hollowSample, Doc.Ok, Thing.Ok, Inner.Ok, Content.Ok, Remark.Ok, PartsOk]
  · simp [hollowSample, told, leftAlone, Doc.said, Thing.said, Element.said, Inner.said, Remark.said, saidMore, partsSaid]

/-- And shows what the document means. -/
example : ∃ ctx ctx', analyze (chars!"> c\na:\n- 1\nb < a\n- 2\n# s\nx: 1\ny: 2\n# t < s\nx: 3") = .ok ctx ∧ load (chars!"> c\na:\n- 1\nb < a\n- 2\n# s\nx: 1\ny: 2\n# t < s\nx: 3") = .ok ctx' ∧
    ∃ N, ∀ fuel, N ≤ fuel → ∀ c, Session (chars!"> c\na:\n- 1\nb < a\n- 2\n# s\nx: 1\ny: 2\n# t < s\nx: 3") ctx'.heap fuel (Harmless ctx.heap) c →
      ((Query.raw (.elem 0)).run (chars!"> c\na:\n- 1\nb < a\n- 2\n# s\nx: 1\ny: 2\n# t < s\nx: 3") ctx'.heap fuel c).1 = .ok (.raw copiedRaw) :=
  C84_raw copiedSaid_says copiedSample_said copiedSample_ok copiedSample_shown (by simp [Doc.Shallow, copiedSample, Doc.nodes, partsNodes, Part.nodes, Node.Shallow]) copiedSample_means

example (R : Raw) (h : copiedSample.Means R) : R = copiedRaw := C84_unique h copiedSample_means

/-- Other ways of writing it say the same. -/
example : ∃ input es, Says input es .finished ∧ told es = copiedSample.said := by
  obtain ⟨input, h⟩ := C84_expressible (T := copiedSample) (by
    refine doc_valid copiedSample_ok copiedSample_shown fun e he => ?_
    exact C83_trimmed copiedSaid_says e (mem_told (copiedSample_said ▸ he)))
  exact ⟨input, C84_written h⟩

/-- An element that copies itself by way of another one means nothing, and is not loaded. -/
example : ¬ ∃ ctx, load (chars!"a < b\nb < a") = .ok ctx := by
  have S : Says (chars!"a < b\nb < a") [.line (.copy (chars!"a") (chars!"b")), .line (.copy (chars!"b") (chars!"a"))] .finished := by
    refine .line (l := .copy (chars!"a") (chars!"b")) (rest := chars!"\nb < a") (by decide) (by decide +kernel) (by simp) ?_
    exact .line (l := .copy (chars!"b") (chars!"a")) (rest := []) (by decide) (by decide +kernel) (by simp) .done
  rw [C84_loads_iff (T := ⟨[.copy [] (chars!"a") (chars!"b") .nothing, .copy [] (chars!"b") (chars!"a") .nothing], []⟩) S
    (by simp [told, Doc.said, Thing.said, Inner.said, Remark.said, partsSaid])
    (by simp [Doc.Ok, Thing.Ok, Inner.Ok, Remark.Ok, PartsOk])]
  rintro ⟨_, h, _⟩
  have key : ∀ {t m}, Thing.Means (Doc.nodes ⟨[.copy [] (chars!"a") (chars!"b") .nothing, .copy [] (chars!"b") (chars!"a") .nothing], []⟩) t m →
      t ≠ .copy [] (chars!"a") (chars!"b") .nothing ∧ t ≠ .copy [] (chars!"b") (chars!"a") .nothing := by
    intro t m H
    induction H with
    | plain => exact ⟨by simp, by simp⟩
    | copy hf _ _ ih =>
      constructor
      · intro e
        injection e with _ _ e _
        subst e
        injection hf with hf _
        injection hf with hf
        exact ih.2 hf.symm
      · intro e
        injection e with _ _ e _
        subst e
        injection hf with hf _
        injection hf with hf
        exact ih.1 hf.symm
  cases h with
  | cons h _ => exact (key h).1 rfl

/-- Two elements of the same name are no template, and items do not go with a text. -/
example : ¬ ∃ R, Doc.Means ⟨[.plain ⟨[], chars!"a", .parts ⟨some (chars!"1"), []⟩⟩, .plain ⟨[], chars!"a", .parts ⟨some (chars!"2"), []⟩⟩, .copy [] (chars!"b") (chars!"a") .nothing], []⟩ R := by
  rintro ⟨_, h, _⟩
  cases h with
  | cons _ h => cases h with
    | cons _ h => cases h with
      | cons h _ => cases h with
        | copy hf _ _ =>
          injection hf with _ hf
          cases hf

example : ¬ ∃ R, Doc.Means ⟨[.plain ⟨[], chars!"a", .parts ⟨some (chars!"1"), []⟩⟩, .copy [] (chars!"b") (chars!"a") (.items ⟨[], some (chars!"2"), []⟩ [])], []⟩ R := by
  rintro ⟨_, h, _⟩
  cases h with
  | cons _ h => cases h with
    | cons h _ => cases h with
      | copy hf hm he =>
        injection hf with hf _
        injection hf with hf
        subst hf
        cases hm
        cases he

/-- A text with a list, without copies. -/
example : listSample.doc.Means (.node .document none none [.leaf .field none (some (chars!"a")) (some (some (chars!"1"))),
    .node .list none (some (chars!"b")) [.leaf .listItem none none (some (some (chars!"x")))]]) := C84_plain listSample

end Eno
