import Verif.Proofs.TreeAccepted
import Verif.Props.LayoutProps
import Verif.Props.DocumentProps

/-!
# C83: the grammar of documents

Which texts are documents: those whose lines say, in order, what the lines of a tree say (`Spec/Tree.lean`). `Says` and `told` (`Spec/Sayings.lean`) read lines one by one and drop
blank lines and comments that belong to nothing; the trees say which lines can follow each other, and what belongs to what. Neither refers to the analyzer.
-/

namespace Eno

open Spec

variable {i : Str} {es : List Said} {T T' : Doc} {D D' : Document}

/-- The analyzer accepts a text if and only if its lines say a document (possibly with copies). -/
theorem C83_accepted : (∃ ctx, analyze i = .ok ctx) ↔ ∃ (es : List Said) (T : Doc), Says i es .finished ∧ T.Ok ∧ told es = T.said := analyze_doc

/-- The grammar is not ambiguous: lines say at most one document. -/
theorem C83_unique (h : T.Ok) (h' : T'.Ok) (e : T.said = T'.said) : T = T' := by
  have h1 := build_doc h
  have h2 := build_doc h'
  rw [← e, h1] at h2
  simp only [Option.some.injEq, Coming.mk.injEq, true_and] at h2
  obtain ⟨a, b⟩ := T
  obtain ⟨a', b'⟩ := T'
  obtain ⟨rfl, h3⟩ := h2
  rw [List.map_inj_right (fun x y h => by injection h)] at h3
  rw [show b = b' from h3]

/-- Whatever a text says, its keys, values, templates and comments are trimmed, also in texts that are rejected later on. -/
theorem C83_trimmed {r : Stop} (S : Says i es r) : ∀ e ∈ es, e.Trim := says_trim S

/-- A text without copies is loaded if and only if its lines say a document without copies, which is then unique. -/
theorem C83_without_copies (S : Says i es .finished) (hc : ∀ e ∈ es, e.copies = false) :
    ((∃ ctx, load i = .ok ctx) ↔ ∃ D : Document, D.doc.Ok ∧ told es = D.doc.said) ∧
      ∀ D D' : Document, D.doc.Ok → D'.doc.Ok → told es = D.doc.said → told es = D'.doc.said → D = D' := by
  refine ⟨⟨?_, ?_⟩, fun D D' h h' e e' => doc_inj (C83_unique h h' (e.symm.trans e'))⟩
  · rintro ⟨ctx, h⟩
    have : ∃ ctx, analyze i = .ok ctx := by
      unfold load at h
      cases ha : analyze i with
      | error x => rw [ha] at h; cases h
      | ok c => exact ⟨c, rfl⟩
    obtain ⟨es', T, S', hT, ht⟩ := C83_accepted.1 this
    obtain ⟨rfl, _⟩ := says_unique S S'
    obtain ⟨D, rfl⟩ := doc_plain fun e he => hc e (mem_told (ht ▸ he))
    exact ⟨D, hT, ht⟩
  · rintro ⟨D, hD, ht⟩
    obtain ⟨ctx, ha⟩ := C83_accepted.2 ⟨es, D.doc, S, hD, ht⟩
    exact ⟨ctx, load_plain ha S hc⟩

/-- In any session, `raw` shows the document that a text says, whatever the text looks like (if no comment is a single empty line, see C22). -/
theorem C83_raw (S : Says i es .finished) (ht : told es = D.doc.said) (hD : D.doc.Ok) (hs : D.Shown) : ∃ ctx, load i = .ok ctx ∧
    ∃ N, ∀ fuel, N ≤ fuel → ∀ c, Session i ctx.heap fuel (Harmless ctx.heap) c → ((Query.raw (.elem 0)).run i ctx.heap fuel c).1 = .ok (.raw D.raw) := by
  have hv : D.Valid := document_valid hD hs fun e he => says_trim S e (mem_told (ht ▸ he))
  obtain ⟨i', hT⟩ := document_of hv
  obtain ⟨es', S', ht'⟩ := text_says hT
  obtain ⟨ctx', H⟩ := written_document hT
  have A := same_analysis S' S (ht'.trans ht.symm)
  rw [H.analyzed] at A
  cases ha : analyze i with
  | error x => rw [ha] at A; cases A
  | ok ctx =>
    rw [ha] at A
    cases A with
    | ok C =>
      have hl : load i = .ok ctx := by
        unfold load
        rw [ha]
        simp only [C.copySections, C.copyNonSections, H.plain.1, H.plain.2]
        simp
      have hq : Sensible ctx.heap (.raw (.elem 0)) :=
        ⟨(loaded ha hl).non.ok.pos, same_readable C.heap H.fine.readable, .inr (same_straight C.heap H.fine)⟩
      obtain ⟨N, hN⟩ := C21_answers ha hl
      obtain ⟨ctx1, hl1, N', hN'⟩ := C68_round_trip hT
      rw [H.loaded] at hl1
      injection hl1 with hl1
      subst hl1
      refine ⟨ctx, hl, N, fun fuel hf c hc => ?_⟩
      obtain ⟨a, h1, h2⟩ := hN fuel hf c hc _ hq
      obtain ⟨b, h3, h4⟩ := hN (N + N') (by omega) _ .start _ hq
      have h5 := hN' (N + N') (by omega) _ .start
      rw [same_query C.heap, h5] at h4
      injection h4 with h4
      rw [h2, C21_unique ha hl hq h1 h3, ← h4]

/-- However a document without copies is written (C68), its lines say it. -/
theorem C83_written (h : D.Text i) : ∃ es, Says i es .finished ∧ told es = D.doc.said := text_says h

/-! ## Concrete cases -/

/-- A document with a comment, a continuation, a copied section and a list (to show that the statements above are about something). -/
def treeSample : Doc :=
  ⟨[.plain ⟨[(2, some (chars!"c"))], chars!"a", .parts ⟨some (chars!"1"), [(false, some (chars!"2"))]⟩⟩],
    [.mk [] (chars!"s") (some (true, chars!"t")) [.plain ⟨[], chars!"b", .items ⟨[], some (chars!"x"), []⟩ []⟩] []]⟩

def treeSaid : List Said :=
  [.comment (some (2, chars!"c")), .line (.element (chars!"a") (some (chars!"1"))), .comment none, .line (.continuation false (some (chars!"2"))), .line .empty,
    .line (.heading 1 (chars!"s") (some (true, chars!"t"))), .line (.element (chars!"b") none), .line (.listItem (some (chars!"x")))]

theorem treeSaid_says : Says (chars!"> c\na: 1\n>\n| 2\n\n# s << t\nb:\n- x") treeSaid .finished := by
  refine .line (l := .comment (some (chars!"c"))) (rest := chars!"\na: 1\n>\n| 2\n\n# s << t\nb:\n- x") (by decide) (by decide +kernel) (by simp) ?_
  refine .line (l := .element (chars!"a") (some (chars!"1"))) (rest := chars!"\n>\n| 2\n\n# s << t\nb:\n- x") (by decide) (by decide +kernel) (by simp) ?_
  refine .line (l := .comment none) (rest := chars!"\n| 2\n\n# s << t\nb:\n- x") (by decide) (by decide +kernel) (by simp) ?_
  refine .line (l := .continuation false (some (chars!"2"))) (rest := chars!"\n\n# s << t\nb:\n- x") (by decide) (by decide +kernel) (by simp) ?_
  refine .line (l := .empty) (rest := chars!"\n# s << t\nb:\n- x") (by decide) (by decide +kernel) (by simp) ?_
  refine .line (l := .heading 1 (chars!"s") (some (true, chars!"t"))) (rest := chars!"\nb:\n- x") (by decide) (by decide +kernel) (by simp) ?_
  refine .line (l := .element (chars!"b") none) (rest := chars!"\n- x") (by decide) (by decide +kernel) (by simp) ?_
  exact .line (l := .listItem (some (chars!"x"))) (rest := []) (by decide) (by decide +kernel) (by simp) .done

theorem treeSample_ok : treeSample.Ok := by
  simp [treeSample, Doc.Ok, Thing.Ok, Content.Ok, Inner.Ok, Remark.Ok, PartsOk, Part.Ok]

/-- The lines of the text say the document, without the comment in front of the continuation. -/
example : told treeSaid = treeSample.said := by
  simp [treeSaid, treeSample, told, leftAlone, Doc.said, Thing.said, Element.said, Inner.said, Item.said, saidMore, Remark.said, partsSaid, Part.said]

/-- So the analyzer accepts the text; that there is no `t` is found out later. -/
example : ∃ ctx, analyze (chars!"> c\na: 1\n>\n| 2\n\n# s << t\nb:\n- x") = .ok ctx :=
  C83_accepted.2 ⟨treeSaid, treeSample, treeSaid_says, treeSample_ok, by
    simp [treeSaid, treeSample, told, leftAlone, Doc.said, Thing.said, Element.said, Inner.said, Item.said, saidMore, Remark.said, partsSaid, Part.said]⟩

/-- Lines that say no document: a section inside a section that is missing. -/
example : ¬ ∃ T : Doc, T.Ok ∧ told [.line (.heading 2 (chars!"s") none)] = T.said := by
  rintro ⟨T, hT, ht⟩
  have S : Says (chars!"## s") [.line (.heading 2 (chars!"s") none)] .finished :=
    .line (l := .heading 2 (chars!"s") none) (rest := []) (by decide) (by decide +kernel) (by simp) .done
  obtain ⟨ctx, h⟩ := C83_accepted.2 ⟨_, T, S, hT, ht⟩
  have : (match analyze (chars!"## s") with | .ok _ => true | .error _ => false) = false := by decide +kernel
  rw [h] at this
  cases this

/-- A document that can be written in many ways, one of them being `layout_loose`. -/
def listSample : Document := ⟨[⟨[], chars!"a", .parts ⟨some (chars!"1"), []⟩⟩, ⟨[], chars!"b", .items ⟨[], some (chars!"x"), []⟩ []⟩], []⟩

example : ∃ ctx, load (chars!"\n  ``a``:1  \n> loose\n\n b :\n\n   -   x") = .ok ctx ∧
    ∃ N, ∀ fuel, N ≤ fuel → ∀ c, Session (chars!"\n  ``a``:1  \n> loose\n\n b :\n\n   -   x") ctx.heap fuel (Harmless ctx.heap) c →
      ((Query.raw (.elem 0)).run (chars!"\n  ``a``:1  \n> loose\n\n b :\n\n   -   x") ctx.heap fuel c).1 = .ok (.raw listSample.raw) := by
  refine C83_raw layout_loose ?_ ?_ ?_
  · simp [listSample, Document.doc, told, leftAlone, Doc.said, Thing.said, Element.said, Inner.said, Item.said, saidMore, Remark.said, partsSaid, secParts]
  · simp [listSample, Document.doc, Doc.Ok, Thing.Ok, Content.Ok, Inner.Ok, Remark.Ok, PartsOk, secParts]
  · simp [listSample, Document.Shown, Element.Shown, Content.Shown, Remark.Shown, SecsShown]

/-- No line of that text copies. -/
example : ∃ D : Document, D.doc.Ok ∧ told [.line (.element (chars!"a") (some (chars!"1"))), .line (.element (chars!"b") none), .line (.listItem (some (chars!"x")))] = D.doc.said := by
  refine (C83_without_copies layout_plain (by decide)).1.1 ?_
  have : (match load (chars!"a: 1\nb:\n- x") with | .ok _ => true | .error _ => false) = true := by decide +kernel
  cases h : load (chars!"a: 1\nb:\n- x") with
  | ok c => exact ⟨c, rfl⟩
  | error e => rw [h] at this; cases this

/-- Two trees that are not the same say different lines: whether the section belongs to the other one is said by its hash signs. -/
example : Doc.said ⟨[], [.mk [] (chars!"a") none [] [.mk [] (chars!"b") none [] []]]⟩ ≠ Doc.said ⟨[], [.mk [] (chars!"a") none [] [], .mk [] (chars!"b") none [] []]⟩ := by
  simp [Doc.said, partsSaid, Part.said, Remark.said]

/-- What is said by a line with a lot of white space is trimmed. -/
example : ∀ e ∈ ([.line .empty, .line (.element (chars!"a") (some (chars!"1"))), .comment (some (2, chars!"loose")), .line .empty,
    .line (.element (chars!"b") none), .line .empty, .line (.listItem (some (chars!"x")))] : List Said), e.Trim := C83_trimmed layout_loose

end Eno
