import Verif.Proofs.Several
import Verif.Props.ValidationProps

/-! # Properties of errors about several elements and about missing ones -/

namespace Eno

open Spec

variable {input : Str} {ctx : Ctx} {o : Options} {r : Ref} {b : Base} {rs : List Ref} {key : Option Str} {name : MsgName} {i : Nat}

/-! ## C67 -/

/-- An error about several elements where one was expected has the message with the key; the first of them is selected; their first lines are emphasised and their other lines indicated.
It cannot be made if one of them is stuck (C40). -/
theorem C67_several (hl : load input = .ok ctx) (hr : FirstLine ctx.heap r b) (hs : ∀ x ∈ rs, ∃ b, FirstLine ctx.heap x b) (ho : o.reporter ≠ .terminal) :
    ((∃ x ∈ r :: rs, RefStuck ctx.heap x) → unexpectedMultipleElements o ctx key (r :: rs) name = .error .typeError) ∧
    ((∀ x ∈ r :: rs, ¬ RefStuck ctx.heap x) → ∃ e ps, unexpectedMultipleElements o ctx key (r :: rs) name = .ok e ∧ e.text = .named name key ∧
      (∃ l ∈ ctx.instructions, RefEnds ctx.heap r l.line ∧ e.selection = ⟨⟨0, b.span.1, b.line⟩, ⟨(l.span.2 : Int) - l.span.1, l.span.2, l.line⟩⟩) ∧
      Spans ctx.heap (r :: rs) ps ∧ (o.reporter = .text → SnippetShows o input ctx.lineCount e.snippet (BeginsAt ps) (GoesOver ps))) := by
  obtain ⟨C, hin, S⟩ := loaded_all hl
  have hf : ∀ x ∈ r :: rs, ∃ b, FirstLine ctx.heap x b := by
    intro x hx
    rcases List.mem_cons.1 hx with rfl | hx
    · exact ⟨b, hr⟩
    · exact hs x hx
  rcases reportElements_marks C S (r :: rs) (List.replicate ctx.lineCount none) (by simp) hf with ⟨q, k⟩ | ⟨q, ps, s, k1, k2, k3, k4⟩
  · refine ⟨fun _ => ?_, fun h => absurd q.choose_spec.2 (h _ q.choose_spec.1)⟩
    unfold unexpectedMultipleElements
    rw [snippet_error C k o]
    rfl
  · refine ⟨fun ⟨x, hx, h⟩ => absurd h (q x hx), fun _ => ?_⟩
    have M := fun n => marksAfter_spec (s := List.replicate ctx.lineCount none) (k := n) (by rw [fresh_getD]) ps
    obtain ⟨k, hk⟩ := spans_begin k1 (by simp)
    obtain ⟨out, h1, h2⟩ := snippet_shows (em := BeginsAt ps) (ind := GoesOver ps) C hin k2 k3 (fun n => by rw [k4]; exact (M n).1) (fun n => by rw [k4]; exact (M n).2.1)
      (fun n => by rw [k4]; rcases (M n).2.2 with e | e | e <;> rw [e] <;> simp) ⟨k, .inl hk⟩ ho
    obtain ⟨l, l1, l2, l3⟩ := selectElement_ok C S hr
    refine ⟨⟨.named name key, out, _⟩, ps, ?_, rfl, ⟨l, l1, l2, rfl⟩, k1, h2⟩
    unfold unexpectedMultipleElements
    simp only [h1, l3, bind, Except.bind]

/-- An error about an element that is missing in a section has the message with the key. Nothing is selected, at the end of the heading. The heading is indicated; the lines up to the first
section in it are questioned or indicated. -/
theorem C67_missing_section {e : ErrObj} (hl : load input = .ok ctx) (h0 : 0 < i) (hi : i < ctx.heap.length) (ht : (ctx.heap.at i).type = .section) (ho : o.reporter ≠ .terminal)
    (he : missingElement o ctx key i name = .ok e) :
    e.text = .named name key ∧ e.selection = ⟨⟨((ctx.heap.at i).span.2 : Int) - (ctx.heap.at i).span.1, (ctx.heap.at i).span.2, (ctx.heap.at i).line⟩,
      ⟨((ctx.heap.at i).span.2 : Int) - (ctx.heap.at i).span.1, (ctx.heap.at i).span.2, (ctx.heap.at i).line⟩⟩ ∧
    ∃ n, AboveEnds ctx.heap ((ctx.heap.at i).line + 1) (ctx.heap.at i).elements n ∧ (o.reporter = .text → MissingShown o ctx.lineCount e.snippet (ctx.heap.at i).line n) := by
  obtain ⟨C, _, S⟩ := loaded_all hl
  have hb : (ctx.heap.at i).line < ctx.lineCount := S.below i h0 hi _ (rows_head _)
  have hp := put_ok (l := List.replicate ctx.lineCount (none : Option Tag)) (n := (ctx.heap.at i).line) (x := Tag.indicate) (by simpa using hb)
  have R := S.rest hi
  have hlt : ∀ j ∈ (ctx.heap.at i).elements, (ctx.heap.at i).line + 1 ≤ (ctx.heap.at j).line := by
    intro j hj
    obtain ⟨hj1, hj2⟩ := R.kids j hj
    exact S.ordered.outer i j h0 (S.tree.parent_lt hj1 hj2).2.1 hj1 _ (rows_head _) _ (rows_head _)
  have hrun : reportMissingElement ctx.heap i (List.replicate ctx.lineCount none) =
      (sectionLoop ctx.heap .question false (tagSection ctx.heap .question ctx.heap.length true) (ctx.heap.at i).elements (some ((ctx.heap.at i).line + 1))
        ((List.replicate ctx.lineCount none).set (ctx.heap.at i).line (some .indicate))).map (·.2) := by
    unfold reportMissingElement
    simp only [ht, if_neg (show ¬ Ty.section = Ty.document by decide), hp, bind, Except.bind, if_true]
    rfl
  have hd : (ctx.heap.at i).type ≠ .document := by rw [ht]; simp
  rcases flatLoop_painted (tag := .question) S (inner := tagSection ctx.heap .question ctx.heap.length true) _ ((ctx.heap.at i).line + 1)
      ((List.replicate ctx.lineCount none).set (ctx.heap.at i).line (some .indicate)) R (by simp) hlt (by omega) with ⟨q, k⟩ | ⟨q, n, x, s', k, k1, k2, k3, P⟩
  · have hm : makeSnippet o ctx (reportMissingElement ctx.heap i) = .error .typeError := snippet_error C (by rw [hrun, k]; rfl) o
    unfold missingElement at he
    simp only [hm, bind, Except.bind] at he
    cases he
  · obtain ⟨out, h1, h2⟩ := missing_shown C hb k1 P (report := reportMissingElement ctx.heap i) (by rw [hrun, k]; rfl) o ho
    obtain ⟨B, c⟩ := C.chart
    have r1 := c.ranges _ (c.all _ (row_instruction h0 hi (rows_head (ctx.heap.at i))))
    unfold missingElement at he
    simp only [h1, bind, Except.bind, if_neg hd, selection, cursor, r1, Except.ok.injEq] at he
    subst he
    exact ⟨rfl, rfl, n, k3, h2⟩

/-- The same in a fieldset, a list or another element that is not a section; all its lines are questioned or indicated. -/
theorem C67_missing_element {e : ErrObj} (hl : load input = .ok ctx) (h0 : 0 < i) (hi : i < ctx.heap.length) (ht : (ctx.heap.at i).type ≠ .section) (ho : o.reporter ≠ .terminal)
    (he : missingElement o ctx key i name = .ok e) :
    e.text = .named name key ∧ e.selection = ⟨⟨((ctx.heap.at i).span.2 : Int) - (ctx.heap.at i).span.1, (ctx.heap.at i).span.2, (ctx.heap.at i).line⟩,
      ⟨((ctx.heap.at i).span.2 : Int) - (ctx.heap.at i).span.1, (ctx.heap.at i).span.2, (ctx.heap.at i).line⟩⟩ ∧
    ∃ n, EndsAt ctx.heap i n ∧ (o.reporter = .text → MissingShown o ctx.lineCount e.snippet (ctx.heap.at i).line (n + 1)) := by
  obtain ⟨C, _, S⟩ := loaded_all hl
  have hb : (ctx.heap.at i).line < ctx.lineCount := S.below i h0 hi _ (rows_head _)
  have hp := put_ok (l := List.replicate ctx.lineCount (none : Option Tag)) (n := (ctx.heap.at i).line) (x := Tag.indicate) (by simpa using hb)
  have hd : (ctx.heap.at i).type ≠ .document := by
    have := S.types i h0 hi
    intro q; rw [q] at this; simp at this
  have hlen : ((List.replicate ctx.lineCount none).set (ctx.heap.at i).line (some Tag.indicate)).length = ctx.lineCount := by simp
  obtain ⟨x, s', k, P, _⟩ := tagLeaf_painted (tag := .question) (s := (List.replicate ctx.lineCount none).set (ctx.heap.at i).line (some .indicate))
    (by rw [hlen]; exact S) h0 hi ht
  have hge : (ctx.heap.at i).line ≤ endLine (ctx.heap.at i).rows := endLine_ge (S.rising h0 hi) (rows_head _)
  obtain ⟨out, h1, h2⟩ := missing_shown C hb (by omega) P (report := reportMissingElement ctx.heap i) (by
    unfold reportMissingElement tagElement
    simp only [if_neg ht, if_neg hd, hp, bind, Except.bind, k]
    rfl) o ho
  obtain ⟨B, c⟩ := C.chart
  have r1 := c.ranges _ (c.all _ (row_instruction h0 hi (rows_head (ctx.heap.at i))))
  unfold missingElement at he
  simp only [h1, bind, Except.bind, if_neg hd, selection, cursor, r1, Except.ok.injEq] at he
  subst he
  exact ⟨rfl, rfl, _, .leaf ht, h2⟩

/-- The same in the document: nothing is selected, at its beginning, and every line is questioned. -/
theorem C67_missing_document (hl : load input = .ok ctx) (ho : o.reporter ≠ .terminal) :
    ∃ e, missingElement o ctx key 0 name = .ok e ∧ e.text = .named name key ∧ e.selection = ⟨⟨0, 0, 0⟩, ⟨0, 0, 0⟩⟩ ∧
      (o.reporter = .text → AllQuestioned o ctx.lineCount e.snippet) := by
  obtain ⟨C, _, S⟩ := loaded_all hl
  have hd := C.grown.doc
  obtain ⟨out, h1, h2⟩ := all_questioned C (report := reportMissingElement ctx.heap 0) (by
    unfold reportMissingElement tagElement tagLeaf
    simp only [hd, if_true, if_neg (show ¬ Ty.document = Ty.section by decide)]
    rfl) o ho
  refine ⟨⟨.named name key, out, DOCUMENT_BEGIN⟩, ?_, rfl, rfl, h2⟩
  unfold missingElement
  simp only [h1, bind, Except.bind, if_pos hd]

/-- An error about an element of another kind than expected has the message with the key. -/
theorem C67_type {e : ErrObj} (he : unexpectedElementType o ctx key r name = .ok e) : e.text = .named name key := by
  unfold unexpectedElementType aboutElement at he
  cases h1 : makeSnippet o ctx (reportElement ctx.heap r) with
  | error x => rw [h1] at he; cases he
  | ok out =>
    cases h2 : selectElement ctx.heap r with
    | error x => rw [h1, h2] at he; cases he
    | ok sel => rw [h1, h2] at he; injection he with he; rw [← he]

example : ∃ ctx e, load (chars!"# s\na: 1\n| 2\nb: 3\na: 4\n\na: 5\n") = .ok ctx ∧
    unexpectedMultipleElements {} ctx (some ['a']) [.elem 2, .elem 4, .elem 5] .expectedSingleField = .ok e ∧ e.text = .named .expectedSingleField (some ['a']) ∧
    e.snippet = chars!"   Line | Content\n      1 | # s\n >    2 | a: 1\n *    3 | | 2\n      4 | b: 3\n >    5 | a: 4\n      6 | \n >    7 | a: 5\n      8 | " ∧
    e.selection = ⟨⟨0, 4, 1⟩, ⟨3, 12, 2⟩⟩ := by
  refine ⟨_, _, rfl, rfl, ?_, ?_, ?_⟩ <;> decide +kernel

example : ∃ ctx e, load (chars!"# s\na: 1\n| 2\nb: 3\n## t\nc: 4") = .ok ctx ∧ missingElement {} ctx (some ['c']) 1 .missingField = .ok e ∧
    e.snippet = chars!"   Line | Content\n *    1 | # s\n *    2 | a: 1\n ?    3 | | 2\n *    4 | b: 3\n      5 | ## t\n      6 | c: 4" ∧ e.selection = ⟨⟨3, 3, 0⟩, ⟨3, 3, 0⟩⟩ := by
  refine ⟨_, _, rfl, rfl, ?_, ?_⟩ <;> decide +kernel

example : ∃ ctx e, load (chars!"a: 1\n\n# b") = .ok ctx ∧ missingElement {} ctx none 0 .missingElement = .ok e ∧
    e.snippet = chars!"   Line | Content\n ?    1 | a: 1\n ?    2 | \n ?    3 | # b" := by
  refine ⟨_, _, rfl, rfl, ?_⟩; decide +kernel

/-- The error about an element that is not expected has the given text, or the standard one if there is none; all else is as for other errors about elements (C40, C59). -/
theorem C67_unexpected {message : Option Str} : ∃ text, unexpectedElement o ctx message r = aboutElement o ctx text r ∧
    (∀ s, message = some s → s ≠ [] → text = .given s) ∧ (message = none ∨ message = some [] → text = .unexpectedElement) := by
  refine ⟨_, rfl, ?_, ?_⟩
  · rintro (_ | ⟨c, s⟩) rfl h
    · exact absurd rfl h
    · rfl
  · rintro (rfl | rfl) <;> rfl

example : ∃ ctx e, load (chars!"a: 1\n") = .ok ctx ∧ unexpectedElement {} ctx (some (chars!"no")) (.elem 1) = .ok e ∧ e.text = .given (chars!"no") := by
  refine ⟨_, _, rfl, rfl, ?_⟩; decide +kernel

end Eno
