import Verif.Proofs.WorldDocument
import Verif.Props.RawProgramProps

/-!
# More about C68 and C84: what `raw` returns in programs, of documents given as trees
-/

namespace Eno.El

open Spec

variable {input : Str} {es : List Said} {D : Document} {T : Doc} {R : Raw}

/-- What a text that says `T` is when it is loaded. -/
theorem doc_loaded (S : Says input es .finished) (ht : told es = T.said) (hT : T.Ok) (hs : T.Shown) (hc : T.Shallow) (hR : T.Means R) :
    ∃ ctx ctx', analyze input = .ok ctx ∧ load input = .ok ctx' ∧ NoDeepCopies ctx.heap ∧ Sensible ctx.heap (.raw (.elem 0)) ∧ AnswerOf input ctx.heap (.raw (.elem 0)) (.raw R) := by
  have hv : T.Valid := doc_valid hT hs fun e he => says_trim S e (mem_told (ht ▸ he))
  obtain ⟨i', hx⟩ := doc_of hv
  obtain ⟨es', S', ht'⟩ := doc_says hx
  obtain ⟨ctx1, ha1, D⟩ := written_doc hx
  have A := same_analysis S' S (ht'.trans ht.symm)
  rw [ha1] at A
  obtain ⟨ctx, ctx', ha, hl, N, hN⟩ := C84_raw S ht hT hs hc hR
  rw [ha] at A
  cases A with
  | ok C =>
    have sh := same_shallow C.heap (D.shallow hc)
    have hq : Sensible ctx.heap (.raw (.elem 0)) :=
      ⟨(loaded ha hl).non.ok.pos, same_readable C.heap D.readable, .inr (sh.straight (by rw [(C.heap.at 0).copy]; exact D.root_copy.1))⟩
    obtain ⟨M, hM⟩ := C21_answers ha hl
    obtain ⟨a, h1, h2⟩ := hM (N + M) (by omega) _ .start _ hq
    rw [hN (N + M) (by omega) _ .start] at h2
    injection h2 with h2
    subst h2
    exact ⟨ctx, ctx', ha, hl, fun i => (sh i).1, hq, h1⟩

/-- `raw` of the document shows what the document means, whatever the text looks like and whatever a program did before, given enough stack. (The same documents as in `C84_raw`.) -/
theorem C84_program (S : Says input es .finished) (ht : told es = T.said) (hT : T.Ok) (hs : T.Shown) (hc : T.Shallow) (hR : T.Means R) :
    ∃ ctx', load input = .ok ctx' ∧ ∃ N, ∀ E : Env, E.ctx = ctx' → N ≤ E.depth → ∀ w, Reach E w → ∀ o, (w.at o).ref = .elem 0 → (run E o .raw w).1 = .ok (.raw R) := by
  obtain ⟨ctx, ctx', ha, hl, nd, hq, h⟩ := doc_loaded S ht hT hs hc hR
  obtain ⟨N, hN⟩ := C21_program_raw ha hl nd
  refine ⟨ctx', hl, N, fun E he hd w hw o ho => ?_⟩
  obtain ⟨x, h1, h2⟩ := hN E he hd w hw o (by rw [ho]; exact hq)
  rw [ho] at h1
  have := C21_unique ha hl hq h1 h
  injection this with this
  rw [h2, this]

/-- `parse` followed by `raw`. -/
theorem C84_parse_raw (S : Says input es .finished) (ht : told es = T.said) (hT : T.Ok) (hs : T.Shown) (hc : T.Shallow) (hR : T.Means R) :
    ∃ ctx', load input = .ok ctx' ∧ ∃ N, ∀ E : Env, E.ctx = ctx' → N ≤ E.depth → ∀ w, AfterParse E w → (run E 0 .raw w).1 = .ok (.raw R) := by
  obtain ⟨ctx', hl, N, hN⟩ := C84_program S ht hT hs hc hR
  refine ⟨ctx', hl, N, fun E he hd w hw => hN E he hd w hw.reach 0 ?_⟩
  subst he
  exact (hw.root (envOk_load hl)).2.2.1

/-- What is known of the loaded document if no section is a deep copy. -/
theorem doc_loaded_noDeep (S : Says input es .finished) (ht : told es = T.said) (hT : T.Ok) (hs : T.Shown) (nd : ∀ x ∈ T.nodes, x.NoDeep) (hR : T.Means R) :
    ∃ ctx ctx', analyze input = .ok ctx ∧ load input = .ok ctx' ∧ NoDeepCopies ctx.heap ∧ CommentsReadable ctx.heap ∧ (¬ BareCopy ctx.heap ↔ T.Shallow) := by
  have hv : T.Valid := doc_valid hT hs fun e he => says_trim S e (mem_told (ht ▸ he))
  obtain ⟨i', hx⟩ := doc_of hv
  obtain ⟨es', S', ht'⟩ := doc_says hx
  obtain ⟨ctx1, ha1, D⟩ := written_doc hx
  have A := same_analysis S' S (ht'.trans ht.symm)
  rw [ha1] at A
  obtain ⟨ctx', hl⟩ := (C84_loads_iff S ht hT).2 ⟨R, hR⟩
  cases ha : analyze input with
  | error x => rw [ha] at A; cases A
  | ok ctx =>
    rw [ha] at A
    cases A with
    | ok C =>
      refine ⟨ctx, ctx', rfl, hl, fun a => by rw [(C.heap.at a).deepCopy]; exact D.noDeep nd a, same_readable C.heap D.readable, ?_⟩
      rw [← D.shallow_iff nd]
      unfold BareCopy
      simp only [(C.heap.at _).type, (C.heap.at _).copy, (C.heap.at _).elements, C.heap.length]

/-- Of documents without deep copies: whatever a program did before, `raw` of the document shows what the document means if no section is a copy without contents of its own, and
raises TypeError otherwise, given enough stack. -/
theorem C84_program_iff (S : Says input es .finished) (ht : told es = T.said) (hT : T.Ok) (hs : T.Shown) (nd : ∀ x ∈ T.nodes, x.NoDeep) (hR : T.Means R) :
    ∃ ctx', load input = .ok ctx' ∧ ∃ N, ∀ E : Env, E.ctx = ctx' → N ≤ E.depth → ∀ w, Reach E w → ∀ o, (w.at o).ref = .elem 0 →
      (T.Shallow → (run E o .raw w).1 = .ok (.raw R)) ∧ (¬ T.Shallow → (run E o .raw w).1 = .error (.py .typeError)) := by
  obtain ⟨ctx, ctx', ha, hl, hn, hr, hb⟩ := doc_loaded_noDeep S ht hT hs nd hR
  by_cases hc : T.Shallow
  · obtain ⟨ctx'', hl', N, hN⟩ := C84_program S ht hT hs hc hR
    exact ⟨ctx'', hl', N, fun E he hd w hw o ho => ⟨fun _ => hN E he hd w hw o ho, fun h => absurd hc h⟩⟩
  · obtain ⟨N, hN⟩ := C81_raw ha hl hn
    obtain ⟨M, hM⟩ := C81_raw_iff ha hl hn
    refine ⟨ctx', hl, max N M, fun E he hd w hw o ho => ⟨fun h => absurd h hc, fun _ => ?_⟩⟩
    rcases hN E he (by omega) w hw o with h | h | h
    · exact absurd (hb.1 ((hM E he (by omega) w hw o ho).1 h).2) hc
    · exact absurd hr h.2
    · exact h.1

/-- However a document without copies is written, `raw` shows exactly what was written, whatever a program did before, given enough stack. -/
theorem C68_program (h : D.Text input) : ∃ ctx, load input = .ok ctx ∧
    ∃ N, ∀ E : Env, E.ctx = ctx → N ≤ E.depth → ∀ w, Reach E w → ∀ o, (w.at o).ref = .elem 0 → (run E o .raw w).1 = .ok (.raw D.raw) := by
  obtain ⟨ctx, H⟩ := written_document h
  have hq : Sensible ctx.heap (.raw (.elem 0)) := ⟨(loaded H.analyzed H.loaded).non.ok.pos, H.fine.readable, .inr H.fine.straight⟩
  have nd : NoDeepCopies ctx.heap := Written.noDeep (E := { ctx, depth := ctx.heap.length + 1 }) ⟨H, Nat.le_refl _⟩
  obtain ⟨N, hN⟩ := C21_program_raw H.analyzed H.loaded nd
  refine ⟨ctx, H.loaded, N, fun E he hd w hw o ho => ?_⟩
  obtain ⟨x, h1, h2⟩ := hN E he hd w hw o (by rw [ho]; exact hq)
  rw [ho] at h1
  have := C21_unique H.analyzed H.loaded hq h1 (.raw H.raw)
  injection this with this
  rw [h2, this]

/-! ## Concrete cases -/

/-- The sample with copies of `CopiedProps`, read by a program. -/
example : ∃ ctx', load (chars!"> c\na:\n- 1\nb < a\n- 2\n# s\nx: 1\ny: 2\n# t < s\nx: 3") = .ok ctx' ∧
    ∃ N, ∀ E : Env, E.ctx = ctx' → N ≤ E.depth → ∀ w, AfterParse E w → (run E 0 .raw w).1 = .ok (.raw copiedRaw) :=
  C84_parse_raw copiedSaid_says copiedSample_said copiedSample_ok copiedSample_shown (by simp [Doc.Shallow, copiedSample, Doc.nodes, partsNodes, Part.nodes, Node.Shallow]) copiedSample_means

/-- The sample without copies of `DocumentProps`, read by a program. -/
example : ∃ ctx, load (chars!"> note\ncolor: red\n\n\\ dark\n--  m\n # x \n --m\n# s\nlist:\n- a\n-\n## `t`\n> end") = .ok ctx ∧
    ∃ N, ∀ E : Env, E.ctx = ctx → N ≤ E.depth → ∀ w, Reach E w → ∀ o, (w.at o).ref = .elem 0 → (run E o .raw w).1 = .ok (.raw writtenSample.raw) :=
  C68_program writtenSample_text

/-- A section, and a copy of it without contents of its own. -/
def bareSample : Doc := ⟨[], [.mk [] (chars!"s") none [.plain ⟨[], chars!"x", .parts ⟨some (chars!"1"), []⟩⟩] [], .mk [] (chars!"t") (some (false, chars!"s")) [] []]⟩

theorem bareSample_means : ∃ R, bareSample.Means R := by
  have hs : Part.Means bareSample.nodes (.mk [] (chars!"s") none [.plain ⟨[], chars!"x", .parts ⟨some (chars!"1"), []⟩⟩] []) [] [.leaf .field none (some (chars!"x")) (some (some (chars!"1")))] :=
    .own (.cons .plain .nil) .nil
  have ht := Part.Means.copy (ns := bareSample.nodes) (r := []) (k := chars!"t") (d := false) (t := chars!"s") (ts := []) rfl hs .nil .nil
  exact ⟨_, .mk .nil (.cons hs (.cons ht .nil))⟩

theorem bareSample_not_shallow : ¬ bareSample.Shallow := by
  simp [Doc.Shallow, bareSample, Doc.nodes, partsNodes, Part.nodes, Node.Shallow]

/-- Whatever a program does, it cannot get the `raw` of this document. -/
example : ∃ ctx', load (chars!"# s\nx: 1\n# t < s") = .ok ctx' ∧
    ∃ N, ∀ E : Env, E.ctx = ctx' → N ≤ E.depth → ∀ w, Reach E w → ∀ o, (w.at o).ref = .elem 0 → (run E o .raw w).1 = .error (.py .typeError) := by
  have S : Says (chars!"# s\nx: 1\n# t < s") [.line (.heading 1 (chars!"s") none), .line (.element (chars!"x") (some (chars!"1"))), .line (.heading 1 (chars!"t") (some (false, chars!"s")))] .finished := by
    refine .line (l := .heading 1 (chars!"s") none) (rest := chars!"\nx: 1\n# t < s") (by decide) (by decide +kernel) (by simp) ?_
    refine .line (l := .element (chars!"x") (some (chars!"1"))) (rest := chars!"\n# t < s") (by decide) (by decide +kernel) (by simp) ?_
    exact .line (l := .heading 1 (chars!"t") (some (false, chars!"s"))) (rest := []) (by decide) (by decide +kernel) (by simp) .done
  obtain ⟨R, hR⟩ := bareSample_means
  obtain ⟨ctx', hl, N, hN⟩ := C84_program_iff S (T := bareSample) (by simp [bareSample, told, Doc.said, Thing.said, Element.said, saidMore, Remark.said, partsSaid, Part.said])
    (by simp [bareSample, Doc.Ok, Thing.Ok, Content.Ok, Remark.Ok, PartsOk, Part.Ok]) (by simp [bareSample, Doc.Shown, Thing.Shown, Element.Shown, Content.Shown, Remark.Shown, PartsShown, Part.Shown])
    (by simp [bareSample, Doc.nodes, partsNodes, Part.nodes, Node.NoDeep]) hR
  exact ⟨ctx', hl, N, fun E he hd w hw o ho => (hN E he hd w hw o ho).2 bareSample_not_shallow⟩

end Eno.El
