import Verif.Proofs.RawOnly
import Verif.Props.AnySessionProps
import Verif.Props.CopiedReadsProps

/-!
# More about C21, C35 and C84: exactly which documents `raw` can show
-/

namespace Eno

open Spec

variable {input : Str} {ctx ctx' : Ctx}

/-- All of a document is below the root. -/
theorem smooth_all {h0 h : Heap} (L : Loaded h0 h) (H : Smooth h (.elem 0)) : ∀ i, i < h0.length → Smooth h (.elem i) := by
  intro i
  induction i using Nat.strongRecOn with
  | ind i ih =>
    intro hi
    by_cases hz : i = 0
    · subst hz; exact H
    obtain ⟨_, p, hp, hlt, hc⟩ := L.non.ok.par i (by omega) hi
    have hpl : p < h0.length := by omega
    obtain ⟨_, _, hs⟩ := ih p hlt hpl
    refine hs _ (.element ?_ ?_)
    · by_cases hq : (h0.at p).type = .section
      · exact .inl (L.secType p hpl hq)
      · have hd : p = 0 := by
          cases Nat.eq_zero_or_pos p with
          | inl e => exact e
          | inr e => have := (L.non.ok.par p e hpl).1; simp [Elem.isContainer, hq, this] at hc
        exact .inr (hd ▸ L.docType)
    · rw [(L.non.items_all p).2.2.1]
      exact (mem_elements L.non.ok hpl).2 ⟨hi, hp⟩

theorem consN_unmirrored {e t e' : Elem} {n : Nat} (ht : e.type = .list ∨ e.type = .fieldset) (hh : consN e t n = .ok e') : e'.type = e.type ∧ e'.mirror = e.mirror := by
  have h1 : (inheritC e t).type = e.type := by unfold inheritC; split <;> rfl
  have h2 : (inheritC e t).mirror = e.mirror := by unfold inheritC; split <;> rfl
  refine ⟨?_, ?_⟩
  · have := (consN_type hh).1
    rcases ht with q | q <;> simpa [q] using this
  · unfold consN at hh
    simp only [h1] at hh
    rcases ht with q | q <;> simp only [q] at hh <;> simp only [reduceCtorEq, if_false, if_true] at hh <;> repeat' split at hh
    all_goals first | (injection hh with hh; rw [← hh]; exact h2) | cases hh

theorem list_unmirrored {h0 h : Heap} (L : Loaded h0 h) {i : Nat} (hi : i < h0.length) (ht : (h0.at i).type = .list ∨ (h0.at i).type = .fieldset) :
    (h.at i).type = (h0.at i).type ∧ (h.at i).mirror = none := by
  have ok := L.non.ok.elem i hi
  have hs : (h0.at i).type ≠ .section := by rcases ht with q | q <;> rw [q] <;> simp
  cases L.non.grounded i hi hs with
  | own hc => rw [L.non.plain i hi hs hc]; exact ⟨rfl, ok.mirror⟩
  | copy g _ =>
    have := consN_unmirrored ht (L.non.copied i _ hs g)
    exact ⟨this.1, this.2.trans ok.mirror⟩

/-- What `raw` visits in a document without deep copies. -/
theorem smooth_only (ha : analyze input = .ok ctx) (hl : load input = .ok ctx') (nd : NoDeepCopies ctx.heap) (sm : Smooth ctx'.heap (.elem 0)) :
    CommentsReadable ctx.heap ∧ ¬ BareCopy ctx.heap := by
  have L := loaded ha hl
  have W := C53_sound ha hl
  have all := smooth_all L sm
  have good : ∀ r, Smooth ctx'.heap r → ctx'.heap.comments r = ctx.heap.comments r → ∀ cs, ctx.heap.comments r = some cs → ∀ c, cs = [c] → c.comment.isSome := by
    rintro r ⟨⟨v, hv⟩, _, _⟩ he cs hc c rfl
    rw [he, hc] at hv
    cases hx : c.comment with
    | some => rfl
    | none => simp [computeComment, hx] at hv
  refine ⟨fun r cs hr => ?_, fun ⟨s, hs, hty, hc, he⟩ => ?_⟩
  · cases r with
    | elem i =>
      by_cases hi : i < ctx.heap.length
      · refine good _ (all i hi) ?_ cs hr
        have hc : CommentsOf ctx.heap i (ctx.heap.at i).comments := by
          cases hq : (ctx.heap.at i).copy with
          | none => exact .own hq
          | some k =>
            obtain ⟨t, g⟩ := W.templates i hi (by rw [hq]; rfl)
            exact .written g (by rw [show (ctx.heap.at i).comments = some cs from hr]; rfl)
        exact C54_inherited ha hl hi (.inr (nd.undisturbed i)) hc
      · simp [Heap.comments, heap_outside hi, Elem.document] at hr
    | item i k =>
      have hi : i < ctx.heap.length := by
        refine Classical.byContradiction fun hi => ?_
        simp [Heap.comments, Heap.sub?, heap_outside hi, Elem.document] at hr
      cases hx : (ctx.heap.at i).items with
      | none => simp [Heap.comments, Heap.sub?, hx] at hr
      | some xs =>
        have hk : k < xs.length := by
          refine Classical.byContradiction fun hk => ?_
          simp [Heap.comments, Heap.sub?, hx, List.getElem?_eq_none (Nat.le_of_not_lt hk)] at hr
        have hty := ((L.non.ok.elem i hi).items xs hx).1
        have M := list_unmirrored L hi (.inl hty)
        have hx' := (L.non.items_all i).1
        obtain ⟨_, _, s⟩ := all i hi
        refine good _ (s _ (.item (M.1.trans hty) M.2 (own := (List.range xs.length).map (Ref.item i)) ?_ ?_)) ?_ cs hr
        · simp [Heap.ownItems, hx', hx]
        · exact List.mem_map.2 ⟨k, List.mem_range.2 hk, rfl⟩
        · simp only [Heap.comments, L.non.sub_eq]
    | entry i k =>
      have hi : i < ctx.heap.length := by
        refine Classical.byContradiction fun hi => ?_
        simp [Heap.comments, Heap.sub?, heap_outside hi, Elem.document] at hr
      cases hx : (ctx.heap.at i).entries with
      | none => simp [Heap.comments, Heap.sub?, hx] at hr
      | some xs =>
        have hk : k < xs.length := by
          refine Classical.byContradiction fun hk => ?_
          simp [Heap.comments, Heap.sub?, hx, List.getElem?_eq_none (Nat.le_of_not_lt hk)] at hr
        have hty := ((L.non.ok.elem i hi).entries xs hx).1
        have M := list_unmirrored L hi (.inr hty)
        have hx' := (L.non.items_all i).2.1
        obtain ⟨_, _, s⟩ := all i hi
        refine good _ (s _ (.entry (M.1.trans hty) M.2 (own := (List.range xs.length).map (Ref.entry i)) ?_ ?_)) ?_ cs hr
        · simp [Heap.ownEntries, hx', hx]
        · exact List.mem_map.2 ⟨k, List.mem_range.2 hk, rfl⟩
        · simp only [Heap.comments, L.non.sub_eq]
  · obtain ⟨t, g⟩ := W.templates s hs hc
    have m := (L.sec.copied s t hty g (nd.undisturbed s).1 (nd.undisturbed t).1).1 he
    obtain ⟨_, hm, _⟩ := all s hs
    rw [hm s rfl (.inl (L.secType s hs hty))] at m
    cases m

/-- Without deep copies, `raw` can show a document (in a fresh session, given enough stack) if and only if no comment in it is a single empty line (see C22) and no section in it is a copy
without own elements. -/
theorem C35_raw_iff (ha : analyze input = .ok ctx) (hl : load input = .ok ctx') (nd : NoDeepCopies ctx.heap) :
    (∃ fuel a, answer input ctx'.heap fuel (.raw (.elem 0)) = .ok a) ↔
      CommentsReadable ctx.heap ∧ ¬ BareCopy ctx.heap := by
  have L := loaded ha hl
  constructor
  · rintro ⟨fuel, a, e⟩
    have sm : Smooth ctx'.heap (.elem 0) := by
      unfold answer Query.run Read.map at e
      dsimp only at e
      generalize hq : readRaw input ctx'.heap fuel (.elem 0) .empty = q at e
      obtain ⟨q1, q2⟩ := q
      cases q1 with
      | error => cases e
      | ok v => exact (whole_raw whole_empty hq).2
    exact smooth_only ha hl nd sm
  · rintro ⟨cr, sh⟩
    have sa : AllShallow ctx.heap := by
      intro i
      by_cases hi : i < ctx.heap.length
      · exact ⟨nd i, fun q1 q2 q3 => sh ⟨i, hi, q1, q2, q3⟩⟩
      · rw [heap_outside hi]; exact ⟨rfl, by simp [Elem.document]⟩
    have h0 : (ctx.heap.at 0).copy = none := by
      cases hq : (ctx.heap.at 0).copy with
      | none => rfl
      | some k =>
        have ok := L.non.ok.elem 0 L.non.ok.pos
        have := ok.template (by rw [← ok.copy, hq]; rfl)
        rw [L.non.ok.doc.1] at this; simp at this
    obtain ⟨N, hN⟩ := C21_answers ha hl
    obtain ⟨a, _, e⟩ := hN N (Nat.le_refl _) _ .start (.raw (.elem 0)) ⟨L.non.ok.pos, cr, .inr (sa.straight h0)⟩
    exact ⟨N, a, e⟩

/-- What happens otherwise, given enough stack: it raises KeyError for comments and TypeError for copies, and one of these if there are both. -/
theorem C35_raw_raises (ha : analyze input = .ok ctx) (hl : load input = .ok ctx') (nd : NoDeepCopies ctx.heap) :
    ∃ N, ∀ fuel, N ≤ fuel →
      (CommentsReadable ctx.heap → BareCopy ctx.heap → answer input ctx'.heap fuel (.raw (.elem 0)) = .error .typeError) ∧
      (¬ CommentsReadable ctx.heap → ¬ BareCopy ctx.heap → answer input ctx'.heap fuel (.raw (.elem 0)) = .error .keyError) ∧
      (¬ CommentsReadable ctx.heap → BareCopy ctx.heap →
        answer input ctx'.heap fuel (.raw (.elem 0)) = .error .keyError ∨ answer input ctx'.heap fuel (.raw (.elem 0)) = .error .typeError) := by
  obtain ⟨N, hN⟩ := C21_any_outcome ha hl nd
  refine ⟨N, fun fuel hf => ?_⟩
  have hi := (loaded ha hl).non.ok.pos
  have I := C35_raw_iff ha hl nd
  rcases hN fuel hf _ .start (.raw (.elem 0)) hi with ⟨a, e⟩ | ⟨e, hb⟩ | ⟨e, hb⟩
  · obtain ⟨h1, h2⟩ := I.1 ⟨fuel, a, e⟩
    exact ⟨fun _ q => absurd q h2, fun q => absurd h1 q, fun q => absurd h1 q⟩
  · exact ⟨fun q => absurd q hb, fun _ _ => e, fun _ _ => .inl e⟩
  · exact ⟨fun _ _ => e, fun _ q => absurd hb q, fun _ _ => .inr e⟩

theorem seg_at {h : Heap} {lo : Nat} : ∀ {ns : List Node} {i : Nat}, Seg input h lo i ns → ∀ n ∈ ns, ∃ k, NodeAt input h lo k n
  | [], _, _, _, hn => by cases hn
  | _ :: _, i, H, n, hn => by
    cases hn with
    | head => exact ⟨i, H.1⟩
    | tail _ hn => exact seg_at H.2 n hn

theorem DocIn.shallow_iff {h : Heap} {T : Doc} (D : DocIn input T h) (nd : ∀ x ∈ T.nodes, x.NoDeep) :
    ¬ BareCopy h ↔ T.Shallow := by
  constructor
  · intro H n hn
    obtain ⟨i, hi⟩ := seg_at D.seg n hn
    have := nd n hn
    cases n with
    | thing => trivial
    | part p =>
      obtain ⟨r, k, c, ts, ps⟩ := p
      cases c with
      | none => trivial
      | some c =>
        obtain ⟨d, t⟩ := c
        refine ⟨this, Classical.byContradiction fun hq => ?_⟩
        simp only [not_or, Classical.not_not] at hq
        cases hi with
        | mk h1 h2 h3 h4 h5 h6 =>
          refine H ⟨i, h2, h3.type, by rw [h3.copy]; rfl, ?_⟩
          rw [h4]
          simp only [List.append_eq_nil_iff, thingsAt_nil h5, partsAt_nil h6]
          exact hq
  · rintro H ⟨s, _, q1, q2, q3⟩
    exact (D.shallow H s).2 q1 q2 q3

/-- Of documents given as trees: those that `C84_raw` is about are all that `raw` can show. -/
theorem C84_raw_iff {T : Doc} {R : Raw} (S : Says input es .finished) (ht : told es = T.said) (hT : T.Ok) (hs : T.Shown) (nd : ∀ x ∈ T.nodes, x.NoDeep) (hR : T.Means R) :
    ∃ ctx', load input = .ok ctx' ∧ ((∃ fuel a, answer input ctx'.heap fuel (.raw (.elem 0)) = .ok a) ↔ T.Shallow) := by
  have hv : T.Valid := doc_valid hT hs fun e he => says_trim S e (mem_told (ht ▸ he))
  obtain ⟨i', hx⟩ := doc_of hv
  obtain ⟨es', S', ht'⟩ := doc_says hx
  obtain ⟨ctx1, ha1, D⟩ := written_doc hx
  obtain ⟨ctx1', hl1⟩ := (C53_loads_iff ha1).2 (D.wellCopied hR)
  have A := same_analysis S' S (ht'.trans ht.symm)
  have B := same_load S' S (ht'.trans ht.symm)
  rw [ha1] at A
  rw [hl1] at B
  cases ha : analyze input with
  | error x => rw [ha] at A; cases A
  | ok ctx =>
    rw [ha] at A
    cases A with
    | ok C =>
      cases hl : load input with
      | error x => rw [hl] at B; cases B
      | ok ctx' =>
        have nh := D.noDeep nd
        refine ⟨ctx', rfl, ?_⟩
        rw [C35_raw_iff ha hl fun a => by rw [(C.heap.at a).deepCopy]; exact nh a, ← D.shallow_iff nd]
        unfold BareCopy
        simp only [(C.heap.at _).type, (C.heap.at _).copy, (C.heap.at _).elements, C.heap.length]
        exact and_iff_right (same_readable C.heap D.readable)

/-! ## Concrete cases -/

/-- A section and a copy of it with contents: can be shown. -/
example : ∃ ctx ctx', analyze (chars!"# A\nx: 1\n# B < A\ny: 2") = .ok ctx ∧ load (chars!"# A\nx: 1\n# B < A\ny: 2") = .ok ctx' ∧ (ctx.heap.all fun x => !x.deepCopy) = true ∧
    (failure (answer [] ctx'.heap 9 (.raw (.elem 0)))) = none := by
  refine ⟨_, _, rfl, rfl, ?_⟩; decide +kernel

/-- The copy without contents: cannot. -/
example : ∃ ctx ctx', analyze (chars!"# A\nx: 1\n# B < A") = .ok ctx ∧ load (chars!"# A\nx: 1\n# B < A") = .ok ctx' ∧ NoDeepCopies ctx.heap ∧
    ¬ ∃ fuel a, answer (chars!"# A\nx: 1\n# B < A") ctx'.heap fuel (.raw (.elem 0)) = .ok a := by
  obtain ⟨ctx, ctx', h1, h2, h3, h4⟩ : ∃ ctx ctx', analyze (chars!"# A\nx: 1\n# B < A") = .ok ctx ∧ load (chars!"# A\nx: 1\n# B < A") = .ok ctx' ∧
      (ctx.heap.all fun x => !x.deepCopy) = true ∧ (3 < ctx.heap.length ∧ (ctx.heap.at 3).type = .section ∧ (ctx.heap.at 3).copy.isSome ∧ (ctx.heap.at 3).elements = []) := by
    refine ⟨_, _, rfl, rfl, ?_⟩; decide +kernel
  have nd : NoDeepCopies ctx.heap := fun i => by simpa using at_all h3 (by decide) i
  exact ⟨ctx, ctx', h1, h2, nd, fun e => ((C35_raw_iff h1 h2 nd).1 e).2 ⟨3, h4⟩⟩

/-- The sample of C84 meets the hypotheses. -/
example : ∃ ctx', load (chars!"> c\na:\n- 1\nb < a\n- 2\n# s\nx: 1\ny: 2\n# t < s\nx: 3") = .ok ctx' ∧ ((∃ fuel a, answer (chars!"> c\na:\n- 1\nb < a\n- 2\n# s\nx: 1\ny: 2\n# t < s\nx: 3") ctx'.heap fuel (.raw (.elem 0)) = .ok a) ↔ copiedSample.Shallow) :=
  C84_raw_iff copiedSaid_says copiedSample_said copiedSample_ok copiedSample_shown (by simp [copiedSample, Doc.nodes, partsNodes, Part.nodes, Node.NoDeep]) copiedSample_means

end Eno
