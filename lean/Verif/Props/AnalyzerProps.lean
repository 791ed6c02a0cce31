import Verif.Proofs.Attach
import Verif.Proofs.Operators
import Verif.Proofs.Samples

/-!
# C07–C19: the analyzer

`analyze input` is `Analyzer.analyze` (`analyzer.py`): it returns the context it leaves behind or the exception it raises.
`Spec.Trace input 0 0 es r` says how an input is cut into instructions (`Spec/Trace.lean`) and `Spec/Structure.lean` says what these
mean together; every input has exactly one trace (`C07_one_reading`).
-/

namespace Eno
open Spec

variable {input : Str} {ctx : Ctx}

/-! ## C07 -/

/-- Analysis returns a document or raises `ParseError`; no other exception, no non-termination. -/
theorem C07_total (input : Str) : (∃ ctx, analyze input = .ok ctx) ∨ ∃ kind ctx b, analyze input = .error (.parse kind ctx b) := by
  obtain ⟨es, r, ht, hv⟩ := verdict_exists input
  rcases hv with hL | ⟨pre, ev, post, rfl, h1, h2⟩
  · cases r with
    | finished n => exact .inl (analyze_finished ht hL)
    | invalid n i => obtain ⟨s, _, h⟩ := analyze_invalid ht hL; exact .inr ⟨_, _, _, h⟩
    | unterminated n i fin op key => obtain ⟨s, ctx, x, _, _, h⟩ := analyze_unterminated ht hL; exact .inr ⟨_, _, _, h⟩
  · obtain ⟨k, s, _, _, h⟩ := analyze_illegal ht h1 h2; exact .inr ⟨_, _, _, h⟩

/-- Every input is cut into instructions in exactly one way. -/
theorem C07_one_reading (input : Str) : ∃ es r, Trace input 0 0 es r ∧ ∀ es' r', Trace input 0 0 es' r' → es' = es ∧ r' = r := by
  obtain ⟨es, r, ht⟩ := trace_exists input
  exact ⟨es, r, ht, fun _ _ h => trace_unique h ht⟩

/-- The document is accepted exactly if every line is recognised, every multiline field is terminated and every instruction is legal where
it stands. -/
theorem C07_accepted_iff {es : List Event} {r : Ending} (ht : Trace input 0 0 es r) :
    (∃ ctx, analyze input = .ok ctx) ↔ (∃ n, r = .finished n) ∧ AllLegal es := by
  constructor
  · rintro ⟨ctx, h⟩
    obtain ⟨es', n, s, ht', hL, _⟩ := analyze_facts h
    obtain ⟨rfl, rfl⟩ := trace_unique ht ht'
    exact ⟨⟨n, rfl⟩, hL⟩
  · rintro ⟨⟨n, rfl⟩, hL⟩
    exact analyze_finished ht hL

/-- Sample for the hypothesis: an input that reads to its end. -/
example : ∃ es r, Trace (chars!"k:\n- a\n") 0 0 es r ∧ (es.map Event.role == [.element false, .item] && r == .finished 2) = true :=
  traceSample (f := 9) (by decide +kernel)

/-- The kind of a `ParseError` (to state examples). -/
def kindOfError : Except AExc Ctx → Option FailKind
  | .error (.parse k _ _) => some k
  | _ => none

example : (analyze (chars!"> c\n# s\nk:\n- a\n| b\n\n-- m\nx\n-- m")).toOption.isSome = true := by decide +kernel
example : kindOfError (analyze (chars!"a: b\nc")) = some .invalidLine := by decide +kernel

/-! ## C08 -/

/-- Every character that is not white space lies on the line of an instruction of the document. -/
theorem C08_nothing_dropped (h : analyze input = .ok ctx) (k : Nat) (c : Char) (hk : input[k]? = some c) (hc : isSp c = false) :
    ∃ b ∈ ctx.instructions, b.span.1 ≤ k ∧ k < b.span.2 := by
  obtain ⟨es, n, s, ht, hL, inv, lay, rfl⟩ := analyze_facts h
  obtain ⟨x, hx, h1, h2⟩ := trace_cover ht ⟨n, rfl⟩ k c (Nat.zero_le _) hk hc
  rw [spots_bases, List.mem_map] at hx
  obtain ⟨b, hb, rfl⟩ := hx
  have fl := flat_ok es hL
  refine ⟨b, ?_, h1, h2⟩
  have := fl.perm.mem_iff.2 hb
  simp only [Ctx.instructions, ctxOf, layout_bases lay, metas_bases lay]
  rw [← List.append_assoc]; exact this

example : ∃ ctx, analyze (chars!"a:\n - b") = .ok ctx ∧ (chars!"a:\n - b")[6]? = some 'b' ∧ isSp 'b' = false ∧
    (ctx.instructions.map Base.span) = [(0, 2), (3, 7)] := by
  refine ⟨_, rfl, ?_⟩
  decide +kernel

/-- Every element of the document is reached from the document: it is a child of its parent, which comes before it. -/
theorem C08_reachable (h : analyze input = .ok ctx) (i : Nat) (hi : 0 < i) (hl : i < ctx.heap.length) :
    ∃ p, p < i ∧ (ctx.heap.at i).parent = some p ∧ i ∈ (ctx.heap.at p).elements := by
  obtain ⟨es, n, s, ht, hL, inv, lay, rfl⟩ := analyze_facts h
  obtain ⟨_, p, hp, hpi, _⟩ := inv.heap.par i hi hl
  refine ⟨p, hpi, hp, ?_⟩
  simp only [ctxOf] at hl ⊢
  rw [inv.heap.els p (by omega)]
  simp [hl, hp]

example : ∃ ctx, analyze (chars!"# s\na: 1") = .ok ctx ∧ 2 < ctx.heap.length := by
  refine ⟨_, rfl, ?_⟩
  decide +kernel

/-! ## C09 -/

/-- The instructions of the elements, in document order, lie on increasing lines and in increasing disjoint ranges; so do the loose
comments; and of two instructions of the two sorts one lies completely before the other. -/
theorem C09_ordered (h : analyze input = .ok ctx) :
    ((ctx.heap.tail.flatMap Elem.bases).map spotOf).Pairwise Before ∧
    ((ctx.metas.map Meta.base).map spotOf).Pairwise Before ∧
    ∀ b ∈ ctx.heap.tail.flatMap Elem.bases, ∀ m ∈ ctx.metas, Before (spotOf b) (spotOf m.base) ∨ Before (spotOf m.base) (spotOf b) := by
  obtain ⟨es, n, s, ht, hL, inv, lay, rfl⟩ := analyze_facts h
  have srt := (trace_sorted ht).1
  rw [spots_bases] at srt
  have fl := flat_ok es hL
  simp only [ctxOf, layout_bases lay, metas_bases lay]
  refine ⟨?_, ?_, ?_⟩
  · exact srt.sublist (List.Sublist.map _ (List.Sublist.trans (List.sublist_append_left _ _) fl.sub))
  · exact srt.sublist (List.Sublist.map _ fl.subLoose)
  · intro b hb m hm
    have hm' : m.base ∈ commentBases (loose [] es) ++ basesOf (commentRun es) := by
      rw [← metas_bases lay]; exact List.mem_map_of_mem hm
    have hsym : ((basesOf es).map spotOf).Pairwise fun x y => Before x y ∨ Before y x := srt.imp fun h => .inl h
    have hp := (fl.perm.map spotOf).symm.pairwise hsym (fun h => h.symm)
    rw [List.append_assoc, List.map_append, List.pairwise_append] at hp
    exact hp.2.2 _ (List.mem_map_of_mem hb) _ (List.mem_map_of_mem hm')

example : ∃ ctx, analyze (chars!"> x\n\na:\n> c\n- b\n") = .ok ctx ∧ (ctx.heap.tail.flatMap Elem.bases).map Base.line = [2, 3, 4] ∧
    (ctx.metas.map Meta.base).map Base.line = [0] := by
  refine ⟨_, rfl, ?_⟩
  decide +kernel

/-! ## C10 -/

/-- All ranges of all instructions lie within the line of the instruction, and that within the input. -/
theorem C10_ranges (h : analyze input = .ok ctx) : ∀ b ∈ ctx.instructions, RangesOk input b := by
  obtain ⟨es, n, s, ht, hL, inv, lay, rfl⟩ := analyze_facts h
  intro b hb
  simp only [Ctx.instructions, ctxOf, List.mem_append, List.mem_map, List.mem_flatMap] at hb
  rcases hb with ⟨e, he, hb⟩ | ⟨m, hm, rfl⟩
  · rw [elem_bases] at hb
    simp only [List.mem_flatten] at hb
    obtain ⟨l, hl, hb⟩ := hb
    rw [← List.map_uncurry_zip_eq_zipWith] at hl
    simp only [List.mem_map] at hl
    obtain ⟨⟨o, g⟩, hog, rfl⟩ := hl
    have hz := List.of_mem_zip hog
    simp only [Function.uncurry, List.mem_append, List.mem_map] at hb
    rcases hb with ⟨c, hc, rfl⟩ | ⟨p, hp, rfl⟩
    · exact (owner_comments_faithful ht lay (List.mem_flatMap.2 ⟨e, he, hz.1⟩) c hc).1
    · exact (parts_faithful ht lay he g hz.2 p hp).ranges
  · obtain ⟨c, rfl, hc, _⟩ := meta_comments_faithful ht lay hm
    exact hc

/-- Keys, values and templates are the text at their ranges: of the elements, their items and entries, and all continuations. -/
theorem C10_texts (h : analyze input = .ok ctx) : ∀ e ∈ ctx.heap.tail, ∀ g ∈ e.parts, ∀ p ∈ g,
    TextAt input p.toBase .key p.key ∧ TextAt input p.toBase .value p.value ∧ TextAt input p.toBase .template p.template := by
  obtain ⟨es, n, s, ht, hL, inv, lay, rfl⟩ := analyze_facts h
  intro e he g hg p hp
  have := parts_faithful ht lay he g hg p hp
  exact ⟨this.key, this.value, this.template⟩

/-- Comments are the text at their range. -/
theorem C10_comments (h : analyze input = .ok ctx) :
    (∀ o ∈ ctx.owners, ∀ c ∈ o.1, TextAt input c.toBase .comment c.comment) ∧
    ∀ m ∈ ctx.metas, ∃ c, m = .comment c ∧ TextAt input c.toBase .comment c.comment := by
  obtain ⟨es, n, s, ht, hL, inv, lay, rfl⟩ := analyze_facts h
  refine ⟨?_, ?_⟩
  · intro o ho c hc
    exact (owner_comments_faithful ht lay ho c hc).2
  · intro m hm
    obtain ⟨c, h1, _, h2⟩ := meta_comments_faithful ht lay hm
    exact ⟨c, h1, h2⟩

/-- Every range contains what its name says: `:` `=` `-` `|` `\` `>` `<` `<<`, hash signs, two or more dashes or backticks for the operators, and trimmed texts on one line
for keys, templates and comments; values are on one line. -/
theorem C10_operators (h : analyze input = .ok ctx) : ∀ b ∈ ctx.instructions, ∀ n r, (n, r) ∈ b.ranges → RangeText n (slice input r.1 r.2) := by
  obtain ⟨es, n, s, ht, hL, inv, lay, rfl⟩ := analyze_facts h
  intro b hb
  have fl := flat_ok es hL
  have hm : b ∈ basesOf es := by
    refine fl.perm.mem_iff.1 ?_
    simp only [Ctx.instructions, ctxOf, layout_bases lay, metas_bases lay] at hb
    rw [List.append_assoc]; exact hb
  simp only [basesOf, List.mem_flatMap, List.mem_map] at hm
  obtain ⟨ev, hev, p, hp, rfl⟩ := hm
  exact event_named (trace_events ht ev hev) p hp

/-- Which ranges an element, an item, an entry and a continuation has. -/
theorem C10_names (h : analyze input = .ok ctx) : ∀ e ∈ ctx.heap.tail,
    (∃ escaped, HasRanges e.toBase (.line :: .key :: (escapeNames escaped ++ elementNames e))) ∧
    (∀ xs, e.items = some xs → ∀ x ∈ xs, HasRanges x.toBase (.line :: .itemOperator :: valueNames x.value)) ∧
    (∀ xs, e.entries = some xs → ∀ x ∈ xs, ∃ escaped, HasRanges x.toBase (.line :: .key :: (escapeNames escaped ++ .entryOperator :: valueNames x.value))) ∧
    (∀ c ∈ (e.continuations.getD []) ++ ((e.items.getD []) ++ (e.entries.getD [])).flatMap (fun x => x.continuations.getD []),
      ∃ o, (o = .spacedLineContinuationOperator ∨ o = .directLineContinuationOperator) ∧ HasRanges c.toBase (.line :: o :: valueNames c.value)) := by
  obtain ⟨es, n, s, ht, hL, inv, lay, rfl⟩ := analyze_facts h
  intro e he
  obtain ⟨i, hi, hl, rfl⟩ : ∃ i, 0 < i ∧ i < s.heap.length ∧ s.heap.at i = e := by
    obtain ⟨j, hj, rfl⟩ := List.getElem_of_mem he
    simp only [ctxOf, List.length_tail] at hj
    exact ⟨j + 1, by omega, by omega, by simp [Heap.at, ctxOf, List.getElem?_eq_getElem (show j + 1 < s.heap.length by omega)]⟩
  have eok := inv.heap.elem i hl
  obtain ⟨ev, rest, hm, hs, hk, hp, hsub, hcont⟩ := elem_events lay hi hl
  refine ⟨elem_names ht lay inv hi hl, ?_, ?_, ?_⟩
  · intro xs hxs x hx
    obtain ⟨sub, hse, hsr, hsp, _⟩ := hsub x (by rw [hxs]; simp [hx])
    have hk0 := ((eok.items xs hxs).2.2 x hx).key
    have hr : sub.role = .item := by
      have hsr' := hsr
      rcases hsr' with h | h
      · exact h
      · have := (role_key hsr).1 h
        rw [← hsp] at this
        simp only [Sub.piece] at this
        rw [this] at hk0; cases hk0
    have := item_names (trace_events ht sub hse) hr
    rw [← hsp] at this; exact this
  · intro xs hxs x hx
    obtain ⟨sub, hse, hsr, hsp, _⟩ := hsub x (by rw [hxs]; simp [hx])
    have hk0 := ((eok.entries xs hxs).2.2 x hx).key
    have hr : sub.role = .entry := (role_key hsr).2 (by rw [← hsp]; exact hk0)
    have := entry_names (trace_events ht sub hse) hr
    rw [← hsp] at this; exact this
  · intro c hc
    have : ∃ k ∈ es, k.role = .continuation ∧ c.piece = k.piece := by
      simp only [List.mem_append, List.mem_flatMap] at hc
      rcases hc with hc | ⟨x, hx, hc⟩
      · refine hcont ?_ c hc
        intro hr
        have hty : (s.heap.at i).type = .mlBegin := by rw [hk]; simp [kindOf, hr]
        cases hcs : (s.heap.at i).continuations with
        | none => rw [hcs] at hc; simp at hc
        | some cs => have := (eok.conts cs hcs).1; rw [hty] at this; cases this
      · obtain ⟨sub, _, _, _, hk⟩ := hsub x (by simpa using hx)
        exact hk c hc
    obtain ⟨k, hk1, hk2, hk3⟩ := this
    have := cont_names (trace_events ht k hk1) hk2
    rw [← hk3] at this; exact this

/-- The backticks before and after an escaped key are the same. -/
theorem C10_escapes (h : analyze input = .ok ctx) : ∀ b ∈ ctx.instructions, ∀ r r', (.escapeBeginOperator, r) ∈ b.ranges → (.escapeEndOperator, r') ∈ b.ranges →
    slice input r.1 r.2 = slice input r'.1 r'.2 := by
  obtain ⟨es, n, s, ht, hL, inv, lay, rfl⟩ := analyze_facts h
  intro b hb
  have fl := flat_ok es hL
  have hm : b ∈ basesOf es := by
    refine fl.perm.mem_iff.1 ?_
    simp only [Ctx.instructions, ctxOf, layout_bases lay, metas_bases lay] at hb
    rw [List.append_assoc]; exact hb
  simp only [basesOf, List.mem_flatMap, List.mem_map] at hm
  obtain ⟨ev, hev, p, hp, rfl⟩ := hm
  exact event_escapes (trace_events ht ev hev) p hp

example : ((analyze (chars!"x:\n``a`b`` = 1\n# c << d\n> e")).toOption.map fun c => c.instructions.map fun b => b.ranges.map fun r =>
    (r.1, slice (chars!"x:\n``a`b`` = 1\n# c << d\n> e") r.2.1 r.2.2)) =
    some [[(.line, chars!"x:"), (.elementOperator, chars!":"), (.key, chars!"x")],
      [(.line, chars!"``a`b`` = 1"), (.escapeBeginOperator, chars!"``"), (.escapeEndOperator, chars!"``"), (.entryOperator, chars!"="), (.key, chars!"a`b"), (.value, chars!"1")],
      [(.line, chars!"# c << d"), (.sectionOperator, chars!"#"), (.key, chars!"c"), (.template, chars!"d"), (.deepCopyOperator, chars!"<<")],
      [(.line, chars!"> e"), (.commentOperator, chars!">"), (.comment, chars!"e")]] := by decide +kernel

/-- Apart from that of the line, no two ranges of an instruction overlap. -/
theorem C10_apart (h : analyze input = .ok ctx) : ∀ b ∈ ctx.instructions, Apart b := by
  obtain ⟨es, n, s, ht, hL, inv, lay, rfl⟩ := analyze_facts h
  intro b hb
  have fl := flat_ok es hL
  have hm : b ∈ basesOf es := by
    refine fl.perm.mem_iff.1 ?_
    simp only [Ctx.instructions, ctxOf, layout_bases lay, metas_bases lay] at hb
    rw [List.append_assoc]; exact hb
  simp only [basesOf, List.mem_flatMap, List.mem_map] at hm
  obtain ⟨ev, hev, p, hp, rfl⟩ := hm
  exact event_apart (trace_events ht ev hev) p hp

/-- The lines of a multiline field have a range for their text, its end has one for the dashes and one for the key. -/
theorem C10_multiline_names (h : analyze input = .ok ctx) : ∀ e ∈ ctx.heap.tail,
    (∀ ls, e.lines = some ls → ∀ l ∈ ls, HasRanges l [.line, .value]) ∧ ∀ b, e.fin = some b → HasRanges b [.line, .multilineFieldOperator, .key] := by
  obtain ⟨es, n, s, ht, hL, inv, lay, rfl⟩ := analyze_facts h
  intro e he
  obtain ⟨i, hi, hl, rfl⟩ : ∃ i, 0 < i ∧ i < s.heap.length ∧ s.heap.at i = e := by
    obtain ⟨j, hj, rfl⟩ := List.getElem_of_mem he
    simp only [ctxOf, List.length_tail] at hj
    exact ⟨j + 1, by omega, by omega, by simp [Heap.at, ctxOf, List.getElem?_eq_getElem (show j + 1 < s.heap.length by omega)]⟩
  have eok := inv.heap.elem i hl
  refine ⟨fun ls hls l hl' => by unfold HasRanges; rw [(eok.lines ls hls).2.2 l hl'], ?_⟩
  intro b hb
  have hty := eok.fin (by rw [hb]; rfl)
  obtain ⟨n', b', fin, op, key, T, h1, h2, h3⟩ := multiline_recorded ht lay hL hi hl hty
  have hcn : (s.heap.at i).continuations = none := by
    cases hc : (s.heap.at i).continuations with
    | none => rfl
    | some cs => have := (eok.conts cs hc).1; rw [hty] at this; simp at this
  unfold Elem.head at h3
  simp only [hcn, hb, Option.getD_none, List.map_nil, List.cons_append, Event.pieces, List.cons.injEq, Option.toList_some, List.map_cons] at h3
  obtain ⟨_, h7⟩ := List.append_inj' h3.2 rfl
  simp only [List.cons.injEq, and_true] at h7
  have hfb := congrArg Piece.toBase h7
  have : b.ranges.map Prod.fst = [.key, .line, .multilineFieldOperator] := by
    have := congrArg (fun b : Base => b.ranges.map Prod.fst) hfb
    exact this
  unfold HasRanges
  rw [this]
  exact (List.Perm.swap _ _ _).trans (List.Perm.cons _ (List.Perm.swap _ _ _))

example : ((analyze (chars!"-- a\nb\n-- a")).toOption.map fun c => (c.heap.at 1).fin.map fun b => b.ranges.map Prod.fst) =
    some (some [.key, .line, .multilineFieldOperator]) := by decide +kernel

/-- A comment has a range for its operator, and one for its text if there is any. -/
theorem C10_comment_names (h : analyze input = .ok ctx) :
    (∀ o ∈ ctx.owners, ∀ c ∈ o.1, HasRanges c.toBase (.line :: .commentOperator :: if c.comment.isSome then [.comment] else [])) ∧
    ∀ c, .comment c ∈ ctx.metas → HasRanges c.toBase (.line :: .commentOperator :: if c.comment.isSome then [.comment] else []) := by
  obtain ⟨es, n, s, ht, hL, inv, lay, rfl⟩ := analyze_facts h
  refine ⟨?_, ?_⟩
  · intro o ho c hc
    simp only [Ctx.owners, ctxOf, lay.owners, List.mem_map] at ho
    obtain ⟨q, hq, rfl⟩ := ho
    simp only [List.mem_flatMap] at hc
    obtain ⟨ev, hev, hc⟩ := hc
    exact comment_names c hc
  · intro c hc
    simp only [ctxOf] at hc
    rw [flushed_eq, lay.metas, lay.comments] at hc
    simp only [List.mem_append, List.mem_map, List.mem_flatMap, Meta.comment.injEq, exists_eq_right] at hc
    rcases hc with ⟨ev, hev, hc⟩ | ⟨ev, hev, hc⟩
    · exact comment_names c hc
    · exact comment_names c hc

example : ∃ ctx, analyze (chars!"> e\n\n> c\na: 1\n>") = .ok ctx ∧ (ctx.owners.map fun o => o.1.length) = [1] ∧ ctx.metas.length = 2 := by
  refine ⟨_, rfl, ?_⟩
  decide +kernel

/-! ## C11 -/

/-- The line numbers are wrong if a heading or a key is separated from what follows by a line feed: the field `b` is on the third line
(number 2), its instruction has line 1, and the line count is 2 instead of 3. -/
theorem C11_refuted :
    ((analyze (chars!"a\n: 1\nb: 2")).toOption.map fun c => (c.lineCount, c.instructions.map fun b => (b.line, nlBefore (chars!"a\n: 1\nb: 2") b.span.1))) =
      some (2, [(0, 0), (1, 2)]) := by decide +kernel

/-- As long as no instruction contains a line feed all line numbers and the line count are right. Missing for C11: documents in
which an instruction spans lines (see `C11_refuted`). -/
theorem C11_line_numbers_partial (h : analyze input = .ok ctx) (clean : ∀ b ∈ ctx.instructions, NoNl input b.span.1 b.span.2) :
    (∀ b ∈ ctx.instructions, b.line = nlBefore input b.span.1) ∧ ctx.lineCount = countNl input + 1 := by
  obtain ⟨es, n, s, ht, hL, inv, lay, rfl⟩ := analyze_facts h
  have fl := flat_ok es hL
  have hmem : ∀ b, b ∈ (ctxOf input n s).instructions ↔ b ∈ basesOf es := by
    intro b
    rw [← fl.perm.mem_iff]
    simp only [Ctx.instructions, ctxOf, layout_bases lay, metas_bases lay, List.append_assoc]
  have clean' : ∀ x ∈ es.flatMap Event.spots, NoNl input x.2.1 x.2.2 := by
    intro x hx
    rw [spots_bases, List.mem_map] at hx
    obtain ⟨b, hb, rfl⟩ := hx
    exact clean b ((hmem b).2 hb)
  refine ⟨?_, trace_lineCount ht clean'⟩
  intro b hb
  have := (trace_lines ht (by simp [lineAt, nlBefore, countNl]) (by omega) clean').1 (spotOf b)
    (by rw [spots_bases]; exact List.mem_map_of_mem ((hmem b).1 hb))
  exact this

example : ∃ ctx, analyze (chars!"a:\n- b\n\nc: 1") = .ok ctx ∧ (∀ b ∈ ctx.instructions, NoNl (chars!"a:\n- b\n\nc: 1") b.span.1 b.span.2) := by
  refine ⟨_, rfl, ?_⟩
  have h : ((analyze (chars!"a:\n- b\n\nc: 1")).toOption.all fun c => c.instructions.all fun b => !((chars!"a:\n- b\n\nc: 1").take b.span.2 |>.drop b.span.1).contains '\n') = true := by
    decide +kernel
  intro b hb
  have := List.all_eq_true.1 h b hb
  exact noNl_of (by simpa using this)

/-! ## C12 -/

/-- The depth of a section is the number of its hash signs. -/
theorem C12_depth (h : analyze input = .ok ctx) (i : Nat) (hl : i < ctx.heap.length) (hs : (ctx.heap.at i).type = .section) :
    ∃ b e, (ctx.heap.at i).range? .sectionOperator = some (b, e) ∧ slice input b e = rep (ctx.heap.at i).depth '#' ∧ 0 < (ctx.heap.at i).depth := by
  obtain ⟨es, n, s, ht, hL, inv, lay, rfl⟩ := analyze_facts h
  have hi : 0 < i := by
    apply Nat.pos_of_ne_zero; rintro rfl
    have := inv.heap.doc.1
    simp only [ctxOf] at hs
    rw [this] at hs; simp at hs
  obtain ⟨x, y, h1, h2, h3⟩ := section_operator ht lay hi hl hs
  refine ⟨x, y, h1, ?_⟩
  have hd : (s.heap.at i).depth = y - x := by unfold Elem.depth; rw [h1]
  simp only [ctxOf]
  rw [hd]; exact ⟨h3, by omega⟩

example : ∃ ctx, analyze (chars!"# a\n## b\nx: 1") = .ok ctx ∧ 2 < ctx.heap.length ∧ (ctx.heap.at 2).type = .section := by
  refine ⟨_, rfl, ?_⟩
  decide +kernel

/-- The parent of a section is a section with one hash sign less (the document for one hash sign) that comes before it, and no section in
between has fewer hash signs. -/
theorem C12_nesting (h : analyze input = .ok ctx) (i : Nat) (hl : i < ctx.heap.length) (hs : (ctx.heap.at i).type = .section) :
    ∃ p, (ctx.heap.at i).parent = some p ∧ p < i ∧ (ctx.heap.at i).depth = (ctx.heap.at p).depth + 1 ∧
      ((ctx.heap.at i).depth = 1 → p = 0) ∧ (1 < (ctx.heap.at i).depth → (ctx.heap.at p).type = .section) ∧
      ∀ j, p < j → j < i → (ctx.heap.at j).type = .section → (ctx.heap.at i).depth ≤ (ctx.heap.at j).depth := by
  have hdep := fun j hj hsj => C12_depth h j hj hsj
  obtain ⟨es, n, s, ht, hL, inv, lay, rfl⟩ := analyze_facts h
  simp only [ctxOf] at *
  have hi : 0 < i := by
    apply Nat.pos_of_ne_zero; rintro rfl
    rw [inv.heap.doc.1] at hs; simp at hs
  obtain ⟨_, p, hp, hpi, hpc⟩ := inv.heap.par i hi hl
  have hd := inv.sec.par i p hl hs hp
  refine ⟨p, hp, hpi, hd, ?_, ?_, fun j h1 h2 h3 => inv.sec.between i p j hl hs hp h1 h2 h3⟩
  · intro h1
    rcases hpc with hpc | hpc
    · apply Nat.eq_zero_of_not_pos
      intro hp0
      exact (inv.heap.par p hp0 (by omega)).1 hpc
    · obtain ⟨_, _, _, _, h0⟩ := hdep p (by omega) hpc
      omega
  · intro h1
    rcases hpc with hpc | hpc
    · have : p = 0 := by
        apply Nat.eq_zero_of_not_pos
        intro hp0
        exact (inv.heap.par p hp0 (by omega)).1 hpc
      subst this
      rw [inv.sec.doc] at hd; omega
    · exact hpc

example : ((analyze (chars!"# a\n## b\nx: 1\n## c\n# d")).toOption.map fun c => c.heap.map fun e => (e.key, e.parent, e.elements)) =
    some [([], none, [1, 5]), (['a'], some 0, [2, 4]), (['b'], some 1, [3]), (['x'], some 2, []), (['c'], some 1, []), (['d'], some 0, [])] := by
  decide +kernel

/-! ## C13 -/

/-- A heading more than one level deeper than the section it follows is rejected. -/
theorem C13_skip_rejected {pre post : List Event} {ev : Event} {r : Ending} {d : Nat} (ht : Trace input 0 0 (pre ++ ev :: post) r) (hp : AllLegal pre)
    (hd : ev.role = .heading d) (hskip : depthOf pre + 1 < d) :
    ∃ ctx, analyze input = .error (.parse (.sectionHierarchyLayerSkip (lastSectionOf pre)) ctx (errorLine input ev.at.2 ev.at.1)) := by
  obtain ⟨k, s, hk, _, h⟩ := analyze_illegal ht hp (by unfold Legal; rw [hd]; simp only; omega)
  unfold rejection at hk
  rw [hd] at hk
  simp at hk; subst hk
  exact ⟨_, h⟩

/-- Sample for the hypotheses: a heading two levels below the one before it. -/
example : ∃ pre ev post r, Trace (chars!"# a\n### b\nc") 0 0 (pre ++ ev :: post) r ∧ AllLegal pre ∧ (ev.role == .heading 3 && depthOf pre == 1) = true :=
  traceCut 9 1 (by decide +kernel)

/-- No other heading is. -/
theorem C13_only_skips {k : Nat} {b : Base} (h : analyze input = .error (.parse (.sectionHierarchyLayerSkip k) ctx b)) :
    ∃ pre ev post r d, Trace input 0 0 (pre ++ ev :: post) r ∧ AllLegal pre ∧ ev.role = .heading d ∧ depthOf pre + 1 < d ∧
      b = errorLine input ev.at.2 ev.at.1 := by
  rcases analyze_error_cases h with ⟨pre, ev, post, r, s, h1, h2, h3, h4, _, _, h5⟩ | ⟨_, _, _, _, _, _, h1, _⟩ | ⟨_, _, _, _, _, _, _, _, _, _, h1, _⟩
  · unfold rejection at h4
    cases hr : ev.role <;> rw [hr] at h4 <;> simp at h4
    rename_i d
    refine ⟨pre, ev, post, r, d, h1, h2, hr, ?_, h5⟩
    unfold Legal at h3
    rw [hr] at h3
    simp at h3; omega
  · simp at h1
  · simp at h1

example : kindOfError (analyze (chars!"# a\n### b")) = some (.sectionHierarchyLayerSkip 1) := by decide +kernel

/-! ## C14 -/

/-- The parent of an element that is not a section is the nearest section before it, or the document if there is none. -/
theorem C14_parent (h : analyze input = .ok ctx) (i : Nat) (hi : 0 < i) (hl : i < ctx.heap.length) (hs : (ctx.heap.at i).type ≠ .section) :
    ∃ p, (ctx.heap.at i).parent = some p ∧ p < i ∧ ((ctx.heap.at p).type = .section ∨ p = 0) ∧
      ∀ j, p < j → j < i → (ctx.heap.at j).type ≠ .section := by
  obtain ⟨es, n, s, ht, hL, inv, lay, rfl⟩ := analyze_facts h
  simp only [ctxOf] at *
  obtain ⟨_, p, hp, hpi, hpc⟩ := inv.heap.par i hi hl
  refine ⟨p, hp, hpi, ?_, fun j h1 h2 => inv.sec.nonsec i p j hl hs hp h1 h2⟩
  rcases hpc with hpc | hpc
  · right
    apply Nat.eq_zero_of_not_pos
    intro hp0
    exact (inv.heap.par p hp0 (by omega)).1 hpc
  · exact .inl hpc

example : ∃ ctx, analyze (chars!"# s\na: 1\n# t\nb: 2") = .ok ctx ∧ 4 < ctx.heap.length ∧ (ctx.heap.at 4).type ≠ .section ∧ (ctx.heap.at 4).parent = some 3 := by
  refine ⟨_, rfl, ?_⟩
  decide +kernel

/-- The children of a section are exactly the elements that have it as their parent, once each, in document order. -/
theorem C14_children (h : analyze input = .ok ctx) (p : Nat) (hp : p < ctx.heap.length) :
    (ctx.heap.at p).elements = (List.range ctx.heap.length).filter fun i => (ctx.heap.at i).parent = some p := by
  obtain ⟨es, n, s, ht, hL, inv, lay, rfl⟩ := analyze_facts h
  exact inv.heap.els p hp

example : ∃ ctx, analyze (chars!"# s\na: 1\n# t\nb: 2\nc: 3") = .ok ctx ∧ 3 < ctx.heap.length ∧ (ctx.heap.at 3).elements = [4, 5] := by
  refine ⟨_, rfl, ?_⟩
  decide +kernel

/-! ## C15, C16 -/

/-- The elements of the document are the blocks of its events: an item, entry or continuation belongs to the element before it, a
continuation to the item or entry before it if there is one. -/
theorem C15_C16_attached (h : analyze input = .ok ctx) : ∃ es n, Trace input 0 0 es (.finished n) ∧
    ctx.heap.tail.map Elem.parts = (blocks es).map (fun b => (parts b).map fun g => g.flatMap Event.pieces) ∧
    ctx.heap.tail.map Elem.type = (blocks es).map kindOf := by
  obtain ⟨es, n, s, ht, hL, inv, lay, rfl⟩ := analyze_facts h
  exact ⟨es, n, ht, lay.trees, lay.kinds⟩

/-- In an accepted document every item follows a list or an empty element. -/
theorem C15_item_legal {es : List Event} {r : Ending} (ht : Trace input 0 0 es r) (h : analyze input = .ok ctx) {pre post : List Event} {ev : Event}
    (he : es = pre ++ ev :: post) (hr : ev.role = .item) : ∃ b, (blocks pre).getLast? = some b ∧ (kindOf b = .list ∨ kindOf b = .empty) := by
  have := ((C07_accepted_iff ht).1 ⟨ctx, h⟩).2 pre ev post he
  unfold Legal at this
  rw [hr] at this
  simpa using this

/-- Sample for the hypotheses (as for the next theorem): an item after an item of a list. -/
example : (analyze (chars!"k:\n- a\n\n- b\nl:\nc = d")).toOption.isSome = true ∧
    ∃ pre ev post r, Trace (chars!"k:\n- a\n\n- b\nl:\nc = d") 0 0 (pre ++ ev :: post) r ∧ AllLegal pre ∧ (ev.role == .item && pre.length == 3) = true :=
  ⟨by decide +kernel, traceCut 9 3 (by decide +kernel)⟩

/-- In an accepted document every entry follows a fieldset or an empty element. -/
theorem C15_entry_legal {es : List Event} {r : Ending} (ht : Trace input 0 0 es r) (h : analyze input = .ok ctx) {pre post : List Event} {ev : Event}
    (he : es = pre ++ ev :: post) (hr : ev.role = .entry) : ∃ b, (blocks pre).getLast? = some b ∧ (kindOf b = .fieldset ∨ kindOf b = .empty) := by
  have := ((C07_accepted_iff ht).1 ⟨ctx, h⟩).2 pre ev post he
  unfold Legal at this
  rw [hr] at this
  simpa using this

example : (analyze (chars!"k:\n- a\n\n- b\nl:\nc = d")).toOption.isSome = true ∧
    ∃ pre ev post r, Trace (chars!"k:\n- a\n\n- b\nl:\nc = d") 0 0 (pre ++ ev :: post) r ∧ AllLegal pre ∧ (ev.role == .entry && pre.length == 5) = true :=
  ⟨by decide +kernel, traceCut 9 5 (by decide +kernel)⟩

/-- An item that follows anything else (or nothing) is rejected. -/
theorem C15_item_rejected {pre post : List Event} {ev : Event} {r : Ending} (ht : Trace input 0 0 (pre ++ ev :: post) r) (hp : AllLegal pre)
    (hr : ev.role = .item) (hno : ∀ b, (blocks pre).getLast? = some b → kindOf b ≠ .list ∧ kindOf b ≠ .empty) :
    ∃ ctx, analyze input = .error (.parse .missingListForListItem ctx (errorLine input ev.at.2 ev.at.1)) := by
  obtain ⟨k, s, hk, _, h⟩ := analyze_illegal ht hp (by
    unfold Legal; rw [hr]; rintro ⟨b, hb, hk⟩
    have := hno b hb
    simp at hk; rcases hk with hk | hk
    · exact this.1 hk
    · exact this.2 hk)
  unfold rejection at hk
  rw [hr] at hk
  simp at hk; subst hk
  exact ⟨_, h⟩

example : ∃ pre ev post r, Trace (chars!"k: 1\n\n- a\nb") 0 0 (pre ++ ev :: post) r ∧ AllLegal pre ∧
    (ev.role == .item && (blocks pre).getLast?.all (fun b => kindOf b != .list && kindOf b != .empty)) = true :=
  traceCut 9 2 (by decide +kernel)

/-- An entry that follows anything else (or nothing) is rejected. -/
theorem C15_entry_rejected {pre post : List Event} {ev : Event} {r : Ending} (ht : Trace input 0 0 (pre ++ ev :: post) r) (hp : AllLegal pre)
    (hr : ev.role = .entry) (hno : ∀ b, (blocks pre).getLast? = some b → kindOf b ≠ .fieldset ∧ kindOf b ≠ .empty) :
    ∃ ctx, analyze input = .error (.parse .missingFieldsetForFieldsetEntry ctx (errorLine input ev.at.2 ev.at.1)) := by
  obtain ⟨k, s, hk, _, h⟩ := analyze_illegal ht hp (by
    unfold Legal; rw [hr]; rintro ⟨b, hb, hk⟩
    have := hno b hb
    simp at hk; rcases hk with hk | hk
    · exact this.1 hk
    · exact this.2 hk)
  unfold rejection at hk
  rw [hr] at hk
  simp at hk; subst hk
  exact ⟨_, h⟩

example : ∃ pre ev post r, Trace (chars!"a:\n- b\nc = d") 0 0 (pre ++ ev :: post) r ∧ AllLegal pre ∧
    (ev.role == .entry && (blocks pre).getLast?.all (fun b => kindOf b != .fieldset && kindOf b != .empty)) = true :=
  traceCut 9 2 (by decide +kernel)

/-- Nothing else is reported as a missing list or a missing fieldset. -/
theorem C15_only {b : Base} {kind : FailKind} (hk : kind = .missingListForListItem ∨ kind = .missingFieldsetForFieldsetEntry)
    (h : analyze input = .error (.parse kind ctx b)) :
    ∃ pre ev post r, Trace input 0 0 (pre ++ ev :: post) r ∧ AllLegal pre ∧
      ((kind = .missingListForListItem ∧ ev.role = .item) ∨ (kind = .missingFieldsetForFieldsetEntry ∧ ev.role = .entry)) ∧ ¬ Legal pre ev := by
  rcases analyze_error_cases h with ⟨pre, ev, post, r, s, h1, h2, h3, h4, _⟩ | ⟨_, _, _, _, _, _, h1, _⟩ | ⟨_, _, _, _, _, _, _, _, _, _, h1, _⟩
  · refine ⟨pre, ev, post, r, h1, h2, ?_, h3⟩
    unfold rejection at h4
    rcases hk with rfl | rfl <;> cases hr : ev.role <;> rw [hr] at h4 <;> simp at h4 <;> simp
  · rcases hk with rfl | rfl <;> simp at h1
  · rcases hk with rfl | rfl <;> simp at h1

/-- In an accepted document every continuation follows an element that is neither a section, nor a multiline field, nor a bare copy. -/
theorem C16_continuation_legal {es : List Event} {r : Ending} (ht : Trace input 0 0 es r) (h : analyze input = .ok ctx) {pre post : List Event} {ev : Event}
    (he : es = pre ++ ev :: post) (hr : ev.role = .continuation) :
    ∃ b, (blocks pre).getLast? = some b ∧ kindOf b ∈ [Ty.field, .empty, .list, .fieldset] ∧ b.map Event.role ≠ [.copy] := by
  have := ((C07_accepted_iff ht).1 ⟨ctx, h⟩).2 pre ev post he
  unfold Legal at this
  rw [hr] at this
  exact this

example : (analyze (chars!"k:\n- a\n\n| b")).toOption.isSome = true ∧
    ∃ pre ev post r, Trace (chars!"k:\n- a\n\n| b") 0 0 (pre ++ ev :: post) r ∧ AllLegal pre ∧ (ev.role == .continuation && pre.length == 3) = true :=
  ⟨by decide +kernel, traceCut 9 3 (by decide +kernel)⟩

/-- A continuation that follows a section, a multiline field, a bare copy or nothing is rejected. -/
theorem C16_continuation_rejected {pre post : List Event} {ev : Event} {r : Ending} (ht : Trace input 0 0 (pre ++ ev :: post) r) (hp : AllLegal pre)
    (hr : ev.role = .continuation)
    (hno : ∀ b, (blocks pre).getLast? = some b → kindOf b = .section ∨ kindOf b = .mlBegin ∨ b.map Event.role = [.copy]) :
    ∃ ctx, analyze input = .error (.parse .missingElementForContinuation ctx (errorLine input ev.at.2 ev.at.1)) := by
  obtain ⟨k, s, hk, _, h⟩ := analyze_illegal ht hp (by
    unfold Legal; rw [hr]; rintro ⟨b, hb, hk, hc⟩
    rcases hno b hb with h | h | h
    · rw [h] at hk; simp at hk
    · rw [h] at hk; simp at hk
    · exact hc h)
  unfold rejection at hk
  rw [hr] at hk
  simp at hk; subst hk
  exact ⟨_, h⟩

example : ∃ pre ev post r, Trace (chars!"a < b\n\\ c") 0 0 (pre ++ ev :: post) r ∧ AllLegal pre ∧
    (ev.role == .continuation && (blocks pre).getLast?.all (fun b => b.map Event.role == [.copy])) = true :=
  traceCut 9 1 (by decide +kernel)

/-- Nothing else is reported as a missing element for a continuation. -/
theorem C16_only {b : Base} (h : analyze input = .error (.parse .missingElementForContinuation ctx b)) :
    ∃ pre ev post r, Trace input 0 0 (pre ++ ev :: post) r ∧ AllLegal pre ∧ ev.role = .continuation ∧ ¬ Legal pre ev := by
  rcases analyze_error_cases h with ⟨pre, ev, post, r, s, h1, h2, h3, h4, _⟩ | ⟨_, _, _, _, _, _, h1, _⟩ | ⟨_, _, _, _, _, _, _, _, _, _, h1, _⟩
  · refine ⟨pre, ev, post, r, h1, h2, ?_, h3⟩
    unfold rejection at h4
    cases hr : ev.role <;> rw [hr] at h4 <;> simp at h4 <;> simp
  · simp at h1
  · simp at h1

-- items, continuations of items and of fields attach; comments and blank lines in between do not matter
example : ((analyze (chars!"k:\n- a\n\n> c\n\n| b\n- d\nf: 1\n\\ 2")).toOption.map fun c => c.heap.map fun e => e.type) =
    some [.document, .list, .field] := by decide +kernel
example : ((analyze (chars!"k:\n- a\n\n> c\n\n| b\n- d\nf: 1\n\\ 2")).toOption.map fun c => c.heap.tail.map fun e =>
      e.parts.map fun g => g.map fun p => p.line) = some [[[0], [1, 5], [6]], [[7, 8]]] := by decide +kernel
example : kindOfError (analyze (chars!"k: 1\n- a")) = some .missingListForListItem := by decide +kernel
example : kindOfError (analyze (chars!"a:\n- b\nc = d")) = some .missingFieldsetForFieldsetEntry := by decide +kernel
example : kindOfError (analyze (chars!"# s\n\n| a")) = some .missingElementForContinuation := by decide +kernel

/-! ## C17 -/

/-- Every element, item and entry has exactly the comments directly before it, the loose comments are those followed by a blank line, a
continuation or the end of the document, and together these are all comments, each once. -/
theorem C17_comments (h : analyze input = .ok ctx) : ∃ es n, Trace input 0 0 es (.finished n) ∧
    ctx.owners = (owned [] es).map (fun o => (o.1.flatMap Event.comments, o.2.piece)) ∧
    ctx.metas = ((loose [] es ++ commentRun es).flatMap Event.comments).map .comment ∧
    ((owned [] es).flatMap (·.1) ++ (loose [] es ++ commentRun es)).Perm (es.filter fun e => e.role == .comment) := by
  obtain ⟨es, n, s, ht, hL, inv, lay, rfl⟩ := analyze_facts h
  refine ⟨es, n, ht, lay.owners, ?_, ?_⟩
  · simp only [ctxOf, flushed_eq, lay.metas, lay.comments, List.flatMap_append, List.map_append]
  · rw [← List.append_assoc]; exact comments_partition es

example : ((analyze (chars!"> a\n\n> b\n> c\nk:\n> d\n- i\n> e")).toOption.map fun c =>
      c.owners.map fun o => (o.1.map fun c => c.line, o.2.line)) = some [([2, 3], 4), ([5], 6)] := by decide +kernel
example : ((analyze (chars!"> a\n\n> b\n> c\nk:\n> d\n- i\n> e")).toOption.map fun c => c.metas.map fun m => m.base.line) =
    some [0, 7] := by decide +kernel

/-! ## C18 -/

/-- Kind and content of an element fit together. -/
theorem C18_kinds (h : analyze input = .ok ctx) (i : Nat) (hl : i < ctx.heap.length) :
    ((ctx.heap.at i).type = .list ↔ (ctx.heap.at i).items.isSome) ∧ (ctx.heap.at i).items ≠ some [] ∧
    ((ctx.heap.at i).type = .fieldset ↔ (ctx.heap.at i).entries.isSome) ∧ (ctx.heap.at i).entries ≠ some [] ∧
    ((ctx.heap.at i).type = .field ↔ (ctx.heap.at i).value.isSome ∨ (ctx.heap.at i).continuations.isSome) ∧
    ((ctx.heap.at i).type = .mlBegin ↔ (ctx.heap.at i).fin.isSome) ∧
    (∀ x ∈ (ctx.heap.at i).items.getD [], x.isEntry = false ∧ x.key = none) ∧
    (∀ x ∈ (ctx.heap.at i).entries.getD [], x.isEntry = true ∧ x.key.isSome) := by
  obtain ⟨es, n, s, ht, hL, inv, lay, rfl⟩ := analyze_facts h
  simp only [ctxOf] at *
  have eok := inv.heap.elem i hl
  refine ⟨⟨eok.list, ?_⟩, ?_, ⟨eok.fieldset, ?_⟩, ?_, ⟨eok.field, ?_⟩, ⟨?_, eok.fin⟩, ?_, ?_⟩
  · intro h; obtain ⟨xs, hx⟩ := Option.isSome_iff_exists.1 h; exact (eok.items xs hx).1
  · intro h; exact (eok.items _ h).2.1 rfl
  · intro h; obtain ⟨xs, hx⟩ := Option.isSome_iff_exists.1 h; exact (eok.entries xs hx).1
  · intro h; exact (eok.entries _ h).2.1 rfl
  · rintro (h | h)
    · exact eok.value h
    · obtain ⟨cs, hc⟩ := Option.isSome_iff_exists.1 h; exact (eok.conts cs hc).1
  · intro ht'
    have hi : 0 < i := by
      apply Nat.pos_of_ne_zero; rintro rfl
      rw [inv.heap.doc.1] at ht'; simp at ht'
    exact multiline_end ht lay inv hL hi hl ht'
  · intro x hx
    cases hi : (s.heap.at i).items with
    | none => rw [hi] at hx; simp at hx
    | some xs =>
      rw [hi] at hx
      have := (eok.items xs hi).2.2 x hx
      refine ⟨this.isEntry, ?_⟩
      have := this.key
      simpa using this
  · intro x hx
    cases hi : (s.heap.at i).entries with
    | none => rw [hi] at hx; simp at hx
    | some xs =>
      rw [hi] at hx
      have := (eok.entries xs hi).2.2 x hx
      exact ⟨this.isEntry, this.key⟩

example : ∃ ctx, analyze (chars!"a:\n- b\nc:\nd = e\nf: 1\n-- g\n-- g\nh:") = .ok ctx ∧
    ctx.heap.map Elem.type = [.document, .list, .fieldset, .field, .mlBegin, .empty] := by
  refine ⟨_, rfl, ?_⟩
  decide +kernel

/-! ## C19 -/

/-- The first terminator after the opening line of a multiline field: `T` describes a line that is one, and no line between the opening line
and it is one. -/
theorem C19_first_terminator {b fin : Nat} {op key : Cap} {T : Term} (hs : scan b (input.drop b) = some ⟨fin, .multiline op key⟩)
    (ht : findTerminator op.text key.text fin (input.drop fin) = some T) :
    ∃ body line rest, input.drop fin = body ++ '\n' :: (line ++ rest) ∧ '\n' ∉ line ∧ LineEnd rest ∧ IsTerminator op.text key.text line ∧
      T.start = fin + body.length ∧ T.fin = T.start + 1 + line.length ∧
      ∀ body' line' rest', input.drop fin = body' ++ '\n' :: (line' ++ rest') → '\n' ∉ line' → LineEnd rest' → body'.length < body.length →
        ¬ IsTerminator op.text key.text line' := by
  obtain ⟨h1, _, h2, _⟩ := multiline_shape hs
  obtain ⟨a, w, e1, e2, e3, e4, e5⟩ := findTerminator_first _ _ _ ht
  obtain ⟨rest, hw, hn, hr⟩ := lineOf_split w
  refine ⟨a, lineOf w, rest, by rw [← hw]; exact e1, hn, hr, (terminatorLine_iff h1 h2 _).1 e4, e2, e3, ?_⟩
  intro body' line' rest' f1 f2 f3 f4 f5
  have := e5 body' (line' ++ rest') f1 f4
  rw [lineOf_append_end f2 f3] at this
  have h := (terminatorLine_iff h1 h2 line').2 f5
  rw [this] at h; simp at h

example : ∃ fin op key T, scan 5 ((chars!"a: 1\n-- k\nx\n-- k\n").drop 5) = some ⟨fin, .multiline op key⟩ ∧
    findTerminator op.text key.text fin ((chars!"a: 1\n-- k\nx\n-- k\n").drop fin) = some T :=
  ⟨9, ⟨5, 7, chars!"--"⟩, ⟨8, 9, chars!"k"⟩, _, by decide +kernel, rfl⟩

/-- A multiline field is accepted exactly if some later line is a terminator for it. -/
theorem C19_accepted_iff {b fin : Nat} {op key : Cap} (hs : scan b (input.drop b) = some ⟨fin, .multiline op key⟩) :
    (∃ T, findTerminator op.text key.text fin (input.drop fin) = some T) ↔
      ∃ body line rest, input.drop fin = body ++ '\n' :: (line ++ rest) ∧ '\n' ∉ line ∧ LineEnd rest ∧ IsTerminator op.text key.text line := by
  constructor
  · rintro ⟨T, ht⟩
    obtain ⟨body, line, rest, h1, h2, h3, h4, _⟩ := C19_first_terminator hs ht
    exact ⟨body, line, rest, h1, h2, h3, h4⟩
  · rintro ⟨body, line, rest, h1, h2, h3, h4⟩
    obtain ⟨g1, _, g2, _⟩ := multiline_shape hs
    cases hf : findTerminator op.text key.text fin (input.drop fin) with
    | some T => exact ⟨T, rfl⟩
    | none =>
      have := (findTerminator_none _ _).1 hf body (line ++ rest) h1
      rw [lineOf_append_end h2 h3] at this
      have h := (terminatorLine_iff g1 g2 line).2 h4
      rw [this] at h; simp at h

/-- An unterminated multiline field is rejected. -/
theorem C19_unterminated_rejected {es : List Event} {n b fin : Nat} {op key : Cap} (ht : Trace input 0 0 es (.unterminated n b fin op key)) (hL : AllLegal es) :
    ∃ ctx, analyze input = .error (.parse (.unterminatedMultilineField ((blocks es).length + 1)) ctx (pieceOf n b ⟨fin, .multiline op key⟩).toBase) := by
  obtain ⟨s, ctx, x, _, _, h⟩ := analyze_unterminated ht hL
  exact ⟨ctx, h⟩

example : ∃ es r, Trace (chars!"a:\n-- k\n--- k") 0 0 es r ∧ (allLegalB es && es.map Event.role == [.element false] && (match r with | .unterminated .. => true | _ => false)) = true :=
  traceSample 9 (by decide +kernel)

/-- Nothing else is rejected as an unterminated multiline field. -/
theorem C19_only {k : Nat} {x : Base} (h : analyze input = .error (.parse (.unterminatedMultilineField k) ctx x)) :
    ∃ b fin op key, scan b (input.drop b) = some ⟨fin, .multiline op key⟩ ∧ x.span = (b, fin) ∧
      ¬ ∃ body line rest, input.drop fin = body ++ '\n' :: (line ++ rest) ∧ '\n' ∉ line ∧ LineEnd rest ∧ IsTerminator op.text key.text line := by
  rcases analyze_error_cases h with ⟨pre, ev, post, r, s, _, _, _, h4, _⟩ | ⟨_, _, _, _, _, _, h1, _⟩ | ⟨es, n, i, fin, op, key, s, y, h1, _, _, _, _, h2⟩
  · unfold rejection at h4
    cases hr : ev.role <;> rw [hr] at h4 <;> simp at h4
  · simp at h1
  · obtain ⟨hs, hf⟩ := trace_unterminated h1
    refine ⟨i, fin, op, key, hs, by rw [h2]; rfl, ?_⟩
    rw [← C19_accepted_iff hs, hf]
    simp

/-- Every multiline field of an accepted document is recorded with the lines between its opening line and the first terminator. -/
theorem C19_recorded (h : analyze input = .ok ctx) (i : Nat) (hi : 0 < i) (hl : i < ctx.heap.length) (hs : (ctx.heap.at i).type = .mlBegin) :
    ∃ n b fin op key T, scan b (input.drop b) = some ⟨fin, .multiline op key⟩ ∧ findTerminator op.text key.text fin (input.drop fin) = some T ∧
      (ctx.heap.at i).head = (Event.multi n b fin op key (mlBody input n fin T.start) T).pieces := by
  obtain ⟨es, n, s, ht, hL, inv, lay, rfl⟩ := analyze_facts h
  obtain ⟨n, b, fin, op, key, T, h1, _, h2⟩ := multiline_recorded ht lay hL hi hl hs
  exact ⟨n, b, fin, op, key, T, h1.2.1, h1.2.2.1, h2⟩

example : ∃ ctx, analyze (chars!"a: 1\n-- k\nx\n-- k") = .ok ctx ∧ 2 < ctx.heap.length ∧ (ctx.heap.at 2).type = .mlBegin := by
  refine ⟨_, rfl, ?_⟩
  decide +kernel

example : ((analyze (chars!"-- k\na\n- k\n--\tk \n-- k\nx\n\n--k")).toOption.map fun c => c.heap.tail.map fun e => (e.lines.getD []).map (·.line)) =
    some [[1, 2], [5, 6]] := by decide +kernel
example : kindOfError (analyze (chars!"a:\n-- k\n--- k\n-- kk")) = some (.unterminatedMultilineField 2) := by decide +kernel

end Eno
