import Verif.Proofs.Written
import Verif.Props.ValidationProps

/-! # Errors about the key, the value and the comments of an element -/

namespace Eno

open Spec

variable {input : Str} {ctx ctx' : Ctx} {h : Heap} {o : Options} {s s' : Snippet} {r : Ref} {b : Base} {N n : Nat} {report : Snippet → Except PyExc Snippet}
variable {em ind : Nat → Prop}

theorem load_written (hl : load input = .ok ctx) (hr : FirstLine ctx.heap r b) : Written input ctx.heap r b := by
  obtain ⟨c, ha, _⟩ := load_ok_analyze hl
  exact written ha hl hr

/-- The snippet of a report that emphasises and indicates lines. -/
theorem snippet_shows (C : Complete ctx) (hin : ctx.input = input) (hr : report (List.replicate ctx.lineCount none) = .ok s) (hl : s.length = ctx.lineCount)
    (h1 : ∀ n, s.getD n none = some .emphasize ↔ em n) (h2 : ∀ n, s.getD n none = some .indicate ↔ ind n)
    (h3 : ∀ n, s.getD n none = none ∨ s.getD n none = some .emphasize ∨ s.getD n none = some .indicate) (h4 : ∃ n, em n ∨ ind n) (ho : o.reporter ≠ .terminal) :
    ∃ out, makeSnippet o ctx report = .ok out ∧ (o.reporter = .text → SnippetShows o input ctx.lineCount out em ind) := by
  have hm : Marked s := by
    intro t ht
    obtain ⟨k, hk, e⟩ := List.getElem_of_mem ht
    have := h3 k
    rw [List.getD, List.getElem?_eq_getElem hk, e] at this
    simpa [or_assoc] using this.imp_right (Or.imp_right Or.inl)
  have hex : ∃ n, IsMarked s n := by
    obtain ⟨n, q | q⟩ := h4
    · exact ⟨n, .emphasis, (h1 n).2 q⟩
    · exact ⟨n, .indication, (h2 n).2 q⟩
  obtain ⟨rows, r1, _, r3, r4, r5⟩ := snippet_marks C hr hl hm hex o
  obtain ⟨out, hout⟩ := makeSnippet_ok C hr ho
  refine ⟨out, hout, fun ht => ⟨rows, ?_, r3, ?_, ?_, ?_, ?_⟩⟩
  · rw [r1 ht] at hout; injection hout with hout; exact hout.symm
  · intro n
    rw [r4 .emphasis _ (by simp), ← h1]
    constructor
    · rintro ⟨m, e, q⟩; have : m = n := by omega
      subst this; exact q
    · intro q; exact ⟨n, rfl, q⟩
  · intro n
    rw [r4 .indication _ (by simp), ← h2]
    constructor
    · rintro ⟨m, e, q⟩; have : m = n := by omega
      subst this; exact q
    · intro q; exact ⟨n, rfl, q⟩
  · intro k t hk
    obtain ⟨m, _, q⟩ := (r4 .question k (by simp)).1 ⟨t, hk⟩
    simp only [MarkedAs] at q
    rcases h3 m with e | e | e <;> rw [e] at q <;> cases q
  · rw [← hin]; exact r5

theorem shows_line (C : Complete ctx) (hin : ctx.input = input) (hb : b.line < ctx.lineCount) (ho : o.reporter ≠ .terminal) :
    ∃ out, makeSnippet o ctx (markLine .emphasize b) = .ok out ∧ (o.reporter = .text → SnippetShows o input ctx.lineCount out (· = b.line) fun _ => False) := by
  have hg : ∀ n, ((List.replicate ctx.lineCount none).set b.line (some Tag.emphasize)).getD n none = if n = b.line then some .emphasize else none := by
    intro n
    rw [getD_set (by simpa using hb), fresh_getD]
  refine snippet_shows (s := (List.replicate ctx.lineCount none).set b.line (some .emphasize)) C hin (put_ok (by simpa using hb)) (by simp) ?_ ?_ ?_ ⟨b.line, .inl rfl⟩ ho
  · intro n; rw [hg]; split <;> simp_all
  · intro n; rw [hg]; split <;> simp_all
  · intro n; rw [hg]; split <;> simp_all

theorem shows_element (C : Complete ctx) (hin : ctx.input = input) (S : Shown ctx.heap ctx.lineCount) (hr : FirstLine ctx.heap r b) (hst : ¬ RefStuck ctx.heap r) (ho : o.reporter ≠ .terminal) :
    ∃ out last, RefEnds ctx.heap r last ∧ makeSnippet o ctx (reportElement ctx.heap r) = .ok out ∧
      (o.reporter = .text → SnippetShows o input ctx.lineCount out (· = b.line) fun n => b.line < n ∧ n ≤ last) := by
  rcases reportElement_marks C S hr with ⟨q, _⟩ | ⟨_, L, s, g, k, M⟩
  · exact absurd q hst
  · obtain ⟨out, h1, h2⟩ := snippet_shows (em := (· = b.line)) (ind := fun n => b.line < n ∧ n ≤ L) C hin k M.len M.emphasis M.indication (fun n => by
      rw [M.marks n]; split
      · simp
      · split <;> simp) ⟨b.line, .inl rfl⟩ ho
    exact ⟨out, L, g, h1, h2⟩

theorem not_stuck_of (S : Shown ctx.heap ctx.lineCount) (hr : FirstLine ctx.heap r b) (hs : ∀ i, r = .elem i → (ctx.heap.at i).type ≠ .section) : ¬ RefStuck ctx.heap r := by
  cases hr with
  | elem h0 hi => exact not_stuck_leaf (S.leaves _ hi h0 (hs _ rfl))
  | item => exact id
  | entry => exact id

/-- Selecting a text. -/
theorem selects_text {m : RangeName} {t : Str} (R : RangesOk input b) (ht : ∃ p, b.range? m = some p ∧ slice input p.1 p.2 = t) :
    ∃ sel, selection b m .beginning b m .ending = .ok sel ∧ Selects b.span.1 b.span.2 sel ∧ sel.start.line = b.line ∧ slice input sel.start.index sel.stop.index = t := by
  obtain ⟨p, hp, rfl⟩ := ht
  refine ⟨_, by unfold selection; rw [cursor_ok hp R.line, cursor_ok hp R.line]; rfl, ?_, rfl, rfl⟩
  obtain ⟨w1, w2, w3⟩ := R.within m p (range_mem hp)
  exact ⟨w1, w2, w3, rfl, rfl, rfl⟩

/-- The comments of a loaded document are those of the analysed one. -/
theorem comments_owner (ha : analyze input = .ok ctx) (hl : load input = .ok ctx') (hr : FirstLine ctx'.heap r b) {cs : List Comment} (hc : ctx'.heap.comments r = some cs) :
    cs ≠ [] ∧ (∃ o ∈ ctx.owners, o.1 = cs) ∧ ∀ c ∈ cs, c.toBase ∈ ctx'.instructions := by
  obtain ⟨C, hin, _, S⟩ := loaded_complete ha hl
  have sh := loaded_shown ha hl
  have hd := C.grown.doc
  have ok := (analyze_analysed ha).heap
  have pos : ∀ i, (ctx'.heap.at i).type ≠ .document → 0 < i := by
    intro i hi; apply Nat.pos_of_ne_zero; rintro rfl; exact hi hd
  cases hr with
  | @elem i h0 hi =>
    simp only [Heap.comments] at hc
    obtain ⟨j, hj⟩ := S.written i
    rw [hc] at hj
    have hjl : j < ctx.heap.length := by
      apply Nat.lt_of_not_le; intro q; rw [Heap.at_ge q] at hj; cases hj
    have hj0 : 0 < j := by
      apply Nat.pos_of_ne_zero; rintro rfl; rw [ok.doc.2.2] at hj; cases hj
    refine ⟨?_, ⟨_, List.mem_flatMap.2 ⟨_, mem_tail hj0 hjl, List.mem_cons_self ..⟩, by rw [← hj]; rfl⟩, ?_⟩
    · rintro rfl; exact (ok.elem j hjl).comments hj.symm
    · intro c hc'
      refine List.mem_append_left _ (List.mem_flatMap.2 ⟨_, mem_tail h0 hi, ?_⟩)
      simp only [Elem.bases, hc, Option.getD_some, List.mem_append, List.mem_map]
      exact .inl (.inl (.inl (.inl (.inl ⟨c, hc', rfl⟩))))
  | @item i k xs x hi hx hk =>
    have h0 : 0 < i := pos i (by rw [(sh.kinds.items i xs hi hx).1]; simp)
    have hm := List.mem_of_getElem? hk
    obtain ⟨_, e2, _⟩ := still_elements (S.own i)
    have hil : i < ctx.heap.length := by rw [← S.len]; exact hi
    rw [hx] at e2
    simp only [Heap.comments, Heap.sub?, hx, Option.getD_some, hk, Option.bind_some] at hc
    refine ⟨?_, ⟨(x.comments.getD [], x.piece), List.mem_flatMap.2 ⟨_, mem_tail h0 hil, ?_⟩, by rw [hc]; rfl⟩, ?_⟩
    · rintro rfl; exact (((ok.elem i hil).items xs e2.symm).2.2 x hm).comments hc
    · simp only [Elem.owners, ← e2, Option.getD_some, List.mem_cons, List.mem_append, List.mem_map]
      exact .inl (.inr ⟨x, hm, rfl⟩)
    · intro c hc'
      refine List.mem_append_left _ (List.mem_flatMap.2 ⟨_, mem_tail h0 hi, ?_⟩)
      simp only [Elem.bases, hx, Option.getD_some, List.mem_append, List.mem_flatMap]
      exact .inl (.inr ⟨x, hm, by simp only [Sub.bases, hc, Option.getD_some, List.mem_append, List.mem_map]; exact .inl ⟨c, hc', rfl⟩⟩)
  | @entry i k xs x hi hx hk =>
    have h0 : 0 < i := pos i (by rw [(sh.kinds.entries i xs hi hx).1]; simp)
    have hm := List.mem_of_getElem? hk
    obtain ⟨_, _, e2, _⟩ := still_elements (S.own i)
    have hil : i < ctx.heap.length := by rw [← S.len]; exact hi
    rw [hx] at e2
    simp only [Heap.comments, Heap.sub?, hx, Option.getD_some, hk, Option.bind_some] at hc
    refine ⟨?_, ⟨(x.comments.getD [], x.piece), List.mem_flatMap.2 ⟨_, mem_tail h0 hil, ?_⟩, by rw [hc]; rfl⟩, ?_⟩
    · rintro rfl; exact (((ok.elem i hil).entries xs e2.symm).2.2 x hm).comments hc
    · simp only [Elem.owners, ← e2, Option.getD_some, List.mem_cons, List.mem_append, List.mem_map]
      exact .inr ⟨x, hm, rfl⟩
    · intro c hc'
      refine List.mem_append_left _ (List.mem_flatMap.2 ⟨_, mem_tail h0 hi, ?_⟩)
      simp only [Elem.bases, hx, Option.getD_some, List.mem_append, List.mem_flatMap]
      exact .inr ⟨x, hm, by simp only [Sub.bases, hc, Option.getD_some, List.mem_append, List.mem_map]; exact .inl ⟨c, hc', rfl⟩⟩

/-- An instruction of an element is not a comment. -/
theorem written_not_comment (W : Written input h r b) : b.range? .commentOperator = none := by
  have key : ∀ l, HasRanges b l → RangeName.commentOperator ∉ l → b.range? .commentOperator = none := by
    intro l hl hn
    cases q : b.range? .commentOperator with
    | none => rfl
    | some p => exact absurd ((hasRanges_iff hl _).1 (by rw [q]; rfl)) hn
  have ev : ∀ v : Option Str, RangeName.commentOperator ∉ valueNames v := by intro v; cases v <;> simp [valueNames]
  have ee : ∀ v, RangeName.commentOperator ∉ escapeNames v := by intro v; cases v <;> simp [escapeNames]
  cases r with
  | elem i =>
    obtain ⟨_, esc, q⟩ := W.elem i rfl
    refine key _ q ?_
    simp only [List.mem_cons, List.mem_append, not_or]
    refine ⟨by simp, by simp, ee _, ?_⟩
    unfold elementNames
    split
    · simp
    · simp; split <;> simp
    · simp
    · simp
    · simp only [List.mem_cons, not_or]; exact ⟨by simp, ev _⟩
  | item i k =>
    refine key _ (W.item i k rfl) ?_
    simp only [List.mem_cons, not_or]; exact ⟨by simp, by simp, ev _⟩
  | entry i k =>
    obtain ⟨_, esc, q⟩ := W.entry i k rfl
    refine key _ q ?_
    simp only [List.mem_cons, List.mem_append, not_or]
    exact ⟨by simp, by simp, ee _, by simp, ev _⟩

theorem comment_facts (hl : load input = .ok ctx) (hr : FirstLine ctx.heap r b) {cs : List Comment} (hc : ctx.heap.comments r = some cs) :
    cs ≠ [] ∧ ∀ c ∈ cs, RangesOk input c.toBase ∧ TextAt input c.toBase .comment c.comment ∧ c.line < ctx.lineCount ∧ c.line ≠ b.line := by
  obtain ⟨c0, ha, _⟩ := load_ok_analyze hl
  obtain ⟨C, hin, S⟩ := loaded_all hl
  obtain ⟨h1, ⟨w, hw, rfl⟩, h3⟩ := comments_owner ha hl hr hc
  obtain ⟨B, ch⟩ := C.chart
  refine ⟨h1, fun c hcm => ?_⟩
  have hb := ch.all _ (h3 c hcm)
  refine ⟨?_, (C10_comments ha).1 w hw c hcm, ch.below _ hb, ?_⟩
  · obtain ⟨es, n, s, ht, hL, inv, lay, rfl⟩ := analyze_facts ha
    exact (owner_comments_faithful ht lay hw c hcm).1
  · intro e
    have hsame := ch.same hb (ch.all _ (firstLine_mem S C.grown.doc hr)) e
    have hn := (hasRanges_iff ((C10_comment_names ha).1 w hw c hcm) .commentOperator).2 (by simp)
    rw [hsame, written_not_comment (load_written hl hr)] at hn
    cases hn

theorem cursor_position {m : RangeName} {side : Side} {p : Nat × Nat} (R : RangesOk input b) (hp : b.range? m = some p) : cursor b m side = .ok (positionOn b (side.of p)) :=
  cursor_ok hp R.line

/-- Emphasising some lines. -/
theorem put_emphasis {s : Snippet} (ls : List Nat) (hl : ∀ n ∈ ls, n < s.length) :
    ∃ s', putAll s (ls.map fun n => (n, Tag.emphasize)) = .ok s' ∧ s'.length = s.length ∧ ∀ k, s'.getD k none = if k ∈ ls then some .emphasize else s.getD k none := by
  obtain ⟨s', h1, h2⟩ := putAll_ok (l := s) (ws := ls.map fun n => (n, Tag.emphasize)) (by
    intro w hw
    obtain ⟨n, hn, rfl⟩ := List.mem_map.1 hw
    exact hl n hn)
  refine ⟨s', h1, by omega, fun k => ?_⟩
  rw [putAll_getD h1]
  by_cases hk : k ∈ ls
  · obtain ⟨y, hy⟩ := lastWrite_isSome (n := k) (x := Tag.emphasize) (ws := ls.map fun n => (n, Tag.emphasize)) (List.mem_map.2 ⟨k, hk, rfl⟩)
    obtain ⟨n, _, q⟩ := List.mem_map.1 (lastWrite_mem hy)
    injection q with _ q
    rw [hy, if_pos hk, ← q]; rfl
  · rw [if_neg hk]
    cases hw : lastWrite (ls.map fun n => (n, Tag.emphasize)) k with
    | none => rfl
    | some y =>
      obtain ⟨n, hn, q⟩ := List.mem_map.1 (lastWrite_mem hw)
      injection q with q _
      exact absurd (q ▸ hn) hk

theorem shows_comments (C : Complete ctx) (hin : ctx.input = input) {cs : List Comment} (hb : b.line < ctx.lineCount) (hcs : ∀ c ∈ cs, c.line < ctx.lineCount ∧ c.line ≠ b.line)
    (ho : o.reporter ≠ .terminal) :
    ∃ out, makeSnippet o ctx (reportComments b (some cs)) = .ok out ∧ (o.reporter = .text → SnippetShows o input ctx.lineCount out (fun n => ∃ c ∈ cs, c.line = n) (· = b.line)) := by
  have hp := put_ok (l := List.replicate ctx.lineCount (none : Option Tag)) (n := b.line) (x := Tag.indicate) (by simpa using hb)
  obtain ⟨s', h1, h2, h3⟩ := put_emphasis (s := (List.replicate ctx.lineCount none).set b.line (some .indicate)) (cs.map (·.line)) (by
    intro n hn
    obtain ⟨c, hc, rfl⟩ := List.mem_map.1 hn
    simpa using (hcs c hc).1)
  have hg : ∀ k, s'.getD k none = if ∃ c ∈ cs, c.line = k then some .emphasize else if k = b.line then some .indicate else none := by
    intro k
    rw [h3, getD_set (by simpa using hb), fresh_getD]
    simp only [List.mem_map]
  have ne : ∀ k, (∃ c ∈ cs, c.line = k) → k ≠ b.line := by rintro k ⟨c, hc, rfl⟩; exact (hcs c hc).2
  refine snippet_shows (s := s') C hin ?_ (by rw [h2]; simp) ?_ ?_ ?_ ⟨b.line, .inr rfl⟩ ho
  · unfold reportComments
    rw [List.map_map] at h1
    simp only [bind, Except.bind, hp]
    exact h1
  · intro n; rw [hg]; split
    · simpa
    · split <;> simp_all
  · intro n; rw [hg]; split
    · rename_i q; simpa using ne n q
    · split <;> simp_all
  · intro n; rw [hg]; split
    · simp
    · split <;> simp

/-- What is known about the lines of a multiline field. -/
theorem multiline_facts {i : Nat} (hl : load input = .ok ctx) (h0 : 0 < i) (hi : i < ctx.heap.length) (ht : (ctx.heap.at i).type = .mlBegin) :
    (ctx.heap.at i).mirror = none ∧ (ctx.heap.at i).template = none ∧ ∀ ls, (ctx.heap.at i).lines = some ls → ls ≠ [] ∧ ∀ l ∈ ls, RangesOk input l ∧ l.line < ctx.lineCount := by
  obtain ⟨c0, ha, _⟩ := load_ok_analyze hl
  obtain ⟨C, hin, S⟩ := loaded_all hl
  have L := loaded ha hl
  have hi' : i < c0.heap.length := by rw [← L.non.len]; exact hi
  have ok := L.non.ok.elem i hi'
  have hm := loaded_multiline' ha hl hi ht
  have k := still_elements ((load_shadow ha hl).own i)
  have hty : (c0.heap.at i).type = .mlBegin := by
    rcases (load_shadow ha hl).type i with q | ⟨_, q | q | q⟩
    · rw [← q]; exact ht
    all_goals rw [ht] at q; cases q
  have htm : (c0.heap.at i).template = none := by rw [← k.2.2.2.2.2.2.2.1]; exact hm.1
  have hpl := L.non.plain i hi' (by rw [hty]; decide) (by rw [ok.copy]; exact htm)
  refine ⟨by rw [hpl]; exact ok.mirror, hm.1, ?_⟩
  intro ls hls
  rw [hpl] at hls
  refine ⟨(ok.lines ls hls).2.1, fun l hl' => ?_⟩
  refine ⟨?_, S.below i h0 hi l ?_⟩
  · obtain ⟨es, n, s, htr, hL, inv, lay, rfl⟩ := analyze_facts ha
    refine (parts_faithful htr lay (mem_tail h0 hi') _ (List.mem_cons_self ..) (Base.piece l) ?_).ranges
    have hls' : (s.heap.at i).lines = some ls := hls
    simp only [Elem.head, List.mem_cons, List.mem_append, List.mem_map]
    exact .inl (.inr ⟨l, by rw [hls']; exact hl', rfl⟩)
  · rw [hpl]
    simp only [Elem.rows, hls, Option.getD_some]
    simp [hl']

theorem value_type {i : Nat} (hl : load input = .ok ctx) (hi : i < ctx.heap.length) (hv : (ctx.heap.at i).value.isSome) : (ctx.heap.at i).type = .field := by
  obtain ⟨c0, ha, _⟩ := load_ok_analyze hl
  have S := load_shadow ha hl
  have ok := (analyze_analysed ha).heap.elem i (by rw [← S.len]; exact hi)
  have := ok.value (by rw [← (still_more (S.own i)).1]; exact hv)
  rcases S.type i with q | ⟨q, _⟩
  · rw [q, this]
  · rw [this] at q; cases q

theorem value_template {i : Nat} (hl : load input = .ok ctx) (hi : i < ctx.heap.length) (ht : (ctx.heap.at i).template.isSome) : (ctx.heap.at i).value = none := by
  obtain ⟨c0, ha, _⟩ := load_ok_analyze hl
  have S := load_shadow ha hl
  have ok := (analyze_analysed ha).heap.elem i (by rw [← S.len]; exact hi)
  have k := still_elements (S.own i)
  have h1 := ok.template (by rw [← k.2.2.2.2.2.2.2.1]; exact ht)
  cases hq : (ctx.heap.at i).value with
  | none => rfl
  | some v =>
    have := ok.value (by rw [← (still_more (S.own i)).1, hq]; rfl)
    rw [this] at h1; simp at h1

end Eno
