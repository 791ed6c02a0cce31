import Verif.Errors
import Verif.Proofs.WindowGaps
import Verif.Proofs.ResolveFacts
import Verif.Props.AnalyzerProps

/-! # The parse errors: what they report and select -/

namespace Eno

open Spec

variable {input : Str} {ctx : Ctx} {B : List Base} {h h0 : Heap} {index : List (Option Row)} {o : Options} {s : Snippet} {b : Base}

/-! ## Groups end within the text -/

/-- The state of the matcher for a text of length `N`. -/
structure Re.Within (N : Nat) (st : St) : Prop where
  pos : st.pos + st.rest.length = N
  caps : ∀ n c, st.caps n = some c → c.e ≤ N

theorem Re.starGo_within {N : Nat} {ma : St → (St → Option St) → Option St} {g : Bool} {x : St}
    (hm : ∀ st k, Within N st → ma st k = some x → ∃ st', Within N st' ∧ k st' = some x) :
    ∀ (n : Nat) (st : St) (k : St → Option St), Within N st → starGo ma g n st k = some x → ∃ st', Within N st' ∧ k st' = some x
  | 0, st, k, w, h => ⟨st, w, h⟩
  | n + 1, st, k, w, h => by
    have step : ∀ y, (ma st fun st' => if st'.pos = st.pos then none else starGo ma g n st' k) = some y → y = x → ∃ st', Within N st' ∧ k st' = some x := by
      intro y hy e
      subst e
      obtain ⟨st', w', h'⟩ := hm _ _ w hy
      split at h'
      · cases h'
      · exact starGo_within hm n st' k w' h'
    unfold starGo at h
    split at h
    · unfold orElse at h
      split at h
      · rename_i y hy; injection h with h; exact step y hy h
      · exact ⟨st, w, h⟩
    · unfold orElse at h
      split at h
      · rename_i y hy; injection h with h; exact ⟨st, w, by rw [hy, h]⟩
      · exact step x h rfl

theorem Re.run_within {N : Nat} : ∀ (r : Re) {x : St} (st : St) (k : St → Option St), Within N st → run r st k = some x → ∃ st', Within N st' ∧ k st' = some x
  | eps, x, st, k, w, h => ⟨st, w, h⟩
  | chr p, x, st, k, w, h => by
    unfold run at h
    split at h
    · cases h
    · rename_i c t hr
      split at h
      · refine ⟨_, ?_, h⟩
        refine ⟨?_, w.caps⟩
        have := w.pos
        simp only [adv, hr, List.length_cons, List.drop_succ_cons, List.drop_zero] at this ⊢
        omega
      · cases h
  | seq a b, x, st, k, w, h => by
    obtain ⟨st', w', h'⟩ := run_within a st _ w h
    exact run_within b st' k w' h'
  | alt a b, x, st, k, w, h => by
    unfold run orElse at h
    split at h
    · rename_i y hy; injection h with h; subst h; exact run_within a st k w hy
    · exact run_within b st k w h
  | star g a, x, st, k, w, h => starGo_within (fun st k w h => run_within a st k w h) _ st k w h
  | grp n a, x, st, k, w, h => by
    obtain ⟨st', w', h'⟩ := run_within a st _ w h
    refine ⟨_, ?_, h'⟩
    refine ⟨w'.pos, ?_⟩
    intro m c hc
    simp only [setCap] at hc
    split at hc
    · injection hc with hc; subst hc
      have := w'.pos
      simp only; omega
    · exact w'.caps m c hc
  | bref n, x, st, k, w, h => by
    unfold run at h
    split at h
    · cases h
    · split at h
      · rename_i c hc hp
        refine ⟨_, ?_, h⟩
        refine ⟨?_, w.caps⟩
        have h1 := (List.isPrefixOf_iff_prefix.1 hp).length_le
        have := w.pos
        simp only [adv, List.length_drop]
        omega
      · cases h
  | nla a, x, st, k, w, h => by
    unfold run at h
    split at h
    · cases h
    · exact ⟨st, w, h⟩
  | la a, x, st, k, w, h => by
    unfold run at h
    split at h
    · rename_i st' hst
      obtain ⟨st2, w2, e⟩ := run_within a st some w hst
      injection e with e; subst e
      refine ⟨_, ?_, h⟩
      exact ⟨w.pos, w2.caps⟩
    · cases h
  | eos, x, st, k, w, h => by
    unfold run at h
    split at h
    · exact ⟨st, w, h⟩
    · cases h

theorem unterminatedKey_le {l : Str} {n : Nat} (h : unterminatedKey l = some n) : n ≤ l.length := by
  unfold unterminatedKey at h
  rw [Option.bind_eq_some_iff] at h
  obtain ⟨st, h1, h2⟩ := h
  obtain ⟨c, h3, rfl⟩ := Option.map_eq_some_iff.1 h2
  obtain ⟨st', w, e⟩ := Re.run_within (N := l.length) _ _ _ ⟨by simp, by simp⟩ h1
  injection e with e; subst e
  exact w.caps 1 c h3

/-! ## Selections on the line of an instruction -/

/-- A selection within the line of an instruction. -/
structure SelectionOn (b : Base) (sel : Selection) : Prop where
  startLine : sel.start.line = b.line
  stopLine : sel.stop.line = b.line
  start : b.span.1 ≤ sel.start.index
  order : sel.start.index ≤ sel.stop.index
  stop : sel.stop.index ≤ b.span.2
  startColumn : sel.start.column = (sel.start.index : Int) - b.span.1
  stopColumn : sel.stop.column = (sel.stop.index : Int) - b.span.1

theorem cursor_ok {n : RangeName} {side : Side} {p : Nat × Nat} (h1 : b.range? n = some p) (h2 : b.range? .line = some b.span) :
    cursor b n side = .ok ⟨(side.of p : Int) - b.span.1, side.of p, b.line⟩ := by
  unfold cursor; rw [h1, h2]

theorem selectLine_ok (h1 : b.range? .line = some b.span) (h2 : b.span.1 ≤ b.span.2) : ∃ sel, selectLine b = .ok sel ∧ SelectionOn b sel := by
  refine ⟨_, by unfold selectLine selection; rw [cursor_ok h1 h1, cursor_ok h1 h1]; rfl, ?_⟩
  exact ⟨rfl, rfl, Nat.le_refl _, h2, Nat.le_refl _, rfl, rfl⟩

theorem range_mem {n : RangeName} {p : Nat × Nat} (h : b.range? n = some p) : (n, p) ∈ b.ranges := by
  unfold Base.range? at h
  generalize b.ranges = l at h
  induction l with
  | nil => cases h
  | cons x t ih =>
    rw [List.lookup_cons] at h
    split at h
    · rename_i e
      injection h with h
      simp at e
      rw [← h, e]; exact List.mem_cons_self
    · exact List.mem_cons_of_mem _ (ih h)

theorem selectRange_ok {n : RangeName} {p : Nat × Nat} (h1 : b.range? n = some p) (h : RangesOk input b) :
    ∃ sel, selection b n .beginning b n .ending = .ok sel ∧ SelectionOn b sel := by
  have hm := range_mem h1
  obtain ⟨w1, w2, w3⟩ := h.within n p hm
  refine ⟨_, by unfold selection; rw [cursor_ok h1 h.line, cursor_ok h1 h.line]; rfl, ?_⟩
  exact ⟨rfl, rfl, w1, w2, w3, rfl, rfl⟩

/-! ## Errors about an instruction -/

/-- The line number in a message. -/
def Msg.line? : Msg → Option Nat
  | .cyclicDependency n _ | .invalidLine n | .missingElementForContinuation n | .missingFieldsetForFieldsetEntry n | .missingListForListItem n
  | .nonSectionElementNotFound n _ | .sectionHierarchyLayerSkip n | .sectionNotFound n _ | .unterminatedEscapedKey n | .unterminatedMultilineField _ n => some n
  | _ => none

/-- A report that emphasises exactly the line of an instruction. -/
def Emphasises (ctx : Ctx) (b : Base) (report : Snippet → Except PyExc Snippet) : Prop :=
  ∃ s, report (List.replicate ctx.lineCount none) = .ok s ∧ s.length = ctx.lineCount ∧ (∀ m, s.getD m none = some .emphasize ↔ m = b.line) ∧ Marked s

/-- An error about an instruction, up to the reporter. -/
def ErrorAbout (o : Options) (ctx : Ctx) (b : Base) (P : Snippet → Prop) (e : Except PyExc ErrObj) : Prop :=
  ∃ report text sel, e = (makeSnippet o ctx report).map (fun snippet => ⟨text, snippet, sel⟩) ∧ Emphasises ctx b report ∧ SelectionOn b sel ∧
    (∀ n, text.line? = some n → n = b.line + 1) ∧ ∀ s, report (List.replicate ctx.lineCount none) = .ok s → P s

theorem getD_set {l : List (Option α)} {n m : Nat} {x : α} (hn : n < l.length) : (l.set n (some x)).getD m none = if m = n then some x else l.getD m none := by
  simp only [List.getD, List.getElem?_set]
  by_cases e : m = n
  · subst e; simp [hn]
  · simp [e, Ne.symm e]

theorem fresh_getD (n m : Nat) : (List.replicate n (none : Option Tag)).getD m none = none := by
  rw [List.getD]
  cases h : (List.replicate n (none : Option Tag))[m]? with
  | none => rfl
  | some x =>
    have := List.mem_of_getElem? h
    simp at this
    simp [this.2]

theorem emphasises_line (hb : b.line < ctx.lineCount) : Emphasises ctx b (markLine .emphasize b) := by
  refine ⟨_, put_ok (by simpa using hb), by simp, ?_, ?_⟩
  · intro m
    rw [getD_set (by simpa using hb), fresh_getD]
    split <;> simp_all
  · intro t ht
    rcases List.mem_or_eq_of_mem_set ht with ht | ht
    · simp at ht
    · injection ht with ht; exact .inl ht

theorem marked_putAll {ws : List (Nat × Tag)} {s s' : Snippet} (h : putAll s ws = .ok s') (hs : Marked s)
    (hw : ∀ w ∈ ws, w.2 = .emphasize ∨ w.2 = .indicate ∨ w.2 = .question) : Marked s' := by
  intro t ht
  obtain ⟨n, hn, e⟩ := List.getElem_of_mem ht
  have hg := putAll_getD h n
  rw [List.getD, List.getElem?_eq_getElem hn, e] at hg
  simp only [Option.getD_some] at hg
  cases hl : lastWrite ws n with
  | some u =>
    rw [hl] at hg
    simp only [Option.some_or, Option.some.injEq] at hg
    rw [hg]; exact hw _ (lastWrite_mem hl)
  | none =>
    rw [hl, Option.none_or] at hg
    refine hs t ?_
    rw [List.getD] at hg
    cases hx : s[n]? with
    | none => rw [hx] at hg; cases hg
    | some x => rw [hx] at hg; simp at hg; subst hg; exact List.mem_of_getElem? hx

/-- Further marks on other lines. -/
theorem emphasises_more {ws : List (Nat × Tag)} (hb : b.line < ctx.lineCount) (hw : ∀ w ∈ ws, w.1 < ctx.lineCount ∧ w.1 ≠ b.line ∧ (w.2 = .indicate ∨ w.2 = .question)) :
    Emphasises ctx b (fun s => do let s ← markLine .emphasize b s; putAll s ws) := by
  obtain ⟨s1, h1, h2, h3, hM⟩ := emphasises_line (ctx := ctx) hb
  obtain ⟨s2, h4, h5⟩ := putAll_ok (l := s1) (ws := ws) (by intro w hw'; rw [h2]; exact (hw w hw').1)
  refine ⟨s2, by simp only [h1]; exact h4, by omega, ?_, marked_putAll h4 hM fun w hw' => .inr (hw w hw').2.2⟩
  intro m
  rw [putAll_getD h4]
  cases hl : lastWrite ws m with
  | none => simpa using h3 m
  | some t =>
    have hm := lastWrite_mem hl
    have := hw _ hm
    simp only [Option.some_or, Option.some.injEq]
    constructor
    · rintro rfl; rcases this.2.2 with e | e <;> cases e
    · intro e; exact absurd e this.2.1

theorem errorAbout_line {text : Msg} {P : Snippet → Prop} (ht : ∀ n, text.line? = some n → n = b.line + 1) (h1 : b.range? .line = some b.span) (h2 : b.span.1 ≤ b.span.2)
    {report : Snippet → Except PyExc Snippet} (hr : Emphasises ctx b report)
    (hP : ∀ s, report (List.replicate ctx.lineCount none) = .ok s → P s) :
    ErrorAbout o ctx b P (do let snippet ← makeSnippet o ctx report; .ok ⟨text, snippet, ← selectLine b⟩) := by
  obtain ⟨sel, h3, h4⟩ := selectLine_ok h1 h2
  refine ⟨_, text, sel, ?_, hr, h4, ht, hP⟩
  rw [h3]
  cases makeSnippet o ctx report <;> rfl

/-! ## Errors of the analysis -/

/-- The line without a type is shown. -/
def ShowsUntyped (ctx : Ctx) (s : Snippet) : Prop := ∃ x t, Untyped ctx x ∧ s.getD x.line none = some t ∧ t ≠ .omission

theorem shows_of_emphasis {report : Snippet → Except PyExc Snippet} (U : Untyped ctx b) (hr : Emphasises ctx b report) :
    ∀ s, report (List.replicate ctx.lineCount none) = .ok s → ShowsUntyped ctx s := by
  intro s hs
  obtain ⟨s', h1, _, h2, _⟩ := hr
  rw [h1] at hs; injection hs with hs; subst hs
  exact ⟨b, .emphasize, U, (h2 _).2 rfl, by simp⟩

theorem analysis_error {k : FailKind} (h : analyze input = .error (.parse k ctx b)) (o : Options) :
    ErrorAbout o ctx b (ShowsUntyped ctx) (analysisError o ctx b k) := by
  obtain ⟨R, A, U⟩ := analysis_context h
  obtain ⟨B, C⟩ := R.chart
  have hB := C.all b A.mem
  have hb := C.below b hB
  have hle := A.isLine.le
  have hline := fun (U : Untyped ctx b) (t : Msg) ht =>
    errorAbout_line (o := o) (text := t) ht A.range hle (emphasises_line hb) (shows_of_emphasis U (emphasises_line hb))
  cases k with
  | invalidLine =>
    simp only [analysisError, invalidLine]
    split
    · rename_i column hc
      have hcl := unterminatedKey_le hc
      have hsl : (sourceText ctx.input b).length = b.span.2 - b.span.1 := by
        have := A.isLine.inside
        rw [A.source]
        simp only [sourceText, List.length_drop, List.length_take]
        omega
      refine ⟨markLine .emphasize b, .unterminatedEscapedKey (b.line + 1), ⟨⟨column, b.span.1 + column, b.line⟩, ⟨(b.span.2 : Int) - b.span.1, b.span.2, b.line⟩⟩, ?_,
        emphasises_line hb, ⟨rfl, rfl, ?_, ?_, Nat.le_refl _, ?_, rfl⟩, by simp [Msg.line?], shows_of_emphasis U (emphasises_line hb)⟩
      · unfold unterminatedEscapedKey
        rw [cursor_ok A.range A.range]
        cases makeSnippet o ctx (markLine .emphasize b) <;> rfl
      · simp
      · simp only; omega
      · simp only; omega
    · exact hline U _ (by simp [Msg.line?])
  | missingListForListItem => exact hline U _ (by simp [Msg.line?])
  | missingFieldsetForFieldsetEntry => exact hline U _ (by simp [Msg.line?])
  | missingElementForContinuation => exact hline U _ (by simp [Msg.line?])
  | sectionHierarchyLayerSkip sup =>
    refine (fun hE => errorAbout_line (by simp [Msg.line?]) A.range hle hE (shows_of_emphasis U hE)) ?_
    by_cases hd : (ctx.heap.at sup).type = .document
    · have := emphasises_line (ctx := ctx) hb
      obtain ⟨s, h1, h2⟩ := this
      exact ⟨s, by simp only [h1, hd]; rfl, h2⟩
    · have hsup : 0 < sup ∧ sup < ctx.heap.length := by
        refine ⟨Nat.pos_of_ne_zero ?_, Nat.lt_of_not_le ?_⟩
        · rintro rfl; exact hd R.grown.doc
        · intro hge; rw [Heap.at_ge hge] at hd; exact hd rfl
      have hmem : (ctx.heap.at sup).toBase ∈ ctx.heap.tail.flatMap Elem.bases := by
        rw [List.mem_flatMap]
        exact ⟨_, mem_tail hsup.1 hsup.2, by simp [Elem.bases]⟩
      have h1 := U.before _ hmem
      have h2 := C.below _ (C.all _ (List.mem_append_left _ hmem))
      have := emphasises_more (ctx := ctx) (ws := [((ctx.heap.at sup).line, .indicate)]) hb (by
        intro w hw
        rw [List.mem_singleton] at hw; subst hw
        exact ⟨h2, by simp only; omega, by simp⟩)
      obtain ⟨s, h3, h4⟩ := this
      refine ⟨s, ?_, h4⟩
      rw [← h3]
      simp only [ne_eq, hd, not_false_eq_true, if_true]
      cases markLine .emphasize b (List.replicate ctx.lineCount none) with
      | error e => rfl
      | ok s => simp [putAll, markLine]
  | unterminatedMultilineField f =>
    obtain ⟨F, x, hx, hxl⟩ := U
    simp only [analysisError, unterminatedMultilineField]
    rw [F.base]
    have hre : ∀ s, reportElement ctx.heap (.elem f) s = markLine .emphasize b s := by
      intro s
      simp only [reportElement, Heap.base?, F.type, tagRef, tagElement, tagLeaf, tagMultiline, F.lines, F.fin, F.base, markLine]
      simp only [reduceCtorEq, if_false]
      cases hp : put s b.line Tag.emphasize with
      | error e => show (put s b.line Tag.emphasize >>= _) = _; rw [hp]; rfl
      | ok s => show (put _ b.line Tag.emphasize >>= _) = _; rw [hp]; rfl
    simp only [hre]
    refine errorAbout_line (by simp [Msg.line?]) A.range hle ?_ ?_
    rotate_left
    · intro s hs
      change (markLine _ _ _ >>= _) = _ at hs
      cases hm : markLine .emphasize b (List.replicate ctx.lineCount none) with
      | error e => rw [hm] at hs; cases hs
      | ok s1 =>
        rw [hm] at hs
        have hg := putAll_getD (show putAll s1 _ = .ok s from hs) x.line
        obtain ⟨y, hy⟩ := lastWrite_isSome (n := x.line) (x := Tag.indicate)
          (ws := (ctx.metas.filter fun m => m.base.line > b.line).map fun m => (m.base.line, Tag.indicate))
          (List.mem_map.2 ⟨_, List.mem_filter.2 ⟨hx.mem, by simp [Meta.base]; omega⟩, rfl⟩)
        obtain ⟨m, _, hm2⟩ := List.mem_map.1 (lastWrite_mem hy)
        injection hm2 with _ hm2
        rw [hy] at hg
        exact ⟨x, y, hx, hg, by rw [← hm2]; simp⟩
    have := emphasises_more (ctx := ctx) (b := b) (ws := (ctx.metas.filter fun m => m.base.line > b.line).map fun m => (m.base.line, .indicate)) hb (by
      intro w hw
      obtain ⟨m, hm, rfl⟩ := List.mem_map.1 hw
      obtain ⟨hm, hg⟩ := List.mem_filter.1 hm
      simp at hg
      exact ⟨C.below _ (C.all _ (List.mem_append_right _ (List.mem_map_of_mem hm))), by simp only; omega, by simp⟩)
    exact this

/-! ## Errors while resolving -/

/-- An element of the document. -/
def Present (h : Heap) (i : Nat) : Prop := 0 < i ∧ i < h.length

/-- What a resolution error is about. -/
def RFacts (h : Heap) (b : Base) : RFail → Prop
  | .cyclicDependency i chain => Present h i ∧ (h.at i).toBase = b ∧ (h.at i).template.isSome ∧ ∀ j ∈ chain, Present h j
  | .missingListForListItem x => x.toBase = b ∧ ∃ i xs, Present h i ∧ (h.at i).items = some (x :: xs)
  | .missingFieldsetForFieldsetEntry x => x.toBase = b ∧ ∃ i xs, Present h i ∧ (h.at i).entries = some (x :: xs)
  | .nonSectionElementNotFound i | .sectionNotFound i => Present h i ∧ (h.at i).toBase = b ∧ (h.at i).template.isSome
  | .twoOrMoreTemplatesFound i j k => Present h i ∧ (h.at i).toBase = b ∧ (h.at i).template.isSome ∧ Present h j ∧ Present h k ∧ i ≠ j ∧ i ≠ k

theorem present_copy (ok : HeapOk h0) {i : Nat} {k : Str} (h1 : i < h0.length) (h2 : (h0.at i).copy = some k) : Present h0 i ∧ (h0.at i).template = some k := by
  have e := ok.elem i h1
  have ht : (h0.at i).template = some k := by rw [← e.copy]; exact h2
  refine ⟨⟨Nat.pos_of_ne_zero ?_, h1⟩, ht⟩
  rintro rfl
  have := e.template (by rw [ht]; rfl)
  rw [ok.doc.1] at this
  simp at this

theorem present_candidate {sec : Bool} {k : Str} {i : Nat} (h1 : i ∈ candidates h0 sec k) : Present h0 i ∧ (h0.at i).template ≠ some k := by
  unfold candidates at h1
  simp only [List.mem_filter, List.mem_range, Bool.and_eq_true, decide_eq_true_eq] at h1
  exact ⟨⟨h1.2.1.1.1, h1.1⟩, h1.2.1.2⟩

theorem present_leads {i j : Nat} (h1 : Leads h0 i j) : Present h0 j := by
  have key : ∀ {i t}, TemplateIs h0 i t → Present h0 t := by
    rintro i t ⟨_, k, _, hc⟩
    exact (present_candidate (h0 := h0) (by rw [hc]; simp)).1
  induction h1 with
  | one h => exact key h
  | step _ _ ih => exact ih

theorem present_depLeads (ok : HeapOk h0) {i j : Nat} (h1 : DepLeads h0 i j) : Present h0 j := by
  have key : ∀ {i t}, Dep h0 i t → Present h0 t := by
    rintro i t ⟨hs, _⟩
    refine ⟨Nat.pos_of_ne_zero ?_, Nat.lt_of_not_le ?_⟩
    · rintro rfl; rw [ok.doc.1] at hs; cases hs
    · intro hge; rw [Heap.at_ge hge] at hs; cases hs
  induction h1 with
  | one h => exact key h
  | step _ _ ih => exact ih

theorem rfacts_outcome (ok : HeapOk h0) {k : RFail} (h1 : Outcome h0 (.error (.parse k h))) : ∃ b, RFacts h0 b k := by
  rcases h1 with h1 | ⟨_, h1 | ⟨_, _, h1⟩⟩
  · cases k <;> simp only [Ambiguous] at h1
    obtain ⟨sec, k, hc, hf, hs, _⟩ := h1
    obtain ⟨c1, c2, _⟩ := mem_copiers.1 hc
    obtain ⟨p, ht⟩ := present_copy ok c1 c2
    obtain ⟨pf, tf⟩ := present_candidate hf
    obtain ⟨ps, ts⟩ := present_candidate hs
    refine ⟨_, p, rfl, by rw [ht]; rfl, pf, ps, ?_, ?_⟩
    · rintro rfl; exact tf ht
    · rintro rfl; exact ts ht
  · cases k <;> simp only [NFail] at h1
    · obtain ⟨h1, h2, h3, h4, h5⟩ := h1
      have h6 : (h0.at ‹Nat›).template.isSome := by
        cases h3 with
        | one q => obtain ⟨hl, k, hk, _⟩ := q; rw [(present_copy ok hl hk).2]; rfl
        | step q _ => obtain ⟨hl, k, hk, _⟩ := q; rw [(present_copy ok hl hk).2]; rfl
      exact ⟨_, present_leads h3, rfl, h6, fun j hj => present_leads (h5 j hj)⟩
    · obtain ⟨i, xs, h1, _, h2, h3⟩ := h1
      refine ⟨_, rfl, i, xs, ⟨Nat.pos_of_ne_zero ?_, h1⟩, h3⟩
      rintro rfl; rw [ok.doc.1] at h2; cases h2
    · obtain ⟨i, xs, h1, _, h2, h3⟩ := h1
      refine ⟨_, rfl, i, xs, ⟨Nat.pos_of_ne_zero ?_, h1⟩, h3⟩
      rintro rfl; rw [ok.doc.1] at h2; cases h2
    · obtain ⟨k, h1, _, h2, _⟩ := h1
      obtain ⟨p, ht⟩ := present_copy ok h1 h2
      exact ⟨_, p, rfl, by rw [ht]; rfl⟩
  · cases k <;> simp only [SFail] at h1
    · obtain ⟨h1, h2, h3, h4, _, h5⟩ := h1
      obtain ⟨k, hk⟩ := Option.isSome_iff_exists.1 h3
      exact ⟨_, present_depLeads ok h4, rfl, by rw [(present_copy ok h1 hk).2]; rfl, fun j hj => present_depLeads ok (h5 j hj)⟩
    · obtain ⟨k, h1, _, h2, _⟩ := h1
      obtain ⟨p, ht⟩ := present_copy ok h1 h2
      exact ⟨_, p, rfl, by rw [ht]; rfl⟩

theorem rfacts_shadow (S : Shadow h0 h) {k : RFail} (f : RFacts h0 b k) : RFacts h b k := by
  have eq : ∀ i, (h.at i).toBase = (h0.at i).toBase ∧ (h.at i).template = (h0.at i).template ∧ (h.at i).items = (h0.at i).items ∧
      (h.at i).entries = (h0.at i).entries := by
    intro i
    obtain ⟨_, e2, e3, _, _, _, e7, e8, _⟩ := still_elements (S.own i)
    exact ⟨e7, e8, e2, e3⟩
  have pr : ∀ i, Present h0 i → Present h i := fun i p => ⟨p.1, by rw [S.len]; exact p.2⟩
  cases k with
  | cyclicDependency i chain => exact ⟨pr i f.1, by rw [(eq i).1]; exact f.2.1, by rw [(eq i).2.1]; exact f.2.2.1, fun j hj => pr j (f.2.2.2 j hj)⟩
  | missingListForListItem x => obtain ⟨h1, i, xs, h2, h3⟩ := f; exact ⟨h1, i, xs, pr i h2, by rw [(eq i).2.2.1]; exact h3⟩
  | missingFieldsetForFieldsetEntry x => obtain ⟨h1, i, xs, h2, h3⟩ := f; exact ⟨h1, i, xs, pr i h2, by rw [(eq i).2.2.2]; exact h3⟩
  | nonSectionElementNotFound i => exact ⟨pr i f.1, by rw [(eq i).1]; exact f.2.1, by rw [(eq i).2.1]; exact f.2.2⟩
  | sectionNotFound i => exact ⟨pr i f.1, by rw [(eq i).1]; exact f.2.1, by rw [(eq i).2.1]; exact f.2.2⟩
  | twoOrMoreTemplatesFound i j k =>
    obtain ⟨h1, h2, h3, h4, h5, h6⟩ := f
    exact ⟨pr i h1, by rw [(eq i).1]; exact h2, by rw [(eq i).2.1]; exact h3, pr j h4, pr k h5, h6⟩

theorem load_error {x : RExc} (h1 : load input = .error (.resolution x)) : ∃ ctx, analyze input = .ok ctx ∧ resolve ctx = .error x := by
  unfold load at h1
  split at h1
  · cases h1
  · rename_i ctx ha
    split at h1
    · split at h1
      · rename_i e he; injection h1 with h1; injection h1 with h1; subst h1; exact ⟨ctx, ha, he⟩
      · cases h1
    · cases h1

/-- The context of an error while resolving. -/
structure Unresolved (input : Str) (ctx : Ctx) (b : Base) (k : RFail) : Prop where
  source : ctx.input = input
  complete : Complete ctx
  facts : RFacts ctx.heap b k
  mem : b ∈ ctx.instructions
  ranges : RangesOk input b
  template : ∀ i, Present ctx.heap i → (ctx.heap.at i).template.isSome → ((ctx.heap.at i).toBase.range? .template).isSome
  apart : ∀ i j, Present ctx.heap i → Present ctx.heap j → i ≠ j → (ctx.heap.at i).line ≠ (ctx.heap.at j).line

theorem element_mem {i : Nat} (p : Present ctx.heap i) : (ctx.heap.at i).toBase ∈ ctx.instructions :=
  List.mem_append_left _ (List.mem_flatMap.2 ⟨_, mem_tail p.1 p.2, by simp [Elem.bases]⟩)

theorem elements_apart (h1 : analyze input = .ok ctx) {i j : Nat} (pi : Present ctx.heap i) (pj : Present ctx.heap j) (hij : i < j) :
    (ctx.heap.at i).line < (ctx.heap.at j).line := by
  have ho := (C09_ordered h1).1
  rw [List.pairwise_map] at ho
  have : (ctx.heap.tail.map Elem.toBase).Pairwise fun a b => Before (spotOf a) (spotOf b) := by
    refine ho.sublist ?_
    generalize ctx.heap.tail = l
    clear ho pi pj h1
    induction l with
    | nil => exact List.Sublist.slnil
    | cons e t ih =>
      rw [List.map_cons, List.flatMap_cons]
      have h1 : [e.toBase].Sublist e.bases := List.singleton_sublist.2 (by simp [Elem.bases])
      exact h1.append ih
  rw [List.pairwise_map, List.pairwise_iff_getElem] at this
  have h3 := this (i - 1) (j - 1) (by simp; have := pi.2; have := pi.1; omega) (by simp; have := pj.2; have := pj.1; omega) (by have := pi.1; omega)
  have g : ∀ k (p : Present ctx.heap k) (hk : k - 1 < ctx.heap.tail.length), ctx.heap.tail[k - 1] = ctx.heap.at k := by
    intro k p hk
    rw [Heap.at_eq_getElem p.2, List.getElem_tail]
    congr 1; have := p.1; omega
  rw [g i pi, g j pj] at h3
  exact h3.1

theorem resolution_context {k : RFail} (h1 : load input = .error (.resolution (.parse k h))) :
    ∃ ctx b, analyze input = .ok ctx ∧ Unresolved input { ctx with heap := h } b k := by
  obtain ⟨ctx, ha, hr⟩ := load_error h1
  have a := analyze_analysed ha
  have S := shadow_resolve ctx
  have O := (resolve_outcome a).1
  rw [hr] at S O
  simp only at S
  obtain ⟨C, ok, hin⟩ := complete_analyze ha
  obtain ⟨b, f⟩ := rfacts_outcome ok O
  have eq : ∀ i, (h.at i).toBase = (ctx.heap.at i).toBase ∧ (h.at i).template = (ctx.heap.at i).template := by
    intro i
    obtain ⟨_, _, _, _, _, _, e7, e8, _⟩ := still_elements (S.own i)
    exact ⟨e7, e8⟩
  have pr : ∀ i, Present h i → Present ctx.heap i := fun i p => ⟨p.1, by rw [← S.len]; exact p.2⟩
  have hmem0 : b ∈ ctx.instructions := by
    cases k with
    | cyclicDependency i chain => rw [← f.2.1]; exact element_mem f.1
    | nonSectionElementNotFound i => rw [← f.2.1]; exact element_mem f.1
    | sectionNotFound i => rw [← f.2.1]; exact element_mem f.1
    | twoOrMoreTemplatesFound i => rw [← f.2.1]; exact element_mem f.1
    | missingListForListItem x =>
      obtain ⟨rfl, i, xs, p, e⟩ := f
      exact List.mem_append_left _ (List.mem_flatMap.2 ⟨_, mem_tail p.1 p.2, by simp [Elem.bases, e, Sub.bases]⟩)
    | missingFieldsetForFieldsetEntry x =>
      obtain ⟨rfl, i, xs, p, e⟩ := f
      exact List.mem_append_left _ (List.mem_flatMap.2 ⟨_, mem_tail p.1 p.2, by simp [Elem.bases, e, Sub.bases]⟩)
  refine ⟨ctx, b, ha, hin, complete_shadow ha S, rfacts_shadow S f, (shadow_instructions ok S b).2 hmem0, C10_ranges ha b hmem0, ?_, ?_⟩
  · intro i p ht
    simp only at p ht ⊢
    rw [(eq i).1]
    rw [(eq i).2] at ht
    obtain ⟨t, ht⟩ := Option.isSome_iff_exists.1 ht
    have := (C10_texts ha (ctx.heap.at i) (mem_tail p.1 (pr i p).2) (ctx.heap.at i).head (by simp [Elem.parts]) (ctx.heap.at i).piece (by simp [Elem.head])).2.2
    obtain ⟨r, hr, _⟩ := this t ht
    have hr' : (ctx.heap.at i).toBase.range? .template = some r := hr
    rw [hr']; rfl
  · intro i j p q hij
    simp only at p q ⊢
    rw [congrArg Base.line (eq i).1, congrArg Base.line (eq j).1]
    rcases Nat.lt_or_gt_of_ne hij with e | e
    · have := elements_apart ha (pr i p) (pr j q) e; omega
    · have := elements_apart ha (pr j q) (pr i p) e; omega

theorem resolution_error {k : RFail} (U : Unresolved input ctx b k) (o : Options) : ErrorAbout o ctx b (fun _ => True) (resolutionError o ctx k) := by
  obtain ⟨B, C, hB⟩ := U.complete.full
  have hb := C.below b (C.all b U.mem)
  have below : ∀ i, Present ctx.heap i → (ctx.heap.at i).line < ctx.lineCount := fun i p => C.below _ (C.all _ (element_mem p))
  have hline := fun (t : Msg) ht => errorAbout_line (o := o) (text := t) ht U.ranges.line U.ranges.le (emphasises_line hb) (P := fun _ => True) (fun _ _ => trivial)
  have name : ∀ i, (ctx.heap.at i).template.isSome → ∃ t, templateName (ctx.heap.at i) = .ok t := by
    intro i hi
    obtain ⟨t, ht⟩ := Option.isSome_iff_exists.1 hi
    exact ⟨t, by rw [templateName, ht]⟩
  have f := U.facts
  cases k with
  | missingListForListItem x => obtain ⟨rfl, _⟩ := f; exact hline _ (by simp [Msg.line?])
  | missingFieldsetForFieldsetEntry x => obtain ⟨rfl, _⟩ := f; exact hline _ (by simp [Msg.line?])
  | nonSectionElementNotFound i =>
    obtain ⟨_, rfl, h2⟩ := f
    obtain ⟨t, ht⟩ := name i h2
    simp only [resolutionError, notFound, ht]
    exact hline _ (by simp [Msg.line?])
  | sectionNotFound i =>
    obtain ⟨_, rfl, h2⟩ := f
    obtain ⟨t, ht⟩ := name i h2
    simp only [resolutionError, notFound, ht]
    exact hline _ (by simp [Msg.line?])
  | twoOrMoreTemplatesFound i j k =>
    obtain ⟨pi, rfl, h2, pj, pk, h3, h4⟩ := f
    obtain ⟨t, ht⟩ := name i h2
    simp only [resolutionError, twoOrMoreTemplates, ht]
    refine errorAbout_line (by simp [Msg.line?]) U.ranges.line U.ranges.le ?_ (fun _ _ => trivial)
    obtain ⟨s, h5, h6⟩ := emphasises_more (ctx := ctx) (b := (ctx.heap.at i).toBase) (ws := [((ctx.heap.at j).line, .question), ((ctx.heap.at k).line, .question)]) hb (by
      intro w hw
      simp only [List.mem_cons, List.not_mem_nil, or_false] at hw
      rcases hw with rfl | rfl
      · exact ⟨below j pj, U.apart j i pj pi (Ne.symm h3), by simp⟩
      · exact ⟨below k pk, U.apart k i pk pi (Ne.symm h4), by simp⟩)
    refine ⟨s, ?_, h6⟩
    rw [← h5]
    show (markLine _ _ _ >>= _) = (markLine _ _ _ >>= _)
    cases markLine .emphasize (ctx.heap.at i).toBase (List.replicate ctx.lineCount none) with
    | error e => rfl
    | ok s => simp [putAll, markLine]
  | cyclicDependency i chain =>
    obtain ⟨pi, rfl, h2, h3⟩ := f
    obtain ⟨t, ht⟩ := name i h2
    simp only [resolutionError, cyclicError, ht]
    obtain ⟨p, hp⟩ := Option.isSome_iff_exists.1 (U.template i pi h2)
    obtain ⟨sel, h4, h5⟩ := selectRange_ok hp U.ranges
    have hE := emphasises_more (ctx := ctx) (b := (ctx.heap.at i).toBase) (ws := (chain.filter (· ≠ i)).map fun j => ((ctx.heap.at j).line, .indicate)) hb (by
      intro w hw
      obtain ⟨j, hj, rfl⟩ := List.mem_map.1 hw
      obtain ⟨hj, hne⟩ := List.mem_filter.1 hj
      simp at hne
      exact ⟨below j (h3 j hj), U.apart j i (h3 j hj) pi hne, by simp⟩)
    refine ⟨_, .cyclicDependency ((ctx.heap.at i).line + 1) t, sel, ?_, hE, h5, by simp [Msg.line?], fun _ _ => trivial⟩
    simp only [selectTemplate, h4]
    cases makeSnippet o ctx _ <;> rfl

end Eno
