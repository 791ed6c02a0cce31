import Verif.Proofs.LookupHits
import Verif.Proofs.ReadRaw
import Verif.Props.ResolverProps
import Verif.Props.AnalyzerProps

/-! # What lookup relies on holds of every loaded document -/

namespace Eno

open Spec

variable {input : Str} {ctx ctx' : Ctx} {i j : Nat}

/-- Loading keeps what lookup reads, apart from types. -/
structure Kept' (a b : Elem) : Prop where
  base : b.toBase = a.toBase
  parent : b.parent = a.parent
  elements : b.elements = a.elements
  items : b.items = a.items
  entries : b.entries = a.entries
  continuations : b.continuations = a.continuations
  lines : b.lines = a.lines
  fin : b.fin = a.fin
  template : b.template = a.template

theorem kept' (ha : analyze input = .ok ctx) (hl : load input = .ok ctx') (hi : i < ctx.heap.length) : Kept' (ctx.heap.at i) (ctx'.heap.at i) := by
  have e := C34_own ha hl hi
  constructor <;> (rw [e])

theorem Kept'.rows {a b : Elem} (k : Kept' a b) : b.rows = a.rows := by
  unfold Elem.rows
  rw [k.base, k.continuations, k.lines, k.fin, k.items, k.entries]

theorem load_length (ha : analyze input = .ok ctx) (hl : load input = .ok ctx') : ctx'.heap.length = ctx.heap.length := by
  obtain ⟨c, hc', _, _, hlen⟩ := load_ok_analyze hl
  rw [ha] at hc'; injection hc' with hc'; subst hc'
  exact hlen

theorem analyzed_apart (ha : analyze input = .ok ctx) {s y c x : Nat} (hx : x < ctx.heap.length) (h1 : (ctx.heap.at x).parent = some y)
    (h2 : (ctx.heap.at c).parent = some s) (h3 : s < y) (h4 : y < c) (h5 : c < x) : False := by
  -- `y` is a section that begins between `s` and `c`
  have hy : (ctx.heap.at y).type = .section := by
    by_cases hs : (ctx.heap.at x).type = .section
    · obtain ⟨p, e1, _, e3, e4, e5, _⟩ := C12_nesting ha x hx hs
      rw [h1] at e1; injection e1 with e1; subst e1
      obtain ⟨_, _, _, _, hd⟩ := C12_depth ha x hx hs
      by_cases hd1 : (ctx.heap.at x).depth = 1
      · have := e4 hd1; omega
      · exact e5 (by omega)
    · obtain ⟨p, e1, _, e3, _⟩ := C14_parent ha x (by omega) hx hs
      rw [h1] at e1; injection e1 with e1; subst e1
      rcases e3 with e3 | e3
      · exact e3
      · omega
  by_cases hc : (ctx.heap.at c).type = .section
  · obtain ⟨p, e1, _, e3, _, _, e6⟩ := C12_nesting ha c (by omega) hc
    rw [h2] at e1; injection e1 with e1; subst e1
    have hcy := e6 y h3 h4 hy
    by_cases hs : (ctx.heap.at x).type = .section
    · obtain ⟨p, f1, _, f3, _, _, f6⟩ := C12_nesting ha x hx hs
      rw [h1] at f1; injection f1 with f1; subst f1
      have := f6 c h4 h5 hc
      omega
    · obtain ⟨p, f1, _, _, f4⟩ := C14_parent ha x (by omega) hx hs
      rw [h1] at f1; injection f1 with f1; subst f1
      exact f4 c h4 h5 hc
  · obtain ⟨p, e1, _, _, e4⟩ := C14_parent ha c (by omega) (by omega) hc
    rw [h2] at e1; injection e1 with e1; subst e1
    exact e4 y h3 h4 hy

theorem loaded_tree (ha : analyze input = .ok ctx) (hl : load input = .ok ctx') : Tree ctx'.heap := by
  have L := loaded ha hl
  have hlen := load_length ha hl
  have ok := L.non.ok
  have outside : ∀ i, ¬ i < ctx.heap.length → (ctx.heap.at i) = Elem.document ∧ (ctx'.heap.at i) = Elem.document := by
    intro i hi
    unfold Heap.at
    rw [List.getD_eq_getElem?_getD, List.getD_eq_getElem?_getD, List.getElem?_eq_none (by omega), List.getElem?_eq_none (by omega)]
    exact ⟨rfl, rfl⟩
  have par : ∀ i, (ctx'.heap.at i).parent = (ctx.heap.at i).parent := by
    intro i
    by_cases hi : i < ctx.heap.length
    · exact (kept' ha hl hi).parent
    · rw [(outside i hi).1, (outside i hi).2]
  refine ⟨?_, ?_, by rw [hlen]; exact ok.pos, ?_, ?_⟩
  · intro p hp
    rw [hlen] at hp
    rw [(kept' ha hl hp).elements, ok.els p hp, hlen]
    exact List.filter_congr fun i _ => by rw [par]
  · rw [par]; exact ok.doc.2.1
  · intro i hi hil
    rw [hlen] at hil
    obtain ⟨_, p, h1, h2, h3⟩ := ok.par i hi hil
    refine ⟨p, by rw [par]; exact h1, h2, ?_⟩
    by_cases hp : p = 0
    · exact .inr hp
    · refine .inl (L.secType p (by omega) ?_)
      rcases h3 with h3 | h3
      · exact absurd h3 (ok.par p (by omega) (by omega)).1
      · exact h3
  · intro s y c x hx h1 h2
    rw [par] at h1 h2
    exact fun h3 h4 h5 => analyzed_apart ha (by omega) h1 h2 h3 h4 h5

theorem subRows_sublist (x : Sub) : List.Sublist x.rows x.bases := by
  unfold Sub.rows Sub.bases
  exact List.sublist_append_right _ _

theorem flatMap_sublist {α β} {f g : α → List β} (hfg : ∀ a, List.Sublist (f a) (g a)) (l : List α) : List.Sublist (l.flatMap f) (l.flatMap g) := by
  induction l with
  | nil => exact List.Sublist.refl _
  | cons a l ih => rw [List.flatMap_cons, List.flatMap_cons]; exact List.Sublist.append (hfg a) ih

theorem rows_sublist (e : Elem) : List.Sublist e.rows e.bases := by
  unfold Elem.rows Elem.bases
  refine List.Sublist.append (List.Sublist.append (List.Sublist.append (List.Sublist.append ?_ (List.Sublist.refl _)) (List.Sublist.refl _))
    (flatMap_sublist subRows_sublist _)) (flatMap_sublist subRows_sublist _)
  exact List.sublist_append_right _ _

theorem pairwise_flatMap {α β} {R : β → β → Prop} {f : α → List β} {l : List α} (hp : (l.flatMap f).Pairwise R) :
    (∀ a ∈ l, (f a).Pairwise R) ∧ l.Pairwise fun a b => ∀ x ∈ f a, ∀ y ∈ f b, R x y := by
  induction l with
  | nil => simp
  | cons a l ih =>
    rw [List.flatMap_cons] at hp
    obtain ⟨h1, h2, h3⟩ := List.pairwise_append.1 hp
    obtain ⟨i1, i2⟩ := ih h2
    refine ⟨?_, ?_⟩
    · intro b hb
      rcases List.mem_cons.1 hb with rfl | hb
      · exact h1
      · exact i1 b hb
    · rw [List.pairwise_cons]
      exact ⟨fun b hb x hx y hy => h3 x hx y (List.mem_flatMap.2 ⟨b, hb, hy⟩), i2⟩

theorem at_tail {h : Heap} (hi : 0 < i) (hl : i < h.length) : ∃ hl' : i - 1 < h.tail.length, h.tail[i - 1] = h.at i := by
  have hl' : i - 1 < h.tail.length := by simp; omega
  refine ⟨hl', ?_⟩
  rw [List.getElem_tail]
  unfold Heap.at
  rw [List.getD_eq_getElem?_getD]
  have e : i - 1 + 1 = i := by omega
  simp only [e]
  rw [List.getElem?_eq_getElem hl]; rfl

/-- The instructions of a document are ordered, by line and by position. -/
theorem loaded_rows (ha : analyze input = .ok ctx) (hl : load input = .ok ctx') :
    (∀ i, 0 < i → i < ctx'.heap.length → ∀ b ∈ (ctx'.heap.at i).rows, RangesOk input b) ∧
    (∀ i, 0 < i → i < ctx'.heap.length → (ctx'.heap.at i).rows.Pairwise fun a b => Before (spotOf a) (spotOf b)) ∧
    ∀ i j, 0 < i → i < j → j < ctx'.heap.length → ∀ a ∈ (ctx'.heap.at i).rows, ∀ b ∈ (ctx'.heap.at j).rows, Before (spotOf a) (spotOf b) := by
  have hlen := load_length ha hl
  have h9 := (C09_ordered ha).1
  rw [List.pairwise_map] at h9
  obtain ⟨p1, p2⟩ := pairwise_flatMap h9
  refine ⟨?_, ?_, ?_⟩
  · intro i hi hil b hb
    rw [hlen] at hil
    rw [(kept' ha hl hil).rows] at hb
    obtain ⟨hl', e⟩ := at_tail hi hil
    refine C10_ranges ha b ?_
    unfold Ctx.instructions
    exact List.mem_append_left _ (List.mem_flatMap.2 ⟨_, by rw [← e]; exact List.getElem_mem hl', (rows_sublist _).subset hb⟩)
  · intro i hi hil
    rw [hlen] at hil
    rw [(kept' ha hl hil).rows]
    obtain ⟨hl', e⟩ := at_tail hi hil
    exact (p1 _ (by rw [← e]; exact List.getElem_mem hl')).sublist (rows_sublist _)
  · intro i j hi hij hjl a ha' b hb
    rw [hlen] at hjl
    rw [(kept' ha hl hjl).rows] at hb
    rw [(kept' ha hl (by omega)).rows] at ha'
    obtain ⟨h1, e1⟩ := at_tail (h := ctx.heap) hi (by omega)
    obtain ⟨h2, e2⟩ := at_tail (h := ctx.heap) (i := j) (by omega) hjl
    have := List.pairwise_iff_getElem.1 p2 (i - 1) (j - 1) h1 h2 (by omega)
    rw [e1, e2] at this
    exact this a ((rows_sublist _).subset ha') b ((rows_sublist _).subset hb)

theorem ordered_byLine (ha : analyze input = .ok ctx) (hl : load input = .ok ctx') : Ordered byLine ctx'.heap := by
  obtain ⟨_, h2, h3⟩ := loaded_rows ha hl
  exact ⟨fun _ _ _ _ _ => Nat.le_refl _, fun i hi hil => (h2 i hi hil).imp fun q => q.1, fun i j hi hij hj a ha' b hb => (h3 i j hi hij hj a ha' b hb).1⟩

theorem ordered_bySpan (ha : analyze input = .ok ctx) (hl : load input = .ok ctx') : Ordered bySpan ctx'.heap := by
  obtain ⟨h1, h2, h3⟩ := loaded_rows ha hl
  exact ⟨fun i hi hil b hb => (h1 i hi hil b hb).le, fun i hi hil => (h2 i hi hil).imp fun q => q.2, fun i j hi hij hj a ha' b hb => (h3 i j hi hij hj a ha' b hb).2⟩

/-- An element with content of its own keeps its kind. -/
theorem kind_kept (ha : analyze input = .ok ctx) (hl : load input = .ok ctx') (hi : i < ctx.heap.length)
    (ht : (ctx.heap.at i).type ∈ [Ty.field, .list, .fieldset, .mlBegin]) : (ctx'.heap.at i).type = (ctx.heap.at i).type := by
  have L := loaded ha hl
  have hs : (ctx.heap.at i).type ≠ .section := by rintro q; rw [q] at ht; simp at ht
  cases hc : (ctx.heap.at i).copy with
  | none => rw [C34_elements ha hl hi hs hc]
  | some k =>
    have hg := L.non.grounded i hi hs
    cases hg with
    | own h1 => rw [hc] at h1; simp at h1
    | copy hT _ =>
      cases L.non.link hs hT with
      | mirrored e1 => rw [e1] at ht; simp at ht
      | nothing e1 => rw [e1] at ht; simp at ht
      | extended _ _ e3 => exact e3
      | fresh _ _ e3 => exact e3

theorem loaded_kinds (ha : analyze input = .ok ctx) (hl : load input = .ok ctx') : Kinds ctx'.heap := by
  have L := loaded ha hl
  have hlen := load_length ha hl
  have ok := L.non.ok
  refine ⟨?_, ?_, ?_, ?_, ?_⟩
  · have hp := ok.pos
    have k := kept' ha hl hp
    have e := ok.elem 0 hp
    have hd := ok.doc.1
    have q1 : (ctx.heap.at 0).continuations = none := by
      cases q : (ctx.heap.at 0).continuations with
      | none => rfl
      | some cs => have := (e.conts cs q).1; rw [hd] at this; simp at this
    have q2 : (ctx.heap.at 0).items = none := by
      cases q : (ctx.heap.at 0).items with
      | none => rfl
      | some cs => have := (e.items cs q).1; rw [hd] at this; simp at this
    have q3 : (ctx.heap.at 0).entries = none := by
      cases q : (ctx.heap.at 0).entries with
      | none => rfl
      | some cs => have := (e.entries cs q).1; rw [hd] at this; simp at this
    have q4 : (ctx.heap.at 0).lines = none := by
      cases q : (ctx.heap.at 0).lines with
      | none => rfl
      | some cs => have := (e.lines cs q).1; rw [hd] at this; simp at this
    have q5 : (ctx.heap.at 0).fin = none := by
      cases q : (ctx.heap.at 0).fin with
      | none => rfl
      | some cs => have := e.fin (by rw [q]; rfl); rw [hd] at this; simp at this
    rw [k.rows, k.base]
    unfold Elem.rows
    rw [q1, q2, q3, q4, q5]; rfl
  · intro i cs hi hc
    rw [hlen] at hi
    rw [(kept' ha hl hi).continuations] at hc
    have := (ok.elem i hi).conts cs hc
    exact ⟨by rw [kind_kept ha hl hi (by rw [this.1]; simp)]; exact this.1, this.2⟩
  · intro i xs hi hx
    rw [hlen] at hi
    rw [(kept' ha hl hi).items] at hx
    have := (ok.elem i hi).items xs hx
    exact ⟨by rw [kind_kept ha hl hi (by rw [this.1]; simp)]; exact this.1, this.2.1, fun x hx => (this.2.2 x hx).conts⟩
  · intro i xs hi hx
    rw [hlen] at hi
    rw [(kept' ha hl hi).entries] at hx
    have := (ok.elem i hi).entries xs hx
    exact ⟨by rw [kind_kept ha hl hi (by rw [this.1]; simp)]; exact this.1, this.2.1, fun x hx => (this.2.2 x hx).conts⟩
  · intro i hi hx
    rw [hlen] at hi
    have k := kept' ha hl hi
    rw [k.lines, k.fin] at hx
    have : (ctx.heap.at i).type = .mlBegin := by
      rcases hx with hx | hx
      · cases q : (ctx.heap.at i).lines with
        | none => exact absurd q hx
        | some ls => exact ((ok.elem i hi).lines ls q).1
      · cases q : (ctx.heap.at i).fin with
        | none => exact absurd q hx
        | some f => exact (ok.elem i hi).fin (by rw [q]; rfl)
    rw [kind_kept ha hl hi (by rw [this]; simp)]; exact this

theorem place_lines (ls : List Str) : ∀ (n i : Nat), (place n i ls).map (·.1) = List.range' n ls.length := by
  induction ls with
  | nil => intro n i; rfl
  | cons l ls ih => intro n i; simp [place, ih, List.range'_succ]

/-- What is stored about a multiline field; its lines follow each other. -/
theorem loaded_multiline' (ha : analyze input = .ok ctx) (hl : load input = .ok ctx') (hi : i < ctx'.heap.length) (hty : (ctx'.heap.at i).type = .mlBegin) :
    (ctx'.heap.at i).template = none ∧ 0 < i ∧ ∃ f, (ctx'.heap.at i).fin = some f ∧
      ((ctx'.heap.at i).lines = none → f.line = (ctx'.heap.at i).line + 1 ∧ f.span.1 = (ctx'.heap.at i).span.2 + 1) ∧
      ((ctx'.heap.at i).lines.getD []).map (·.line) = List.range' ((ctx'.heap.at i).line + 1) ((ctx'.heap.at i).lines.getD []).length ∧
      f.line = (ctx'.heap.at i).line + ((ctx'.heap.at i).lines.getD []).length + 1 := by
  have L := loaded ha hl
  have hlen := load_length ha hl
  rw [hlen] at hi
  have k := kept' ha hl hi
  have ok := L.non.ok.elem i hi
  have hz : 0 < i := by
    apply Nat.pos_of_ne_zero; rintro rfl
    rw [L.docType] at hty; simp at hty
  have hty0 : (ctx.heap.at i).type = .mlBegin := by
    by_cases hs : (ctx.heap.at i).type = .section
    · have := L.secType i hi hs
      rw [hty] at this; simp at this
    · cases hc : (ctx.heap.at i).copy with
      | none => rw [C34_elements ha hl hi hs hc] at hty; exact hty
      | some k =>
        have hg := L.non.grounded i hi hs
        cases hg with
        | own h1 => rw [hc] at h1; simp at h1
        | copy hT _ =>
          have hm : (ctx.heap.at i).type ≠ .mlBegin := by
            intro q
            have := ok.template (by rw [← ok.copy, hc]; rfl)
            rw [q] at this; simp at this
          cases L.non.link hs hT with
          | mirrored e1 e2 e3 =>
            rw [hty] at e3
            revert e3
            generalize (ctx'.heap.at _).type = ty
            cases ty <;> simp [copyKind]
          | nothing e1 e2 e3 => rw [e3] at hty; simp at hty
          | extended _ _ e3 => rw [e3] at hty; exact hty
          | fresh _ _ e3 => rw [e3] at hty; exact hty
  have htm : (ctx.heap.at i).template = none := by
    cases hq : (ctx.heap.at i).template with
    | none => rfl
    | some k =>
      have := ok.template (by rw [hq]; rfl)
      rw [hty0] at this; simp at this
  have hcn : (ctx.heap.at i).continuations = none := by
    cases q : (ctx.heap.at i).continuations with
    | none => rfl
    | some cs => have := (ok.conts cs q).1; rw [hty0] at this; simp at this
  obtain ⟨n, b, fin, op, key, T, h1, h2, h3⟩ := C19_recorded ha i hz hi hty0
  rw [k.template, k.fin, k.lines, k.base]
  refine ⟨htm, hz, ?_⟩
  unfold Elem.head at h3
  simp only [hcn, Option.getD_none, List.map_nil, List.cons_append, Event.pieces, List.cons.injEq] at h3
  obtain ⟨h4, h5⟩ := h3
  cases hf : (ctx.heap.at i).fin with
  | none =>
    exfalso
    rw [hf] at h5
    simp only [Option.toList_none, List.map_nil, List.append_nil] at h5
    cases hls : (ctx.heap.at i).lines with
    | none => rw [hls] at h5; simp at h5
    | some ls =>
      rw [hls] at h5
      simp only [Option.getD_some] at h5
      have hlast := congrArg List.getLast? h5
      simp only [List.getLast?_append, List.getLast?_singleton, Option.some_or, List.getLast?_map] at hlast
      cases hgl : ls.getLast? with
      | none => rw [hgl] at hlast; simp at hlast
      | some l =>
        rw [hgl] at hlast
        simp only [Option.map_some, Option.some_or, Option.some.injEq] at hlast
        have := ((ok.lines ls hls).2.2 l (List.mem_of_getLast? hgl))
        have hr := congrArg (fun p : Piece => p.ranges.map Prod.fst) hlast
        simp only [Base.piece] at hr
        rw [this] at hr
        simp at hr
  | some f =>
    rw [hf] at h5
    simp only [Option.toList_some, List.map_cons, List.map_nil] at h5
    obtain ⟨h6, h7⟩ := List.append_inj' h5 rfl
    simp only [List.cons.injEq, and_true] at h7
    have hfb : f = (⟨n + (mlBody input n fin T.start).length + 1, [(.key, (T.key, T.key + key.text.length)), (.line, (T.start + 1, T.fin)),
        (.multilineFieldOperator, (T.op, T.op + op.text.length))]⟩ : Base) := congrArg Piece.toBase h7
    have heb : (ctx.heap.at i).toBase = (⟨n, (.line, (b, fin)) :: rangesOf (.multiline op key)⟩ : Base) := congrArg Piece.toBase h4
    have hlen : ((ctx.heap.at i).lines.getD []).length = (mlBody input n fin T.start).length := by
      have := congrArg List.length h6
      simpa using this
    refine ⟨f, rfl, fun hls => ?_, ?_, by rw [heb, hfb, hlen]⟩
    case refine_2 =>
      have q := congrArg (List.map fun p : Piece => p.toBase.line) h6
      simp only [List.map_map, List.nil_append] at q
      rw [heb, hlen]
      have e1 : ((fun p : Piece => p.toBase.line) ∘ Base.piece) = fun b : Base => b.line := rfl
      rw [e1] at q
      refine q.trans ?_
      unfold mlBody
      split
      · rfl
      · rw [place_length, ← place_lines _ (n + 1) (fin + 1)]; rfl
    rw [hls] at h6
    simp only [Option.getD_none, List.map_nil] at h6
    have hbody : mlBody input n fin T.start = [] := List.map_eq_nil_iff.1 h6.symm
    have hstop : T.start = fin := by
      unfold mlBody at hbody
      split at hbody
      · assumption
      · exfalso
        revert hbody
        generalize List.drop (fin + 1) (List.take T.start input) = w
        cases w with
        | nil => simp [splitNl, place]
        | cons c t =>
          intro hb
          unfold splitNl at hb
          split at hb
          · simp [place] at hb
          · cases hs : splitNl t <;> rw [hs] at hb <;> simp [place] at hb
    rw [heb, hfb, hbody, hstop]
    exact ⟨rfl, rfl⟩

/-- What is stored about a multiline field. -/
theorem loaded_multiline (ha : analyze input = .ok ctx) (hl : load input = .ok ctx') (hi : i < ctx'.heap.length) (hty : (ctx'.heap.at i).type = .mlBegin) :
    (ctx'.heap.at i).template = none ∧ 0 < i ∧ ∃ f, (ctx'.heap.at i).fin = some f ∧
      ((ctx'.heap.at i).lines = none → f.line = (ctx'.heap.at i).line + 1 ∧ f.span.1 = (ctx'.heap.at i).span.2 + 1) := by
  obtain ⟨h1, h2, f, h3, h4, _⟩ := loaded_multiline' ha hl hi hty
  exact ⟨h1, h2, f, h3, h4⟩

theorem find_line {ls : List Base} {n : Nat} {b : Base} (hb : b ∈ ls) (hp : ls.Pairwise fun a b => a.line < b.line) (hn : b.line = n) :
    ls.find? (·.line = n) = some b := by
  induction ls with
  | nil => simp at hb
  | cons a ls ih =>
    rw [List.find?_cons]
    rw [List.pairwise_cons] at hp
    rcases List.mem_cons.1 hb with rfl | hb
    · simp [hn]
    · have := hp.1 b hb
      rw [decide_eq_false (by omega)]
      exact ih hb hp.2

theorem find_span {ls : List Base} {n : Nat} {b : Base} (hb : b ∈ ls) (hp : ls.Pairwise fun a b => a.span.2 < b.span.1) (h1 : b.span.1 ≤ n) (h2 : n ≤ b.span.2) :
    ls.find? (n ≤ ·.span.2) = some b := by
  induction ls with
  | nil => simp at hb
  | cons a ls ih =>
    rw [List.find?_cons]
    rw [List.pairwise_cons] at hp
    rcases List.mem_cons.1 hb with rfl | hb
    · simp [h2]
    · have := hp.1 b hb
      rw [decide_eq_false (by omega)]
      exact ih hb hp.2

theorem mlOk_byLine (ha : analyze input = .ok ctx) (hl : load input = .ok ctx') : MlOk byLine checkMultilineByLine ctx'.heap := by
  intro i hi hty
  obtain ⟨h1, hz, f, hf, h2⟩ := loaded_multiline ha hl hi hty
  refine ⟨h1, f, hf, fun n hn => ?_⟩
  have hn' : (ctx'.heap.at i).line < n := hn
  have hin := (ordered_byLine ha hl).inner i hz hi
  unfold checkMultilineByLine
  rw [hf]
  simp only
  constructor
  · intro hgt
    rw [if_pos (.inr hgt)]
  · intro hle
    have hle' : n ≤ f.line := hle
    rw [if_neg (by omega), if_neg (by omega)]
    by_cases hnf : n = f.line
    · rw [if_pos hnf]
      refine ⟨_, rfl, fun b hb hon => ?_⟩
      rcases hb with rfl | hb
      · rfl
      · exfalso
        have e1 : (ctx'.heap.at i).rows = ((ctx'.heap.at i).toBase :: ((ctx'.heap.at i).continuations.getD []).map Cont.toBase ++ (ctx'.heap.at i).lines.getD []) ++ (f :: (
          ((ctx'.heap.at i).items.getD []).flatMap Sub.rows ++ ((ctx'.heap.at i).entries.getD []).flatMap Sub.rows)) := by unfold Elem.rows; rw [hf]; simp
        rw [e1] at hin
        have : b.line < f.line := (List.pairwise_append.1 hin).2.2 b (by simp [hb]) f (by simp)
        have : n ≤ b.line := hon.2
        omega
    · rw [if_neg hnf]
      cases hls : (ctx'.heap.at i).lines with
      | none => have := (h2 hls).1; omega
      | some ls =>
        refine ⟨_, rfl, fun b hb hon => ?_⟩
        have hbn : b.line = n := Nat.le_antisymm hon.1 hon.2
        rcases hb with rfl | hb
        · omega
        · have hb' : b ∈ ls := by simpa using hb
          have e1 : (ctx'.heap.at i).rows = ((ctx'.heap.at i).toBase :: ((ctx'.heap.at i).continuations.getD []).map Cont.toBase ++ ls) ++ (f :: (
            ((ctx'.heap.at i).items.getD []).flatMap Sub.rows ++ ((ctx'.heap.at i).entries.getD []).flatMap Sub.rows)) := by unfold Elem.rows; rw [hf, hls]; simp
          rw [e1] at hin
          exact find_line hb' (List.pairwise_append.1 (List.pairwise_append.1 hin).1).2.1 hbn

theorem mlOk_bySpan (ha : analyze input = .ok ctx) (hl : load input = .ok ctx') : MlOk bySpan checkMultilineByIndex ctx'.heap := by
  intro i hi hty
  obtain ⟨h1, hz, f, hf, h2⟩ := loaded_multiline ha hl hi hty
  refine ⟨h1, f, hf, fun n hn => ?_⟩
  have hn' : (ctx'.heap.at i).span.2 < n := hn
  have ho := ordered_bySpan ha hl
  have hin := ho.inner i hz hi
  have hle0 : (ctx'.heap.at i).span.1 ≤ (ctx'.heap.at i).span.2 := ho.le i hz hi _ (rows_head _)
  unfold checkMultilineByIndex
  rw [hf]
  simp only
  constructor
  · intro hgt
    rw [if_pos (.inr hgt)]
  · intro hle
    have hle' : n ≤ f.span.2 := hle
    rw [if_neg (by omega), if_neg (by omega)]
    have e1 : (ctx'.heap.at i).rows = ((ctx'.heap.at i).toBase :: ((ctx'.heap.at i).continuations.getD []).map Cont.toBase ++ (ctx'.heap.at i).lines.getD []) ++ (f :: (
      ((ctx'.heap.at i).items.getD []).flatMap Sub.rows ++ ((ctx'.heap.at i).entries.getD []).flatMap Sub.rows)) := by unfold Elem.rows; rw [hf]; simp
    rw [e1] at hin
    by_cases hnf : n ≥ f.span.1
    · rw [if_pos hnf]
      refine ⟨_, rfl, fun b hb hon => ?_⟩
      rcases hb with rfl | hb
      · rfl
      · exfalso
        have : b.span.2 < f.span.1 := (List.pairwise_append.1 hin).2.2 b (by simp [hb]) f (by simp)
        have : n ≤ b.span.2 := hon.2
        omega
    · rw [if_neg hnf]
      cases hls : (ctx'.heap.at i).lines with
      | none => have := (h2 hls).2; omega
      | some ls =>
        refine ⟨_, rfl, fun b hb hon => ?_⟩
        rcases hb with rfl | hb
        · exact absurd hon.1 hnf
        · have hb' : b ∈ ls := by simpa using hb
          rw [hls] at hin
          exact find_span hb' (List.pairwise_append.1 (List.pairwise_append.1 hin).1).2.1 hon.1 hon.2

end Eno
