import Verif.Proofs.StructureLemmas

/-! # The result of the analysis, described from the events -/

namespace Eno

open Spec

variable {s s' : AS} {es : List Event} {ev : Event} {e : Elem} {n p : Nat} {f : Elem → Elem}

/-- The analyzer's state after the events `es`. -/
structure Layout (es : List Event) (s : AS) : Prop where
  trees : s.heap.tail.map Elem.parts = (blocks es).map fun b => (parts b).map fun g => g.flatMap Event.pieces
  kinds : s.heap.tail.map Elem.type = (blocks es).map kindOf
  owners : s.heap.tail.flatMap Elem.owners = (owned [] es).map fun o => (o.1.flatMap Event.comments, o.2.piece)
  metas : s.metas = ((loose [] es).flatMap Event.comments).map .comment
  comments : s.comments.getD [] = (commentRun es).flatMap Event.comments
  depth : s.depth = depthOf es
  section_ : s.lastSection = lastSectionOf es

theorem tail_append {h : Heap} (hl : 0 < h.length) : (h ++ [e]).tail = h.tail ++ [e] := by
  cases h with
  | nil => simp at hl
  | cons a t => rfl

/-- Reading something off every element that does not depend on `elements` and `deepResolve`. -/
theorem map_core {β} (g : Elem → β) (hg : ∀ e, g e.core = g e) (h : Heap) : h.tail.map g = h.core.tail.map g := by
  cases h with
  | nil => rfl
  | cons a t => simp [Heap.core, hg]

theorem view_new {β} {h' : Heap} (g : Elem → β) (hg : ∀ e, g e.core = g e) (hl : 0 < s.heap.length) (hh : h'.core = s.heap.core ++ [e.core]) :
    h'.tail.map g = s.heap.tail.map g ++ [g e] := by
  rw [map_core g hg h', hh, tail_append (by rw [Heap.core_length]; exact hl), List.map_append, ← map_core g hg]
  simp [hg]

theorem parts_core (e : Elem) : e.core.parts = e.parts := rfl
theorem owners_core (e : Elem) : e.core.owners = e.owners := rfl
theorem type_core (e : Elem) : e.core.type = e.type := rfl

theorem flatMap_eq_flatten {α β} (l : List α) (g : α → List β) : l.flatMap g = (l.map g).flatten := by
  simp [List.flatMap_def]

theorem owners_new {h' : Heap} (hl : 0 < s.heap.length) (hh : h'.core = s.heap.core ++ [e.core]) :
    h'.tail.flatMap Elem.owners = s.heap.tail.flatMap Elem.owners ++ e.owners := by
  rw [flatMap_eq_flatten, view_new Elem.owners owners_core hl hh, flatMap_eq_flatten]
  simp

/-- The heap around its last element. -/
theorem heap_last (ok : HeapOk s.heap) (hn : n + 1 = s.heap.length) (htn : ¬ (s.heap.at n).isContainer) :
    ∃ d L, s.heap = d :: L ++ [s.heap.at n] ∧ ∀ f : Elem → Elem, s.heap.modify n f = d :: L ++ [f (s.heap.at n)] := by
  have hn0 : n ≠ 0 := by intro h; subst h; exact htn (Or.inl ok.doc.1)
  have h1 := heap_snoc (h := s.heap) ok.pos
  have hidx : s.heap.length - 1 = n := by omega
  rw [hidx] at h1
  have hlen : (s.heap.take n).length = n := by simp; omega
  cases ht : s.heap.take n with
  | nil => rw [ht] at hlen; simp at hlen; omega
  | cons d L =>
    refine ⟨d, L, by rw [ht] at h1; exact h1, ?_⟩
    intro f
    have : s.heap.modify n f = (s.heap.take n ++ [s.heap.at n]).modify (s.heap.take n).length f := by rw [← h1, hlen]
    rw [this, modify_last, ht]

theorem map_eq_snoc {α β} {g : α → β} {l : List α} {A : List β} {y : β} (h : l.map g = A ++ [y]) : ∃ l' a, l = l' ++ [a] ∧ l'.map g = A ∧ g a = y := by
  rw [List.map_eq_append_iff] at h
  obtain ⟨l1, l2, rfl, h1, h2⟩ := h
  rw [List.map_eq_cons_iff] at h2
  obtain ⟨a, t, rfl, h3, h4⟩ := h2
  simp at h4; subst h4
  exact ⟨l1, a, rfl, h1, h3⟩

theorem map_eq_snoc' {α β} {g : α → β} {l : List α} {a : α} {A : List β} {y : β} (h : (l ++ [a]).map g = A ++ [y]) : l.map g = A ∧ g a = y := by
  rw [List.map_append, List.map_singleton] at h
  have := List.append_inj' h rfl
  exact ⟨this.1, by simpa using this.2⟩

theorem lastSectionOf_snoc_new (h : ev.role.starts = true) :
    lastSectionOf (es ++ [ev]) = if kindOf [ev] = .section then (blocks es).length + 1 else lastSectionOf es := by
  unfold lastSectionOf
  rw [blocks_snoc_starts h]
  simp only [List.length_append, List.length_singleton, List.range_succ, List.filter_append, List.getD, List.getElem?_append]
  have hc : (List.range (blocks es).length).filter (fun i => decide (kindOf ((if i < (blocks es).length then (blocks es)[i]? else [[ev]][i - (blocks es).length]?).getD []) = .section)) =
      (List.range (blocks es).length).filter (fun i => decide (kindOf ((blocks es)[i]?.getD []) = .section)) := by
    apply List.filter_congr
    intro i hi
    simp at hi
    simp [hi]
  rw [hc]
  by_cases hk : kindOf [ev] = .section
  · simp [hk]
  · simp only [List.filter_cons, Nat.lt_irrefl, if_false, Nat.sub_self, List.getElem?_cons_zero, Option.getD_some, hk, List.filter_nil, List.append_nil, decide_false, Bool.false_eq_true, if_false]
    rfl

theorem kindOf_joins {b : List Event} (hb : b ≠ []) :
    (kindOf (b ++ [ev]) = .section ↔ kindOf b = .section) := by
  cases b with
  | nil => simp at hb
  | cons e r =>
    simp only [List.cons_append, kindOf]
    cases he : e.role <;> simp
    case element hv =>
      cases hv <;> simp
      constructor <;> (intro hh; split at hh <;> simp at hh)
    all_goals (constructor <;> (intro hh; split at hh <;> simp at hh))

theorem lastSectionOf_snoc_joins {gs : List (List Event)} {g : List Event} (hc : ev.role.content = true) (h : ev.role.starts = false)
    (hg : blocks es = gs ++ [g]) : lastSectionOf (es ++ [ev]) = lastSectionOf es := by
  unfold lastSectionOf
  have hgne : g ≠ [] := by
    obtain ⟨e, r, hh, _⟩ := blocks_spec (es := es) (b := g) (by rw [hg]; simp)
    rw [hh]; simp
  rw [blocks_snoc_joins hc h hg, hg]
  have hl : (gs ++ [g ++ [ev]]).length = (gs ++ [g]).length := by simp
  rw [hl]
  congr 3
  apply List.filter_congr
  intro i hi
  simp only [List.getD, List.getElem?_append]
  split
  · rfl
  · have : i - gs.length = 0 := by simp at hi; omega
    rw [this]
    simp only [List.getElem?_cons_zero, Option.getD_some]
    have := kindOf_joins (ev := ev) hgne
    simp [this]

theorem lastSectionOf_snoc_skip (hc : ev.role.content = false) : lastSectionOf (es ++ [ev]) = lastSectionOf es := by
  unfold lastSectionOf; rw [blocks_snoc_skip hc]

theorem layout_init : Layout [] AS.init := by
  constructor <;> rfl

theorem blocks_length (lay : Layout es s) : (blocks es).length + 1 = s.heap.length + (if s.heap.length = 0 then 1 else 0) := by
  have := congrArg List.length lay.kinds
  simp at this
  split <;> omega

/-- An event that begins an element. -/
theorem layout_new (ok : HeapOk s.heap) (lay : Layout es s) (hst : ev.role.starts = true) (hh : s'.heap.core = s.heap.core ++ [e.core])
    (hp : e.parts = [ev.pieces]) (hk : e.type = kindOf [ev]) (hp' : e.owners = [(s.comments.getD [], ev.piece)])
    (hm : s'.metas = s.metas) (hc : s'.comments = none) (hd : s'.depth = match ev.role with | .heading d => d | _ => s.depth)
    (hs : s'.lastSection = if kindOf [ev] = .section then s.heap.length else s.lastSection) : Layout (es ++ [ev]) s' := by
  have hl := ok.pos
  have how : ev.role.owns = true := by
    cases hr : ev.role <;> rw [hr] at hst <;> simp [Role.starts] at hst <;> rfl
  have hnb : ¬ (ev.role = .blank ∨ ev.role = .continuation) := by
    intro h; rcases h with h | h <;> rw [h] at hst <;> simp [Role.starts] at hst
  have hncm : ev.role ≠ .comment := by intro h; rw [h] at hst; simp [Role.starts] at hst
  constructor
  · rw [view_new Elem.parts parts_core hl hh, lay.trees, blocks_snoc_starts hst, hp]
    simp [parts_single how]
  · rw [view_new Elem.type type_core hl hh, lay.kinds, blocks_snoc_starts hst, hk]; simp
  · rw [owners_new hl hh, lay.owners, owned_snoc, hp', lay.comments]; simp [how]
  · rw [hm, lay.metas, loose_snoc]; simp [hnb]
  · rw [hc, commentRun_snoc]; simp [hncm]
  · rw [hd, depthOf_snoc, lay.depth]; cases ev.role <;> rfl
  · rw [hs, lastSectionOf_snoc_new hst, lay.section_]
    have := blocks_length lay
    rw [if_neg (by omega : ¬ s.heap.length = 0)] at this
    rw [show (blocks es).length + 1 = s.heap.length by omega]

/-- The last element and the last block correspond. -/
theorem last_block (inv : Inv s) (lay : Layout es s) (hn : n + 1 = s.heap.length) (htn : ¬ (s.heap.at n).isContainer) :
    ∃ d L bs b, s.heap = d :: L ++ [s.heap.at n] ∧ (∀ f : Elem → Elem, s.heap.modify n f = d :: L ++ [f (s.heap.at n)]) ∧
      blocks es = bs ++ [b] ∧ L.map Elem.parts = bs.map (fun b => (parts b).map fun g => g.flatMap Event.pieces) ∧
      (s.heap.at n).parts = ((parts b).map fun g => g.flatMap Event.pieces) ∧ L.map Elem.type = bs.map kindOf ∧ (s.heap.at n).type = kindOf b := by
  obtain ⟨d, L, h1, h2⟩ := heap_last inv.heap hn htn
  have ht := lay.trees
  have hk := lay.kinds
  rw [h1] at ht hk
  simp only [List.cons_append, List.tail_cons, List.map_append, List.map_singleton] at ht hk
  obtain ⟨bs, b, hb, e1, e2⟩ := map_eq_snoc ht.symm
  rw [hb] at hk
  obtain ⟨e3, e4⟩ := map_eq_snoc' hk.symm
  exact ⟨d, L, bs, b, h1, h2, hb, e1.symm, e2.symm, e3.symm, e4.symm⟩

/-- An event that joins the last element. -/
theorem layout_join (inv : Inv s) (lay : Layout es s) (hn : n + 1 = s.heap.length) (htn : ¬ (s.heap.at n).isContainer)
    (hco : ev.role.content = true) (hst : ev.role.starts = false) (hh : s'.heap = s.heap.modify n f)
    (hp : ∀ b, (s.heap.at n).parts = ((parts b).map fun g => g.flatMap Event.pieces) →
      (f (s.heap.at n)).parts = ((parts (b ++ [ev])).map fun g => g.flatMap Event.pieces))
    (hk : ∀ b, b ∈ blocks es → (s.heap.at n).type = kindOf b → (f (s.heap.at n)).type = kindOf (b ++ [ev]))
    (hp' : (f (s.heap.at n)).owners = (s.heap.at n).owners ++ (if ev.role.owns then [(s.comments.getD [], ev.piece)] else []))
    (hm : s'.metas = if ev.role = .continuation then s.metas ++ (s.comments.getD []).map .comment else s.metas) (hc : s'.comments = none)
    (hd : s'.depth = s.depth) (hs : s'.lastSection = s.lastSection) : Layout (es ++ [ev]) s' := by
  obtain ⟨d, L, bs, b, h1, h2, hb, e1, e2, e3, e4⟩ := last_block inv lay hn htn
  have hncm : ev.role ≠ .comment := by intro h; rw [h] at hco; simp [Role.content] at hco
  have hnbl : ev.role ≠ .blank := by intro h; rw [h] at hco; simp [Role.content] at hco
  constructor
  · rw [hh, h2, blocks_snoc_joins hco hst hb]
    simp [e1, hp b e2]
  · rw [hh, h2, blocks_snoc_joins hco hst hb]
    simp [e3, hk b (by rw [hb]; simp) e4]
  · have := lay.owners
    rw [h1] at this
    rw [hh, h2, owned_snoc, List.map_append, ← this]
    simp only [List.cons_append, List.tail_cons, List.flatMap_append, List.flatMap_singleton, hp', lay.comments]
    by_cases ho : ev.role.owns <;> simp [ho]
  · rw [hm, loose_snoc, lay.metas, lay.comments]
    by_cases hcc : ev.role = .continuation <;> simp [hcc, hnbl]
  · rw [hc, commentRun_snoc]; simp [hncm]
  · rw [hd, depthOf_snoc, lay.depth]
    cases hr : ev.role <;> simp
    rw [hr] at hst; simp [Role.starts] at hst
  · rw [hs, lastSectionOf_snoc_joins hco hst hb, lay.section_]

/-- A blank line or a comment. -/
theorem layout_skip (lay : Layout es s) (hco : ev.role.content = false) (hh : s'.heap = s.heap)
    (hm : s'.metas = if ev.role = .blank then s.metas ++ (s.comments.getD []).map .comment else s.metas)
    (hc : s'.comments.getD [] = if ev.role = .comment then s.comments.getD [] ++ ev.comments else [])
    (hd : s'.depth = s.depth) (hs : s'.lastSection = s.lastSection) : Layout (es ++ [ev]) s' := by
  have hno : ev.role.owns = false := by cases hr : ev.role <;> rw [hr] at hco <;> simp [Role.content] at hco <;> rfl
  have hnc : ev.role ≠ .continuation := by intro h; rw [h] at hco; simp [Role.content] at hco
  constructor
  · rw [hh, blocks_snoc_skip hco]; exact lay.trees
  · rw [hh, blocks_snoc_skip hco]; exact lay.kinds
  · rw [hh, owned_snoc, lay.owners]; simp [hno]
  · rw [hm, loose_snoc, lay.metas, lay.comments]
    by_cases hcc : ev.role = .blank <;> simp [hcc, hnc]
  · rw [hc, commentRun_snoc, lay.comments]
    by_cases hcc : ev.role = .comment <;> simp [hcc]
  · rw [hd, depthOf_snoc, lay.depth]
    cases hr : ev.role <;> simp
    rw [hr] at hco; simp [Role.content] at hco
  · rw [hs, lastSectionOf_snoc_skip hco, lay.section_]

theorem flushed_eq (m : List Meta) (c : Option (List Comment)) : flushed m c = m ++ (c.getD []).map .comment := by
  cases c <;> simp [flushed]

theorem layout_stepElement (inv : Inv s) (lay : Layout es s) (line index fin : Nat) (k : KeyTok) (op : Cap) (v : Option Cap) :
    Layout (es ++ [.line line index ⟨fin, .element k op v⟩]) (stepElement s line index fin k op v) := by
  refine layout_new inv.heap lay (e := ?_) ?_ (by unfold stepElement; simp only; exact core_append s _ _) ?_ ?_ ?_ rfl rfl rfl ?_
  · rfl
  · cases v <;> cases k <;> simp [Elem.parts, Elem.head, Elem.piece, Event.pieces, pieceOf, rangesOf, keyRanges, escapeRanges, at_, at?, valueRange, Cap.span, KeyTok.span, KeyTok.text, keyText, valueText, templateText]
  · cases v <;> simp [kindOf, Event.role, roleOf]
  · cases v <;> cases k <;> simp [Elem.owners, Elem.piece, Event.piece, pieceOf, rangesOf, keyRanges, escapeRanges, at_, at?, valueRange, Cap.span, KeyTok.span, KeyTok.text, keyText, valueText, templateText]
  · cases v <;> simp [kindOf, Event.role, roleOf, stepElement]

theorem layout_stepCopy (inv : Inv s) (lay : Layout es s) (line index fin : Nat) (k : KeyTok) (op t : Cap) :
    Layout (es ++ [.line line index ⟨fin, .copy k op t⟩]) (stepCopy s line index fin k op t) := by
  refine layout_new inv.heap lay (e := ?_) ?_ (by unfold stepCopy; simp only; exact core_append s _ _) ?_ ?_ ?_ rfl rfl rfl ?_
  · rfl
  · cases k <;> simp [Elem.parts, Elem.head, Elem.piece, Event.pieces, pieceOf, rangesOf, keyRanges, escapeRanges, at_, Cap.span, KeyTok.span, KeyTok.text, keyText, valueText, templateText]
  · simp [kindOf, Event.role, roleOf]
  · cases k <;> simp [Elem.owners, Elem.piece, Event.piece, pieceOf, rangesOf, keyRanges, escapeRanges, at_, Cap.span, KeyTok.span, KeyTok.text, keyText, valueText, templateText]
  · simp [kindOf, Event.role, roleOf, stepCopy]

/-- The ranges of the copy part of a heading. -/
def copyRangesOf : Option (Cap × Cap) → Ranges
  | none => []
  | some (c, t) => [(.template, t.span), (if c.e - c.b = 2 then .deepCopyOperator else .copyOperator, c.span)]

theorem stepHeading_shape {line index fin : Nat} {op : Cap} {k : KeyTok} {c : Option (Cap × Cap)}
    (h : stepHeading s line index fin op k c = .ok s') :
    ∃ parent deep, s'.heap.core = s.heap.core ++ [({
        line := line
        ranges := [(.line, (index, fin)), (.sectionOperator, op.span)] ++ escapeRanges k ++ [(.key, k.span)] ++
          (match c with
           | none => []
           | some (c, t) => [(.template, t.span), (if c.e - c.b = 2 then .deepCopyOperator else .copyOperator, c.span)]),
        comments := s.comments, key := k.text, type := .section, parent := some parent,
        template := c.map (·.2.text), deepCopy := deep, copy := c.map (·.2.text) } : Elem).core] ∧
      s'.metas = s.metas ∧ s'.comments = none ∧ s'.depth = op.e - op.b ∧ s'.lastSection = s.heap.length := by
  unfold stepHeading at h
  simp only at h
  split at h
  · simp at h
  · rename_i p hp
    cases c with
    | none => 
      simp at h; subst h
      exact ⟨p, false, (core_append s _ _).trans (by simp), rfl, rfl, rfl, rfl⟩
    | some ct =>
      obtain ⟨c, t⟩ := ct
      simp only at h
      split at h
      · simp at h
      · rename_i h' hm
        simp at h; subst h
        refine ⟨p, decide (c.e - c.b = 2), ?_, rfl, rfl, rfl, rfl⟩
        rw [(markDeep_core _ _ _ _ hm).1]
        exact core_append s _ _

theorem layout_stepHeading (inv : Inv s) (lay : Layout es s) {line index fin : Nat} {op : Cap} {k : KeyTok} {c : Option (Cap × Cap)}
    (h : stepHeading s line index fin op k c = .ok s') : Layout (es ++ [.line line index ⟨fin, .heading op k c⟩]) s' := by
  obtain ⟨p, deep, h1, h2, h3, h4, h5⟩ := stepHeading_shape h
  refine layout_new inv.heap lay ?_ h1 ?_ ?_ ?_ h2 h3 (by rw [h4]; rfl) (by rw [h5]; simp [kindOf, Event.role, roleOf])
  · rfl
  · cases k <;> rcases c with _ | ⟨c, t⟩ <;> simp [Elem.parts, Elem.head, Elem.piece, Event.pieces, pieceOf, rangesOf, keyRanges, escapeRanges, at_, Cap.span, KeyTok.span, KeyTok.text, keyText, valueText, templateText]
  · simp [kindOf, Event.role, roleOf]
  · cases k <;> rcases c with _ | ⟨c, t⟩ <;> simp [Elem.owners, Elem.piece, Event.piece, pieceOf, rangesOf, keyRanges, escapeRanges, at_, Cap.span, KeyTok.span, KeyTok.text, keyText, valueText, templateText]

theorem layout_multi (inv : Inv s) (lay : Layout es s) (line index fin : Nat) (op key : Cap) (body : List (Nat × Nat × Nat)) (T : Term) :
    Layout (es ++ [.multi line index fin op key body T])
      (closeMultiline (openMultiline s line index fin op key) (bodyLines body) (endBase (line + body.length + 1) op key T)) := by
  have hcore : (closeMultiline (openMultiline s line index fin op key) (bodyLines body) (endBase (line + body.length + 1) op key T)).heap.core =
      s.heap.core ++ [({ line := line, ranges := [(.line, (index, fin)), (.multilineFieldOperator, op.span), (.key, key.span)]
                         comments := s.comments, key := key.text, parent := some s.lastSection, type := .mlBegin, lines := bodyLines body
                         fin := some (endBase (line + body.length + 1) op key T) } : Elem).core] := by
    unfold closeMultiline openMultiline AS.append
    simp only [List.length_append, List.length_modify, List.length_singleton, Nat.add_sub_cancel]
    generalize hq : (s.heap.modify s.lastSection fun p => { p with elements := p.elements ++ [s.heap.length] }) = q
    have hql : s.heap.length = q.length := by rw [← hq]; simp
    rw [hql, modify_last]
    have : Heap.core q = s.heap.core := by rw [← hq]; exact map_modify_core (by intro e; rfl)
    rw [← this]
    simp [Heap.core]
  refine layout_new inv.heap lay ?_ hcore ?_ ?_ ?_ rfl rfl rfl ?_
  · rfl
  · have : ((bodyLines body).getD []).map Base.piece = body.map (fun p => ({ line := p.1, ranges := [(.line, p.2), (.value, p.2)] } : Piece)) := by
      unfold bodyLines; split
      · rename_i h; subst h; rfl
      · simp [Base.piece]
    simp only [Elem.parts, Elem.head, this, Event.pieces]
    simp [Elem.piece, pieceOf, rangesOf, at_, Cap.span, keyText, valueText, templateText, endBase, Base.piece]
  · simp [kindOf, Event.role]
  · simp [Elem.owners, Elem.piece, Event.piece, pieceOf, rangesOf, at_, Cap.span, keyText, valueText, templateText]
  · simp [kindOf, Event.role, closeMultiline, openMultiline]

theorem kindOf_append_of_two {e x : Event} {r : List Event} : kindOf (e :: x :: r ++ [ev]) = kindOf (e :: x :: r) := by
  simp [kindOf]

theorem kindOf_pair {e x : Event} (he : e.role = .element false ∨ e.role = .copy) :
    (x.role = .item → kindOf ([e] ++ [x]) = .list) ∧ (x.role = .entry → kindOf ([e] ++ [x]) = .fieldset) ∧
      (x.role = .continuation → kindOf ([e] ++ [x]) = .field) := by
  rcases he with he | he <;> refine ⟨?_, ?_, ?_⟩ <;> intro hx <;> simp [kindOf, he, hx]

/-- A block with the kind of a list has an item as its second event. -/
theorem kindOf_list {b : List Event} (hb : b ∈ blocks es) (h : kindOf b = .list) : ∃ e x r, b = e :: x :: r := by
  obtain ⟨e, r, rfl, h1, h2⟩ := blocks_spec hb
  cases r with
  | cons x r => exact ⟨e, x, r, rfl⟩
  | nil => 
    exfalso
    simp only [kindOf] at h
    cases hr : e.role <;> rw [hr] at h <;> simp at h
    rename_i v; cases v <;> simp at h

theorem kindOf_fieldset {b : List Event} (hb : b ∈ blocks es) (h : kindOf b = .fieldset) : ∃ e x r, b = e :: x :: r := by
  obtain ⟨e, r, rfl, h1, h2⟩ := blocks_spec hb
  cases r with
  | cons x r => exact ⟨e, x, r, rfl⟩
  | nil => 
    exfalso
    simp only [kindOf] at h
    cases hr : e.role <;> rw [hr] at h <;> simp at h
    rename_i v; cases v <;> simp at h

/-- A block with the kind of an empty element is a single line. -/
theorem kindOf_empty {b : List Event} (hb : b ∈ blocks es) (h : kindOf b = .empty) :
    ∃ e, b = [e] ∧ (e.role = .element false ∨ e.role = .copy) := by
  obtain ⟨e, r, rfl, h1, h2⟩ := blocks_spec hb
  have hrn : r = [] := by
    cases r with
    | nil => rfl
    | cons x r =>
      exfalso
      have hx := h2 x (by simp)
      simp only [kindOf] at h
      rcases hx with hx | hx | hx <;> cases hr : e.role <;> rw [hr] at h <;> simp [hx] at h <;> (rename_i v; cases v <;> simp at h)
  subst hrn
  refine ⟨e, rfl, ?_⟩
  simp only [kindOf] at h
  cases hr : e.role <;> rw [hr] at h h1 <;> simp [Role.starts] at h h1 ⊢
  rename_i v; cases v <;> simp at h ⊢

/-- A block with the kind of a field. -/
theorem kindOf_field_append {b : List Event} (hb : b ∈ blocks es) (h : kindOf b = .field) : kindOf (b ++ [ev]) = .field := by
  obtain ⟨e, r, rfl, h1, h2⟩ := blocks_spec hb
  cases r with
  | cons x r => rw [show e :: x :: r ++ [ev] = e :: x :: (r ++ [ev]) from rfl]; simpa [kindOf] using h
  | nil =>
    simp only [kindOf] at h
    cases hr : e.role <;> rw [hr] at h <;> simp at h
    rename_i v; cases v <;> simp at h
    simp [kindOf, hr]

theorem layout_stepListItem (inv : Inv s) (lay : Layout es s) {line index fin : Nat} {op : Cap} {v : Option Cap}
    (h : stepListItem s line index fin op v = .ok s') : Layout (es ++ [.line line index ⟨fin, .listItem op v⟩]) s' := by
  unfold stepListItem at h
  simp only at h
  split at h
  · simp at h
  · rename_i n hn
    obtain ⟨hnl, hnt⟩ := inv.cur.non_some n hn
    have hnc := not_container_of_mem hnt (by simp) (by simp)
    have eok := inv.heap.elem n (by omega)
    have hpc : ({ line := line, ranges := [(.line, (index, fin)), (.itemOperator, op.span)] ++ valueRange .value v, isEntry := false
                  key := none, value := v.map (·.text), comments := s.comments, continuations := none } : Sub).piece =
        (Event.line line index ⟨fin, .listItem op v⟩).piece := by
      cases v <;> simp [Sub.piece, Event.piece, pieceOf, rangesOf, at_, at?, valueRange, Cap.span, keyText, valueText, templateText]
    have hps : (Event.line line index ⟨fin, .listItem op v⟩).pieces = [(Event.line line index ⟨fin, .listItem op v⟩).piece] := by
      simp [Event.pieces, Event.piece]
    generalize hI : ({ line := line, ranges := [(.line, (index, fin)), (.itemOperator, op.span)] ++ valueRange .value v, isEntry := false
                       key := none, value := v.map (·.text), comments := s.comments, continuations := none } : Sub) = item at h hpc
    have hic : item.comments = s.comments := by rw [← hI]
    have hict : item.continuations = none := by rw [← hI]
    split at h
    · rename_i hty
      have hen : (s.heap.at n).entries = none := by
        cases hx : (s.heap.at n).entries with
        | none => rfl
        | some xs => have := (eok.entries xs hx).1; rw [hty] at this; cases this
      split at h
      · simp at h
      · rename_i items hit
        simp at h; subst h
        refine layout_join inv lay hnl hnc rfl rfl rfl ?_ ?_ ?_ rfl rfl rfl rfl
        · intro b hb
          rw [parts_snoc_owns rfl, List.map_append, ← hb]
          simp [Elem.parts, Elem.head, Elem.piece, hit, hen, Sub.part, hpc, hict, hps]
        · intro b hb hk
          rw [hty] at hk
          obtain ⟨e, x, r, rfl⟩ := kindOf_list hb hk.symm
          rw [kindOf_append_of_two]
          exact hty.trans hk
        · simp [Elem.owners, Elem.piece, hit, hen, hpc, hic, Event.role, roleOf, Role.owns]
    · split at h
      · rename_i hty
        have hen : (s.heap.at n).entries = none := by
          cases hx : (s.heap.at n).entries with
          | none => rfl
          | some xs => have := (eok.entries xs hx).1; rw [hty] at this; cases this
        have hit : (s.heap.at n).items = none := by
          cases hx : (s.heap.at n).items with
          | none => rfl
          | some xs => have := (eok.items xs hx).1; rw [hty] at this; cases this
        simp at h; subst h
        refine layout_join inv lay hnl hnc rfl rfl rfl ?_ ?_ ?_ rfl rfl rfl rfl
        · intro b hb
          rw [parts_snoc_owns rfl, List.map_append, ← hb]
          simp [Elem.parts, Elem.head, Elem.piece, hit, hen, Sub.part, hpc, hict, hps]
        · intro b hb hk
          rw [hty] at hk
          obtain ⟨e, rfl, hr⟩ := kindOf_empty hb hk.symm
          exact ((kindOf_pair hr).1 rfl).symm
        · simp [Elem.owners, Elem.piece, hit, hen, hpc, hic, Event.role, roleOf, Role.owns]
      · simp at h

theorem layout_stepEntry (inv : Inv s) (lay : Layout es s) {line index fin : Nat} {k : KeyTok} {op : Cap} {v : Option Cap}
    (h : stepEntry s line index fin k op v = .ok s') : Layout (es ++ [.line line index ⟨fin, .entry k op v⟩]) s' := by
  unfold stepEntry at h
  simp only at h
  split at h
  · simp at h
  · rename_i n hn
    obtain ⟨hnl, hnt⟩ := inv.cur.non_some n hn
    have hnc := not_container_of_mem hnt (by simp) (by simp)
    have eok := inv.heap.elem n (by omega)
    have hpc : ({ line := line, ranges := [(.line, (index, fin))] ++ escapeRanges k ++ [(.entryOperator, op.span), (.key, k.span)] ++ valueRange .value v, isEntry := true
                  key := some k.text, value := v.map (·.text), comments := s.comments, continuations := none } : Sub).piece =
        (Event.line line index ⟨fin, .entry k op v⟩).piece := by
      cases v <;> cases k <;> simp [Sub.piece, Event.piece, pieceOf, rangesOf, keyRanges, escapeRanges, at_, at?, valueRange, Cap.span, KeyTok.span, KeyTok.text, keyText, valueText, templateText]
    have hps : (Event.line line index ⟨fin, .entry k op v⟩).pieces = [(Event.line line index ⟨fin, .entry k op v⟩).piece] := by
      simp [Event.pieces, Event.piece]
    generalize hI : ({ line := line, ranges := [(.line, (index, fin))] ++ escapeRanges k ++ [(.entryOperator, op.span), (.key, k.span)] ++ valueRange .value v, isEntry := true
                       key := some k.text, value := v.map (·.text), comments := s.comments, continuations := none } : Sub) = item at h hpc
    have hic : item.comments = s.comments := by rw [← hI]
    have hict : item.continuations = none := by rw [← hI]
    split at h
    · rename_i hty
      have hen : (s.heap.at n).items = none := by
        cases hx : (s.heap.at n).items with
        | none => rfl
        | some xs => have := (eok.items xs hx).1; rw [hty] at this; cases this
      split at h
      · simp at h
      · rename_i items hit
        simp at h; subst h
        refine layout_join inv lay hnl hnc rfl rfl rfl ?_ ?_ ?_ rfl rfl rfl rfl
        · intro b hb
          rw [parts_snoc_owns rfl, List.map_append, ← hb]
          simp [Elem.parts, Elem.head, Elem.piece, hit, hen, Sub.part, hpc, hict, hps]
        · intro b hb hk
          rw [hty] at hk
          obtain ⟨e, x, r, rfl⟩ := kindOf_fieldset hb hk.symm
          rw [kindOf_append_of_two]
          exact hty.trans hk
        · simp [Elem.owners, Elem.piece, hit, hen, hpc, hic, Event.role, roleOf, Role.owns]
    · split at h
      · rename_i hty
        have hen : (s.heap.at n).entries = none := by
          cases hx : (s.heap.at n).entries with
          | none => rfl
          | some xs => have := (eok.entries xs hx).1; rw [hty] at this; cases this
        have hit : (s.heap.at n).items = none := by
          cases hx : (s.heap.at n).items with
          | none => rfl
          | some xs => have := (eok.items xs hx).1; rw [hty] at this; cases this
        simp at h; subst h
        refine layout_join inv lay hnl hnc rfl rfl rfl ?_ ?_ ?_ rfl rfl rfl rfl
        · intro b hb
          rw [parts_snoc_owns rfl, List.map_append, ← hb]
          simp [Elem.parts, Elem.head, Elem.piece, hit, hen, Sub.part, hpc, hict, hps]
        · intro b hb hk
          rw [hty] at hk
          obtain ⟨e, rfl, hr⟩ := kindOf_empty hb hk.symm
          exact ((kindOf_pair hr).2.1 rfl).symm
        · simp [Elem.owners, Elem.piece, hit, hen, hpc, hic, Event.role, roleOf, Role.owns]
      · simp at h

theorem snoc_eq_map {α β} {g : α → β} {l : List α} (h : l ≠ []) : ∃ l' a, l = l' ++ [a] ∧ l.map g = l'.map g ++ [g a] := by
  refine ⟨l.dropLast, l.getLast h, (List.dropLast_concat_getLast h).symm, ?_⟩
  conv => lhs; rw [← List.dropLast_concat_getLast h]
  simp

/-- Replacing the last part. -/
theorem parts_joins {b : List Event} {P : List (List Piece)} {Q : List Piece} (h : ev.role.owns = false)
    (hb : P ++ [Q] = (parts b).map fun g => g.flatMap Event.pieces) :
    ((parts (b ++ [ev])).map fun g => g.flatMap Event.pieces) = P ++ [Q ++ ev.pieces] := by
  obtain ⟨gs, g, h1, h2, h3⟩ := map_eq_snoc hb.symm
  rw [parts_snoc_joins h h1]
  simp [h2, ← h3]

theorem sub_addCont_part (c : Cont) (x : Sub) : (Sub.addCont c x).part = x.part ++ [c.piece] := by
  simp [Sub.addCont, Sub.part, Sub.piece]

theorem map_part_modifyLast (c : Cont) {xs : List Sub} (h : xs ≠ []) :
    ∃ P Q, xs.map Sub.part = P ++ [Q] ∧ (modifyLast (Sub.addCont c) xs).map Sub.part = P ++ [Q ++ [c.piece]] := by
  obtain ⟨l, a, h1, h2⟩ := snoc_eq_map (g := Sub.part) h
  refine ⟨l.map Sub.part, a.part, h2, ?_⟩
  rw [h1, modifyLast_snoc]
  simp [sub_addCont_part]

theorem map_owner_modifyLast (c : Cont) (xs : List Sub) :
    (modifyLast (Sub.addCont c) xs).map (fun x => (x.comments.getD [], x.piece)) = xs.map (fun x => (x.comments.getD [], x.piece)) := by
  by_cases h : xs = []
  · subst h; rfl
  · obtain ⟨l, a, h1, h2⟩ := snoc_eq_map (g := Sub.part) h
    rw [h1, modifyLast_snoc]
    simp [Sub.addCont, Sub.piece]

theorem layout_stepContinuation (inv : Inv s) (lay : Layout es s) {line index fin : Nat} {sp : Bool} {op : Cap} {v : Option Cap}
    (h : stepContinuation s line index fin sp op v = .ok s') : Layout (es ++ [.line line index ⟨fin, .continuation sp op v⟩]) s' := by
  unfold stepContinuation at h
  simp only at h
  have hpc : ({ line := line
                ranges := [(.line, (index, fin)),
                  (if sp then .spacedLineContinuationOperator else .directLineContinuationOperator, op.span)] ++ valueRange .value v
                spaced := sp, value := v.map (·.text) } : Cont).piece = (Event.line line index ⟨fin, .continuation sp op v⟩).piece := by
    cases v <;> cases sp <;> simp [Cont.piece, Event.piece, pieceOf, rangesOf, at_, at?, valueRange, Cap.span, keyText, valueText, templateText]
  have hps : (Event.line line index ⟨fin, .continuation sp op v⟩).pieces = [(Event.line line index ⟨fin, .continuation sp op v⟩).piece] := by
    simp [Event.pieces, Event.piece]
  generalize ({ line := line, ranges := _, spaced := sp, value := _ } : Cont) = c at h hpc
  have howns : (Event.line line index ⟨fin, .continuation sp op v⟩).role.owns = false := rfl
  split at h
  · simp at h
  · rename_i n hn
    obtain ⟨hnl, hnt, htm⟩ := inv.cur.elem n hn
    have hnc := not_container_of_mem hnt (by simp) (by simp)
    have eok := inv.heap.elem n (by omega)
    have hit : (s.heap.at n).items = none := by
      cases hx : (s.heap.at n).items with
      | none => rfl
      | some xs => have := (eok.items xs hx).1; rw [this] at hnt; simp at hnt
    have hen : (s.heap.at n).entries = none := by
      cases hx : (s.heap.at n).entries with
      | none => rfl
      | some xs => have := (eok.entries xs hx).1; rw [this] at hnt; simp at hnt
    have hli : (s.heap.at n).lines = none := by
      cases hx : (s.heap.at n).lines with
      | none => rfl
      | some xs => have := (eok.lines xs hx).1; rw [this] at hnt; simp at hnt
    have hfi : (s.heap.at n).fin = none := by
      cases hx : (s.heap.at n).fin with
      | none => rfl
      | some xs => have := eok.fin (by rw [hx]; rfl); rw [this] at hnt; simp at hnt
    simp at h; subst h
    refine layout_join inv lay hnl hnc rfl rfl rfl ?_ ?_ ?_ ?_ rfl rfl rfl
    · intro b hb
      have hx : (s.heap.at n).parts = [] ++ [(s.heap.at n).head] := by simp [Elem.parts, hit, hen]
      rw [hx] at hb
      rw [parts_joins howns hb, hps, ← hpc]
      unfold Elem.addCont
      split
      · rename_i cs hcs
        simp [Elem.parts, Elem.head, Elem.piece, hit, hen, hli, hfi, hcs]
      · rename_i hcs
        simp [Elem.parts, Elem.head, Elem.piece, hit, hen, hli, hfi, hcs]
    · intro b hb hk
      simp at hnt
      rcases hnt with ht | ht
      · rw [kindOf_field_append hb (by rw [← hk, ht])]
        unfold Elem.addCont; split
        · exact ht
        · simp [ht]
      · have hcn : (s.heap.at n).continuations = none := by
          cases hx : (s.heap.at n).continuations with
          | none => rfl
          | some xs => have := (eok.conts xs hx).1; rw [ht] at this; cases this
        rw [ht] at hk
        unfold Elem.addCont
        rw [hcn]
        simp only [ht, if_true]
        obtain ⟨e, rfl, hr⟩ := kindOf_empty hb hk.symm
        exact ((kindOf_pair hr).2.2 rfl).symm
    · simp only [howns]
      unfold Elem.addCont; split <;> simp [Elem.owners, Elem.piece, hit, hen]
    · simp [Event.role, roleOf, flushed_eq]
  · rename_i n hn
    obtain ⟨hnl, hnt⟩ := inv.cur.sub n hn
    have hnc := not_container_of_mem hnt (by simp) (by simp)
    have eok := inv.heap.elem n (by omega)
    simp at h; subst h
    refine layout_join inv lay hnl hnc rfl rfl rfl ?_ ?_ ?_ ?_ rfl rfl rfl
    · intro b hb
      simp at hnt
      rcases hnt with ht | ht
      · have hen : (s.heap.at n).entries = none := by
          cases hx : (s.heap.at n).entries with
          | none => rfl
          | some xs => have := (eok.entries xs hx).1; rw [ht] at this; cases this
        obtain ⟨xs, hxs⟩ := Option.isSome_iff_exists.1 (eok.list ht)
        obtain ⟨P, Q, h1, h2⟩ := map_part_modifyLast c (eok.items xs hxs).2.1
        have hx : (s.heap.at n).parts = ((s.heap.at n).head :: P) ++ [Q] := by simp [Elem.parts, hxs, hen, h1]
        rw [hx] at hb
        rw [parts_joins howns hb, hps, ← hpc]
        simp [Elem.addContLast, Elem.parts, Elem.head, Elem.piece, hxs, hen, h2]
      · have hen : (s.heap.at n).items = none := by
          cases hx : (s.heap.at n).items with
          | none => rfl
          | some xs => have := (eok.items xs hx).1; rw [ht] at this; cases this
        obtain ⟨xs, hxs⟩ := Option.isSome_iff_exists.1 (eok.fieldset ht)
        obtain ⟨P, Q, h1, h2⟩ := map_part_modifyLast c (eok.entries xs hxs).2.1
        have hx : (s.heap.at n).parts = ((s.heap.at n).head :: P) ++ [Q] := by simp [Elem.parts, hxs, hen, h1]
        rw [hx] at hb
        rw [parts_joins howns hb, hps, ← hpc]
        simp [Elem.addContLast, Elem.parts, Elem.head, Elem.piece, hxs, hen, h2]
    · intro b hb hk
      simp at hnt
      rcases hnt with ht | ht
      · rw [ht] at hk
        obtain ⟨e, x, r, rfl⟩ := kindOf_list hb hk.symm
        rw [kindOf_append_of_two, ← hk]; exact ht
      · rw [ht] at hk
        obtain ⟨e, x, r, rfl⟩ := kindOf_fieldset hb hk.symm
        rw [kindOf_append_of_two, ← hk]; exact ht
    · simp only [howns]
      cases hi : (s.heap.at n).items <;> cases he : (s.heap.at n).entries <;>
        simp [Elem.addContLast, Elem.owners, Elem.piece, hi, he, map_owner_modifyLast]
    · simp [Event.role, roleOf, flushed_eq]

theorem layout_applyEvent (inv : Inv s) (lay : Layout es s) (hev : ev.Shaped) (h : applyEvent s ev = .ok s') : Layout (es ++ [ev]) s' := by
  cases ev with
  | multi n b fin op key body T =>
    simp only [applyEvent] at h; injection h with h; subst h
    exact layout_multi inv lay _ _ _ _ _ _ _
  | line n b t =>
    obtain ⟨fin, body⟩ := t
    simp only [applyEvent] at h
    unfold step at h
    cases body with
    | empty =>
      simp at h; subst h
      exact layout_skip lay rfl rfl (by simp [Event.role, roleOf, flushed_eq]) (by simp [Event.role, roleOf]) rfl rfl
    | element k op v => simp at h; subst h; exact layout_stepElement inv lay _ _ _ _ _ _
    | listItem op v => exact layout_stepListItem inv lay h
    | entry k op v => exact layout_stepEntry inv lay h
    | continuation sp op v => exact layout_stepContinuation inv lay h
    | heading op k c => exact layout_stepHeading inv lay h
    | multiline op key => exact absurd rfl (hev.2 op key)
    | comment op v =>
      simp at h; subst h
      refine layout_skip lay rfl rfl (by simp [Event.role, roleOf, stepComment]) ?_ rfl rfl
      cases v <;> simp [Event.role, roleOf, stepComment, Event.comments, rangesOf, at_, at?, valueRange, Cap.span]
    | copy k op tm => simp at h; subst h; exact layout_stepCopy inv lay _ _ _ _ _ _

/-- The state after a list of events. -/
theorem layout_runEvents (es : List Event) : ∀ {s : AS}, (∀ ev ∈ es, ev.Shaped) → runEvents AS.init es = .ok s → Inv s ∧ Layout es s := by
  induction es using snoc_induction with
  | h0 => intro s _ h; simp [runEvents] at h; subst h; exact ⟨inv_init, layout_init⟩
  | h1 es ev ih =>
    intro s hev h
    rw [runEvents_append] at h
    split at h
    · rename_i s1 h1
      obtain ⟨i1, l1⟩ := ih (fun e he => hev e (by simp [he])) h1
      simp only [runEvents] at h
      split at h
      · rename_i s2 h2
        injection h with h; subst h
        have := hev ev (by simp)
        exact ⟨inv_applyEvent i1 this h2, layout_applyEvent i1 l1 this h2⟩
      · simp at h
    · simp at h

end Eno
