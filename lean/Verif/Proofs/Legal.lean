import Verif.Proofs.Layout

/-! # Which lines are accepted -/

namespace Eno

open Spec

variable {s s' : AS} {es : List Event} {ev : Event}

/-- The kind of the last block is the type of the last element. -/
theorem last_kind (inv : Inv s) (lay : Layout es s) :
    ((blocks es = [] ∧ (s.heap.at (s.heap.length - 1)).type = .document) ∨
      ∃ bs b, blocks es = bs ++ [b] ∧ kindOf b = (s.heap.at (s.heap.length - 1)).type ∧
        (s.heap.at (s.heap.length - 1)).parts = (parts b).map fun g => g.flatMap Event.pieces) := by
  have hpos := inv.heap.pos
  have hk := lay.kinds
  have ht := lay.trees
  have hs := heap_snoc (h := s.heap) hpos
  by_cases h1 : s.heap.length = 1
  · left
    have hn : s.heap.tail = [] := by
      have : s.heap.tail.length = 0 := by simp [h1]
      exact List.length_eq_zero_iff.1 this
    rw [hn] at hk
    simp at hk
    refine ⟨hk, ?_⟩
    rw [h1]; exact inv.heap.doc.1
  · right
    rw [hs] at hk ht
    have hne : 0 < (s.heap.take (s.heap.length - 1)).length := by simp; omega
    rw [tail_append hne] at hk ht
    rw [List.map_append, List.map_singleton] at hk ht
    obtain ⟨bs, b, hb, e1, e2⟩ := map_eq_snoc ht.symm
    rw [hb] at hk
    obtain ⟨e3, e4⟩ := map_eq_snoc' hk.symm
    exact ⟨bs, b, hb, e4, e2.symm⟩

/-- A bare copy is an empty element with a template. -/
theorem bare_copy {b : List Event} {x : Elem} (hb : b ∈ blocks es) (hk : kindOf b = .empty)
    (hp : x.parts = (parts b).map fun g => g.flatMap Event.pieces) : b.map Event.role = [.copy] ↔ x.template.isSome := by
  obtain ⟨e, rfl, hr⟩ := kindOf_empty hb hk
  rw [parts_single (by rcases hr with hr | hr <;> rw [hr] <;> rfl)] at hp
  have hpc : x.piece = e.piece := by
    cases e with
    | multi => simp [Event.role] at hr
    | line n b t =>
      have hne : ¬ t.body = .empty := by intro h; simp [Event.role, h, roleOf] at hr
      simp [Elem.parts, Elem.head, Event.pieces, hne] at hp
      exact hp.1.1
  have htm : x.template = e.piece.template := by rw [← hpc]; rfl
  rw [htm]
  cases e with
  | multi => simp [Event.role] at hr
  | line n b t =>
    cases hb : t.body <;> simp [Event.role, roleOf, hb, Event.piece, pieceOf, templateText] at hr ⊢

/-- What a rejected line is called. -/
def failName : LineFail → Option FailKind
  | .missingList => some .missingListForListItem
  | .missingFieldset => some .missingFieldsetForFieldsetEntry
  | .missingElement => some .missingElementForContinuation
  | .layerSkip sup => some (.sectionHierarchyLayerSkip sup)
  | _ => none

/-- An event is accepted exactly if it is legal, and otherwise reported as specified. -/
theorem legal_iff (inv : Inv s) (lay : Layout es s) (hev : ev.Shaped) :
    (Legal es ev ∧ ∃ s', applyEvent s ev = .ok s') ∨
    (¬ Legal es ev ∧ ∃ f, applyEvent s ev = .error f ∧ failName f = rejection es ev ∧ (rejection es ev).isSome) := by
  cases ev with
  | multi n b fin op key body T => left; exact ⟨trivial, _, rfl⟩
  | line n b t =>
    obtain ⟨fin, body⟩ := t
    cases body with
    | empty => left; exact ⟨trivial, _, rfl⟩
    | element k op v => left; exact ⟨trivial, _, rfl⟩
    | comment op v => left; exact ⟨trivial, _, rfl⟩
    | copy k op tm => left; exact ⟨trivial, _, rfl⟩
    | multiline op key => exact absurd rfl (hev.2 op key)
    | heading op k c =>
      obtain ⟨h1, h2, _⟩ := hev.1
      rcases stepHeading_cases (line := n) (index := b) (fin := fin) (k := k) (c := c) inv (by omega : op.b < op.e) with ⟨hd, s', h', _⟩ | ⟨hd, h'⟩
      · left
        refine ⟨?_, s', h'⟩
        show op.e - op.b ≤ depthOf es + 1
        rw [← lay.depth]; exact hd
      · right
        refine ⟨?_, _, h', ?_, rfl⟩
        · intro h
          have : op.e - op.b ≤ depthOf es + 1 := h
          rw [← lay.depth] at this; omega
        · simp [failName, rejection, Event.role, roleOf, lay.section_]
    | listItem op v =>
      have hL : Legal es (.line n b ⟨fin, .listItem op v⟩) ↔ ∃ b, (blocks es).getLast? = some b ∧ kindOf b ∈ [Ty.list, .empty] := Iff.rfl
      rw [hL]
      have hstep : applyEvent s (.line n b ⟨fin, .listItem op v⟩) = stepListItem s n b fin op v := rfl
      rw [hstep]
      unfold stepListItem
      simp only
      cases hn : s.lastNonSection with
      | none =>
        right
        have := inv.cur.non_none hn
        refine ⟨?_, _, rfl, rfl, rfl⟩
        rintro ⟨x, hx, hk⟩
        rcases last_kind inv lay with ⟨h, _⟩ | ⟨bs, y, hb, hy, _⟩
        · rw [h] at hx; simp at hx
        · rw [hb] at hx; simp at hx; subst hx
          rw [← hy] at this
          simp at this hk
          rcases hk with hk | hk <;> rw [hk] at this <;> simp at this
      | some m =>
        obtain ⟨hl, ht⟩ := inv.cur.non_some m hn
        have hm : m = s.heap.length - 1 := by omega
        have eok := inv.heap.elem m (by omega)
        rcases last_kind inv lay with ⟨h, hd⟩ | ⟨bs, y, hb, hy, _⟩
        · rw [← hm] at hd; rw [hd] at ht; simp at ht
        · rw [← hm] at hy
          simp only
          by_cases h1 : (s.heap.at m).type = .list
          · left
            refine ⟨⟨y, by rw [hb]; simp, by rw [hy, h1]; simp⟩, ?_⟩
            rw [if_pos h1]
            have := eok.list h1
            cases hi : (s.heap.at m).items with
            | none => rw [hi] at this; simp at this
            | some xs => exact ⟨_, rfl⟩
          · rw [if_neg h1]
            by_cases h2 : (s.heap.at m).type = .empty
            · left
              refine ⟨⟨y, by rw [hb]; simp, by rw [hy, h2]; simp⟩, ?_⟩
              rw [if_pos h2]; exact ⟨_, rfl⟩
            · right
              rw [if_neg h2]
              refine ⟨?_, _, rfl, rfl, rfl⟩
              rintro ⟨x, hx, hk⟩
              rw [hb] at hx; simp at hx; subst hx
              rw [hy] at hk; simp [h1, h2] at hk
    | entry k op v =>
      have hL : Legal es (.line n b ⟨fin, .entry k op v⟩) ↔ ∃ b, (blocks es).getLast? = some b ∧ kindOf b ∈ [Ty.fieldset, .empty] := Iff.rfl
      rw [hL]
      have hstep : applyEvent s (.line n b ⟨fin, .entry k op v⟩) = stepEntry s n b fin k op v := rfl
      rw [hstep]
      unfold stepEntry
      simp only
      cases hn : s.lastNonSection with
      | none =>
        right
        have := inv.cur.non_none hn
        refine ⟨?_, _, rfl, rfl, rfl⟩
        rintro ⟨x, hx, hk⟩
        rcases last_kind inv lay with ⟨h, _⟩ | ⟨bs, y, hb, hy, _⟩
        · rw [h] at hx; simp at hx
        · rw [hb] at hx; simp at hx; subst hx
          rw [← hy] at this
          simp at this hk
          rcases hk with hk | hk <;> rw [hk] at this <;> simp at this
      | some m =>
        obtain ⟨hl, ht⟩ := inv.cur.non_some m hn
        have hm : m = s.heap.length - 1 := by omega
        have eok := inv.heap.elem m (by omega)
        rcases last_kind inv lay with ⟨h, hd⟩ | ⟨bs, y, hb, hy, _⟩
        · rw [← hm] at hd; rw [hd] at ht; simp at ht
        · rw [← hm] at hy
          simp only
          by_cases h1 : (s.heap.at m).type = .fieldset
          · left
            refine ⟨⟨y, by rw [hb]; simp, by rw [hy, h1]; simp⟩, ?_⟩
            rw [if_pos h1]
            have := eok.fieldset h1
            cases hi : (s.heap.at m).entries with
            | none => rw [hi] at this; simp at this
            | some xs => exact ⟨_, rfl⟩
          · rw [if_neg h1]
            by_cases h2 : (s.heap.at m).type = .empty
            · left
              refine ⟨⟨y, by rw [hb]; simp, by rw [hy, h2]; simp⟩, ?_⟩
              rw [if_pos h2]; exact ⟨_, rfl⟩
            · right
              rw [if_neg h2]
              refine ⟨?_, _, rfl, rfl, rfl⟩
              rintro ⟨x, hx, hk⟩
              rw [hb] at hx; simp at hx; subst hx
              rw [hy] at hk; simp [h1, h2] at hk
    | continuation sp op v =>
      have hL : Legal es (.line n b ⟨fin, .continuation sp op v⟩) ↔ ∃ b, (blocks es).getLast? = some b ∧
        kindOf b ∈ [Ty.field, .empty, .list, .fieldset] ∧ b.map Event.role ≠ [.copy] := Iff.rfl
      rw [hL]
      have hstep : applyEvent s (.line n b ⟨fin, .continuation sp op v⟩) = stepContinuation s n b fin sp op v := rfl
      rw [hstep]
      unfold stepContinuation
      simp only
      have hnb : ∀ y : List Event, kindOf y ≠ .empty → y.map Event.role ≠ [.copy] := by
        intro y hy h
        apply hy
        cases y with
        | nil => simp at h
        | cons e r => simp at h; rw [h.2]; simp [kindOf, h.1]
      cases hn : s.lastCont with
      | none =>
        right
        refine ⟨?_, _, rfl, rfl, rfl⟩
        rintro ⟨x, hx, hk, hc⟩
        rcases last_kind inv lay with ⟨h, _⟩ | ⟨bs, y, hb, hy, hp⟩
        · rw [h] at hx; simp at hx
        · rw [hb] at hx; simp at hx; subst hx
          rcases inv.cur.cont_none hn with h | ⟨h, ht⟩
          · rw [← hy] at h; simp at h hk
            rcases hk with hk | hk | hk | hk <;> rw [hk] at h <;> simp at h
          · rw [h] at hy
            exact hc ((bare_copy (es := es) (by rw [hb]; simp) hy hp).2 ht)
      | some r =>
        left
        cases r with
        | elem m =>
          refine ⟨?_, _, rfl⟩
          obtain ⟨hl, ht, htm⟩ := inv.cur.elem m hn
          have hm : m = s.heap.length - 1 := by omega
          rcases last_kind inv lay with ⟨h, hd⟩ | ⟨bs, y, hb, hy, hp⟩
          · rw [← hm] at hd; rw [hd] at ht; simp at ht
          · rw [← hm] at hy hp
            refine ⟨y, by rw [hb]; simp, by rw [hy]; simp at ht ⊢; rcases ht with h | h <;> simp [h], ?_⟩
            by_cases he : kindOf y = .empty
            · rw [Ne, bare_copy (es := es) (by rw [hb]; simp) he hp, htm]; simp
            · exact hnb y he
        | sub m =>
          refine ⟨?_, _, rfl⟩
          obtain ⟨hl, ht⟩ := inv.cur.sub m hn
          have hm : m = s.heap.length - 1 := by omega
          rcases last_kind inv lay with ⟨h, hd⟩ | ⟨bs, y, hb, hy, hp⟩
          · rw [← hm] at hd; rw [hd] at ht; simp at ht
          · rw [← hm] at hy hp
            refine ⟨y, by rw [hb]; simp, by rw [hy]; simp at ht ⊢; rcases ht with h | h <;> simp [h], hnb y ?_⟩
            rw [hy]; simp at ht; rcases ht with h | h <;> simp [h]

/-- The events are accepted exactly if all are legal; otherwise the first illegal one is reported. -/
theorem runEvents_legal (es : List Event) (hev : ∀ ev ∈ es, ev.Shaped) :
    (AllLegal es ∧ ∃ s, runEvents AS.init es = .ok s) ∨
    (∃ pre ev post s f, es = pre ++ ev :: post ∧ AllLegal pre ∧ ¬ Legal pre ev ∧ runEvents AS.init pre = .ok s ∧
      runEvents AS.init es = .error (s, ev, f) ∧ failName f = rejection pre ev ∧ (rejection pre ev).isSome) := by
  induction es using snoc_induction with
  | h0 => left; exact ⟨by intro pre ev post h; simp at h, _, rfl⟩
  | h1 es ev ih =>
    rcases ih (fun e he => hev e (by simp [he])) with ⟨hL, s, hs⟩ | ⟨pre, x, post, s, f, h1, h2, h3, h4, h5, h6⟩
    · obtain ⟨inv, lay⟩ := layout_runEvents es (fun e he => hev e (by simp [he])) hs
      have hr : runEvents AS.init (es ++ [ev]) = match applyEvent s ev with | .ok s' => .ok s' | .error f => .error (s, ev, f) := by
        rw [runEvents_append, hs]; simp only [runEvents]; cases applyEvent s ev <;> rfl
      rcases legal_iff inv lay (hev ev (by simp)) with ⟨h1, s', h2⟩ | ⟨h1, f, h2, h3, h4⟩
      · left
        refine ⟨?_, s', by rw [hr, h2]⟩
        intro pre x post h
        rcases List.eq_nil_or_concat post with hp | ⟨p', y, hp⟩
        · subst hp
          have := List.append_inj' h rfl
          obtain ⟨rfl, hx⟩ := this
          simp at hx; subst hx; exact h1
        · subst hp
          rw [List.concat_eq_append, ← List.cons_append, ← List.append_assoc] at h
          have := (List.append_inj' h rfl).1
          exact hL pre x p' this
      · right
        exact ⟨es, ev, [], s, f, rfl, hL, h1, hs, by rw [hr, h2], h3, h4⟩
    · right
      refine ⟨pre, x, post ++ [ev], s, f, by rw [h1]; simp, h2, h3, h4, ?_, h6⟩
      rw [runEvents_append, h5]

end Eno
