import Verif.Proofs.AlikeLoad

/-! # Without comments: the analyzer -/

namespace Eno

open Spec

variable {h : Heap} {s : AS}

/-- An item or entry without its comments. -/
def Sub.hush (x : Sub) : Sub := { x with comments := none }

/-- Items or entries without comments. -/
def hushSubs (l : Option (List Sub)) : Option (List Sub) := l.map (·.map Sub.hush)

/-- An element without its comments. -/
def Elem.hush (e : Elem) : Elem := { e with comments := none, items := hushSubs e.items, entries := hushSubs e.entries }

/-- Elements without comments. -/
def Heap.hush (h : Heap) : Heap := h.map Elem.hush

/-- The state of the analyzer, if there were no comments. -/
def AS.hush (s : AS) : AS := { s with heap := Heap.hush s.heap, metas := [], comments := none }

/-- A document without comments. -/
def Ctx.hush (c : Ctx) : Ctx := { c with heap := Heap.hush c.heap, metas := [] }

theorem hush_length : (Heap.hush h).length = h.length := by simp [Heap.hush]

theorem hush_at (k : Nat) : (Heap.hush h).at k = (h.at k).hush := by
  unfold Heap.at Heap.hush List.getD
  rw [List.getElem?_map]
  cases h[k]? <;> rfl

theorem hush_modify {f g : Elem → Elem} (k : Nat) (hf : ∀ e, (f e).hush = g e.hush) : Heap.hush (h.modify k f) = (Heap.hush h).modify k g := by
  unfold Heap.hush
  apply List.ext_getElem?
  intro n
  simp only [List.getElem?_map, List.getElem?_modify]
  by_cases hk : k = n
  · simp only [hk, if_true]
    cases h[n]? <;> simp [hf]
  · simp only [if_neg hk]
    cases h[n]? <;> simp

theorem hush_append (p : Nat) (e : Elem) : s.hush.append p e.hush = Heap.hush (s.append p e) := by
  unfold AS.append
  have : Heap.hush (s.heap.modify p (fun q => { q with elements := q.elements ++ [s.heap.length] }) ++ [e]) =
      Heap.hush (s.heap.modify p (fun q => { q with elements := q.elements ++ [s.heap.length] })) ++ [e.hush] := by simp [Heap.hush]
  rw [this, hush_modify (g := fun q => { q with elements := q.elements ++ [s.heap.length] }) p (fun _ => rfl)]
  simp only [AS.hush, hush_length]

theorem hush_new (p : Nat) (e : Elem) (h1 : e.comments = none) (h2 : e.items = none) (h3 : e.entries = none) (cs : Option (List Comment)) :
    s.hush.append p e = Heap.hush (s.append p { e with comments := cs }) := by
  rw [← hush_append]
  congr 1
  simp only [Elem.hush, hushSubs, h2, h3, Option.map_none]
  cases e; simp_all

theorem hush_element (n b f : Nat) (k : KeyTok) (op : Cap) (v : Option Cap) : stepElement s.hush n b f k op v = (stepElement s n b f k op v).hush := by
  unfold stepElement
  simp only [AS.hush, hush_length, AS.mk.injEq, true_and]
  exact ⟨hush_new _ _ rfl rfl rfl s.comments, trivial⟩

theorem hush_copy (n b f : Nat) (k : KeyTok) (op t : Cap) : stepCopy s.hush n b f k op t = (stepCopy s n b f k op t).hush := by
  unfold stepCopy
  simp only [AS.hush, hush_length, AS.mk.injEq, true_and]
  exact ⟨hush_new _ _ rfl rfl rfl s.comments, trivial⟩

theorem hush_open (n b f : Nat) (op k : Cap) : openMultiline s.hush n b f op k = (openMultiline s n b f op k).hush := by
  unfold openMultiline
  simp only [AS.hush, hush_length, AS.mk.injEq, true_and]
  exact ⟨hush_new _ _ rfl rfl rfl s.comments, trivial⟩

theorem hush_close (ls : Option (List Base)) (e : Base) : closeMultiline s.hush ls e = (closeMultiline s ls e).hush := by
  unfold closeMultiline
  simp only [AS.hush, hush_length, AS.mk.injEq, true_and]
  exact ⟨(hush_modify (g := fun q => { q with lines := ls, fin := some e }) _ (fun _ => rfl)).symm, trivial⟩

theorem hush_comment (n b f : Nat) (op : Cap) (c : Option Cap) : (stepComment s n b f op c).hush = s.hush := rfl

theorem hush_item (n b f : Nat) (op : Cap) (v : Option Cap) : stepListItem s.hush n b f op v = (stepListItem s n b f op v).map AS.hush := by
  unfold stepListItem
  simp only [show s.hush.lastNonSection = s.lastNonSection from rfl, show s.hush.heap = Heap.hush s.heap from rfl]
  cases s.lastNonSection with
  | none => rfl
  | some m =>
    simp only [hush_at, show (s.heap.at m).hush.type = (s.heap.at m).type from rfl, show (s.heap.at m).hush.items = hushSubs (s.heap.at m).items from rfl]
    split
    · cases hi : (s.heap.at m).items with
      | none => rfl
      | some xs =>
        simp only [hushSubs, Option.map_some, Except.map, AS.hush, Except.ok.injEq, AS.mk.injEq, and_true]
        exact (hush_modify _ fun e => by simp [Elem.hush, hushSubs, Sub.hush]).symm
    · split
      · simp only [Except.map, AS.hush, Except.ok.injEq, AS.mk.injEq, and_true]
        exact (hush_modify _ fun e => by simp [Elem.hush, hushSubs, Sub.hush]).symm
      · rfl

theorem hush_entry (n b f : Nat) (k : KeyTok) (op : Cap) (v : Option Cap) : stepEntry s.hush n b f k op v = (stepEntry s n b f k op v).map AS.hush := by
  unfold stepEntry
  simp only [show s.hush.lastNonSection = s.lastNonSection from rfl, show s.hush.heap = Heap.hush s.heap from rfl]
  cases s.lastNonSection with
  | none => rfl
  | some m =>
    simp only [hush_at, show (s.heap.at m).hush.type = (s.heap.at m).type from rfl, show (s.heap.at m).hush.entries = hushSubs (s.heap.at m).entries from rfl]
    split
    · cases hi : (s.heap.at m).entries with
      | none => rfl
      | some xs =>
        simp only [hushSubs, Option.map_some, Except.map, AS.hush, Except.ok.injEq, AS.mk.injEq, and_true]
        exact (hush_modify _ fun e => by simp [Elem.hush, hushSubs, Sub.hush]).symm
    · split
      · simp only [Except.map, AS.hush, Except.ok.injEq, AS.mk.injEq, and_true]
        exact (hush_modify _ fun e => by simp [Elem.hush, hushSubs, Sub.hush]).symm
      · rfl

theorem hush_addCont (c : Cont) (e : Elem) : (e.addCont c).hush = e.hush.addCont c := by
  unfold Elem.addCont
  simp only [show e.hush.continuations = e.continuations from rfl]
  cases e.continuations <;> rfl

theorem hush_modifyLast (c : Cont) : ∀ l : List Sub, (modifyLast (Sub.addCont c) l).map Sub.hush = modifyLast (Sub.addCont c) (l.map Sub.hush)
  | [] => rfl
  | [_] => rfl
  | a :: b :: t => by
    have := hush_modifyLast c (b :: t)
    simp only [List.map_cons] at this
    simp only [modifyLast, List.map_cons, this]

theorem hush_addContLast (c : Cont) (e : Elem) : (e.addContLast c).hush = e.hush.addContLast c := by
  have key : ∀ l : Option (List Sub), hushSubs (l.map (modifyLast (Sub.addCont c))) = (hushSubs l).map (modifyLast (Sub.addCont c)) := by
    intro l
    cases l <;> simp [hushSubs, hush_modifyLast]
  simp only [Elem.addContLast, Elem.hush, key]

theorem hush_continuation (n b f : Nat) (sp : Bool) (op : Cap) (v : Option Cap) : stepContinuation s.hush n b f sp op v = (stepContinuation s n b f sp op v).map AS.hush := by
  unfold stepContinuation
  simp only [show s.hush.lastCont = s.lastCont from rfl]
  cases s.lastCont with
  | none => rfl
  | some m =>
    cases m with
    | elem m =>
      simp only [Except.map, AS.hush, Except.ok.injEq, AS.mk.injEq, and_true, flushed]
      exact (hush_modify _ fun e => hush_addCont _ e).symm
    | sub m =>
      simp only [Except.map, AS.hush, Except.ok.injEq, AS.mk.injEq, and_true, flushed]
      exact (hush_modify _ fun e => hush_addContLast _ e).symm

theorem hush_ancestor : ∀ (n k : Nat), ancestor (Heap.hush h) n k = ancestor h n k
  | 0, _ => rfl
  | n + 1, k => by
    unfold ancestor
    rw [hush_at]
    simp only [show (h.at k).hush.parent = (h.at k).parent from rfl]
    cases (h.at k).parent with
    | none => rfl
    | some p => exact hush_ancestor n p

theorem hush_parent (k : Nat) : ((Heap.hush h).at k).parent = (h.at k).parent := by rw [hush_at]; rfl

theorem hush_headingParent (d : Nat) : headingParent s.hush d = headingParent s d := by
  unfold headingParent
  simp only [show s.hush.depth = s.depth from rfl, show s.hush.lastSection = s.lastSection from rfl, show s.hush.heap = Heap.hush s.heap from rfl, hush_parent, hush_ancestor]

theorem hush_markDeep : ∀ (n : Nat) (h : Heap) (k : Nat), markDeep n (Heap.hush h) k = (markDeep n h k).map Heap.hush
  | 0, _, _ => rfl
  | n + 1, h, k => by
    unfold markDeep
    rw [hush_at]
    simp only [show (h.at k).hush.parent = (h.at k).parent from rfl, show (h.at k).hush.type = (h.at k).type from rfl]
    split
    · rfl
    · cases (h.at k).parent with
      | none => rfl
      | some p =>
        simp only
        rw [← hush_markDeep n _ p, hush_modify (g := fun e => { e with deepResolve := true }) k fun _ => rfl]

theorem hush_heading (n b f : Nat) (op : Cap) (k : KeyTok) (c : Option (Cap × Cap)) : stepHeading s.hush n b f op k c = (stepHeading s n b f op k c).map AS.hush := by
  unfold stepHeading
  simp only [hush_headingParent]
  cases headingParent s (op.e - op.b) with
  | error e => rfl
  | ok p =>
    simp only
    cases c with
    | none =>
      simp only [Except.map, AS.hush, Except.ok.injEq, AS.mk.injEq, and_true, hush_length]
      exact hush_new p _ rfl rfl rfl s.comments
    | some c =>
      obtain ⟨o, t⟩ := c
      simp only [Option.map_some]
      rw [show s.hush.comments = none from rfl]
      rw [hush_new p { line := n, ranges := _, comments := none, key := k.text, type := .section, parent := some p, template := some t.text, deepCopy := decide (o.e - o.b = 2), copy := some t.text } rfl rfl rfl s.comments]
      rw [hush_length, hush_markDeep]
      generalize markDeep _ _ p = z
      cases z with
      | none => rfl
      | some g =>
        simp only [Option.map_some, Except.map, AS.hush, hush_length]

/-- Not a comment. -/
def Spec.Event.heard : Event → Bool
  | .line _ _ t => match t.body with
    | .comment .. => false
    | _ => true
  | .multi .. => true

theorem hush_event {ev : Event} (he : ev.heard = true) : applyEvent s.hush ev = (applyEvent s ev).map AS.hush := by
  cases ev with
  | multi n b fin op key body T =>
    simp only [applyEvent, Except.map, hush_open, hush_close]
  | line n b t =>
    simp only [applyEvent, step]
    cases hb : t.body with
    | comment op c => simp [Event.heard, hb] at he
    | empty => rfl
    | element k op v => simp only [hush_element]; rfl
    | listItem op v => exact hush_item ..
    | entry k op v => exact hush_entry ..
    | continuation sp op v => exact hush_continuation ..
    | heading op k c => exact hush_heading ..
    | multiline op k => simp only [hush_open]; rfl
    | copy k op t => simp only [hush_copy]; rfl

theorem unheard_event {ev : Event} (he : ev.heard = false) : ∃ s', applyEvent s ev = .ok s' ∧ s'.hush = s.hush := by
  cases ev with
  | multi n b fin op key body T => simp [Event.heard] at he
  | line n b t =>
    simp only [applyEvent, step]
    cases hb : t.body <;> simp only [Event.heard, hb, reduceCtorEq] at he
    exact ⟨_, rfl, hush_comment ..⟩

/-- The results of the analyzer without comments. -/
def hushRun : Except (AS × Event × LineFail) AS → Except (AS × Event × LineFail) AS
  | .ok s => .ok s.hush
  | .error (s, e, f) => .error (s.hush, e, f)

theorem hush_run : ∀ (es : List Event) (s : AS), runEvents s.hush (es.filter Event.heard) = hushRun (runEvents s es)
  | [], _ => rfl
  | ev :: es, s => by
    cases he : ev.heard with
    | false =>
      obtain ⟨s', h1, h2⟩ := unheard_event (s := s) he
      rw [List.filter_cons_of_neg (by simp [he])]
      simp only [runEvents, h1, ← h2]
      exact hush_run es s'
    | true =>
      rw [List.filter_cons_of_pos he]
      simp only [runEvents, hush_event he]
      cases applyEvent s ev with
      | error f => rfl
      | ok s' => exact hush_run es s'

end Eno
