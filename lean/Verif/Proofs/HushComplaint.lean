import Verif.Proofs.ComplaintLayout
import Verif.Proofs.WorldAgree

/-! # The same complaints are raised whatever the comments -/

namespace Eno

open Spec

variable {i i' : Str} {h h' : Heap} {ctx ctx' : Ctx} {o o' : Options} {r : Ref} {v : Complaint}

/-- An item or entry without its place and without comments. -/
def BareSub.hush (x : BareSub) : BareSub := { x with comments := none }

/-- An element without its place and without comments. -/
def Bare.hush (x : Bare) : Bare := { x with comments := none, items := x.items.map (·.map BareSub.hush), entries := x.entries.map (·.map BareSub.hush) }

theorem bare_hush (i : Str) (e : Elem) : e.hush.bare i = (e.bare i).hush := by
  have sub : ∀ l : Option (List Sub), (hushSubs l).map (·.map Sub.bare) = (l.map (·.map Sub.bare)).map (·.map BareSub.hush) := by
    intro l
    cases l with
    | none => rfl
    | some xs => simp only [hushSubs, Option.map_some, List.map_map]; rfl
  simp only [Elem.bare, Bare.hush, Elem.hush, sub]
  rfl

/-- What differs only in the places differs only in the places without comments. -/
theorem same_hush (H : SameHeap i i' h h') : SameHeap i i' (Heap.hush h) (Heap.hush h') := by
  have e : ∀ (i : Str) (h : Heap), (Heap.hush h).map (Elem.bare i) = (h.map (Elem.bare i)).map Bare.hush := by
    intro i h
    simp only [Heap.hush, List.map_map]
    exact List.map_congr_left fun x _ => bare_hush i x
  unfold SameHeap at *
  rw [e, e, H]

/-- Heaps that only differ in the places and in comments. -/
abbrev SameAsideHeap (i i' : Str) (h h' : Heap) : Prop := SameHeap i i' (Heap.hush h) (Heap.hush h')

theorem aside_type (H : SameAsideHeap i i' h h') (k : Nat) : (h'.at k).type = (h.at k).type := by
  rw [← hush_type (h := h'), ← hush_type (h := h)]; exact (H.at k).type

theorem aside_key (H : SameAsideHeap i i' h h') (k : Nat) : (h'.at k).key = (h.at k).key := by
  rw [← hush_key (h := h'), ← hush_key (h := h)]; exact (H.at k).key

theorem aside_elements (H : SameAsideHeap i i' h h') (k : Nat) : (h'.at k).elements = (h.at k).elements := by
  rw [← hush_elements (h := h'), ← hush_elements (h := h)]; exact (H.at k).elements

theorem aside_length (H : SameAsideHeap i i' h h') : h'.length = h.length := by
  rw [← hush_length (h := h'), ← hush_length (h := h)]; exact H.length

theorem aside_refType (H : SameAsideHeap i i' h h') (r : Ref) : h'.type r = h.type r := by
  rw [← hush_typeOf (h := h'), ← hush_typeOf (h := h)]; exact same_type H r

theorem aside_refKey (H : SameAsideHeap i i' h h') (r : Ref) : h'.key? r = h.key? r := by
  rw [← hush_key? (h := h'), ← hush_key? (h := h)]; exact same_key H r

/-- The parts without places and comments. -/
def bareSubs (l : Option (List Sub)) : Option (List BareSub) := l.map (·.map fun x => x.hush.bare)

theorem bareSubs_hush (l : Option (List Sub)) : (hushSubs l).map (·.map Sub.bare) = bareSubs l := by
  cases l with
  | none => rfl
  | some xs => simp only [hushSubs, bareSubs, Option.map_some, List.map_map]; rfl

theorem aside_items (H : SameAsideHeap i i' h h') (k : Nat) : bareSubs (h'.at k).items = bareSubs (h.at k).items := by
  rw [← bareSubs_hush, ← bareSubs_hush, ← hush_items, ← hush_items]; exact (H.at k).items

theorem aside_entries (H : SameAsideHeap i i' h h') (k : Nat) : bareSubs (h'.at k).entries = bareSubs (h.at k).entries := by
  rw [← bareSubs_hush, ← bareSubs_hush, ← hush_entries, ← hush_entries]; exact (H.at k).entries

theorem aside_silent (H : SameAsideHeap i i' h h') {k : Nat} (s : Silent h k) : Silent h' k := by
  induction s with
  | empty q => exact .empty (by rw [aside_type H]; exact q)
  | @fieldset k q1 q2 =>
    refine .fieldset (by rw [aside_type H]; exact q1) ?_
    have := aside_entries H k
    rw [q2] at this
    simpa [bareSubs] using this
  | «section» q1 q2 _ ih => exact .section (by rw [aside_type H]; exact q1) (by rw [aside_elements H]; exact q2) ih

theorem aside_stuck (H : SameAsideHeap i i' h h') {k : Nat} (s : Stuck h k) : Stuck h' k := by
  induction s with
  | here q s => exact .here (by rw [aside_elements H]; exact q) (aside_silent H s)
  | inner q1 q2 _ ih => exact .inner (by rw [aside_elements H]; exact q1) (by rw [aside_type H]; exact q2) ih

theorem aside_stuckAbove (H : SameAsideHeap i i' h h') {k : Nat} (s : StuckAbove h k) : StuckAbove h' k := by
  obtain ⟨pre, a, b, post, h1, h2, h3⟩ := s
  exact ⟨pre, a, b, post, by rw [aside_elements H]; exact h1, aside_silent H h2, fun x hx => by rw [aside_type H]; exact h3 x hx⟩

theorem aside_refStuck (H : SameAsideHeap i i' h h') (s : RefStuck h r) : RefStuck h' r := by
  cases r with
  | elem a => exact aside_stuck H s
  | item a k => exact s
  | entry a k => exact s

theorem aside_first (H : SameAsideHeap i i' h h') (s : ∃ b, FirstLine h r b) : ∃ b, FirstLine h' r b := by
  obtain ⟨b, s⟩ := s
  have sub : ∀ {l l' : Option (List Sub)} {xs : List Sub} {x : Sub} {n : Nat}, bareSubs l' = bareSubs l → l = some xs → xs[n]? = some x → ∃ xs' x', l' = some xs' ∧ xs'[n]? = some x' := by
    intro l l' xs x n e hl hx
    subst hl
    cases l' with
    | none => simp [bareSubs] at e
    | some ys =>
      simp only [bareSubs, Option.map_some, Option.some.injEq] at e
      have q := congrArg (·[n]?) e
      simp only [List.getElem?_map, hx, Option.map_some] at q
      cases hy : ys[n]? with
      | none => rw [hy] at q; cases q
      | some y => exact ⟨ys, y, rfl, hy⟩
  cases s with
  | elem h0 hi => exact ⟨_, .elem h0 (by rw [aside_length H]; exact hi)⟩
  | @item a k xs x hi hs hx =>
    obtain ⟨xs', x', e1, e2⟩ := sub (aside_items H a) hs hx
    exact ⟨_, .item (by rw [aside_length H]; exact hi) e1 e2⟩
  | @entry a k xs x hi hs hx =>
    obtain ⟨xs', x', e1, e2⟩ := sub (aside_entries H a) hs hx
    exact ⟨_, .entry (by rw [aside_length H]; exact hi) e1 e2⟩

theorem aside_likely (H : SameAsideHeap i i' h h') (s : Likely h v) : Likely h' v := by
  cases v with
  | comment m r => exact s.imp id (aside_first H)
  | element m r => exact s.imp id (aside_first H)
  | key m r => exact s.imp id (aside_first H)
  | missingComment r => exact s.imp id (aside_first H)
  | unexpected m r => exact s.imp id (aside_first H)
  | wrongType k r n => exact ⟨s.1.imp id (aside_first H), s.2⟩
  | value m r => exact ⟨aside_first H s.1, by rw [aside_refType H]; exact s.2⟩
  | missingValue r => exact ⟨aside_first H s.1, by rw [aside_refType H]; exact s.2⟩
  | missingElement k p n => exact ⟨by rw [aside_length H]; exact s.1, s.2⟩
  | several k rs n => exact ⟨s.1, fun r hr => aside_first H (s.2.1 r hr), s.2.2⟩

theorem aside_barred (H : SameAsideHeap i i' h h') (hv : v.Aside) {x : PyExc} (s : Barred h v x) : Barred h' v x := by
  cases v with
  | comment m r => exact hv.elim
  | element m r => exact s.imp id fun q => ⟨q.1, q.2.1, aside_refStuck H q.2.2⟩
  | unexpected m r => exact s.imp id fun q => ⟨q.1, q.2.1, aside_refStuck H q.2.2⟩
  | wrongType k r n => exact s.imp id fun q => ⟨q.1, q.2.1, aside_refStuck H q.2.2⟩
  | key m r => exact s
  | missingComment r => exact s
  | missingElement k p n => exact ⟨s.1, by rw [aside_type H]; exact s.2.1, aside_stuckAbove H s.2.2⟩
  | several k rs n =>
    obtain ⟨q, r, hr, k⟩ := s
    exact ⟨q, r, hr, aside_refStuck H k⟩
  | value m r => exact s
  | missingValue r => exact s

theorem aside_writtenKey (H : SameAsideHeap i i' h h') (r : Ref) : writtenKey h' r = writtenKey h r := by
  cases r with
  | elem a => simp only [writtenKey, aside_key H]
  | item a k => rfl
  | entry a k => exact aside_refKey H (.entry a k)

theorem aside_saying (H : SameAsideHeap i i' h h') : saying h' v = saying h v := by
  cases v with
  | missingValue r => cases r <;> simp only [saying, missingText, aside_key H, aside_writtenKey H]
  | _ => rfl

theorem barred_once (hv : v.Aside) {x y : PyExc} (b : Barred h v x) (c : Barred h v y) : x = y := by
  cases v with
  | comment m r => exact hv.elim
  | element m r => rcases b with c' | c' <;> rcases c with d | d <;> first | exact c'.1.trans d.1.symm | exact absurd d.2 c'.2.1 | exact absurd c'.2 d.2.1
  | unexpected m r => rcases b with c' | c' <;> rcases c with d | d <;> first | exact c'.1.trans d.1.symm | exact absurd d.2 c'.2.1 | exact absurd c'.2 d.2.1
  | wrongType k r n => rcases b with c' | c' <;> rcases c with d | d <;> first | exact c'.1.trans d.1.symm | exact absurd d.2 c'.2.1 | exact absurd c'.2 d.2.1
  | key m r => exact b.1.trans c.1.symm
  | missingComment r => exact b.1.trans c.1.symm
  | missingElement k p n => exact b.1.trans c.1.symm
  | several k rs n => exact b.1.trans c.1.symm
  | value m r => exact b.elim
  | missingValue r => exact b.elim

/-- Each complaint that is not about what a comment says leads to an error with the same text, whatever the comments, or to the same exception. -/
theorem aside_cause (hl : load i = .ok ctx) (hl' : load i' = .ok ctx') (H : SameAsideHeap i i' ctx.heap ctx'.heap) (ho : o.reporter ≠ .terminal) (ho' : o'.reporter ≠ .terminal)
    (ha : v.Aside) (hv : Likely ctx.heap v) : (∃ e e', v.raise o ctx = .ok e ∧ v.raise o' ctx' = .ok e') ∨ ∃ x, v.raise o ctx = .error x ∧ v.raise o' ctx' = .error x := by
  rcases verdict hl ho hv with ⟨y, b, q⟩ | ⟨b, e, q, t⟩
  · rcases verdict hl' ho' (aside_likely H hv) with ⟨y', b', q'⟩ | ⟨b', _⟩
    · exact .inr ⟨y, q, by rw [q', barred_once ha b' (aside_barred H ha b)]⟩
    · exact absurd (aside_barred H ha b) (b' y)
  · rcases verdict hl' ho' (aside_likely H hv) with ⟨y', b', _⟩ | ⟨_, e', q', t'⟩
    · exact absurd (aside_barred H.symm ha b') (b y')
    · exact .inl ⟨e, e', q, q'⟩

/-- Errors about the same say the same, whatever the comments. -/
theorem aside_texts (hl : load i = .ok ctx) (hl' : load i' = .ok ctx') (H : SameAsideHeap i i' ctx.heap ctx'.heap) (ho : o.reporter ≠ .terminal) (ho' : o'.reporter ≠ .terminal)
    (hv : Likely ctx.heap v) {e e' : ErrObj} (he : v.raise o ctx = .ok e) (he' : v.raise o' ctx' = .ok e') : e'.text = e.text := by
  rcases verdict hl ho hv with ⟨y, _, q⟩ | ⟨_, a, q, t⟩
  · rw [he] at q; cases q
  · rcases verdict hl' ho' (aside_likely H hv) with ⟨y, _, q'⟩ | ⟨_, a', q', t'⟩
    · rw [he'] at q'; cases q'
    · rw [he] at q; rw [he'] at q'
      cases q; cases q'
      rw [t, t', aside_saying H]

end Eno
