import Verif.Proofs.ComplaintAgree
import Verif.Proofs.AlikeLoad
import Verif.Props.ErrorKindProps

/-! # The same complaints are raised whatever the layout -/

namespace Eno

open Spec

variable {i i' : Str} {h h' : Heap} {ctx ctx' : Ctx} {o o' : Options} {r : Ref} {v : Complaint}

/-- What keeps an error from being made. -/
def Barred (h : Heap) : Complaint → PyExc → Prop
  | .comment _ r, x => x = .keyError ∧ (r = .elem 0 ∨ h.comments r = none)
  | .element _ r, x => (x = .keyError ∧ r = .elem 0) ∨ (x = .typeError ∧ r ≠ .elem 0 ∧ RefStuck h r)
  | .unexpected _ r, x => (x = .keyError ∧ r = .elem 0) ∨ (x = .typeError ∧ r ≠ .elem 0 ∧ RefStuck h r)
  | .wrongType _ r _, x => (x = .keyError ∧ r = .elem 0) ∨ (x = .typeError ∧ r ≠ .elem 0 ∧ RefStuck h r)
  | .key _ r, x => x = .keyError ∧ (r = .elem 0 ∨ ∃ a k, r = .item a k)
  | .missingComment r, x => x = .keyError ∧ r = .elem 0
  | .missingElement _ p _, x => x = .typeError ∧ (h.at p).type = .section ∧ StuckAbove h p
  | .several _ rs _, x => x = .typeError ∧ ∃ r ∈ rs, RefStuck h r
  | .value _ _, _ => False
  | .missingValue _, _ => False

/-- What the message of the error is. -/
def saying (h : Heap) : Complaint → Msg
  | .comment m _ => .commentError m
  | .element m _ => .given m
  | .key m _ => .keyError m
  | .value m _ => .valueError m
  | .missingComment _ => .missingComment
  | .missingValue r => missingText h r
  | .missingElement k _ n => .named n k
  | .unexpected m _ => (match m with | some (c :: cs) => .given (c :: cs) | _ => .unexpectedElement)
  | .several k _ n => .named n k
  | .wrongType k _ n => .named n k

/-- An error is made, or an exception is raised instead. -/
def Verdict (h : Heap) (v : Complaint) (x : Except PyExc ErrObj) : Prop := (∃ y, Barred h v y ∧ x = .error y) ∨ ((∀ y, ¬ Barred h v y) ∧ ∃ e, x = .ok e ∧ e.text = saying h v)

theorem first_not_document {b : Base} (hr : FirstLine h r b) : r ≠ .elem 0 := by
  rintro rfl
  cases hr with
  | elem h0 _ => exact absurd h0 (by omega)

theorem about_text {text : Msg} {e : ErrObj} (he : aboutElement o ctx text r = .ok e) : e.text = text := by
  unfold aboutElement at he
  simp only [bind, Except.bind] at he
  repeat' split at he
  all_goals first | (cases he; done) | (injection he with he; subst he; rfl)

theorem about_document (hl : load i = .ok ctx) {text : Msg} : aboutElement o ctx text (.elem 0) = .error .keyError := by
  obtain ⟨C, _, _⟩ := loaded_all hl
  have hb : ctx.heap.base? (.elem 0) = .error .keyError := by simp [Heap.base?, C.grown.doc]
  unfold aboutElement
  rw [snippet_error C (py := .keyError) (by unfold reportElement; rw [hb]; rfl) o]
  rfl

theorem verdict_about (hl : load i = .ok ctx) (ho : o.reporter ≠ .terminal) {text : Msg} (hr : r = .elem 0 ∨ ∃ b, FirstLine ctx.heap r b) {P : PyExc → Prop}
    (hP : ∀ x, P x ↔ ((x = .keyError ∧ r = .elem 0) ∨ (x = .typeError ∧ r ≠ .elem 0 ∧ RefStuck ctx.heap r))) :
    (∃ y, P y ∧ aboutElement o ctx text r = .error y) ∨ ((∀ y, ¬ P y) ∧ ∃ e, aboutElement o ctx text r = .ok e ∧ e.text = text) := by
  rcases hr with rfl | ⟨b, hr⟩
  · exact .inl ⟨.keyError, (hP _).2 (.inl ⟨rfl, rfl⟩), about_document hl⟩
  · have h0 := first_not_document hr
    obtain ⟨k1, k2⟩ := C40_element (text := text) hl hr ho
    by_cases hs : RefStuck ctx.heap r
    · exact .inl ⟨.typeError, (hP _).2 (.inr ⟨rfl, h0, hs⟩), k1 hs⟩
    · obtain ⟨e, he⟩ := k2 hs
      refine .inr ⟨fun y hy => ?_, e, he, about_text he⟩
      rcases (hP _).1 hy with ⟨_, q⟩ | ⟨_, _, q⟩
      · exact h0 q
      · exact hs q

/-- When an error can be made, and what it says. -/
theorem verdict (hl : load i = .ok ctx) (ho : o.reporter ≠ .terminal) (hv : Likely ctx.heap v) : Verdict ctx.heap v (v.raise o ctx) := by
  obtain ⟨C, hin, S⟩ := loaded_all hl
  have hb : ctx.heap.base? (.elem 0) = .error .keyError := by simp [Heap.base?, C.grown.doc]
  cases v with
  | comment m r =>
    rcases hv with rfl | ⟨b, hr⟩
    · refine .inl ⟨_, ⟨rfl, .inl rfl⟩, ?_⟩
      simp only [Complaint.raise, commentError, hb]; rfl
    · cases hc : ctx.heap.comments r with
      | none => exact .inl ⟨_, ⟨rfl, .inr hc⟩, C60_comment_none hl hr hc⟩
      | some cs =>
        obtain ⟨e, h1, h2, _⟩ := C60_comment (msg := m) hl hr hc ho
        refine .inr ⟨?_, e, h1, h2⟩
        rintro y ⟨_, q | q⟩
        · exact first_not_document hr q
        · rw [hc] at q; cases q
  | element m r => exact verdict_about hl ho hv fun _ => Iff.rfl
  | unexpected m r => exact verdict_about hl ho hv fun _ => Iff.rfl
  | wrongType k r n => exact verdict_about hl ho hv.1 fun _ => Iff.rfl
  | key m r =>
    rcases hv with rfl | ⟨b, hr⟩
    · refine .inl ⟨_, ⟨rfl, .inl rfl⟩, ?_⟩
      simp only [Complaint.raise, keyError, hb]; rfl
    · have W := load_written hl hr
      have hn : ∀ k, writtenKey ctx.heap r = some k → (∀ a j, r ≠ .item a j) → Verdict ctx.heap (.key m r) ((Complaint.key m r).raise o ctx) := by
        intro k hk hi
        obtain ⟨e, h1, h2, _⟩ := C60_key (msg := m) hl hr hk ho
        refine .inr ⟨?_, e, h1, h2⟩
        rintro y ⟨_, q | ⟨a, j, q⟩⟩
        · exact first_not_document hr q
        · exact hi a j q
      cases r with
      | elem a => exact hn _ rfl (by simp)
      | item a j => exact .inl ⟨_, ⟨rfl, .inr ⟨a, j, rfl⟩⟩, C60_key_item hl hr ho⟩
      | entry a j =>
        obtain ⟨hkey, _⟩ := W.entry a j rfl
        obtain ⟨t, hk⟩ := Option.isSome_iff_exists.1 hkey
        exact hn t hk (by simp)
  | missingComment r =>
    rcases hv with rfl | ⟨b, hr⟩
    · refine .inl ⟨_, ⟨rfl, rfl⟩, ?_⟩
      simp only [Complaint.raise, missingComment, hb]; rfl
    · obtain ⟨e, h1, h2, _⟩ := C60_missing_comment (o := o) hl hr ho
      exact .inr ⟨fun y q => first_not_document hr q.2, e, h1, h2⟩
  | missingValue r =>
    obtain ⟨⟨b, hr⟩, ht⟩ := hv
    obtain ⟨e, _, _, h1, h2, _⟩ := C60_missing_value (o := o) hl hr ho ht
    exact .inr ⟨fun y q => q, e, h1, h2⟩
  | missingElement k p n =>
    have hp := hv.1
    by_cases ht : (ctx.heap.at p).type = .section
    · have h0 : 0 < p := by
        rcases Nat.eq_zero_or_pos p with q | q
        · subst q; rw [C.grown.doc] at ht; cases ht
        · exact q
      obtain ⟨k1, k2⟩ := C40_missing_section (key := k) (name := n) hl h0 hp ht ho
      by_cases hs : StuckAbove ctx.heap p
      · exact .inl ⟨_, ⟨rfl, ht, hs⟩, k1 hs⟩
      · obtain ⟨e, he⟩ := k2 hs
        exact .inr ⟨fun y q => hs q.2.2, e, he, (C67_missing_section hl h0 hp ht ho he).1⟩
    · refine .inr ⟨fun y q => ht q.2.1, ?_⟩
      rcases Nat.eq_zero_or_pos p with q | q
      · subst q
        obtain ⟨e, h1, h2, _⟩ := C67_missing_document (key := k) (name := n) hl ho
        exact ⟨e, h1, h2⟩
      · obtain ⟨e, he⟩ := C40_missing_other (key := k) (name := n) hl hp ht ho
        exact ⟨e, he, (C67_missing_element hl q hp ht ho he).1⟩
  | several k rs n =>
    obtain ⟨hne, hf, _⟩ := hv
    cases rs with
    | nil => exact absurd rfl hne
    | cons r rs =>
      obtain ⟨b, hr⟩ := hf r (by simp)
      obtain ⟨k1, k2⟩ := C67_several (key := k) (name := n) (rs := rs) hl hr (fun x hx => hf x (List.mem_cons_of_mem _ hx)) ho
      by_cases hs : ∃ x ∈ r :: rs, RefStuck ctx.heap x
      · exact .inl ⟨_, ⟨rfl, hs⟩, k1 hs⟩
      · obtain ⟨e, _, h1, h2, _⟩ := k2 fun x hx q => hs ⟨x, hx, q⟩
        exact .inr ⟨fun y q => hs q.2, e, h1, h2⟩
  | value m r =>
    obtain ⟨⟨b, hr⟩, ht⟩ := hv
    have done : (∃ e, valueError o ctx m r = .ok e ∧ e.text = .valueError m) → Verdict ctx.heap (.value m r) (valueError o ctx m r) := fun ⟨e, h1, h2⟩ => .inr ⟨fun y q => q, e, h1, h2⟩
    refine done ?_
    have hsec : ctx.heap.type r ≠ .section := by intro q; rw [q] at ht; simp at ht
    cases hm : ctx.heap.mirror? r with
    | some x =>
      have hk : ∃ k, writtenKey ctx.heap r = some k := by
        cases r with
        | elem a => exact ⟨_, rfl⟩
        | item a j => cases hm
        | entry a j => cases hm
      obtain ⟨k, hk⟩ := hk
      obtain ⟨e, h1, h2, _⟩ := C60_value_copy (msg := m) hl hr (by rw [hm]; rfl) hk ho
      exact ⟨e, h1, h2⟩
    | none =>
      by_cases hml : ctx.heap.type r = .mlBegin
      · cases hr with
        | @elem a h0 hi =>
          cases hls : (ctx.heap.at a).lines with
          | none =>
            obtain ⟨e, _, h1, h2, _⟩ := C60_value_multiline_none (msg := m) hl h0 hi hml hls ho
            exact ⟨e, h1, h2⟩
          | some ls =>
            obtain ⟨e, _, _, h1, h2, _⟩ := C60_value_multiline (msg := m) hl h0 hi hml hls ho
            exact ⟨e, h1, h2⟩
        | item => simp [Heap.type] at hml
        | entry => simp [Heap.type] at hml
      · obtain ⟨e, _, h1, h2, _⟩ := C60_value (msg := m) hl hr ho hm hml hsec
        exact ⟨e, h1, h2⟩

/-! ## Two layouts -/

theorem SameHeap.symm (H : SameHeap i i' h h') : SameHeap i' i h' h := Eq.symm H

theorem same_silent (H : SameHeap i i' h h') {k : Nat} (s : Silent h k) : Silent h' k := by
  induction s with
  | empty q => exact .empty (by rw [(H.at _).type]; exact q)
  | @fieldset k q1 q2 =>
    refine .fieldset (by rw [(H.at _).type]; exact q1) ?_
    have := (H.at k).entries
    rw [q2] at this
    simpa using this
  | «section» q1 q2 _ ih => exact .section (by rw [(H.at _).type]; exact q1) (by rw [(H.at _).elements]; exact q2) ih

theorem same_stuck (H : SameHeap i i' h h') {k : Nat} (s : Stuck h k) : Stuck h' k := by
  induction s with
  | here q s => exact .here (by rw [(H.at _).elements]; exact q) (same_silent H s)
  | inner q1 q2 _ ih => exact .inner (by rw [(H.at _).elements]; exact q1) (by rw [(H.at _).type]; exact q2) ih

theorem same_stuckAbove (H : SameHeap i i' h h') {k : Nat} (s : StuckAbove h k) : StuckAbove h' k := by
  obtain ⟨pre, a, b, post, h1, h2, h3⟩ := s
  exact ⟨pre, a, b, post, by rw [(H.at _).elements]; exact h1, same_silent H h2, fun x hx => by rw [(H.at _).type]; exact h3 x hx⟩

theorem same_refStuck (H : SameHeap i i' h h') (s : RefStuck h r) : RefStuck h' r := by
  cases r with
  | elem a => exact same_stuck H s
  | item a k => exact s
  | entry a k => exact s

theorem same_first (H : SameHeap i i' h h') (s : ∃ b, FirstLine h r b) : ∃ b, FirstLine h' r b := by
  obtain ⟨b, s⟩ := s
  have sub : ∀ {l l' : Option (List Sub)} {xs : List Sub} {x : Sub} {n : Nat}, l'.map (·.map Sub.bare) = l.map (·.map Sub.bare) → l = some xs → xs[n]? = some x → ∃ xs' x', l' = some xs' ∧ xs'[n]? = some x' := by
    intro l l' xs x n e hl hx
    subst hl
    cases l' with
    | none => simp at e
    | some ys =>
      simp only [Option.map_some, Option.some.injEq] at e
      have q := congrArg (·[n]?) e
      simp only [List.getElem?_map, hx, Option.map_some] at q
      cases hy : ys[n]? with
      | none => rw [hy] at q; cases q
      | some y => exact ⟨ys, y, rfl, hy⟩
  cases s with
  | elem h0 hi => exact ⟨_, .elem h0 (by rw [H.length]; exact hi)⟩
  | @item a k xs x hi hs hx =>
    obtain ⟨xs', x', e1, e2⟩ := sub (H.at a).items hs hx
    exact ⟨_, .item (by rw [H.length]; exact hi) e1 e2⟩
  | @entry a k xs x hi hs hx =>
    obtain ⟨xs', x', e1, e2⟩ := sub (H.at a).entries hs hx
    exact ⟨_, .entry (by rw [H.length]; exact hi) e1 e2⟩

theorem same_likely (H : SameHeap i i' h h') (s : Likely h v) : Likely h' v := by
  cases v with
  | comment m r => exact s.imp id (same_first H)
  | element m r => exact s.imp id (same_first H)
  | key m r => exact s.imp id (same_first H)
  | missingComment r => exact s.imp id (same_first H)
  | unexpected m r => exact s.imp id (same_first H)
  | wrongType k r n => exact ⟨s.1.imp id (same_first H), s.2⟩
  | value m r => exact ⟨same_first H s.1, by rw [same_type H]; exact s.2⟩
  | missingValue r => exact ⟨same_first H s.1, by rw [same_type H]; exact s.2⟩
  | missingElement k p n => exact ⟨by rw [H.length]; exact s.1, s.2⟩
  | several k rs n => exact ⟨s.1, fun r hr => same_first H (s.2.1 r hr), s.2.2⟩

theorem same_barred (H : SameHeap i i' h h') {x : PyExc} (s : Barred h v x) : Barred h' v x := by
  cases v with
  | comment m r =>
    refine ⟨s.1, s.2.imp id fun q => ?_⟩
    have := same_comments_some H r
    rw [q] at this
    simpa using this
  | element m r => exact s.imp id fun q => ⟨q.1, q.2.1, same_refStuck H q.2.2⟩
  | unexpected m r => exact s.imp id fun q => ⟨q.1, q.2.1, same_refStuck H q.2.2⟩
  | wrongType k r n => exact s.imp id fun q => ⟨q.1, q.2.1, same_refStuck H q.2.2⟩
  | key m r => exact s
  | missingComment r => exact s
  | missingElement k p n => exact ⟨s.1, by rw [(H.at _).type]; exact s.2.1, same_stuckAbove H s.2.2⟩
  | several k rs n =>
    obtain ⟨q, r, hr, k⟩ := s
    exact ⟨q, r, hr, same_refStuck H k⟩
  | value m r => exact s
  | missingValue r => exact s

theorem same_writtenKey (H : SameHeap i i' h h') (r : Ref) : writtenKey h' r = writtenKey h r := by
  cases r with
  | elem a => simp only [writtenKey, (H.at a).key]
  | item a k => rfl
  | entry a k => exact same_key H (.entry a k)

theorem same_saying (H : SameHeap i i' h h') : saying h' v = saying h v := by
  cases v with
  | missingValue r => cases r <;> simp only [saying, missingText, (H.at _).key, same_writtenKey H]
  | _ => rfl

/-- Each complaint leads to an error with the same text in both layouts, or to the same exception. -/
theorem layout_cause (hl : load i = .ok ctx) (hl' : load i' = .ok ctx') (H : SameHeap i i' ctx.heap ctx'.heap) (ho : o.reporter ≠ .terminal) (ho' : o'.reporter ≠ .terminal)
    (hv : Likely ctx.heap v) : (∃ e e', v.raise o ctx = .ok e ∧ v.raise o' ctx' = .ok e' ∧ e'.text = e.text) ∨ ∃ x, v.raise o ctx = .error x ∧ v.raise o' ctx' = .error x := by
  rcases verdict hl ho hv with ⟨y, b, q⟩ | ⟨b, e, q, t⟩
  · rcases verdict hl' ho' (same_likely H hv) with ⟨y', b', q'⟩ | ⟨b', _⟩
    · refine .inr ⟨y, q, ?_⟩
      rw [q']
      have B := same_barred H b
      have : y' = y := by
        cases v with
        | comment m r => exact b'.1.trans B.1.symm
        | element m r => rcases b' with c | c <;> rcases B with d | d <;> first | exact c.1.trans d.1.symm | exact absurd d.2 c.2.1 | exact absurd c.2 d.2.1
        | unexpected m r => rcases b' with c | c <;> rcases B with d | d <;> first | exact c.1.trans d.1.symm | exact absurd d.2 c.2.1 | exact absurd c.2 d.2.1
        | wrongType k r n => rcases b' with c | c <;> rcases B with d | d <;> first | exact c.1.trans d.1.symm | exact absurd d.2 c.2.1 | exact absurd c.2 d.2.1
        | key m r => exact b'.1.trans B.1.symm
        | missingComment r => exact b'.1.trans B.1.symm
        | missingElement k p n => exact b'.1.trans B.1.symm
        | several k rs n => exact b'.1.trans B.1.symm
        | value m r => exact B.elim
        | missingValue r => exact B.elim
      rw [this]
    · exact absurd (same_barred H b) (b' y)
  · rcases verdict hl' ho' (same_likely H hv) with ⟨y', b', _⟩ | ⟨_, e', q', t'⟩
    · exact absurd (same_barred H.symm b') (b y')
    · exact .inl ⟨e, e', q, q', by rw [t, t', same_saying H]⟩

end Eno
