import Verif.Proofs.TreeAccepted
import Verif.Props.ContextProps

/-! # What is shown of a document does not depend on the layout -/

namespace Eno

open Spec

variable {i i' : Str} {h h' : Heap} {ctx ctx' l l' : Ctx} {k t : Nat}

theorem same_candidates (H : SameHeap i i' h h') (sec : Bool) (n : Str) : candidates h' sec n = candidates h sec n := by
  unfold candidates
  rw [H.length]
  refine List.filter_congr fun j _ => ?_
  rw [(H.at j).key, (H.at j).template, (H.at j).type]

theorem same_template (H : SameHeap i i' h h') (ht : TemplateIs h k t) : TemplateIs h' k t := by
  obtain ⟨h1, n, h2, h3⟩ := ht
  exact ⟨by rw [H.length]; exact h1, n, by rw [(H.at k).copy]; exact h2, by rw [(H.at k).type, same_candidates H]; exact h3⟩

theorem same_kindOf (H : SameHeap i i' h h') {x : Ty} (hk : KindOf h k x) : KindOf h' k x := by
  induction hk with
  | @own j hc => rw [← (H.at j).type]; exact .own (by rw [(H.at j).copy]; exact hc)
  | @empty j t k ht _ he ih => exact .empty (same_template H ht) ih (by rw [(H.at j).type]; exact he)
  | @extended j t k ht _ he hn ih => rw [← (H.at j).type]; exact .extended (same_template H ht) ih (by rw [(H.at j).type]; exact he) (by rw [(H.at j).type]; exact hn)

theorem same_commentsBy (H : SameHeap i i' h h') {c : Option (List Comment)} (hc : CommentsOf h k c) : ∃ c', CommentsOf h' k c' ∧ c'.map (·.map Comment.bare) = c.map (·.map Comment.bare) := by
  induction hc with
  | @own j hc => exact ⟨_, .own (by rw [(H.at j).copy]; exact hc), (H.at j).comments⟩
  | @written j t ht hs => exact ⟨_, .written (same_template H ht) (by rw [(H.at j).comments_some]; exact hs), (H.at j).comments⟩
  | @inherited j t c ht hn _ ih =>
    obtain ⟨c', h1, h2⟩ := ih
    refine ⟨c', .inherited (same_template H ht) ?_ h1, h2⟩
    have := (H.at j).comments
    rw [hn] at this
    cases hq : (h'.at j).comments with
    | none => rfl
    | some x => rw [hq] at this; cases this

theorem same_itemsAt (H : SameHeap i i' h h') (k : Nat) : itemsAt h' k = itemsAt h k := by
  unfold itemsAt
  have S := congrArg (Option.map List.length) (H.at k).items
  cases h1 : (h.at k).items <;> cases h2 : (h'.at k).items <;> rw [h1, h2] at S <;> simp at S ⊢
  rw [S]

theorem same_entriesAt (H : SameHeap i i' h h') (k : Nat) : entriesAt h' k = entriesAt h k := by
  unfold entriesAt
  have S := congrArg (Option.map List.length) (H.at k).entries
  cases h1 : (h.at k).entries <;> cases h2 : (h'.at k).entries <;> rw [h1, h2] at S <;> simp at S ⊢
  rw [S]

theorem same_entryKey (H : SameHeap i i' h h') (r : Ref) : entryKey h' r = entryKey h r := by
  have S := same_sub H r
  unfold entryKey
  cases h1 : h.sub? r <;> cases h2 : h'.sub? r <;> rw [h1, h2] at S <;> simp at S ⊢
  exact congrArg BareSub.key S

theorem same_itemsOf (H : SameHeap i i' h h') {xs : List Ref} (hx : ItemsOf h k xs) : ItemsOf h' k xs := by
  induction hx with
  | @own j hc => rw [← same_itemsAt H j]; exact .own (by rw [(H.at j).copy]; exact hc)
  | @copy j t xs ht _ ih => rw [← same_itemsAt H j]; exact .copy (same_template H ht) ih

theorem same_entriesOf (H : SameHeap i i' h h') {xs : List Ref} (hx : EntriesOf h k xs) : EntriesOf h' k xs := by
  induction hx with
  | @own j hc => rw [← same_entriesAt H j]; exact .own (by rw [(H.at j).copy]; exact hc)
  | @copy j t xs ht _ ih =>
    have := EntriesOf.copy (same_template H ht) ih
    unfold notRedefined at this ⊢
    simp only [same_entriesAt H, same_entryKey H] at this
    exact this

theorem same_copiedFirst (H : SameHeap i i' h h') {xs : List Nat} (hx : CopiedFirst h k xs) : CopiedFirst h' k xs := by
  induction hx with
  | @own j hc => rw [← (H.at j).elements]; exact .own (by rw [(H.at j).copy]; exact hc)
  | @copy j t xs ht _ ih =>
    have := CopiedFirst.copy (same_template H ht) ih
    unfold notOverridden at this ⊢
    simp only [(H.at _).elements, (H.at _).key] at this
    exact this

/-! ## Comments and values -/

theorem commentsOf_written {c : Option (List Comment)} (hc : CommentsOf h k c) : ∃ j, c = (h.at j).comments := by
  induction hc with
  | own => exact ⟨_, rfl⟩
  | written => exact ⟨_, rfl⟩
  | inherited _ _ _ ih => exact ih

/-- Comment lines that can be read. -/
def Legible (c : Option (List Comment)) : Prop := (∀ cs, c = some cs → ∀ x ∈ cs, x.Ok) ∧ ∀ x, c = some [x] → x.comment.isSome

theorem same_legible {c c' : Option (List Comment)} (h1 : Legible c) (h2 : Legible c') (e : c'.map (·.map Comment.bare) = c.map (·.map Comment.bare)) :
    c'.map (fun _ => commentOf c') = c.map fun _ => commentOf c := by
  have E := same_computeComment e
  cases c with
  | none => cases c' <;> simp at e ⊢
  | some cs =>
    cases c' with
    | none => simp at e
    | some cs' =>
      rw [computeComment_eq (h1.1 _ rfl) (fun x hx => h1.2 x (by rw [hx])), computeComment_eq (h2.1 _ rfl) (fun x hx => h2.2 x (by rw [hx]))] at E
      injection E with E
      simp only [Option.map_some, commentOf, Option.bind_some, E]

theorem commentsOf_legible (ha : analyze i = .ok ctx) (hl : load i = .ok l) (nd : NoDeepCopies ctx.heap) (cr : CommentsReadable ctx.heap) (hk : k < ctx.heap.length) {c : Option (List Comment)}
    (hc : CommentsOf ctx.heap k c) : Legible c := by
  constructor
  · intro cs e
    subst e
    exact (loaded ha hl).readable (.elem k) cs (C54_inherited ha hl hk (.inr (nd.undisturbed k)) hc)
  · intro x e
    subst e
    obtain ⟨j, hj⟩ := commentsOf_written hc
    exact cr (.elem j) _ hj.symm x rfl

theorem legible_sub (ha : analyze i = .ok ctx) (hl : load i = .ok l) (cr : CommentsReadable ctx.heap) {r : Ref} {x : Sub} (hx : ctx.heap.sub? r = some x) : Legible x.comments := by
  have L := loaded ha hl
  have hc : ctx.heap.comments r = x.comments := by
    cases r with
    | elem => cases hx
    | item => simp [Heap.comments, hx]
    | entry => simp [Heap.comments, hx]
  have hc' : l.heap.comments r = x.comments := by
    have := L.non.sub_eq r
    cases r with
    | elem => cases hx
    | item => simp [Heap.comments, this, hx]
    | entry => simp [Heap.comments, this, hx]
  exact ⟨fun cs e => L.readable r cs (by rw [hc', e]), fun y e => cr r [y] (by rw [hc, e]) y rfl⟩

theorem own_value (ha : analyze i = .ok ctx) (hl : load i = .ok l) (hk : k < ctx.heap.length) (hs : (ctx.heap.at k).type ≠ .section) (hc : (ctx.heap.at k).copy = none) :
    computeValue i ctx.heap (.elem k) = .ok (ownValue i (ctx.heap.at k)) := by
  have L := loaded ha hl
  rw [← computeValue_own L.non hk hs hc]
  simp only [computeValue, L.non.plain k hk hs hc]

theorem same_joined {x x' : Sub} (e : x'.bare = x.bare) : joined (valueParts x'.value x'.continuations) = joined (valueParts x.value x.continuations) := by
  rw [← composeValue_eq, ← composeValue_eq, same_composeValue (congrArg BareSub.continuations e), show x'.value = x.value from congrArg BareSub.value e]

section

variable (ha : analyze i = .ok ctx) (hl : load i = .ok l) (nd : NoDeepCopies ctx.heap) (cr : CommentsReadable ctx.heap) (ha' : analyze i' = .ok ctx') (hl' : load i' = .ok l')
  (H : SameHeap i i' ctx.heap ctx'.heap)

include ha hl ha' hl' H in
theorem same_valueOf {v : Option Str} (hv : ValueOf i ctx.heap k v) : k < ctx.heap.length → (ctx.heap.at k).type ≠ .section → ValueOf i' ctx'.heap k v := by
  induction hv with
  | @own j hc =>
    intro hk hs
    have := same_computeValue H (.elem j)
    rw [own_value ha hl hk hs hc, own_value ha' hl' (by rw [H.length]; exact hk) (by rw [(H.at j).type]; exact hs) (by rw [(H.at j).copy]; exact hc)] at this
    injection this with this
    rw [← this]
    exact .own (by rw [(H.at j).copy]; exact hc)
  | @copy j t v ht _ ih =>
    intro hk hs
    obtain ⟨h1, h2⟩ := (loaded ha hl).non.nonsec hs ht
    exact .copy (same_template H ht) (ih h1 h2)

set_option linter.unusedSectionVars false

include ha hl nd cr ha' hl' H

mutual

theorem same_rawOf : ∀ {r : Ref} {x : Raw}, RawOf i ctx.heap r x → RawOf i' ctx'.heap r x
  | _, _, .empty (i := j) h1 h2 h3 => by
    obtain ⟨c', g1, g2⟩ := same_commentsBy H h2
    have hj : j < ctx'.heap.length := by rw [H.length]; exact h1
    have nd' : NoDeepCopies ctx'.heap := fun a => by rw [(H.at a).deepCopy]; exact nd a
    rw [← same_legible (commentsOf_legible ha hl nd cr h1 h2) (commentsOf_legible ha' hl' nd' (same_readable H cr) hj g1) g2, ← (H.at j).key]
    exact .empty hj g1 (same_kindOf H h3)
  | _, _, .field (i := j) h1 h2 h3 h4 h5 => by
    obtain ⟨c', g1, g2⟩ := same_commentsBy H h2
    have hj : j < ctx'.heap.length := by rw [H.length]; exact h1
    have nd' : NoDeepCopies ctx'.heap := fun a => by rw [(H.at a).deepCopy]; exact nd a
    rw [← same_legible (commentsOf_legible ha hl nd cr h1 h2) (commentsOf_legible ha' hl' nd' (same_readable H cr) hj g1) g2, ← (H.at j).key]
    exact .field hj g1 (same_kindOf H h3) h4 (same_valueOf ha hl ha' hl' H h5 h1 (h3.nonsec (by rcases h4 with rfl | rfl <;> decide)))
  | _, _, .list (i := j) h1 h2 h3 h4 h5 => by
    obtain ⟨c', g1, g2⟩ := same_commentsBy H h2
    have hj : j < ctx'.heap.length := by rw [H.length]; exact h1
    have nd' : NoDeepCopies ctx'.heap := fun a => by rw [(H.at a).deepCopy]; exact nd a
    rw [← same_legible (commentsOf_legible ha hl nd cr h1 h2) (commentsOf_legible ha' hl' nd' (same_readable H cr) hj g1) g2, ← (H.at j).key]
    exact .list hj g1 (same_kindOf H h3) (same_itemsOf H h4) (same_rawsOf h5)
  | _, _, .fieldset (i := j) h1 h2 h3 h4 h5 => by
    obtain ⟨c', g1, g2⟩ := same_commentsBy H h2
    have hj : j < ctx'.heap.length := by rw [H.length]; exact h1
    have nd' : NoDeepCopies ctx'.heap := fun a => by rw [(H.at a).deepCopy]; exact nd a
    rw [← same_legible (commentsOf_legible ha hl nd cr h1 h2) (commentsOf_legible ha' hl' nd' (same_readable H cr) hj g1) g2, ← (H.at j).key]
    exact .fieldset hj g1 (same_kindOf H h3) (same_entriesOf H h4) (same_rawsOf h5)
  | _, _, .section (i := j) h1 h2 h3 h4 h5 => by
    obtain ⟨c', g1, g2⟩ := same_commentsBy H h2
    have hj : j < ctx'.heap.length := by rw [H.length]; exact h1
    have nd' : NoDeepCopies ctx'.heap := fun a => by rw [(H.at a).deepCopy]; exact nd a
    rw [← same_legible (commentsOf_legible ha hl nd cr h1 h2) (commentsOf_legible ha' hl' nd' (same_readable H cr) hj g1) g2, ← (H.at j).key]
    exact .section hj g1 (by rw [(H.at j).type]; exact h3) (same_copiedFirst H h4) (same_rawsOf h5)
  | _, _, .document h1 h2 => .document (same_copiedFirst H h1) (same_rawsOf h2)
  | _, _, .item (i := j) (k := n) (x := x) hx => by
    have S := same_sub H (.item j n)
    cases hx' : ctx'.heap.sub? (.item j n) with
    | none => rw [hx, hx'] at S; cases S
    | some x' =>
      rw [hx, hx'] at S
      simp only [Option.map_some, Option.some.injEq] at S
      rw [← same_legible (legible_sub ha hl cr hx) (legible_sub ha' hl' (same_readable H cr) hx') (congrArg BareSub.comments S), ← same_joined S]
      exact .item hx'
  | _, _, .entry (i := j) (k := n) (x := x) hx => by
    have S := same_sub H (.entry j n)
    cases hx' : ctx'.heap.sub? (.entry j n) with
    | none => rw [hx, hx'] at S; cases S
    | some x' =>
      rw [hx, hx'] at S
      simp only [Option.map_some, Option.some.injEq] at S
      rw [← same_legible (legible_sub ha hl cr hx) (legible_sub ha' hl' (same_readable H cr) hx') (congrArg BareSub.comments S), ← same_joined S, ← show x'.key = x.key from congrArg BareSub.key S]
      exact .entry hx'

theorem same_rawsOf : ∀ {rs : List Ref} {xs : List Raw}, RawsOf i ctx.heap rs xs → RawsOf i' ctx'.heap rs xs
  | _, _, .nil => .nil
  | _, _, .cons h1 h2 => .cons (same_rawOf h1) (same_rawsOf h2)

end

end

end Eno
