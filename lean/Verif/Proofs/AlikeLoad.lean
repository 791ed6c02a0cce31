import Verif.Proofs.AlikeResolve
import Verif.Props.AnalyzerProps

/-! # Loading: what is loaded does not depend on the layout -/

namespace Eno

open Spec

variable {i i' : Str} {h h' : Heap} {es es' : List Said} {r : Stop}

theorem SameState.initial : SameState i i' AS.init AS.init := ⟨by rfl, rfl, rfl, rfl, rfl, rfl, rfl⟩

/-- Analyses that only differ in the places. -/
inductive SameAnalysis (i i' : Str) : Except AExc Ctx → Except AExc Ctx → Prop where
  | ok {c c' : Ctx} : SameCtx i i' c c' → SameAnalysis i i' (.ok c) (.ok c')
  | error {k c c' b b'} : (∀ f, k = .unterminatedMultilineField f → (c'.heap.at f).key = (c.heap.at f).key) → SameAnalysis i i' (.error (.parse k c b)) (.error (.parse k c' b'))

theorem failAt_kind {s s' : AS} {a b a' b' : Nat} {k k' : FailKind} {c c' : Ctx} {x x' : Base} {K : FailKind}
    (h : failAt i s a b K = .parse k c x) (h' : failAt i' s' a' b' K = .parse k' c' x') (hK : ∀ f, K ≠ .unterminatedMultilineField f) :
    k' = k ∧ ∀ f, k = .unterminatedMultilineField f → (c'.heap.at f).key = (c.heap.at f).key := by
  unfold failAt at h h'
  cases q : tokenizeErrorContext i s a b <;> rw [q] at h <;> simp at h
  cases q' : tokenizeErrorContext i' s' a' b' <;> rw [q'] at h' <;> simp at h'
  rw [← h.1, ← h'.1]
  exact ⟨rfl, fun f e => absurd e (hK f)⟩

theorem lineFail_kind {s s' : AS} {a b a' b' : Nat} {k k' : FailKind} {c c' : Ctx} {x x' : Base} {f : LineFail}
    (h : lineFail i s a b f = .parse k c x) (h' : lineFail i' s' a' b' f = .parse k' c' x') :
    k' = k ∧ ∀ f, k = .unterminatedMultilineField f → (c'.heap.at f).key = (c.heap.at f).key := by
  cases f <;> simp only [lineFail] at h h' <;> first | exact failAt_kind h h' (by simp) | cases h

theorem same_openLength {s s' : AS} {n b fin n' b' fin' : Nat} {op key op' key' : Cap} (S : SameState i i' s s') :
    (openMultiline s' n' b' fin' op' key').heap.length = (openMultiline s n b fin op key).heap.length := by
  unfold openMultiline AS.append
  simp only [List.length_append, List.length_modify, List.length_cons, List.length_nil, S.heap.length]

theorem tokenize_heap {s : AS} {a b : Nat} {c : Ctx} {x : Base} (h : tokenizeErrorContext i s a b = some (c, x)) : c.heap = s.heap := by
  unfold tokenizeErrorContext at h
  repeat' split at h
  all_goals simp at h
  rw [← h.1]

theorem open_key {s : AS} {n b fin : Nat} {op key : Cap} : ((openMultiline s n b fin op key).heap.at ((openMultiline s n b fin op key).heap.length - 1)).key = key.text := by
  unfold openMultiline AS.append Heap.at
  simp

/-- Texts whose lines say the same are analysed alike. -/
theorem same_analysis (S : Says i es r) (S' : Says i' es' r) (ht : told es = told es') : SameAnalysis i i' (analyze i) (analyze i') := by
  obtain ⟨ev, q, T⟩ := trace_exists i
  obtain ⟨ev', q', T'⟩ := trace_exists i'
  have U := trace_says T
  have U' := trace_says T'
  obtain ⟨e1, e2⟩ := says_unique S U
  obtain ⟨e1', e2'⟩ := says_unique S' U'
  rw [← e1, ← e1'] at ht
  have R := same_run (i := i) (i' := i') _ ev ev' AS.init AS.init (Nat.le_refl _) .initial (by simp [claimed, AS.init]) (trace_fits T) (trace_fits T') ht
  have E := analyze_eq T
  have E' := analyze_eq T'
  have two : ∀ {x x' : AExc}, analyze i = .error x → analyze i' = .error x' → (∀ k c b k' c' b', x = .parse k c b → x' = .parse k' c' b' → k' = k ∧ ∀ f, k = .unterminatedMultilineField f → (c'.heap.at f).key = (c.heap.at f).key) → SameAnalysis i i' (analyze i) (analyze i') := by
    intro x x' hx hx' hk
    rcases C07_total i with ⟨c, h⟩ | ⟨k, c, b, h⟩
    · rw [h] at hx; cases hx
    rcases C07_total i' with ⟨c', h'⟩ | ⟨k', c', b', h'⟩
    · rw [h'] at hx'; cases hx'
    rw [hx] at h; rw [hx'] at h'
    injection h with h; injection h' with h'
    obtain ⟨rfl, hk⟩ := hk _ _ _ _ _ _ h h'
    rw [hx, hx', h, h']
    exact .error hk
  revert R E E'
  generalize runEvents AS.init ev = x
  generalize runEvents AS.init ev' = x'
  intro R E E'
  cases R with
  | error => exact two E E' fun _ _ _ _ _ _ => lineFail_kind
  | @ok a b C =>
    simp only at E E'
    have e3 : q'.stop = q.stop := by rw [e2, e2']
    cases q with
    | finished n =>
      cases q' <;> simp only [Spec.Ending.stop, reduceCtorEq] at e3
      simp only [finish] at E E'
      rw [E, E']
      exact .ok ⟨C.heap, C.copySections, C.copyNonSections, rfl, rfl⟩
    | invalid n b =>
      cases q' <;> simp only [Spec.Ending.stop, reduceCtorEq] at e3
      simp only [finish] at E E'
      exact two E E' fun _ _ _ _ _ _ h h' => failAt_kind h h' (by simp)
    | unterminated n b fin op key =>
      cases q' <;> simp only [Spec.Ending.stop, reduceCtorEq] at e3
      simp only [finish] at E E'
      rename_i n' b' fin' op' key'
      have hl := same_openLength (n := n) (b := b) (fin := fin) (op := op) (key := key) (n' := n') (b' := b') (fin' := fin') (op' := op') (key' := key') C
      cases h1 : tokenizeErrorContext i (openMultiline a n b fin op key) (fin + 1) (n + 1) <;> rw [h1] at E <;> simp only at E <;>
        cases h2 : tokenizeErrorContext i' (openMultiline _ n' b' fin' op' key') (fin' + 1) (n' + 1) <;> rw [h2] at E' <;> simp only at E'
      · exact two E E' fun _ _ _ _ _ _ h => by cases h
      · exact two E E' fun _ _ _ _ _ _ h => by cases h
      · exact two E E' fun _ _ _ _ _ _ _ h => by cases h
      · refine two E E' fun _ _ _ _ _ _ h h' => ?_
        injection h with h hc _
        injection h' with h' hc' _
        refine ⟨by rw [← h, ← h', hl], fun f hf => ?_⟩
        rw [← h, FailKind.unterminatedMultilineField.injEq] at hf
        rw [← hc, ← hc', tokenize_heap h1, tokenize_heap h2, ← hf, open_key, ← hl, open_key]
        simpa [Spec.Ending.stop] using e3

/-- Results of loading that only differ in the places. -/
inductive SameLoad (i i' : Str) : Except PExc Ctx → Except PExc Ctx → Prop where
  | ok {c c' : Ctx} : SameCtx i i' c c' → SameLoad i i' (.ok c) (.ok c')
  | analysis {k c c' b b'} : (∀ f, k = .unterminatedMultilineField f → (c'.heap.at f).key = (c.heap.at f).key) → SameLoad i i' (.error (.analysis (.parse k c b))) (.error (.analysis (.parse k c' b')))
  | resolution {x x' : RExc} : SameExc i i' x x' → SameLoad i i' (.error (.resolution x)) (.error (.resolution x'))

theorem same_resolve {c c' : Ctx} (C : SameCtx i i' c c') : (∃ d d', resolve c = .ok d ∧ resolve c' = .ok d' ∧ SameCtx i i' d d') ∨ ∃ x x', resolve c = .error x ∧ resolve c' = .error x' ∧ SameExc i i' x x' := by
  unfold resolve
  rw [C.heap.length, C.copySections, C.copyNonSections]
  have R := same_indexSection C.heap (c.heap.length + 1) 0 (c.copySections, c.copyNonSections)
  revert R
  generalize indexSection c.heap (c.heap.length + 1) 0 (c.copySections, c.copyNonSections) = x
  generalize indexSection c'.heap (c.heap.length + 1) 0 (c.copySections, c.copyNonSections) = x'
  intro R
  cases R with
  | error E => exact .inr ⟨_, _, rfl, rfl, E⟩
  | ok d =>
    obtain ⟨ds, dn⟩ := d
    simp only
    have R := same_resolveAll (i := i) (i' := i') (notFound := .nonSectionElementNotFound) (one := fun h i => resolveNonSection dn (h.length + 1) h i []) (one' := fun h i => resolveNonSection dn (h.length + 1) h i [])
      (fun h h' k H => by rw [H.length]; exact same_resolveNonSection dn _ _ _ _ _ H) dn C.heap
    revert R
    generalize resolveAll .nonSectionElementNotFound (fun h i => resolveNonSection dn (h.length + 1) h i []) dn c.heap = x
    generalize resolveAll .nonSectionElementNotFound (fun h i => resolveNonSection dn (h.length + 1) h i []) dn c'.heap = x'
    intro R
    cases R with
    | error E => exact .inr ⟨_, _, rfl, rfl, E⟩
    | @ok h h' H =>
      simp only
      have R := same_resolveAll (i := i) (i' := i') (notFound := .sectionNotFound) (one := fun h i => resolveSection ds (h.length + 1) h i []) (one' := fun h i => resolveSection ds (h.length + 1) h i [])
        (fun h h' k H => by rw [H.length]; exact same_resolveSection ds _ _ _ _ _ H) ds H
      revert R
      generalize resolveAll .sectionNotFound (fun h i => resolveSection ds (h.length + 1) h i []) ds h = x
      generalize resolveAll .sectionNotFound (fun h i => resolveSection ds (h.length + 1) h i []) ds h' = x'
      intro R
      cases R with
      | error E => exact .inr ⟨_, _, rfl, rfl, E⟩
      | ok K => exact .inl ⟨_, _, rfl, rfl, ⟨K, rfl, rfl, C.input, C.input'⟩⟩

/-- Texts whose lines say the same are loaded alike. -/
theorem same_load (S : Says i es r) (S' : Says i' es' r) (ht : told es = told es') : SameLoad i i' (load i) (load i') := by
  have A := same_analysis S S' ht
  unfold load
  revert A
  generalize analyze i = x
  generalize analyze i' = x'
  intro A
  cases A with
  | error h => exact .analysis h
  | ok C =>
    simp only
    rw [C.copySections, C.copyNonSections]
    split
    · rcases same_resolve C with ⟨d, d', h1, h2, D⟩ | ⟨x, x', h1, h2, E⟩
      · rw [h1, h2]; exact .ok D
      · rw [h1, h2]; exact .resolution E
    · exact .ok C

/-! ## Reading -/

theorem same_indent {c c' : Comment} (h : c'.bare = c.bare) : c'.comment = c.comment ∧ c'.indent = c.indent := by
  unfold Comment.bare at h
  injection h with h1 h2
  exact ⟨h1, h2⟩

theorem same_scanComments : ∀ {l l' : List Comment} (n : Nat) (x : Option Nat × Option Int × Option Nat), l'.map Comment.bare = l.map Comment.bare → scanComments l' n x = scanComments l n x
  | [], [], _, _, _ => rfl
  | [], _ :: _, _, _, h => by simp at h
  | _ :: _, [], _, _, h => by simp at h
  | c :: l, c' :: l', n, (f, s, t), h => by
    simp only [List.map_cons, List.cons.injEq] at h
    obtain ⟨h1, h2⟩ := same_indent h.1
    unfold scanComments
    rw [h1, h2]
    split
    · split
      · rfl
      · exact same_scanComments _ _ h.2
    · exact same_scanComments _ _ h.2

theorem same_indented (n : Int) {l l' : List Comment} (h : l'.map Comment.bare = l.map Comment.bare) : l'.map (indented n) = l.map (indented n) := by
  have : ∀ l : List Comment, l.map (indented n) = (l.map Comment.bare).map fun x => match x.1 with
    | none => .ok []
    | some s => match x.2 with
      | .error e => .error e
      | .ok m => if m = n then .ok s else .ok (List.replicate (m - n).toNat ' ' ++ s) := by
    intro l
    rw [List.map_map]
    congr 1
  rw [this, this, h]

theorem same_computeComment {l l' : Option (List Comment)} (h : l'.map (·.map Comment.bare) = l.map (·.map Comment.bare)) : computeComment l' = computeComment l := by
  cases l with
  | none => cases l' <;> simp at h; rfl
  | some l =>
    cases l' with
    | none => simp at h
    | some l' =>
      simp only [Option.map_some, Option.some.injEq] at h
      have hi : ∀ n a b, ((l'.take a).drop b).map (indented n) = ((l.take a).drop b).map (indented n) := by
        intro n a b
        apply same_indented
        rw [List.map_drop, List.map_take, List.map_drop, List.map_take, h]
      have hs := fun n x => same_scanComments n x h
      rcases l with _ | ⟨c, _ | ⟨d, l⟩⟩ <;> rcases l' with _ | ⟨c', _ | ⟨d', l'⟩⟩ <;> simp at h
      · rfl
      · simp only [computeComment, (same_indent h).1]
      · simp only [computeComment, hs, hi]

theorem same_sub (H : SameHeap i i' h h') (x : Ref) : (h'.sub? x).map Sub.bare = (h.sub? x).map Sub.bare := by
  have at_ : ∀ {l l' : Option (List Sub)} (n : Nat), l'.map (·.map Sub.bare) = l.map (·.map Sub.bare) → ((l'.getD [])[n]?).map Sub.bare = ((l.getD [])[n]?).map Sub.bare := by
    intro l l' n e
    cases l <;> cases l' <;> simp at e ⊢
    have := congrArg (·[n]?) e
    simpa using this
  cases x with
  | elem k => rfl
  | item k n => exact at_ n (H.at k).items
  | entry k n => exact at_ n (H.at k).entries

theorem same_comments (H : SameHeap i i' h h') (x : Ref) : (h'.comments x).map (·.map Comment.bare) = (h.comments x).map (·.map Comment.bare) := by
  have S := same_sub H x
  cases x with
  | elem k => exact (H.at k).comments
  | item k n =>
    simp only [Heap.comments]
    cases h1 : h.sub? (.item k n) <;> cases h2 : h'.sub? (.item k n) <;> rw [h1, h2] at S <;> simp only [Option.map_none, Option.map_some, reduceCtorEq, Option.some.injEq] at S
    · exact congrArg BareSub.comments S
  | entry k n =>
    simp only [Heap.comments]
    cases h1 : h.sub? (.entry k n) <;> cases h2 : h'.sub? (.entry k n) <;> rw [h1, h2] at S <;> simp only [Option.map_none, Option.map_some, reduceCtorEq, Option.some.injEq] at S
    · exact congrArg BareSub.comments S

theorem same_comments_some (H : SameHeap i i' h h') (x : Ref) : (h'.comments x).isSome = (h.comments x).isSome := by
  have := congrArg Option.isSome (same_comments H x)
  simpa using this

theorem same_mirror (H : SameHeap i i' h h') (x : Ref) : h'.mirror? x = h.mirror? x := by
  cases x <;> simp only [Heap.mirror?, (H.at _).mirror]

theorem same_type (H : SameHeap i i' h h') (x : Ref) : h'.type x = h.type x := by
  cases x <;> simp only [Heap.type, (H.at _).type]

theorem same_key (H : SameHeap i i' h h') (x : Ref) : h'.key? x = h.key? x := by
  have S := same_sub H x
  cases x with
  | elem k => simp only [Heap.key?, (H.at k).type, (H.at k).key]
  | item k n =>
    simp only [Heap.key?]
    cases h1 : h.sub? (.item k n) <;> cases h2 : h'.sub? (.item k n) <;> rw [h1, h2] at S <;> simp only [Option.map_none, Option.map_some, reduceCtorEq, Option.some.injEq] at S
    · exact congrArg BareSub.key S
  | entry k n =>
    simp only [Heap.key?]
    cases h1 : h.sub? (.entry k n) <;> cases h2 : h'.sub? (.entry k n) <;> rw [h1, h2] at S <;> simp only [Option.map_none, Option.map_some, reduceCtorEq, Option.some.injEq] at S
    · exact congrArg BareSub.key S

theorem same_ownItems (H : SameHeap i i' h h') (k : Nat) : h'.ownItems k = h.ownItems k := by
  have S := (H.at k).items
  unfold Heap.ownItems
  cases h1 : (h.at k).items <;> cases h2 : (h'.at k).items <;> rw [h1, h2] at S <;> simp only [Option.map_none, Option.map_some, reduceCtorEq, Option.some.injEq] at S ⊢
  have := congrArg List.length S
  simp at this
  rw [this]

theorem same_ownEntries (H : SameHeap i i' h h') (k : Nat) : h'.ownEntries k = h.ownEntries k := by
  have S := (H.at k).entries
  unfold Heap.ownEntries
  cases h1 : (h.at k).entries <;> cases h2 : (h'.at k).entries <;> rw [h1, h2] at S <;> simp only [Option.map_none, Option.map_some, reduceCtorEq, Option.some.injEq] at S ⊢
  have := congrArg List.length S
  simp at this
  rw [this]

theorem same_composeValue {v : Option Str} {l l' : Option (List Cont)} (h : l'.map (·.map Cont.bare) = l.map (·.map Cont.bare)) : composeValue v l' = composeValue v l := by
  have F : ∀ (l : List Cont) (x : Option Str × Bool), l.foldl applyCont x = (l.map Cont.bare).foldl (fun x b => applyCont x ⟨⟨0, []⟩, b.1, b.2⟩) x := by
    intro l
    induction l with
    | nil => intro x; rfl
    | cons c l ih => intro x; simp only [List.foldl_cons, List.map_cons]; rw [ih]; obtain ⟨v, sp⟩ := x; cases v <;> rfl
  unfold composeValue
  rw [F, F]
  have : (l'.getD []).map Cont.bare = (l.getD []).map Cont.bare := by
    cases l <;> cases l' <;> simp at h ⊢
    exact h
  rw [this]

theorem same_computeValue (H : SameHeap i i' h h') (x : Ref) : computeValue i' h' x = computeValue i h x := by
  have S := same_sub H x
  have subs : ∀ {a b : Option Sub}, b.map Sub.bare = a.map Sub.bare → (match b with | some x => .ok (composeValue x.value x.continuations) | none => .ok none : Except PyExc (Option Str)) =
      match a with | some x => .ok (composeValue x.value x.continuations) | none => .ok none := by
    intro a b e
    cases a <;> cases b <;> simp only [Option.map_none, Option.map_some, reduceCtorEq, Option.some.injEq] at e ⊢
    have h1 := congrArg BareSub.value e
    have h2 := congrArg BareSub.continuations e
    simp only [Sub.bare] at h1 h2
    rw [h1, same_composeValue h2]
  cases x with
  | elem k =>
    have T := (H.at k).text
    simp only [computeValue]
    rw [(H.at k).type, (H.at k).value, same_composeValue (H.at k).continuations]
    split
    · simp only [verbatimOf] at T
      exact T
    · rfl
  | item k n => exact subs S
  | entry k n => exact subs S

/-! ## The functions of the context are the same -/

theorem same_readComment (H : SameHeap i i' h h') (x : Ref) : readComment h' x = readComment h x := by
  funext c
  unfold readComment
  rw [same_computeComment (same_comments H x)]

theorem same_readValue (H : SameHeap i i' h h') : ∀ (n : Nat) (x : Ref), readValue i' h' n x = readValue i h n x
  | 0, _ => rfl
  | n + 1, x => by
    funext c
    unfold readValue
    rw [same_mirror H, same_computeValue H]
    simp only [same_readValue H n]

theorem same_readItems (H : SameHeap i i' h h') : ∀ (n k : Nat), readItems h' n k = readItems h n k
  | 0, _ => rfl
  | n + 1, k => by
    funext c
    unfold readItems
    rw [(H.at k).mirror, (H.at k).extend, same_ownItems H]
    simp only [same_readItems H n]

theorem same_notIn (H : SameHeap i i' h h') (a b : List Ref) : notIn h' a b = notIn h a b := by
  unfold notIn
  have : h'.key? = h.key? := funext (same_key H)
  rw [this]

theorem same_readEntries (H : SameHeap i i' h h') : ∀ (n k : Nat), readEntries h' n k = readEntries h n k
  | 0, _ => rfl
  | n + 1, k => by
    funext c
    unfold readEntries
    rw [(H.at k).mirror, (H.at k).extend, same_ownEntries H]
    simp only [same_readEntries H n, same_notIn H]

theorem same_readElements (H : SameHeap i i' h h') : ∀ (n k : Nat), readElements h' n k = readElements h n k
  | 0, _ => rfl
  | n + 1, k => by
    funext c
    unfold readElements
    rw [(H.at k).mirror, (H.at k).extend, (H.at k).elements]
    simp only [same_readElements H n, (H.at _).key]

theorem same_readCommentKey (H : SameHeap i i' h h') (x : Ref) : readCommentKey h' x = readCommentKey h x := by
  funext c
  unfold readCommentKey
  rw [same_comments_some H, same_readComment H]

theorem same_readRaw (H : SameHeap i i' h h') : ∀ (n : Nat) (x : Ref), readRaw i' h' n x = readRaw i h n x
  | 0, _ => rfl
  | n + 1, x => by
    have R : readRaw i' h' n = readRaw i h n := funext (same_readRaw H n)
    funext c
    unfold readRaw
    cases x with
    | elem k => simp only [same_readCommentKey H, R, same_type H, same_key H, (H.at k).type, same_readItems H, same_readEntries H, same_readElements H, same_readValue H]
    | item k m => simp only [same_readCommentKey H, same_type H, same_key H, same_readValue H]
    | entry k m => simp only [same_readCommentKey H, same_type H, same_key H, same_readValue H]

end Eno
