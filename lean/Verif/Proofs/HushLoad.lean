import Verif.Proofs.HushResolve
import Verif.Spec.Uncommented

/-! # Without comments: loading and reading -/

namespace Eno

open Spec

variable {i i' : Str} {h h' : Heap} {es es' : List Said} {r : Stop}

theorem told_wordless : ∀ {es : List Said}, (∀ x, .comment x ∉ es) → told es = wordless es
  | [], _ => rfl
  | e :: es, he => by
    have ih := told_wordless (es := es) fun x hx => he x (by simp [hx])
    cases e with
    | comment x => exact absurd (List.mem_cons_self) (he x)
    | multi k v => simp [told, wordless, ih]
    | line l => cases l <;> simp [told, wordless, ih]

theorem heard_said {ev : Event} : ev.heard = true ↔ ∀ x, ev.said i ≠ .comment x := by
  cases ev with
  | multi => simp [Event.heard, Event.said]
  | line n b t => cases hb : t.body <;> simp [Event.heard, Event.said, hb]

theorem wordless_heard (i : Str) : ∀ es : List Event, told ((es.filter Event.heard).map (Event.said i)) = wordless (es.map (Event.said i)) := by
  intro es
  rw [told_wordless]
  · induction es with
    | nil => rfl
    | cons ev es ih =>
      cases he : ev.heard with
      | false =>
        rw [List.filter_cons_of_neg (by simp [he]), ih]
        have : ¬ ∀ x, ev.said i ≠ .comment x := fun h => by rw [heard_said.2 h] at he; cases he
        rw [List.map_cons]
        cases hs : ev.said i with
        | comment x => rfl
        | multi => exact absurd (fun x => by simp [hs]) this
        | line => exact absurd (fun x => by simp [hs]) this
      | true =>
        rw [List.filter_cons_of_pos he, List.map_cons, List.map_cons]
        have := (heard_said (i := i)).1 he
        cases hs : ev.said i with
        | comment x => exact absurd hs (this x)
        | multi => simp only [wordless, ih]
        | line l => cases l <;> simp only [wordless, ih]
  · intro x hx
    rw [List.mem_map] at hx
    obtain ⟨ev, h1, h2⟩ := hx
    exact heard_said.1 (List.mem_filter.1 h1).2 x h2

theorem hush_openLength {s s' : AS} {n b fin n' b' fin' : Nat} {op key op' key' : Cap} (S : SameState i i' s.hush s'.hush) :
    (openMultiline s' n' b' fin' op' key').heap.length = (openMultiline s n b fin op key).heap.length := by
  have := S.heap.length
  simp only [AS.hush, hush_length] at this
  unfold openMultiline AS.append
  simp only [List.length_append, List.length_modify, List.length_cons, List.length_nil, this]

/-- Texts that say the same apart from comments are analysed alike apart from comments. -/
theorem hush_analysis (S : Says i es r) (S' : Says i' es' r) (ht : wordless es = wordless es') :
    SameAnalysis i i' (((analyze i).map Ctx.hush).mapError AExc.hush) (((analyze i').map Ctx.hush).mapError AExc.hush) := by
  obtain ⟨ev, q, T⟩ := trace_exists i
  obtain ⟨ev', q', T'⟩ := trace_exists i'
  have U := trace_says T
  have U' := trace_says T'
  obtain ⟨e1, e2⟩ := says_unique S U
  obtain ⟨e1', e2'⟩ := says_unique S' U'
  rw [← e1, ← e1', ← wordless_heard, ← wordless_heard] at ht
  have R := same_run (i := i) (i' := i') _ (ev.filter Event.heard) (ev'.filter Event.heard) AS.init.hush AS.init.hush (Nat.le_refl _) .initial (by simp [claimed, AS.init, AS.hush])
    (fun e he => trace_fits T e (List.mem_filter.1 he).1) (fun e he => trace_fits T' e (List.mem_filter.1 he).1) ht
  rw [hush_run, hush_run] at R
  have E := analyze_eq T
  have E' := analyze_eq T'
  have two : ∀ {x x' : AExc}, analyze i = .error x → analyze i' = .error x' → (∀ k c b k' c' b', x = .parse k c b → x' = .parse k' c' b' → k' = k ∧ ∀ f, k = .unterminatedMultilineField f → (c'.heap.at f).key = (c.heap.at f).key) →
      SameAnalysis i i' (((analyze i).map Ctx.hush).mapError AExc.hush) (((analyze i').map Ctx.hush).mapError AExc.hush) := by
    intro x x' hx hx' hk
    rcases C07_total i with ⟨c, h⟩ | ⟨k, c, b, h⟩
    · rw [h] at hx; cases hx
    rcases C07_total i' with ⟨c', h'⟩ | ⟨k', c', b', h'⟩
    · rw [h'] at hx'; cases hx'
    rw [hx] at h; rw [hx'] at h'
    injection h with h; injection h' with h'
    obtain ⟨rfl, hk⟩ := hk _ _ _ _ _ _ h h'
    rw [hx, hx', h, h']
    exact .error fun f hf => by simp only [Ctx.hush, hush_key]; exact hk f hf
  revert R E E'
  generalize runEvents AS.init ev = x
  generalize runEvents AS.init ev' = x'
  intro R E E'
  rcases x with ⟨a, e, f⟩ | a <;> rcases x' with ⟨a', e', f'⟩ | a' <;> simp only [hushRun] at R <;> cases R
  · exact two E E' fun _ _ _ _ _ _ => lineFail_kind
  · rename_i C
    simp only at E E'
    have e3 : q'.stop = q.stop := by rw [e2, e2']
    cases q with
    | finished n =>
      cases q' <;> simp only [Spec.Ending.stop, reduceCtorEq] at e3
      simp only [finish] at E E'
      rw [E, E']
      exact .ok ⟨C.heap, C.copySections, C.copyNonSections, rfl, rfl⟩
    | invalid n b =>
      cases q' <;> simp only [Spec.Ending.stop, reduceCtorEq] at e3
      simp only [finish] at E E'
      exact two E E' fun _ _ _ _ _ _ h h' => failAt_kind h h' (by simp)
    | unterminated n b fin op key =>
      cases q' <;> simp only [Spec.Ending.stop, reduceCtorEq] at e3
      simp only [finish] at E E'
      rename_i n' b' fin' op' key'
      have hl := hush_openLength (n := n) (b := b) (fin := fin) (op := op) (key := key) (n' := n') (b' := b') (fin' := fin') (op' := op') (key' := key') C
      cases h1 : tokenizeErrorContext i (openMultiline a n b fin op key) (fin + 1) (n + 1) <;> rw [h1] at E <;> simp only at E <;>
        cases h2 : tokenizeErrorContext i' (openMultiline _ n' b' fin' op' key') (fin' + 1) (n' + 1) <;> rw [h2] at E' <;> simp only at E'
      · exact two E E' fun _ _ _ _ _ _ h => by cases h
      · exact two E E' fun _ _ _ _ _ _ h => by cases h
      · exact two E E' fun _ _ _ _ _ _ _ h => by cases h
      · refine two E E' fun _ _ _ _ _ _ h h' => ?_
        injection h with h hc _
        injection h' with h' hc' _
        refine ⟨by rw [← h, ← h', hl], fun f hf => ?_⟩
        rw [← h, FailKind.unterminatedMultilineField.injEq] at hf
        rw [← hc, ← hc', tokenize_heap h1, tokenize_heap h2, ← hf, open_key, ← hl, open_key]
        simpa [Spec.Ending.stop] using e3

/-- Texts that say the same apart from comments are loaded alike apart from comments. -/
theorem hushed_load (S : Says i es r) (S' : Says i' es' r) (ht : wordless es = wordless es') : SameLoad i i' (hushLoad (load i)) (hushLoad (load i')) := by
  have A := hush_analysis S S' ht
  rw [hush_load, hush_load]
  revert A
  generalize analyze i = x
  generalize analyze i' = x'
  intro A
  cases x with
  | error a =>
    cases x' with
    | ok c =>
      simp only [Except.map, Except.mapError] at A
      generalize a.hush = u at A
      cases A
    | error b =>
      simp only [Except.map, Except.mapError] at A ⊢
      generalize a.hush = u at A ⊢
      generalize b.hush = v at A ⊢
      cases A with
      | error h => exact .analysis h
  | ok c =>
    cases x' with
    | error b =>
      simp only [Except.map, Except.mapError] at A
      generalize b.hush = u at A
      cases A
    | ok c' =>
      simp only [Except.map, Except.mapError] at A
      cases A with
      | ok C =>
        simp only
        rw [C.copySections, C.copyNonSections]
        split
        · rcases same_resolve C with ⟨d, d', h1, h2, D⟩ | ⟨x, x', h1, h2, E⟩
          · rw [h1, h2]; exact .ok D
          · rw [h1, h2]; exact .resolution E
        · exact .ok C

/-! ## Reading -/

theorem hush_sub (x : Ref) : (Heap.hush h).sub? x = (h.sub? x).map Sub.hush := by
  have key : ∀ (l : Option (List Sub)) (n : Nat), ((hushSubs l).getD [])[n]? = ((l.getD [])[n]?).map Sub.hush := by
    intro l n
    cases l <;> simp [hushSubs]
  cases x with
  | elem k => rfl
  | item k n => simp only [Heap.sub?, hush_items, key]
  | entry k n => simp only [Heap.sub?, hush_entries, key]

theorem hush_comments (x : Ref) : (Heap.hush h).comments x = none := by
  cases x with
  | elem k => exact hush_noComments k
  | item k n => simp only [Heap.comments, hush_sub]; cases h.sub? (.item k n) <;> rfl
  | entry k n => simp only [Heap.comments, hush_sub]; cases h.sub? (.entry k n) <;> rfl

theorem hush_mirror? (x : Ref) : (Heap.hush h).mirror? x = h.mirror? x := by
  cases x <;> simp only [Heap.mirror?, hush_mirror]

theorem hush_typeOf (x : Ref) : (Heap.hush h).type x = h.type x := by
  cases x <;> simp only [Heap.type, hush_type]

theorem hush_key? (x : Ref) : (Heap.hush h).key? x = h.key? x := by
  cases x with
  | elem k => simp only [Heap.key?, hush_type, hush_key]
  | item k n => simp only [Heap.key?, hush_sub]; cases h.sub? (.item k n) <;> rfl
  | entry k n => simp only [Heap.key?, hush_sub]; cases h.sub? (.entry k n) <;> rfl

theorem hush_ownItems (k : Nat) : (Heap.hush h).ownItems k = h.ownItems k := by
  simp only [Heap.ownItems, hush_items]
  cases (h.at k).items <;> simp [hushSubs]

theorem hush_ownEntries (k : Nat) : (Heap.hush h).ownEntries k = h.ownEntries k := by
  simp only [Heap.ownEntries, hush_entries]
  cases (h.at k).entries <;> simp [hushSubs]

theorem hush_computeValue (x : Ref) : computeValue i (Heap.hush h) x = computeValue i h x := by
  cases x with
  | elem k => simp only [computeValue, hush_at]; rfl
  | item k n => simp only [computeValue, hush_sub]; cases h.sub? (.item k n) <;> rfl
  | entry k n => simp only [computeValue, hush_sub]; cases h.sub? (.entry k n) <;> rfl

theorem hush_extend (k : Nat) : ((Heap.hush h).at k).extend = (h.at k).extend := by rw [hush_at]; rfl

theorem hush_readValue : ∀ (n : Nat) (x : Ref), readValue i (Heap.hush h) n x = readValue i h n x
  | 0, _ => rfl
  | n + 1, x => by
    funext c
    unfold readValue
    simp only [hush_mirror?, hush_computeValue, hush_readValue n]

theorem hush_readItems : ∀ (n k : Nat), readItems (Heap.hush h) n k = readItems h n k
  | 0, _ => rfl
  | n + 1, k => by
    funext c
    unfold readItems
    simp only [hush_mirror, hush_extend, hush_ownItems, hush_readItems n]

theorem hush_notIn (a b : List Ref) : notIn (Heap.hush h) a b = notIn h a b := by
  unfold notIn
  rw [show (Heap.hush h).key? = h.key? from funext hush_key?]

theorem hush_readEntries : ∀ (n k : Nat), readEntries (Heap.hush h) n k = readEntries h n k
  | 0, _ => rfl
  | n + 1, k => by
    funext c
    unfold readEntries
    simp only [hush_mirror, hush_extend, hush_ownEntries, hush_readEntries n, hush_notIn]

theorem hush_readElements : ∀ (n k : Nat), readElements (Heap.hush h) n k = readElements h n k
  | 0, _ => rfl
  | n + 1, k => by
    funext c
    unfold readElements
    simp only [hush_mirror, hush_extend, hush_elements, hush_readElements n, hush_key]

theorem hush_query {q : Query} (hq : aside q = true) (fuel : Nat) (c : Cache) : Query.run i (Heap.hush h) fuel q c = Query.run i h fuel q c := by
  cases q <;> simp only [aside, reduceCtorEq] at hq <;> simp only [Query.run, hush_readValue, hush_readItems, hush_readEntries, hush_readElements]

/-- Caches that agree apart from comments. -/
structure Cache.Aside (c c' : Cache) : Prop where
  value : c'.value = c.value
  items : c'.items = c.items
  entries : c'.entries = c.entries
  elements : c'.elements = c.elements

/-- A function that does nothing with comments. -/
def Detached {α : Type} (f : Read α) : Prop := ∀ c c', c.Aside c' → (f c').1 = (f c).1 ∧ (f c).2.Aside (f c').2

theorem detached_value : ∀ (n : Nat) (x : Ref), Detached (readValue i h n x)
  | 0, _ => fun c c' A => ⟨rfl, A⟩
  | n + 1, x => by
    intro c c' A
    unfold readValue
    rw [A.value]
    cases c.value x with
    | some v => exact ⟨rfl, A⟩
    | none =>
      simp only
      cases h.mirror? x with
      | some m => exact detached_value n _ c c' A
      | none =>
        simp only
        cases computeValue i h x <;> exact ⟨rfl, ⟨by simp only, A.items, A.entries, A.elements⟩⟩

theorem detached_items : ∀ (n k : Nat), Detached (readItems h n k)
  | 0, _ => fun c c' A => ⟨rfl, A⟩
  | n + 1, k => by
    intro c c' A
    unfold readItems
    cases (h.at k).mirror with
    | some m => exact detached_items n m c c' A
    | none =>
      simp only
      cases (h.at k).extend with
      | none => exact ⟨rfl, A⟩
      | some t =>
        simp only [A.items]
        cases c.items k with
        | some xs => exact ⟨rfl, A⟩
        | none =>
          simp only
          have D := detached_items n t c c' A
          revert D
          generalize readItems h n t c = a
          generalize readItems h n t c' = a'
          obtain ⟨x, d⟩ := a
          obtain ⟨x', d'⟩ := a'
          rintro ⟨e, B⟩
          simp only at e B
          subst e
          cases x' with
          | error e => exact ⟨rfl, B⟩
          | ok xs =>
            simp only
            cases h.ownItems k with
            | none => exact ⟨rfl, B⟩
            | some own => exact ⟨rfl, ⟨B.value, by simp only [B.items], B.entries, B.elements⟩⟩

theorem detached_entries : ∀ (n k : Nat), Detached (readEntries h n k)
  | 0, _ => fun c c' A => ⟨rfl, A⟩
  | n + 1, k => by
    intro c c' A
    unfold readEntries
    cases (h.at k).mirror with
    | some m => exact detached_entries n m c c' A
    | none =>
      simp only [A.entries]
      cases c.entries k with
      | some xs => exact ⟨rfl, A⟩
      | none =>
        simp only
        cases h.ownEntries k with
        | none => exact ⟨rfl, A⟩
        | some own =>
          simp only
          have A1 : Cache.Aside { c with entries := upd c.entries k own } { c' with entries := upd c.entries k own } := ⟨A.value, A.items, rfl, A.elements⟩
          cases (h.at k).extend with
          | none => exact ⟨rfl, A1⟩
          | some t =>
            simp only
            have D := detached_entries n t _ _ A1
            revert D
            generalize readEntries h n t { c with entries := upd c.entries k own } = a
            generalize readEntries h n t { c' with entries := upd c.entries k own } = a'
            obtain ⟨x, d⟩ := a
            obtain ⟨x', d'⟩ := a'
            rintro ⟨e, B⟩
            simp only at e B
            subst e
            cases x' with
            | error e => exact ⟨rfl, B⟩
            | ok xs => exact ⟨rfl, ⟨B.value, B.items, by simp only [B.entries], B.elements⟩⟩

theorem detached_elements : ∀ (n k : Nat), Detached (readElements h n k)
  | 0, _ => fun c c' A => ⟨rfl, A⟩
  | n + 1, k => by
    intro c c' A
    unfold readElements
    cases (h.at k).mirror with
    | some m =>
      simp only
      have D := detached_elements n m c c' A
      revert D
      generalize readElements h n m c = a
      generalize readElements h n m c' = a'
      obtain ⟨x, d⟩ := a
      obtain ⟨x', d'⟩ := a'
      rintro ⟨e, B⟩
      simp only at e B
      subst e
      cases x' <;> exact ⟨rfl, B⟩
    | none =>
      simp only [A.elements]
      cases c.elements k with
      | some xs => exact ⟨rfl, A⟩
      | none =>
        simp only
        have A1 : Cache.Aside { c with elements := upd c.elements k (h.at k).elements } { c' with elements := upd c.elements k (h.at k).elements } := ⟨A.value, A.items, A.entries, rfl⟩
        cases (h.at k).extend with
        | none => exact ⟨rfl, A1⟩
        | some t =>
          simp only
          have D := detached_elements n t _ _ A1
          revert D
          generalize readElements h n t { c with elements := upd c.elements k (h.at k).elements } = a
          generalize readElements h n t { c' with elements := upd c.elements k (h.at k).elements } = a'
          obtain ⟨x, d⟩ := a
          obtain ⟨x', d'⟩ := a'
          rintro ⟨e, B⟩
          simp only at e B
          subst e
          rcases x' with e | _ | xs
          · exact ⟨rfl, B⟩
          · exact ⟨rfl, B⟩
          · exact ⟨rfl, ⟨B.value, B.items, B.entries, by simp only [B.elements]⟩⟩

/-- What a function returns on a document, and what it returns without comments. -/
def Muted {α : Type} (m : α → α) (f g : Read α) : Prop := ∀ c c' a d, c.Aside c' → f c = (.ok a, d) → ∃ d', g c' = (.ok (m a), d') ∧ d.Aside d'

theorem muted_comment (x : Ref) : Muted (fun _ => none) (readCommentKey h x) (readCommentKey (Heap.hush h) x) := by
  intro c c' a d A e
  refine ⟨c', by simp [readCommentKey, hush_comments], ?_⟩
  unfold readCommentKey at e
  split at e
  · unfold readComment at e
    cases hc : c.comment x with
    | some v => rw [hc] at e; cases e; exact A
    | none =>
      rw [hc] at e
      simp only at e
      cases hm : computeComment (h.comments x) with
      | error y => rw [hm] at e; cases e
      | ok v => rw [hm] at e; cases e; exact ⟨A.value, A.items, A.entries, A.elements⟩
  · cases e; exact A

theorem muted_all {f g : Ref → Read Raw} (hf : ∀ x, Muted uncommented (f x) (g x)) : ∀ xs, Muted uncommentedAll (readAll f xs) (readAll g xs)
  | [] => fun c c' a d A e => by cases e; exact ⟨c', rfl, A⟩
  | x :: xs => by
    intro c c' a d A e
    unfold readAll at e ⊢
    rcases hx : f x c with ⟨_ | y, d1⟩
    · rw [hx] at e; cases e
    · rw [hx] at e
      simp only at e
      obtain ⟨d1', h1, B⟩ := hf x c c' _ _ A hx
      rw [h1]
      simp only
      rcases hs : readAll f xs d1 with ⟨_ | ys, d2⟩
      · rw [hs] at e; cases e
      · rw [hs] at e
        cases e
        obtain ⟨d2', h2, C⟩ := muted_all hf xs d1 d1' _ _ B hs
        rw [h2]
        exact ⟨_, rfl, C⟩

theorem muted_read {α : Type} {f : Read α} (D : Detached f) {c c' d : Cache} {a : α} (A : c.Aside c') (e : f c = (.ok a, d)) : ∃ d', f c' = (.ok a, d') ∧ d.Aside d' := by
  obtain ⟨h1, h2⟩ := D c c' A
  rw [e] at h1 h2
  exact ⟨(f c').2, Prod.ext h1 rfl, h2⟩

/-- Raw output without comments. -/
theorem muted_raw : ∀ (n : Nat) (x : Ref), Muted uncommented (readRaw i h n x) (readRaw i (Heap.hush h) n x)
  | 0, _ => fun c c' a d A e => by cases e
  | n + 1, x => by
    intro c c' a d A e
    have M := muted_all (fun x => muted_raw n x)
    unfold readRaw at e ⊢
    rcases hc : readCommentKey h x c with ⟨_ | cm, c1⟩
    · rw [hc] at e; cases e
    rw [hc] at e
    obtain ⟨c1', h1, B⟩ := muted_comment x c c' _ _ A hc
    rw [h1]
    simp only at e ⊢
    have kids : ∀ (xs : List Ref) {c c' d : Cache} {a : Raw}, c.Aside c' →
        (match readAll (readRaw i h n) xs c with | (.error e, c) => (.error e, c) | (.ok l, c) => (.ok (Raw.node (h.type x) cm (h.key? x) l), c)) = ((.ok a, d) : Except PyExc Raw × Cache) →
        ∃ d', (match readAll (readRaw i (Heap.hush h) n) xs c' with | (.error e, c) => (.error e, c) | (.ok l, c) => (.ok (Raw.node ((Heap.hush h).type x) none ((Heap.hush h).key? x) l), c)) = ((.ok (uncommented a), d') : Except PyExc Raw × Cache) ∧ d.Aside d' := by
      intro xs c c' d a A e
      rcases hs : readAll (readRaw i h n) xs c with ⟨_ | l, c2⟩
      · rw [hs] at e; cases e
      · rw [hs] at e
        cases e
        obtain ⟨d', h2, C⟩ := M xs c c' _ _ A hs
        rw [h2, hush_typeOf, hush_key?]
        exact ⟨_, rfl, C⟩
    have vals : ∀ {c c' d : Cache} {a : Raw} (t : Ty), c.Aside c' →
        (match readValue i h n x c with | (.error e, c) => (.error e, c) | (.ok v, c) => (.ok (Raw.leaf t cm (h.key? x) (some v)), c)) = ((.ok a, d) : Except PyExc Raw × Cache) →
        ∃ d', (match readValue i (Heap.hush h) n x c' with | (.error e, c) => (.error e, c) | (.ok v, c) => (.ok (Raw.leaf t none ((Heap.hush h).key? x) (some v)), c)) = ((.ok (uncommented a), d') : Except PyExc Raw × Cache) ∧ d.Aside d' := by
      intro c c' d a t A e
      rcases hs : readValue i h n x c with ⟨_ | l, c2⟩
      · rw [hs] at e; cases e
      · rw [hs] at e
        cases e
        obtain ⟨d', h2, C⟩ := muted_read (detached_value n x) A hs
        rw [hush_readValue, h2, hush_key?]
        exact ⟨_, rfl, C⟩
    cases x with
    | item k m => rw [hush_typeOf]; exact vals _ B e
    | entry k m => rw [hush_typeOf]; exact vals _ B e
    | elem k =>
      simp only [hush_type] at e ⊢
      cases ht : (h.at k).type <;> rw [ht] at e
      case empty =>
        simp only at e ⊢
        cases e
        rw [hush_key?]
        exact ⟨_, rfl, B⟩
      case list =>
        simp only at e ⊢
        rcases hs : readItems h n k c1 with ⟨_ | xs, c2⟩
        · rw [hs] at e; cases e
        · rw [hs] at e
          obtain ⟨c2', h2, C⟩ := muted_read (detached_items n k) B hs
          rw [hush_readItems, h2]
          exact kids xs C e
      case fieldset =>
        simp only at e ⊢
        rcases hs : readEntries h n k c1 with ⟨_ | xs, c2⟩
        · rw [hs] at e; cases e
        · rw [hs] at e
          obtain ⟨c2', h2, C⟩ := muted_read (detached_entries n k) B hs
          rw [hush_readEntries, h2]
          exact kids xs C e
      case «section» =>
        simp only at e ⊢
        rcases hs : readElements h n k c1 with ⟨_ | _ | xs, c2⟩
        · rw [hs] at e; cases e
        · rw [hs] at e; cases e
        · rw [hs] at e
          obtain ⟨c2', h2, C⟩ := muted_read (detached_elements n k) B hs
          rw [hush_readElements, h2]
          exact kids _ C e
      case document =>
        simp only at e ⊢
        rcases hs : readElements h n k c1 with ⟨_ | _ | xs, c2⟩
        · rw [hs] at e; cases e
        · rw [hs] at e; cases e
        · rw [hs] at e
          obtain ⟨c2', h2, C⟩ := muted_read (detached_elements n k) B hs
          rw [hush_readElements, h2]
          exact kids _ C e
      all_goals
        simp only at e ⊢
        exact vals _ B e

end Eno
