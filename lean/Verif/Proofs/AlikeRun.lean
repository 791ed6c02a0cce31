import Verif.Proofs.Alike
import Verif.Proofs.Outcome
import Verif.Proofs.MultilineValue
import Verif.Proofs.LineLemmas

/-! # The analyzer: texts that say the same are analyzed alike -/

namespace Eno

open Spec

variable {i i' : Str} {s s' : AS} {h h' : Heap}

/-- What an instruction says. -/
def Spec.Event.said (input : Str) : Event → Said
  | .line _ b t =>
    match t.body with
    | .comment _ v => .comment (v.map fun c => (c.b - b, c.text))
    | body => .line (Line.ofBody body)
  | .multi _ _ fin _ key _ T => .multi key.text (if T.start = fin then none else some ((input.take T.start).drop (fin + 1)))

/-- What is needed of the offsets of an instruction. -/
def Spec.Event.Fits (input : Str) : Event → Prop
  | .line _ b t => oneLine t ∧
    match t.body with
    | .heading op _ c => op.e - op.b = op.text.length ∧ ∀ x, c = some x → x.1.e - x.1.b = x.1.text.length
    | .comment _ c => ∀ x, c = some x → b ≤ x.b
    | _ => True
  | .multi _ _ fin _ _ body T => verbatimOf input (bodyLines body) = .ok (if T.start = fin then none else some ((input.take T.start).drop (fin + 1)))

theorem verbatimOf_body {n fin stop : Nat} (hf : fin ≤ stop) (hs : stop ≤ i.length) :
    verbatimOf i (bodyLines (mlBody i n fin stop)) = .ok (if stop = fin then none else some ((i.take stop).drop (fin + 1))) := by
  unfold mlBody
  by_cases h : stop = fin
  · simp [h, bodyLines, verbatimOf]
  · simp only [if_neg h]
    obtain ⟨p, rest, q, front, h1, h2, h3, h4⟩ := place_ends ((i.take stop).drop (fin + 1)) (n + 1) (fin + 1)
    have hne : place (n + 1) (fin + 1) (splitNl ((i.take stop).drop (fin + 1))) ≠ [] := by rw [h1]; simp
    unfold bodyLines verbatimOf
    rw [if_neg hne]
    simp only [List.head?_map, List.getLast?_map]
    have e1 : (place (n + 1) (fin + 1) (splitNl ((i.take stop).drop (fin + 1)))).head? = some p := by rw [h1]; rfl
    have e2 : (place (n + 1) (fin + 1) (splitNl ((i.take stop).drop (fin + 1)))).getLast? = some q := by rw [h3]; simp
    rw [e1, e2]
    have : q.2.2 = stop := by
      rw [h4]
      simp only [List.length_drop, List.length_take]
      omega
    simp only [Option.map_some, Base.range?, List.lookup, beq_self_eq_true, h2, this]

theorem scan_fits {b n : Nat} {t : Tok} (hb : b ≤ i.length) (hs : scan b (i.drop b) = some t) (ho : oneLine t) : (Event.line n b t).Fits i := by
  have P := (scan_ok hb hs).placed
  refine ⟨ho, ?_⟩
  cases hq : t.body with
  | heading op k c =>
    rw [hq] at P
    simp only
    rcases c with _ | ⟨a, x⟩
    · exact ⟨by have := P.2.1.2.1; omega, by simp⟩
    · have h1 : (op :: k.caps ++ [a, x]) = Body.caps (.heading op k (some (a, x))) := rfl
      rw [← h1] at P
      refine ⟨by have := P.2.1.2.1; omega, ?_⟩
      intro y hy
      injection hy with hy
      subst hy
      have P2 := P.2.2
      cases k with
      | plain k => have := P2.2.2.2.1.2.1; simp only; omega
      | escaped u k v => have := P2.2.2.2.2.2.2.2.1.2.1; simp only; omega
  | comment op c =>
    rw [hq] at P
    simp only
    intro x hx
    subst hx
    have h1 := P.1
    have h2 := P.2.2.1
    have h3 := P.2.1.2.1
    omega
  | _ => trivial

theorem trace_fits {b n : Nat} {es : List Event} {r : Ending} (h : Trace i b n es r) : ∀ ev ∈ es, ev.Fits i := by
  induction h with
  | done => simp
  | bad => simp
  | line hi hs ho _ ih =>
    intro ev hev; simp at hev
    rcases hev with rfl | hev
    · exact scan_fits (by omega) hs ho
    · exact ih ev hev
  | @multi b n fin op key T es r hi hs ht _ ih =>
    intro ev hev; simp at hev
    rcases hev with rfl | hev
    · have h1 := findTerminator_ge _ _ _ ht
      obtain ⟨a, b, h2, h3, _⟩ := findTerminator_start _ _ _ ht
      have h4 := congrArg List.length h2
      simp at h4
      exact verbatimOf_body (by omega) (by omega)
    · exact ih ev hev
  | unterminated => simp

/-- One instruction. -/
theorem same_event {ev ev' : Event} (S : SameState i i' s s') (P : SamePending s s' ∨ ∃ sp v, ev.said i = .line (.continuation sp v)) (F : ev.Fits i) (F' : ev'.Fits i')
    (hs : ev.said i = ev'.said i') (hc : ∀ x, ev.said i ≠ .comment x) (he : ev.said i ≠ .line .empty) :
    Corr (Settled i i') (applyEvent s ev) (applyEvent s' ev') := by
  cases ev with
  | multi n b fin op key body T =>
    have P : SamePending s s' := by
      rcases P with P | ⟨_, _, P⟩
      · exact P
      · simp [Event.said] at P
    cases ev' with
    | multi n' b' fin' op' key' body' T' =>
      simp only [Event.said, Said.multi.injEq] at hs
      simp only [applyEvent]
      refine .ok (same_multi S P hs.1.symm ?_)
      simp only [Event.Fits] at F F'
      rw [F, F', hs.2]
    | line n' b' t' =>
      simp only [Event.said] at hs
      cases hb : t'.body <;> simp [hb] at hs
  | line n b t =>
    cases ev' with
    | multi n' b' fin' op' key' body' T' =>
      simp only [Event.said] at hs
      split at hs <;> simp at hs
    | line n' b' t' =>
      have E : ∀ u, t.body = u → ∀ u', t'.body = u' → Corr (Settled i i') (applyEvent s (.line n b t)) (applyEvent s' (.line n' b' t')) := by
        intro u hu u' hu'
        simp only [applyEvent, step, hu, hu']
        simp only [Event.said, hu, hu'] at hs hc he P
        simp only [Event.Fits, hu, hu'] at F F'
        have Q : (∀ sp v, Line.ofBody u ≠ .continuation sp v) → (∀ op v, u ≠ .comment op v) → SamePending s s' := by
          intro h1 h2
          rcases P with P | ⟨sp, v, P⟩
          · exact P
          · exfalso
            split at P
            · exact h2 _ _ rfl
            · injection P with P; exact h1 _ _ P
        cases u with
        | empty => exact absurd rfl he
        | comment op v => exact absurd rfl (hc _)
        | multiline op k => exact absurd hu (F.1 _ _)
        | element k op v =>
          have Q := Q (by simp [Line.ofBody]) (by simp)
          cases u' <;> simp [Line.ofBody] at hs
          exact .ok (same_element S Q hs.1.symm hs.2.symm)
        | listItem op v =>
          have Q := Q (by simp [Line.ofBody]) (by simp)
          cases u' <;> simp [Line.ofBody] at hs
          exact same_item S Q hs.symm
        | entry k op v =>
          have Q := Q (by simp [Line.ofBody]) (by simp)
          cases u' <;> simp [Line.ofBody] at hs
          exact same_entry S Q hs.1.symm hs.2.symm
        | continuation sp op v =>
          cases u' <;> simp [Line.ofBody] at hs
          obtain ⟨rfl, hs⟩ := hs
          exact same_continuation S hs.symm
        | heading op k c =>
          have Q := Q (by simp [Line.ofBody]) (by simp)
          cases u' <;> simp [Line.ofBody] at hs
          rename_i op' k' c'
          refine same_heading S Q hs.2.1.symm ?_ ?_
          · have := F.2.1; have := F'.2.1; omega
          · have h1 := F.2.2
            have h2 := F'.2.2
            have h3 := hs.2.2
            rcases c with _ | ⟨o, x⟩ <;> rcases c' with _ | ⟨o', x'⟩ <;> simp at h3 ⊢
            have h1 := h1 _ rfl
            have h2 := h2 _ rfl
            simp only at h1 h2
            rw [h1, h2]
            refine ⟨?_, h3.2.symm⟩
            have := h3.1
            by_cases q : o.text.length = 2 <;> by_cases q' : o'.text.length = 2 <;> simp [q, q'] at this ⊢
        | copy k op t =>
          have Q := Q (by simp [Line.ofBody]) (by simp)
          cases u' <;> simp [Line.ofBody] at hs
          exact .ok (same_copy S Q hs.1.symm hs.2.symm)
      exact E _ rfl _ rfl

theorem event_empty {ev : Event} (F : ev.Fits i) (h : ev.said i = .line .empty) : applyEvent s ev = .ok { s with metas := flushed s.metas s.comments, comments := none } := by
  cases ev with
  | multi => simp [Event.said] at h
  | line n b t =>
    simp only [Event.said] at h
    simp only [applyEvent, step]
    cases hb : t.body <;> simp [hb, Line.ofBody] at h ⊢

theorem event_comment {ev : Event} (F : ev.Fits i) {x : Option (Nat × Str)} (h : ev.said i = .comment x) :
    ∃ n b f op v, applyEvent s ev = .ok (stepComment s n b f op v) ∧ v.map (fun c => ((c.b : Int) - b, c.text)) = x.map fun p => ((p.1 : Int), p.2) := by
  cases ev with
  | multi => simp [Event.said] at h
  | line n b t =>
    simp only [Event.said] at h
    simp only [applyEvent, step]
    cases hb : t.body <;> simp [hb, Line.ofBody] at h ⊢
    rename_i op v
    refine ⟨_, _, _, _, _, rfl, ?_⟩
    subst h
    simp only [Event.Fits, hb] at F
    cases v with
    | none => rfl
    | some c =>
      have := F.2 c rfl
      simp
      omega

/-- The comments that wait for an element and get one. -/
def claimed (s : AS) (es : List Said) : Option (List Comment) := if leftAlone es then none else s.comments

/-- What comes of all instructions. -/
inductive RunCorr (i i' : Str) : Except (AS × Event × LineFail) AS → Except (AS × Event × LineFail) AS → Prop where
  | ok {a b} : SameState i i' a b → RunCorr i i' (.ok a) (.ok b)
  | error {a b e e' f} : RunCorr i i' (.error (a, e, f)) (.error (b, e', f))

theorem same_run : ∀ (n : Nat) (es es' : List Event) (s s' : AS), es.length + es'.length ≤ n → SameState i i' s s' →
    (claimed s' (es'.map (Event.said i'))).map (·.map Comment.bare) = (claimed s (es.map (Event.said i))).map (·.map Comment.bare) → (∀ ev ∈ es, ev.Fits i) → (∀ ev ∈ es', ev.Fits i') →
    told (es.map (Event.said i)) = told (es'.map (Event.said i')) → RunCorr i i' (runEvents s es) (runEvents s' es') := by
  intro n
  induction n with
  | zero =>
    intro es es' s s' hn S _ _ _ _
    have h1 : es = [] := by cases es <;> simp at hn ⊢
    have h2 : es' = [] := by cases es' <;> simp at hn ⊢
    subst h1; subst h2
    exact .ok S
  | succ n ih =>
    intro es es' s s' hn S P F F' ht
    -- a line of the first text that can be passed over
    have left : ∀ ev t, es = ev :: t → (ev.said i = .line .empty ∨ ∃ x, ev.said i = .comment x ∧ leftAlone (t.map (Event.said i)) = true) → RunCorr i i' (runEvents s es) (runEvents s' es') := by
      rintro ev t rfl hq
      have Fe := F ev (by simp)
      have Ft : ∀ ev ∈ t, ev.Fits i := fun e he => F e (by simp [he])
      rcases hq with hq | ⟨x, hq, hl⟩
      · simp only [runEvents, event_empty Fe hq]
        refine ih t es' _ s' (by simp at hn; omega) ⟨S.heap, S.depth, S.lastCont, S.lastNonSection, S.lastSection, S.copySections, S.copyNonSections⟩ ?_ Ft F' ?_
        · rw [P]; simp [claimed, hq, leftAlone]
        · rw [← ht]; simp [hq, told]
      · obtain ⟨m, b, f, op, v, he, _⟩ := event_comment (s := s) Fe hq
        simp only [runEvents, he]
        refine ih t es' _ s' (by simp at hn; omega) ⟨S.heap, S.depth, S.lastCont, S.lastNonSection, S.lastSection, S.copySections, S.copyNonSections⟩ ?_ Ft F' ?_
        · rw [P]; simp [claimed, hq, leftAlone, hl]
        · rw [← ht]; simp [hq, told, hl]
    have right : ∀ ev t, es' = ev :: t → (ev.said i' = .line .empty ∨ ∃ x, ev.said i' = .comment x ∧ leftAlone (t.map (Event.said i')) = true) → RunCorr i i' (runEvents s es) (runEvents s' es') := by
      rintro ev t rfl hq
      have Fe := F' ev (by simp)
      have Ft : ∀ ev ∈ t, ev.Fits i' := fun e he => F' e (by simp [he])
      rcases hq with hq | ⟨x, hq, hl⟩
      · simp only [runEvents, event_empty Fe hq]
        refine ih es t s _ (by simp at hn; omega) ⟨S.heap, S.depth, S.lastCont, S.lastNonSection, S.lastSection, S.copySections, S.copyNonSections⟩ ?_ F Ft ?_
        · rw [← P]; simp [claimed, hq, leftAlone]
        · rw [ht]; simp [hq, told]
      · obtain ⟨m, b, f, op, v, he, _⟩ := event_comment (s := s') Fe hq
        simp only [runEvents, he]
        refine ih es t s _ (by simp at hn; omega) ⟨S.heap, S.depth, S.lastCont, S.lastNonSection, S.lastSection, S.copySections, S.copyNonSections⟩ ?_ F Ft ?_
        · rw [← P]; simp [claimed, hq, leftAlone, hl]
        · rw [ht]; simp [hq, told, hl]
    have keep : ∀ (ev : Said) (t : List Said), ¬ (ev = .line .empty ∨ ∃ x, ev = .comment x ∧ leftAlone t = true) → told (ev :: t) = ev :: told t := by
      intro ev t hq
      cases ev with
      | comment x =>
        simp only [told]
        rw [if_neg fun hl => hq (.inr ⟨_, rfl, hl⟩)]
      | multi => rfl
      | line l => cases l <;> first | rfl | exact absurd (.inl rfl) hq
    cases es with
    | nil =>
      cases es' with
      | nil => exact .ok S
      | cons ev' t' =>
        by_cases hq : ev'.said i' = .line .empty ∨ ∃ x, ev'.said i' = .comment x ∧ leftAlone (t'.map (Event.said i')) = true
        · exact right _ _ rfl hq
        · rw [List.map_cons, keep _ _ hq] at ht
          simp [told] at ht
    | cons ev t =>
      by_cases hq : ev.said i = .line .empty ∨ ∃ x, ev.said i = .comment x ∧ leftAlone (t.map (Event.said i)) = true
      · exact left _ _ rfl hq
      · cases es' with
        | nil =>
          rw [List.map_cons, keep _ _ hq] at ht
          simp [told] at ht
        | cons ev' t' =>
          by_cases hq' : ev'.said i' = .line .empty ∨ ∃ x, ev'.said i' = .comment x ∧ leftAlone (t'.map (Event.said i')) = true
          · exact right _ _ rfl hq'
          · rw [List.map_cons, List.map_cons, keep _ _ hq, keep _ _ hq'] at ht
            injection ht with h1 h2
            have Fe := F ev (by simp)
            have Ft : ∀ ev ∈ t, ev.Fits i := fun e he => F e (by simp [he])
            have Fe' := F' ev' (by simp)
            have Ft' : ∀ ev ∈ t', ev.Fits i' := fun e he => F' e (by simp [he])
            by_cases hc : ∃ x, ev.said i = .comment x
            · obtain ⟨x, hx⟩ := hc
              have hx' : ev'.said i' = .comment x := by rw [← h1, hx]
              obtain ⟨m, b, f, op, v, he, hv⟩ := event_comment (s := s) Fe hx
              obtain ⟨m', b', f', op', v', he', hv'⟩ := event_comment (s := s') Fe' hx'
              simp only [runEvents, he, he']
              have l : leftAlone (t.map (Event.said i)) = false := by
                cases hl : leftAlone (t.map (Event.said i)) with
                | false => rfl
                | true => exact absurd (.inr ⟨x, hx, hl⟩) hq
              have l' : leftAlone (t'.map (Event.said i')) = false := by
                cases hl : leftAlone (t'.map (Event.said i')) with
                | false => rfl
                | true => exact absurd (.inr ⟨x, hx', hl⟩) hq'
              have P0 : SamePending s s' := by
                simp only [claimed, List.map_cons, hx, hx', leftAlone, l, l'] at P
                exact P
              refine ih t t' _ _ (by simp at hn; omega) (same_comment S) ?_ Ft Ft' h2
              simp only [claimed, l, l']
              exact same_comment_pending P0 (by rw [hv, hv'])
            · have hc : ∀ x, ev.said i ≠ .comment x := fun x hx => hc ⟨x, hx⟩
              have he : ev.said i ≠ .line .empty := fun h => hq (.inl h)
              have P0 : SamePending s s' ∨ ∃ sp v, ev.said i = .line (.continuation sp v) := by
                by_cases hk : ∃ sp v, ev.said i = .line (.continuation sp v)
                · exact .inr hk
                · left
                  have l : ∀ u, leftAlone (ev.said i :: u) = false := by
                    intro u
                    revert hk hc he
                    cases ev.said i with
                    | comment x => intro hc _ _; exact absurd rfl (hc x)
                    | multi => intros; rfl
                    | line l => cases l <;> intro hc he hk <;> first | rfl | exact absurd rfl he | exact absurd ⟨_, _, rfl⟩ hk
                  have l' : ∀ u, leftAlone (ev'.said i' :: u) = false := by rw [← h1]; exact l
                  simp only [claimed, List.map_cons, l, l'] at P
                  exact P
              have C := same_event S P0 Fe Fe' h1 hc he
              unfold runEvents
              generalize applyEvent s ev = a at C ⊢
              generalize applyEvent s' ev' = b at C ⊢
              cases C with
              | error => exact .error
              | ok C =>
                refine ih t t' _ _ (by simp at hn; omega) C.toSameState ?_ Ft Ft' h2
                simp [claimed, C.rest, C.rest']

end Eno
