import Verif.Proofs.SaidTrim
import Verif.Proofs.TreeSays
import Verif.Proofs.WrittenDocument

/-! # Documents without copies, and their trees -/

namespace Eno

open Spec

variable {i i' : Str} {es : List Said}

/-- Reading succeeds if and only if what is said is a document. -/
theorem analyze_doc : (∃ ctx, analyze i = .ok ctx) ↔ ∃ (es : List Said) (T : Doc), Says i es .finished ∧ T.Ok ∧ told es = T.said := by
  constructor
  · rintro ⟨ctx, h⟩
    obtain ⟨evs, n, s, ht, hL, _⟩ := analyze_facts h
    have S := trace_says ht
    rw [List.drop_zero] at S
    have tr := trace_trim ht
    have fi := trace_fits ht
    have hr : (evs.map (Event.said i)).map Said.role = evs.map Event.role := by
      rw [List.map_map]
      exact List.map_congr_left fun ev hev => said_role (fi ev hev)
    rcases roles_legal (es := evs) (fun ev hev d hd => said_depth (fi ev hev) (tr ev hev) d hd) with ⟨_, h2⟩ | ⟨h1, _⟩
    · obtain ⟨T, hT⟩ := (roles_doc (says_trim S)).1 ⟨_, by rw [hr]; exact h2⟩
      exact ⟨_, T, S, hT⟩
    · exact absurd hL h1
  · rintro ⟨es, T, S, hT⟩
    obtain ⟨evs, r', ht, rfl, h3⟩ := says_trace S
    have tr := trace_trim ht
    have fi := trace_fits ht
    have hr : (evs.map (Event.said i)).map Said.role = evs.map Event.role := by
      rw [List.map_map]
      exact List.map_congr_left fun ev hev => said_role (fi ev hev)
    obtain ⟨m, hm⟩ := (roles_doc (says_trim S)).2 ⟨T, hT⟩
    rw [hr] at hm
    cases r' with
    | finished n =>
      rcases roles_legal (es := evs) (fun ev hev d hd => said_depth (fi ev hev) (tr ev hev) d hd) with ⟨h1, _⟩ | ⟨_, h2⟩
      · exact analyze_finished ht h1
      · rw [h2] at hm; cases hm
    | invalid => cases h3
    | unterminated => cases h3

/-! ## Documents that say trimmed texts -/

theorem remark_valid {r : Remark} (ho : Remark.Ok r) (hs : Remark.Shown r) (ht : ∀ e ∈ Remark.said r, e.Trim) : Remark.Valid r := by
  refine ⟨fun x hx => ?_, hs⟩
  have h1 := ho x hx
  have h2 := ht (.comment (x.2.map fun t => (x.1, t))) (List.mem_map.2 ⟨x, hx, rfl⟩)
  obtain ⟨n, v⟩ := x
  cases v with
  | none => exact h1 rfl
  | some v => exact h2 (n, v) rfl

theorem more_valid {more : List (Bool × Option Str)} (ht : ∀ e ∈ saidMore more, e.Trim) : ∀ c ∈ more, ∀ v, c.2 = some v → Trimmed v :=
  fun c hc => ht (.line (.continuation c.1 c.2)) (List.mem_map.2 ⟨c, hc, rfl⟩)

theorem item_valid {x : Item} (ho : Remark.Ok x.remark) (hs : Remark.Shown x.remark) (ht : ∀ e ∈ x.said, e.Trim) : x.Valid := by
  unfold Item.said at ht
  refine ⟨remark_valid ho hs fun e he => ht e (by simp [he]), ht (.line (.listItem x.parts.first)) (by simp), more_valid fun e he => ht e (by simp [he])⟩

theorem entry_valid {x : Entry} (ho : Remark.Ok x.remark) (hs : Remark.Shown x.remark) (ht : ∀ e ∈ x.said, e.Trim) : x.Valid := by
  unfold Entry.said at ht
  have := ht (.line (.entry x.key x.parts.first)) (by simp)
  exact ⟨remark_valid ho hs fun e he => ht e (by simp [he]), this.1, this.2, more_valid fun e he => ht e (by simp [he])⟩

theorem element_valid {x : Element} (ho : (Thing.plain x).Ok) (hs : x.Shown) (ht : ∀ e ∈ x.said, e.Trim) : x.Valid := by
  obtain ⟨r, k, c⟩ := x
  unfold Element.said at ht
  obtain ⟨o1, o2⟩ := ho
  obtain ⟨s1, s2⟩ := hs
  refine ⟨remark_valid o1 s1 fun e he => ht e (by simp [he]), ?_⟩
  cases c with
  | parts p =>
    have := ht (.line (.element k p.first)) (by simp)
    exact ⟨this.1, this.2, more_valid fun e he => ht e (by simp [he])⟩
  | items y ys =>
    have := ht (.line (.element k none)) (by simp)
    exact ⟨this.1, fun z hz => item_valid (o2 z hz) (s2 z hz) fun e he => ht e (by
      simp only [Inner.said, List.mem_append, List.mem_cons, List.mem_flatMap] at hz ⊢
      exact .inr (.inr ⟨z, hz, he⟩))⟩
  | entries y ys =>
    have := ht (.line (.element k none)) (by simp)
    exact ⟨this.1, fun z hz => entry_valid (o2 z hz) (s2 z hz) fun e he => ht e (by
      simp only [Inner.said, List.mem_append, List.mem_cons, List.mem_flatMap] at hz ⊢
      exact .inr (.inr ⟨z, hz, he⟩))⟩
  | verbatim ls =>
    have := ht (.multi k (if ls = [] then none else some (['\n'].intercalate ls))) (by simp)
    exact ⟨this, o2⟩

theorem elements_valid {xs : List Element} (ho : ∀ t ∈ xs.map Thing.plain, t.Ok) (hs : ∀ x ∈ xs, x.Shown) (ht : ∀ e ∈ (xs.map Thing.plain).flatMap Thing.said, e.Trim) : ∀ x ∈ xs, x.Valid :=
  fun x hx => element_valid (ho _ (List.mem_map.2 ⟨x, hx, rfl⟩)) (hs x hx) fun e he => ht e (List.mem_flatMap.2 ⟨.plain x, List.mem_map.2 ⟨x, hx, rfl⟩, he⟩)

mutual

theorem sec_valid {d : Nat} : ∀ {s : Sec}, s.part.Ok → s.Shown → (∀ e ∈ s.part.said d, e.Trim) → s.Valid
  | .mk r k xs ss, ho, hs, ht => by
    rw [Sec.part, Part.Ok] at ho
    rw [Sec.Shown] at hs
    rw [Sec.part, Part.said] at ht
    have := ht (.line (.heading d k none)) (by simp)
    rw [Sec.Valid]
    exact ⟨remark_valid ho.1 hs.1 fun e he => ht e (by simp [he]), this.2.1, elements_valid ho.2.1 hs.2.1 (fun e he => ht e (by
      simp only [List.mem_append, List.mem_cons]; exact .inr (.inr (.inl he)))), secs_valid (d := d + 1) ho.2.2 hs.2.2 fun e he => ht e (by simp [he])⟩

theorem secs_valid {d : Nat} : ∀ {ss : List Sec}, PartsOk (secParts ss) → SecsShown ss → (∀ e ∈ partsSaid d (secParts ss), e.Trim) → SecsValid ss
  | [], _, _, _ => by rw [SecsValid]; trivial
  | s :: ss, ho, hs, ht => by
    rw [secParts, PartsOk] at ho
    rw [SecsShown] at hs
    rw [secParts, partsSaid] at ht
    rw [SecsValid]
    exact ⟨sec_valid (d := d) ho.1 hs.1 fun e he => ht e (by simp [he]), secs_valid (d := d) ho.2 hs.2 fun e he => ht e (by simp [he])⟩

end

theorem document_valid {D : Document} (ho : D.doc.Ok) (hs : D.Shown) (ht : ∀ e ∈ D.doc.said, e.Trim) : D.Valid :=
  ⟨elements_valid ho.1 hs.1 fun e he => ht e (by unfold Doc.said; exact List.mem_append.2 (.inl he)), secs_valid (d := 1) ho.2 hs.2 fun e he => ht e (by unfold Doc.said; exact List.mem_append.2 (.inr he))⟩

/-! ## Without copies -/

theorem things_plain : ∀ {ts : List Thing}, (∀ e ∈ ts.flatMap Thing.said, e.copies = false) → ∃ xs : List Element, ts = xs.map .plain
  | [], _ => ⟨[], rfl⟩
  | .plain x :: ts, h => by
    obtain ⟨xs, rfl⟩ := things_plain (ts := ts) fun e he => h e (by rw [List.flatMap_cons]; exact List.mem_append.2 (.inr he))
    exact ⟨x :: xs, rfl⟩
  | .copy r k t n :: ts, h => by
    have := h (.line (.copy k t)) (by simp [Thing.said])
    cases this

mutual

theorem part_plain {d : Nat} : ∀ {p : Part}, (∀ e ∈ p.said d, e.copies = false) → ∃ s : Sec, p = s.part
  | .mk r k c ts ps, h => by
    rw [Part.said] at h
    obtain ⟨xs, rfl⟩ := things_plain (ts := ts) fun e he => h e (by simp only [List.mem_append, List.mem_cons]; exact .inr (.inr (.inl he)))
    obtain ⟨ss, rfl⟩ := parts_plain (d := d + 1) (ps := ps) fun e he => h e (by simp only [List.mem_append, List.mem_cons]; exact .inr (.inr (.inr he)))
    have := h (.line (.heading d k c)) (by simp)
    cases c with
    | some x => cases this
    | none => exact ⟨.mk r k xs ss, by rw [Sec.part]⟩

theorem parts_plain {d : Nat} : ∀ {ps : List Part}, (∀ e ∈ partsSaid d ps, e.copies = false) → ∃ ss : List Sec, ps = secParts ss
  | [], _ => ⟨[], by rw [secParts]⟩
  | p :: ps, h => by
    rw [partsSaid] at h
    obtain ⟨s, rfl⟩ := part_plain (d := d) (p := p) fun e he => h e (List.mem_append.2 (.inl he))
    obtain ⟨ss, rfl⟩ := parts_plain (d := d) (ps := ps) fun e he => h e (List.mem_append.2 (.inr he))
    exact ⟨s :: ss, by rw [secParts]⟩

end

theorem doc_plain {T : Doc} (h : ∀ e ∈ T.said, e.copies = false) : ∃ D : Document, T = D.doc := by
  obtain ⟨a, b⟩ := T
  unfold Doc.said at h
  obtain ⟨xs, rfl⟩ := things_plain fun e he => h e (List.mem_append.2 (.inl he))
  obtain ⟨ss, rfl⟩ := parts_plain (d := 1) fun e he => h e (List.mem_append.2 (.inr he))
  exact ⟨⟨xs, ss⟩, rfl⟩

mutual

theorem part_inj : ∀ {s s' : Sec}, s.part = s'.part → s = s'
  | .mk r k xs ss, .mk r' k' xs' ss', h => by
    rw [Sec.part, Sec.part] at h
    injection h with h1 h2 _ h4 h5
    have e1 : xs = xs' := List.map_inj_right (fun _ _ h => by injection h) |>.1 h4
    rw [h1, h2, e1, secs_inj h5]

theorem secs_inj : ∀ {ss ss' : List Sec}, secParts ss = secParts ss' → ss = ss'
  | [], [], _ => rfl
  | [], _ :: _, h => by rw [secParts, secParts] at h; cases h
  | _ :: _, [], h => by rw [secParts, secParts] at h; cases h
  | s :: ss, s' :: ss', h => by
    rw [secParts, secParts] at h
    injection h with h1 h2
    rw [part_inj h1, secs_inj h2]

end

theorem doc_inj {D D' : Document} (h : D.doc = D'.doc) : D = D' := by
  obtain ⟨a, b⟩ := D
  obtain ⟨a', b'⟩ := D'
  unfold Document.doc at h
  injection h with h1 h2
  have e1 : a = a' := List.map_inj_right (fun _ _ h => by injection h) |>.1 h1
  rw [e1, show b = b' from secs_inj h2]

theorem apply_plain {s s' : AS} {ev : Event} (h : applyEvent s ev = .ok s') (hc : (ev.said i).copies = false) :
    s'.copySections = s.copySections ∧ s'.copyNonSections = s.copyNonSections := by
  cases ev with
  | multi => injection h with h; subst h; exact ⟨rfl, rfl⟩
  | line n b t =>
    unfold applyEvent step at h
    unfold Event.said at hc
    cases hb : t.body <;> simp only [hb] at h hc
    case heading op k c =>
      cases c with
      | some x => cases hc
      | none =>
        unfold stepHeading at h
        simp only at h
        split at h
        · cases h
        · injection h with h; subst h; exact ⟨rfl, rfl⟩
    case copy => cases hc
    case listItem =>
      unfold stepListItem at h
      repeat' split at h
      all_goals first | cases h; done | (injection h with h; subst h; exact ⟨rfl, rfl⟩)
    case entry =>
      unfold stepEntry at h
      repeat' split at h
      all_goals first | cases h; done | (injection h with h; subst h; exact ⟨rfl, rfl⟩)
    case continuation =>
      unfold stepContinuation at h
      repeat' split at h
      all_goals first | cases h; done | (injection h with h; subst h; exact ⟨rfl, rfl⟩)
    all_goals (injection h with h; subst h; exact ⟨rfl, rfl⟩)

theorem run_plain : ∀ {evs : List Event} {s s' : AS}, runEvents s evs = .ok s' → (∀ ev ∈ evs, (ev.said i).copies = false) →
    s'.copySections = s.copySections ∧ s'.copyNonSections = s.copyNonSections
  | [], s, s', h, _ => by injection h with h; subst h; exact ⟨rfl, rfl⟩
  | ev :: evs, s, s', h, hc => by
    rw [runEvents] at h
    split at h
    · rename_i s1 h1
      have a := apply_plain h1 (hc ev (by simp))
      have b := run_plain h fun e he => hc e (by simp [he])
      exact ⟨b.1.trans a.1, b.2.trans a.2⟩
    · cases h

/-- A text without copies is loaded if it is accepted. -/
theorem load_plain {ctx : Ctx} {r : Stop} (ha : analyze i = .ok ctx) (S : Says i es r) (hc : ∀ e ∈ es, e.copies = false) : load i = .ok ctx := by
  obtain ⟨evs, n, s, ht, hr, hx⟩ := analyze_ok ha
  have S' := trace_says ht
  rw [List.drop_zero] at S'
  obtain ⟨rfl, _⟩ := says_unique S S'
  obtain ⟨h1, h2⟩ := run_plain (i := i) hr fun ev hev => hc _ (List.mem_map.2 ⟨ev, hev, rfl⟩)
  unfold load
  rw [ha]
  rw [hx]
  simp only [ctxOf, h1, h2]
  simp [AS.init]

/-! ## Moving between texts that say the same -/

theorem same_straight {h h' : Heap} (H : SameHeap i i' h h') (hf : AllFine h) : AllStraight h' := by
  have hno : ∀ k, (h'.at k).copy = none ∧ (h'.at k).deepCopy = false := by
    intro k
    rw [(H.at k).copy, (H.at k).deepCopy]
    by_cases hk : k < h.length
    · exact ⟨(hf k hk).1, (hf k hk).2.1⟩
    · rw [heap_outside hk]; exact ⟨rfl, rfl⟩
  intro s _ _
  refine ⟨⟨fun a _ => (hno a).2, fun _ _ a _ => (hno a).2⟩, ?_, ?_⟩
  · rw [(hno s).1]; simp
  · intro t _; rw [(hno t).1]; simp

theorem same_commentsOf {h h' : Heap} (H : SameHeap i i' h h') (r : Ref) : (h'.comments r).map (·.map Comment.bare) = (h.comments r).map (·.map Comment.bare) := by
  have sub : ∀ {x x' : Option Sub}, x'.map Sub.bare = x.map Sub.bare → (x'.bind (·.comments)).map (·.map Comment.bare) = (x.bind (·.comments)).map (·.map Comment.bare) := by
    intro x x' h
    cases x <;> cases x' <;> simp at h ⊢
    exact congrArg BareSub.comments h
  cases r with
  | elem k => exact (H.at k).comments
  | item k n => exact sub (same_sub H (.item k n))
  | entry k n => exact sub (same_sub H (.entry k n))

theorem same_readable {h h' : Heap} (H : SameHeap i i' h h') (hr : CommentsReadable h) : CommentsReadable h' := by
  intro r cs hc c hs
  subst hs
  have := same_commentsOf H r
  rw [hc] at this
  cases hx : h.comments r with
  | none => rw [hx] at this; cases this
  | some l =>
    rw [hx] at this
    simp at this
    obtain ⟨d, rfl, hd⟩ : ∃ d, l = [d] ∧ d.bare = c.bare := by
      cases l with
      | nil => cases this
      | cons d l =>
        cases l with
        | nil => simp at this; exact ⟨d, rfl, this.symm⟩
        | cons => simp at this
    have := hr r [d] hx d rfl
    rw [show c.comment = d.comment from (congrArg Prod.fst hd).symm]
    exact this

end Eno
