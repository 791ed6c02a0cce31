import Verif.Proofs.Operators
import Verif.Proofs.AlikeLoad
import Verif.Proofs.TreeUnique

/-! # What is said is trimmed -/

namespace Eno

open Spec

variable {s i : Str} {rest : Str}

theorem valueOf_trimmed {v : Str} (h : valueOf s = some v) : Trimmed v := by
  rw [← valueAt_text 0 s, Option.map_eq_some_iff] at h
  obtain ⟨c, h1, rfl⟩ := h
  exact valueAt_trimmed h1

/-- The value of a line. -/
def Spec.Line.worth : Line → Option Str
  | .element _ v | .listItem v | .entry _ v | .continuation _ v => v
  | _ => none

theorem readAfterKey_worth {k : Str} {l : Line} (h : readAfterKey k s = some (l, rest)) {v : Str} (hv : l.worth = some v) : Trimmed v := by
  unfold readAfterKey at h
  split at h
  · simp at h; obtain ⟨rfl, _⟩ := h; exact valueOf_trimmed hv
  · simp at h; obtain ⟨rfl, _⟩ := h; exact valueOf_trimmed hv
  · rename_i t _
    cases hx : Spec.valueOf (t.dropWhile isSp) <;> rw [hx] at h <;> simp at h
    obtain ⟨rfl, _⟩ := h; cases hv
  · cases h

theorem readAfterHeading_worth {d : Nat} {k : Str} {l : Line} (h : readAfterHeading d k s = some (l, rest)) {v : Str} (hv : l.worth = some v) : Trimmed v := by
  unfold readAfterHeading at h
  split at h
  · simp at h; obtain ⟨rfl, _⟩ := h; cases hv
  · simp at h; obtain ⟨rfl, _⟩ := h; cases hv
  · simp at h; obtain ⟨_, _, rfl, _⟩ := h; cases hv
  · simp at h; obtain ⟨_, _, rfl, _⟩ := h; cases hv
  · cases h

theorem readEscaped_worth {after : Str → Str → Option (Line × Str)} {v : Str} (ha : ∀ k u l r, after k u = some (l, r) → l.worth = some v → Trimmed v) {l : Line}
    (h : readEscaped after s = some (l, rest)) (hv : l.worth = some v) : Trimmed v := by
  unfold readEscaped at h
  simp only at h
  obtain ⟨n, _, hn⟩ := List.exists_of_findSome?_eq_some h
  split at hn
  · exact ha _ _ _ _ hn hv
  · cases hn

theorem readLine_worth {l : Line} (h : readLine s = some (l, rest)) {v : Str} (hv : l.worth = some v) : Trimmed v := by
  unfold readLine at h
  split at h
  · simp at h; obtain ⟨rfl, _⟩ := h; cases hv
  · rename_i c t hs
    split at h
    · simp at h; obtain ⟨rfl, _⟩ := h; cases hv
    split at h
    · simp at h; obtain ⟨rfl, _⟩ := h; exact valueOf_trimmed hv
    split at h
    · simp at h; obtain ⟨rfl, _⟩ := h; exact valueOf_trimmed hv
    split at h
    · simp at h; obtain ⟨rfl, _⟩ := h; cases hv
    split at h
    · unfold readDash at h
      simp only at h
      split at h
      · simp at h; obtain ⟨rfl, _⟩ := h; exact valueOf_trimmed hv
      · cases hx : Spec.valueOf (List.dropWhile (fun x => x == '-') (c :: t)) <;> rw [hx] at h <;> simp at h
        obtain ⟨rfl, _⟩ := h; cases hv
    split at h
    · unfold readHeading at h
      simp only at h
      split at h
      · cases h
      · cases h
      · exact readEscaped_worth (fun _ _ _ _ h1 h2 => readAfterHeading_worth h1 h2) h hv
      · exact readAfterHeading_worth h hv
    split at h
    · exact readEscaped_worth (fun _ _ _ _ h1 h2 => readAfterKey_worth h1 h2) h hv
    split at h
    · cases h
    · exact readAfterKey_worth h hv

theorem key_trimmed {k : KeyTok} {l : List (RangeName × Cap)} (h : NamedOk l) (hk : ∀ x ∈ k.named, x ∈ l) : Trimmed k.text := by
  cases k with
  | plain c => exact h (.key, c) (hk _ (by simp [KeyTok.named]))
  | escaped a c b => exact h (.key, c) (hk _ (by simp [KeyTok.named]))

theorem scan_trim {b n : Nat} {t : Tok} (h : scan b (i.drop b) = some t) (ho : oneLine t) : ((Event.line n b t).said i).Trim := by
  have N := scan_named h
  have S := scan_shape h
  have V := (scan_view b (i.drop b)).1
  rw [h] at V
  simp only [Option.map_some, view] at V
  have W := fun v => readLine_worth (v := v) V.symm
  have C := fun op v => scan_column (op := op) (v := v) h
  cases hb : t.body with
  | empty => simp only [Event.said, hb]; trivial
  | element k op v =>
    simp only [Event.said, hb]
    rw [hb] at N W
    exact ⟨key_trimmed N (by simp +contextual [Body.named]), W⟩
  | listItem op v => simp only [Event.said, hb]; rw [hb] at W; exact W
  | entry k op v =>
    simp only [Event.said, hb]
    rw [hb] at N W
    exact ⟨key_trimmed N (by simp +contextual [Body.named]), W⟩
  | continuation sp op v => simp only [Event.said, hb]; rw [hb] at W; exact W
  | heading op k c =>
    simp only [Event.said, hb]
    rw [hb] at N S
    refine ⟨S.2.1, key_trimmed N (by cases c <;> simp +contextual [Body.named]), ?_⟩
    intro x hx
    rcases c with _ | ⟨a, c⟩
    · cases hx
    · simp at hx; subst hx
      exact N (.template, c) (by simp [Body.named])
  | multiline op k => exact absurd hb (ho op k)
  | comment op v =>
    have := C op v hb
    simp only [Event.said, hb]
    intro x hx
    rw [this] at hx
    simp at hx
    obtain ⟨c, rfl, rfl⟩ := hx
    rw [hb] at N
    exact ⟨by unfold column; simp; omega, N (.comment, c) (by simp [Body.named])⟩
  | copy k op t =>
    simp only [Event.said, hb]
    rw [hb] at N
    exact ⟨key_trimmed N (by simp +contextual [Body.named]), N (.template, t) (by simp [Body.named])⟩

theorem trace_trim {b n : Nat} {es : List Event} {r : Ending} (h : Trace i b n es r) : ∀ ev ∈ es, (ev.said i).Trim := by
  induction h with
  | done => simp
  | bad => simp
  | line hi hs ho _ ih =>
    intro ev hev; simp at hev
    rcases hev with rfl | hev
    · exact scan_trim hs ho
    · exact ih ev hev
  | @multi b n fin op key T es r hi hs ht _ ih =>
    intro ev hev; simp at hev
    rcases hev with rfl | hev
    · have := scan_shape hs
      exact ⟨this.2.2.1, this.2.2.2.1, this.2.2.2.2⟩
    · exact ih ev hev
  | unterminated => simp

/-! ## Roles -/

theorem said_role {ev : Event} (h : ev.Fits i) : (ev.said i).role = ev.role := by
  cases ev with
  | multi => rfl
  | line n b t =>
    obtain ⟨h1, h2⟩ := h
    unfold Event.said Event.role
    cases hb : t.body <;> simp only [hb] at h2 ⊢ <;> simp [Said.role, Line.ofBody, roleOf]
    rw [h2.1]

theorem said_depth {ev : Event} (h : ev.Fits i) (ht : (ev.said i).Trim) (d : Nat) (hd : ev.role = .heading d) : 0 < d := by
  rw [← said_role h] at hd
  revert hd ht
  cases ev.said i with
  | comment => intro _ h; cases h
  | multi => intro _ h; cases h
  | line l => cases l <;> intro ht h <;> simp [Said.role] at h; subst h; exact ht.1

theorem leftAlone_told : ∀ {es : List Said}, leftAlone es = false → leftAlone (told es) = false
  | [], h => by cases h
  | .comment x :: es, h => by
    have h' : leftAlone es = false := h
    rw [told]
    rw [h']
    exact leftAlone_told h'
  | .multi k v :: es, h => rfl
  | .line l :: es, h => by cases l <;> first | rfl | cases h

theorem clean_told : ∀ {es : List Said}, (∀ e ∈ es, e.Trim) → Clean (told es)
  | [], _ => trivial
  | .comment x :: es, h => by
    have ih := clean_told (es := es) fun e he => h e (by simp [he])
    rw [told]
    split
    · exact ih
    · rename_i hl
      exact ⟨leftAlone_told (by simpa using hl), ih⟩
  | .multi k v :: es, h => ⟨trivial, clean_told fun e he => h e (by simp [he])⟩
  | .line l :: es, h => by
    have ih := clean_told (es := es) fun e he => h e (by simp [he])
    have hl := h (.line l) (by simp)
    cases l <;> first | exact ih | exact ⟨trivial, ih⟩ | exact hl.elim

theorem roles_told : ∀ (es : List Said) (m : Nat × Lead), roles m ((told es).map Said.role) = roles m (es.map Said.role)
  | [], _ => rfl
  | .comment x :: es, m => by
    rw [told]
    split
    · exact roles_told es m
    · simp only [List.map_cons, roles]
      exact roles_told es m
  | .multi k v :: es, m => by
    simp only [told, List.map_cons, roles]
    split <;> first | rfl | exact roles_told es _
  | .line l :: es, m => by
    cases l <;> first | exact roles_told es m | (simp only [told, List.map_cons, roles]; split <;> first | rfl | exact roles_told es _)

/-! ## Documents and what they say -/

theorem mem_told : ∀ {es : List Said} {e : Said}, e ∈ told es → e ∈ es
  | [], _, h => h
  | .comment x :: es, e, h => by
    rw [told] at h
    split at h
    · exact List.mem_cons_of_mem _ (mem_told h)
    · rw [List.mem_cons] at h
      rcases h with h | h
      · rw [h]; simp
      · exact List.mem_cons_of_mem _ (mem_told h)
  | .multi k v :: es, e, h => by
    simp only [told, List.mem_cons] at h
    rcases h with h | h
    · rw [h]; simp
    · exact List.mem_cons_of_mem _ (mem_told h)
  | .line l :: es, e, h => by
    cases l <;> first
      | exact List.mem_cons_of_mem _ (mem_told h)
      | (simp only [told, List.mem_cons] at h
         rcases h with h | h
         · rw [h]; simp
         · exact List.mem_cons_of_mem _ (mem_told h))

/-- Every list of lines is that of an input, event by event. -/
theorem says_trace {es : List Said} {r : Stop} (h : Says i es r) : ∃ evs r', Trace i 0 0 evs r' ∧ es = evs.map (Event.said i) ∧ r = r'.stop := by
  obtain ⟨evs, r', ht⟩ := trace_exists i
  have := trace_says ht
  rw [List.drop_zero] at this
  obtain ⟨h1, h2⟩ := says_unique h this
  exact ⟨evs, r', ht, h1.symm, h2.symm⟩

theorem says_trim {es : List Said} {r : Stop} (h : Says i es r) : ∀ e ∈ es, e.Trim := by
  obtain ⟨evs, r', ht, rfl, _⟩ := says_trace h
  intro e he
  rw [List.mem_map] at he
  obtain ⟨ev, h1, rfl⟩ := he
  exact trace_trim ht ev h1

theorem coming_doc {R : Coming} (g : R.Good) (f : R.Fits (0, .closed)) : ∃ T : Doc, T.Ok ∧ T.said = R.said := by
  have hc : R.conts = [] := by have := f.conts; simpa using this
  have hi : R.inner = .nothing := by
    cases hi : R.inner with
    | nothing => rfl
    | items x xs => have := f.items x xs hi; simp at this
    | entries x xs => have := f.entries x xs hi; simp at this
  have hp : ∀ p ∈ R.parts, p.1 = 1 := by
    intro p hp
    have h1 := g.pos p hp
    have h2 : p.1 ≤ 1 := by
      cases hR : R.parts with
      | nil => rw [hR] at hp; cases hp
      | cons q l =>
        have h3 := f.depth q (by rw [hR]; rfl)
        have h4 := g.order
        rw [hR, List.pairwise_cons] at h4
        rw [hR, List.mem_cons] at hp
        rcases hp with rfl | hp
        · exact h3
        · have := h4.1 p hp; simp at h3; omega
    omega
  refine ⟨⟨R.things, R.parts.map (·.2)⟩, ⟨g.things, Coming.partsOk_iff.2 ?_⟩, ?_⟩
  · intro p hp
    rw [List.mem_map] at hp
    obtain ⟨x, hx, rfl⟩ := hp
    exact g.parts x hx
  · unfold Doc.said Coming.said
    rw [hc, hi, ← Coming.saidParts_eq hp]
    rfl

/-- Lines that can follow each other are those of a document. -/
theorem roles_doc {es : List Said} (h : ∀ e ∈ es, e.Trim) : (∃ m, roles (0, .closed) (es.map Said.role) = some m) ↔ ∃ T : Doc, T.Ok ∧ told es = T.said := by
  rw [← roles_told, build_roles (clean_told h)]
  constructor
  · rintro ⟨R, h1, h2⟩
    obtain ⟨T, h3, h4⟩ := coming_doc (build_good h1) h2
    exact ⟨T, h3, by rw [h4, build_said h1]⟩
  · rintro ⟨T, h1, h2⟩
    refine ⟨_, by rw [h2]; exact build_doc h1, by simp, by simp, by simp, ?_⟩
    intro p hp
    simp at hp
    obtain ⟨q, _, rfl⟩ := hp
    simp

end Eno
