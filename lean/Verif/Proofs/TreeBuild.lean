import Verif.Proofs.Roles
import Verif.Proofs.TraceLines
import Verif.Spec.Tree

/-! # Documents from what the lines say, from the last line to the first one -/

namespace Eno

open Spec

/-- The part of speech of what is said. -/
def Spec.Said.role : Said → Role
  | .comment _ => .comment
  | .multi .. => .multiline
  | .line .empty => .blank
  | .line (.element _ v) => .element v.isSome
  | .line (.listItem _) => .item
  | .line (.entry ..) => .entry
  | .line (.continuation ..) => .continuation
  | .line (.heading d ..) => .heading d
  | .line (.multiline ..) => .multiline
  | .line (.comment _) => .comment
  | .line (.copy ..) => .copy

/-- What lines up to the end say: continuations, items or entries, elements and sections of what is in front of them. -/
structure Coming where
  conts : List (Bool × Option Str) := []
  inner : Inner := .nothing
  things : List Thing := []
  parts : List (Nat × Part) := []

/-- A comment line in front of something. -/
def Spec.Thing.remarked (c : Nat × Option Str) : Thing → Thing
  | .plain e => .plain { e with remark := c :: e.remark }
  | .copy r k t x => .copy (c :: r) k t x

def Spec.Part.remarked (c : Nat × Option Str) : Part → Part
  | .mk r k x ts ps => .mk (c :: r) k x ts ps

namespace Coming

/-- A comment in front of the lines. -/
def comment (c : Nat × Option Str) (R : Coming) : Option Coming :=
  if R.conts ≠ [] then none
  else
    match R.inner, R.things, R.parts with
    | .items x xs, _, _ => some { R with inner := .items { x with remark := c :: x.remark } xs }
    | .entries x xs, _, _ => some { R with inner := .entries { x with remark := c :: x.remark } xs }
    | .nothing, t :: ts, _ => some { R with things := t.remarked c :: ts }
    | .nothing, [], (d, p) :: ps => some { R with parts := (d, p.remarked c) :: ps }
    | .nothing, [], [] => none

/-- A comment line. -/
def line : Option (Nat × Str) → Nat × Option Str
  | none => (0, none)
  | some x => (x.1, some x.2)

/-- The lines of a verbatim text. -/
def body : Option Str → List Str
  | none => []
  | some t => splitNl t

/-- One more line. -/
def add : Said → Coming → Option Coming
  | .comment c, R => R.comment (line c)
  | .line (.continuation b v), R => some { R with conts := (b, v) :: R.conts }
  | .line (.listItem v), R =>
    match R.inner with
    | .nothing => some { R with conts := [], inner := .items ⟨[], v, R.conts⟩ [] }
    | .items x xs => some { R with conts := [], inner := .items ⟨[], v, R.conts⟩ (x :: xs) }
    | .entries .. => none
  | .line (.entry k v), R =>
    match R.inner with
    | .nothing => some { R with conts := [], inner := .entries ⟨[], k, v, R.conts⟩ [] }
    | .entries x xs => some { R with conts := [], inner := .entries ⟨[], k, v, R.conts⟩ (x :: xs) }
    | .items .. => none
  | .line (.element k v), R =>
    match R.inner with
    | .nothing => some { R with conts := [], things := .plain ⟨[], k, .parts ⟨v, R.conts⟩⟩ :: R.things }
    | .items x xs => if R.conts = [] ∧ v = none then some { R with inner := .nothing, things := .plain ⟨[], k, .items x xs⟩ :: R.things } else none
    | .entries x xs => if R.conts = [] ∧ v = none then some { R with inner := .nothing, things := .plain ⟨[], k, .entries x xs⟩ :: R.things } else none
  | .line (.copy k t), R => if R.conts = [] then some { R with inner := .nothing, things := .copy [] k t R.inner :: R.things } else none
  | .multi k t, R =>
    match R.inner with
    | .nothing => if R.conts = [] then some { R with things := .plain ⟨[], k, .verbatim (body t)⟩ :: R.things } else none
    | _ => none
  | .line (.heading d k c), R =>
    match R.inner with
    | .nothing =>
      if R.conts = [] ∧ 0 < d ∧ ∀ p ∈ R.parts.takeWhile (fun p : Nat × Part => decide (d < p.1)), p.1 = d + 1 then
        some { R with things := [], parts := (d, .mk [] k c R.things ((R.parts.takeWhile fun p => d < p.1).map (·.2))) :: R.parts.dropWhile fun p => d < p.1 }
      else none
    | _ => none
  | .line .empty, _ => none
  | .line (.multiline ..), _ => none
  | .line (.comment _), _ => none

end Coming

/-- From the last line to the first one. -/
def build : List Said → Option Coming
  | [] => some {}
  | e :: es =>
    match build es with
    | none => none
    | some R => R.add e

theorem build_cons {e : Said} {es : List Said} {R : Coming} (h : build (e :: es) = some R) : ∃ R', build es = some R' ∧ R'.add e = some R := by
  unfold build at h
  cases hb : build es with
  | none => rw [hb] at h; cases h
  | some R' => rw [hb] at h; exact ⟨R', rfl, h⟩

/-! ## The lines are what the document says -/

/-- What sections say. -/
def saidParts : List (Nat × Part) → List Said
  | [] => []
  | (d, p) :: ps => p.said d ++ saidParts ps

namespace Coming

/-- What it says. -/
def said (R : Coming) : List Said := saidMore R.conts ++ (R.inner.said ++ (R.things.flatMap Thing.said ++ saidParts R.parts))

theorem intercalate_split (s : Str) : ['\n'].intercalate (splitNl s) = s ∧ splitNl s ≠ [] := by
  induction s with
  | nil => simp [splitNl]
  | cons c t ih =>
    obtain ⟨h1, h2⟩ := ih
    unfold splitNl
    split
    · rename_i hc
      subst hc
      cases hs : splitNl t with
      | nil => exact absurd hs h2
      | cons a l =>
        rw [hs] at h1
        exact ⟨by rw [← h1]; simp [List.intercalate, List.intersperse], by simp⟩
    · cases hs : splitNl t with
      | nil => exact absurd hs h2
      | cons a l =>
        rw [hs] at h1
        refine ⟨?_, by simp⟩
        rw [← h1]
        cases l <;> simp [List.intercalate, List.intersperse]

theorem split_noNl (s : Str) : ∀ l ∈ splitNl s, '\n' ∉ l := by
  induction s with
  | nil => simp [splitNl]
  | cons c t ih =>
    intro l hl
    unfold splitNl at hl
    split at hl
    · simp at hl
      rcases hl with rfl | hl
      · simp
      · exact ih l hl
    · rename_i hc
      cases hs : splitNl t with
      | nil => rw [hs] at hl; simp at hl; subst hl; simpa using Ne.symm hc
      | cons a b =>
        rw [hs] at hl ih
        simp at hl
        rcases hl with rfl | hl
        · have := ih a (by simp)
          simp [this, Ne.symm hc]
        · exact ih l (by simp [hl])

theorem saidParts_append (a b : List (Nat × Part)) : saidParts (a ++ b) = saidParts a ++ saidParts b := by
  induction a with
  | nil => rfl
  | cons x a ih => obtain ⟨d, p⟩ := x; simp [saidParts, ih]

theorem saidParts_eq {d : Nat} : ∀ {a : List (Nat × Part)}, (∀ p ∈ a, p.1 = d) → saidParts a = partsSaid d (a.map (·.2))
  | [], _ => rfl
  | (n, p) :: a, h => by
    have := h (n, p) (by simp)
    simp only at this
    subst this
    simp only [saidParts, List.map_cons, partsSaid]
    rw [saidParts_eq fun p hp => h p (by simp [hp])]

theorem remarked_said (c : Nat × Option Str) (t : Thing) : (t.remarked c).said = .comment (c.2.map fun x => (c.1, x)) :: t.said := by
  cases t <;> simp [Thing.remarked, Thing.said, Element.said, Remark.said]

theorem remarked_part (c : Nat × Option Str) (d : Nat) (p : Part) : (p.remarked c).said d = .comment (c.2.map fun x => (c.1, x)) :: p.said d := by
  cases p; simp [Part.remarked, Part.said, Remark.said]

theorem comment_said {c : Nat × Option Str} {R R' : Coming} (h : R.comment c = some R') : R'.said = .comment (c.2.map fun x => (c.1, x)) :: R.said := by
  unfold comment at h
  split at h
  · cases h
  · rename_i hc
    simp at hc
    split at h <;> first | (cases h; done) | (injection h with h; subst h; simp_all [said, Inner.said, Item.said, Entry.said, Remark.said, saidMore, remarked_said, remarked_part, saidParts])

theorem add_said {e : Said} {R R' : Coming} (h : R.add e = some R') : R'.said = e :: R.said := by
  cases e with
  | comment c =>
    have := comment_said h
    rw [this]
    cases c <;> simp [line]
  | multi k t =>
    simp only [add] at h
    split at h
    · rename_i hi
      split at h
      · rename_i hc
        injection h with h; subst h
        cases t with
        | none => simp [said, hi, hc, Inner.said, saidMore, Thing.said, Element.said, Remark.said, body]
        | some t => simp [said, hi, hc, Inner.said, saidMore, Thing.said, Element.said, Remark.said, body, intercalate_split]
      · cases h
    · cases h
  | line l =>
    cases l with
    | empty => cases h
    | multiline => cases h
    | comment => cases h
    | continuation b v => simp only [add] at h; injection h with h; subst h; simp [said, saidMore]
    | listItem v =>
      simp only [add] at h
      split at h <;> first | (cases h; done) | (rename_i hi; injection h with h; subst h; simp [said, hi, Inner.said, Item.said, saidMore, Remark.said])
    | entry k v =>
      simp only [add] at h
      split at h <;> first | (cases h; done) | (rename_i hi; injection h with h; subst h; simp [said, hi, Inner.said, Entry.said, saidMore, Remark.said])
    | element k v =>
      simp only [add] at h
      split at h
      · rename_i hi; injection h with h; subst h; simp [said, hi, Inner.said, Thing.said, Element.said, saidMore, Remark.said]
      · rename_i hi
        split at h
        · rename_i hc; obtain ⟨hc, rfl⟩ := hc; injection h with h; subst h; simp [said, hi, hc, Inner.said, Thing.said, Element.said, saidMore, Remark.said]
        · cases h
      · rename_i hi
        split at h
        · rename_i hc; obtain ⟨hc, rfl⟩ := hc; injection h with h; subst h; simp [said, hi, hc, Inner.said, Thing.said, Element.said, saidMore, Remark.said]
        · cases h
    | copy k t =>
      simp only [add] at h
      split at h
      · rename_i hc; injection h with h; subst h; simp [said, hc, Inner.said, Thing.said, saidMore, Remark.said]
      · cases h
    | heading d k c =>
      simp only [add] at h
      split at h
      · rename_i hi
        split at h
        · rename_i hc
          obtain ⟨hc, _, hp⟩ := hc
          injection h with h; subst h
          have : saidParts R.parts = partsSaid (d + 1) ((R.parts.takeWhile fun p => d < p.1).map (·.2)) ++ saidParts (R.parts.dropWhile fun p => d < p.1) := by
            rw [← saidParts_eq hp, ← saidParts_append, List.takeWhile_append_dropWhile]
          simp [said, hc, hi, Inner.said, saidMore, saidParts, Part.said, Remark.said, this]
        · cases h
      · cases h

end Coming

theorem build_said : ∀ {es : List Said} {R : Coming}, build es = some R → R.said = es
  | [], R, h => by unfold build at h; injection h with h; subst h; rfl
  | e :: es, R, h => by
    obtain ⟨R', h1, h2⟩ := build_cons h
    rw [Coming.add_said h2, build_said h1]

/-! ## What is there -/

namespace Coming

/-- Nothing that a comment in front could belong to. -/
def alone (R : Coming) : Bool :=
  !R.conts.isEmpty || (match R.inner with | .nothing => R.things.isEmpty && R.parts.isEmpty | _ => false)

/-- Depths do not grow; and without redundancy. -/
structure Good (R : Coming) : Prop where
  order : R.parts.Pairwise fun a b => b.1 ≤ a.1
  pos : ∀ p ∈ R.parts, 0 < p.1
  inner : R.inner.Ok
  things : ∀ t ∈ R.things, t.Ok
  parts : ∀ p ∈ R.parts, p.2.Ok

theorem partsOk_iff : ∀ {ps : List Part}, PartsOk ps ↔ ∀ p ∈ ps, p.Ok
  | [] => by simp [PartsOk]
  | p :: ps => by simp [PartsOk, partsOk_iff (ps := ps)]

theorem remarked_ok {c : Nat × Option Str} {t : Thing} (hc : c.2 = none → c.1 = 0) (h : t.Ok) : (t.remarked c).Ok := by
  cases t with
  | plain e => exact ⟨by intro x hx; simp at hx; rcases hx with rfl | hx; exact hc; exact h.1 x hx, h.2⟩
  | copy r k t x => exact ⟨by intro x hx; simp at hx; rcases hx with rfl | hx; exact hc; exact h.1 x hx, h.2⟩

theorem remarked_part_ok {c : Nat × Option Str} {p : Part} (hc : c.2 = none → c.1 = 0) (h : p.Ok) : (p.remarked c).Ok := by
  cases p
  obtain ⟨h1, h2, h3⟩ := h
  exact ⟨by intro x hx; simp at hx; rcases hx with rfl | hx; exact hc; exact h1 x hx, h2, h3⟩

theorem comment_good {c : Nat × Option Str} {R R' : Coming} (hc : c.2 = none → c.1 = 0) (h : R.comment c = some R') (g : R.Good) : R'.Good := by
  unfold comment at h
  split at h
  · cases h
  · split at h
    · rename_i x xs hi
      injection h with h; subst h
      refine ⟨g.order, g.pos, ?_, g.things, g.parts⟩
      have := g.inner
      rw [hi] at this
      intro y hy
      simp at hy
      rcases hy with rfl | hy
      · intro z hz; simp at hz; rcases hz with rfl | hz
        · exact hc
        · exact this x (by simp) z hz
      · exact this y (by simp [hy])
    · rename_i x xs hi
      injection h with h; subst h
      refine ⟨g.order, g.pos, ?_, g.things, g.parts⟩
      have := g.inner
      rw [hi] at this
      intro y hy
      simp at hy
      rcases hy with rfl | hy
      · intro z hz; simp at hz; rcases hz with rfl | hz
        · exact hc
        · exact this x (by simp) z hz
      · exact this y (by simp [hy])
    · rename_i t ts hi ht
      injection h with h; subst h
      refine ⟨g.order, g.pos, g.inner, ?_, g.parts⟩
      intro y hy
      simp at hy
      rcases hy with rfl | hy
      · exact remarked_ok hc (g.things t (by rw [ht]; simp))
      · exact g.things y (by rw [ht]; simp [hy])
    · rename_i d p ps hi ht hp
      injection h with h; subst h
      have ho := g.order
      rw [hp] at ho
      refine ⟨?_, ?_, g.inner, g.things, ?_⟩
      · rw [List.pairwise_cons] at ho ⊢; exact ho
      · intro y hy
        simp at hy
        rcases hy with rfl | hy
        · exact g.pos (d, p) (by rw [hp]; simp)
        · exact g.pos y (by rw [hp]; simp [hy])
      · intro y hy
        simp at hy
        rcases hy with rfl | hy
        · exact remarked_part_ok hc (g.parts (d, p) (by rw [hp]; simp))
        · exact g.parts y (by rw [hp]; simp [hy])
    · cases h

theorem body_ok (t : Option Str) : ∀ l ∈ body t, '\n' ∉ l := by
  cases t with
  | none => simp [body]
  | some t => exact split_noNl t

theorem things_cons {R : Coming} {t : Thing} (g : R.Good) (ht : t.Ok) : ∀ x ∈ t :: R.things, x.Ok := by
  intro x hx
  simp at hx
  rcases hx with rfl | hx
  · exact ht
  · exact g.things x hx

theorem noRemark : Remark.Ok [] := by intro x hx; cases hx

theorem drop_le {d : Nat} : ∀ {l : List (Nat × Part)}, l.Pairwise (fun a b => b.1 ≤ a.1) → ∀ p ∈ l.dropWhile (fun p => decide (d < p.1)), p.1 ≤ d
  | [], _ => by simp
  | x :: l, h => by
    rw [List.pairwise_cons] at h
    rw [List.dropWhile_cons]
    split
    · exact drop_le h.2
    · rename_i hx
      simp at hx
      intro p hp
      simp at hp
      rcases hp with rfl | hp
      · exact hx
      · have := h.1 p hp; omega

theorem add_good {e : Said} {R R' : Coming} (h : R.add e = some R') (g : R.Good) : R'.Good := by
  cases e with
  | comment c => exact comment_good (by cases c <;> simp [line]) h g
  | multi k t =>
    simp only [add] at h
    split at h
    · rename_i hi
      split at h
      · injection h with h; subst h
        exact ⟨g.order, g.pos, g.inner, things_cons g ⟨noRemark, body_ok t⟩, g.parts⟩
      · cases h
    · cases h
  | line l =>
    cases l with
    | empty => cases h
    | multiline => cases h
    | comment => cases h
    | continuation b v => simp only [add] at h; injection h with h; subst h; exact ⟨g.order, g.pos, g.inner, g.things, g.parts⟩
    | listItem v =>
      simp only [add] at h
      have gi := g.inner
      split at h
      · injection h with h; subst h
        exact ⟨g.order, g.pos, by intro y hy; simp at hy; subst hy; exact noRemark, g.things, g.parts⟩
      · rename_i hi
        rw [hi] at gi
        injection h with h; subst h
        exact ⟨g.order, g.pos, by intro y hy; rw [List.mem_cons] at hy; rcases hy with rfl | hy; exact noRemark; exact gi y hy, g.things, g.parts⟩
      · cases h
    | entry k v =>
      simp only [add] at h
      have gi := g.inner
      split at h
      · injection h with h; subst h
        exact ⟨g.order, g.pos, by intro y hy; simp at hy; subst hy; exact noRemark, g.things, g.parts⟩
      · rename_i hi
        rw [hi] at gi
        injection h with h; subst h
        exact ⟨g.order, g.pos, by intro y hy; rw [List.mem_cons] at hy; rcases hy with rfl | hy; exact noRemark; exact gi y hy, g.things, g.parts⟩
      · cases h
    | element k v =>
      simp only [add] at h
      have gi := g.inner
      split at h
      · injection h with h; subst h; exact ⟨g.order, g.pos, g.inner, things_cons g ⟨noRemark, trivial⟩, g.parts⟩
      · rename_i hi
        rw [hi] at gi
        split at h
        · injection h with h; subst h; exact ⟨g.order, g.pos, trivial, things_cons g ⟨noRemark, gi⟩, g.parts⟩
        · cases h
      · rename_i hi
        rw [hi] at gi
        split at h
        · injection h with h; subst h; exact ⟨g.order, g.pos, trivial, things_cons g ⟨noRemark, gi⟩, g.parts⟩
        · cases h
    | copy k t =>
      simp only [add] at h
      split at h
      · injection h with h; subst h; exact ⟨g.order, g.pos, trivial, things_cons g ⟨noRemark, g.inner⟩, g.parts⟩
      · cases h
    | heading d k c =>
      simp only [add] at h
      split at h
      · rename_i hi
        split at h
        · rename_i hc
          obtain ⟨hc, hd, hp⟩ := hc
          injection h with h; subst h
          have sub : ∀ p ∈ R.parts.dropWhile (fun p => decide (d < p.1)), p ∈ R.parts := fun p hp => (List.dropWhile_sublist _).mem hp
          refine ⟨?_, ?_, g.inner, by simp, ?_⟩
          · rw [List.pairwise_cons]
            exact ⟨drop_le g.order, g.order.sublist (List.dropWhile_sublist _)⟩
          · intro p hp
            rw [List.mem_cons] at hp
            rcases hp with rfl | hp
            · exact hd
            · exact g.pos p (sub p hp)
          · intro p hp
            rw [List.mem_cons] at hp
            rcases hp with rfl | hp
            · refine ⟨noRemark, g.things, partsOk_iff.2 ?_⟩
              intro q hq
              rw [List.mem_map] at hq
              obtain ⟨x, hx, rfl⟩ := hq
              exact g.parts x ((List.takeWhile_sublist _).mem hx)
            · exact g.parts p (sub p hp)
        · cases h
      · cases h

theorem comment_some {c : Nat × Option Str} {R : Coming} (h : R.alone = false) : ∃ R', R.comment c = some R' := by
  unfold alone at h
  simp only [Bool.or_eq_false_iff, Bool.not_eq_false', List.isEmpty_iff] at h
  obtain ⟨h1, h2⟩ := h
  unfold comment
  rw [if_neg (by simp [h1])]
  split <;> first | exact ⟨_, rfl⟩ | (rename_i a b c; simp [a, b, c] at h2)

theorem comment_alone {c : Nat × Option Str} {R R' : Coming} (h : R.comment c = some R') : R.alone = false ∧ R'.alone = false := by
  unfold comment at h
  split at h
  · cases h
  · rename_i hc
    simp at hc
    split at h <;> first | (cases h; done) | (injection h with h; subst h; simp_all [alone])

theorem add_alone {e : Said} {es : List Said} {R R' : Coming} (h : R.add e = some R') (ha : R.alone = leftAlone es) : R'.alone = leftAlone (e :: es) := by
  cases e with
  | comment c =>
    obtain ⟨h1, h2⟩ := comment_alone h
    rw [h2, ← h1, ha]; rfl
  | multi k t =>
    simp only [add] at h
    split at h
    · rename_i hi
      split at h
      · injection h with h; subst h; simp_all [alone, leftAlone]
      · cases h
    · cases h
  | line l =>
    cases l with
    | empty => cases h
    | multiline => cases h
    | comment => cases h
    | continuation b v => simp only [add] at h; injection h with h; subst h; simp [alone, leftAlone]
    | listItem v =>
      simp only [add] at h
      split at h <;> first | (cases h; done) | (injection h with h; subst h; simp [alone, leftAlone])
    | entry k v =>
      simp only [add] at h
      split at h <;> first | (cases h; done) | (injection h with h; subst h; simp [alone, leftAlone])
    | element k v =>
      simp only [add] at h
      split at h <;> (try split at h) <;> first | (cases h; done) | (injection h with h; subst h; simp_all [alone, leftAlone])
    | copy k t =>
      simp only [add] at h
      split at h <;> first | (cases h; done) | (injection h with h; subst h; simp_all [alone, leftAlone])
    | heading d k c =>
      simp only [add] at h
      split at h <;> (try split at h) <;> first | (cases h; done) | (injection h with h; subst h; simp_all [alone, leftAlone])

end Coming

theorem build_good : ∀ {es : List Said} {R : Coming}, build es = some R → R.Good
  | [], R, h => by unfold build at h; injection h with h; subst h; exact ⟨by simp, by simp, trivial, by simp, by simp⟩
  | e :: es, R, h => by
    obtain ⟨R', h1, h2⟩ := build_cons h
    exact Coming.add_good h2 (build_good h1)

theorem build_alone : ∀ {es : List Said} {R : Coming}, build es = some R → R.alone = leftAlone es
  | [], R, h => by unfold build at h; injection h with h; subst h; rfl
  | e :: es, R, h => by
    obtain ⟨R', h1, h2⟩ := build_cons h
    exact Coming.add_alone h2 (build_alone h1)

/-! ## Legal lines and documents -/

/-- Not a blank line, and not a comment that belongs to nothing. -/
def Spec.Said.Clear (alone : Bool) : Said → Prop
  | .comment _ => alone = false
  | .line .empty => False
  | .line (.multiline ..) => False
  | .line (.comment _) => False
  | _ => True

/-- No blank lines and no comments that belong to nothing. -/
def Clean : List Said → Prop
  | [] => True
  | e :: es => e.Clear (leftAlone es) ∧ Clean es

namespace Coming

/-- It can come after lines. -/
structure Fits (m : Nat × Lead) (R : Coming) : Prop where
  conts : R.conts ≠ [] → m.2 = .fresh ∨ m.2 = .field ∨ m.2 = .list ∨ m.2 = .fieldset
  items : ∀ x xs, R.inner = .items x xs → m.2 = .list ∨ ((m.2 = .fresh ∨ m.2 = .copied) ∧ R.conts = [])
  entries : ∀ x xs, R.inner = .entries x xs → m.2 = .fieldset ∨ ((m.2 = .fresh ∨ m.2 = .copied) ∧ R.conts = [])
  depth : ∀ p ∈ R.parts.head?, p.1 ≤ m.1 + 1

theorem fits_same {m : Nat × Lead} {R R' : Coming} (f : Fits m R) (h1 : R'.conts = R.conts) (h2 : ∀ x xs, R'.inner = .items x xs → ∃ y ys, R.inner = .items y ys)
    (h3 : ∀ x xs, R'.inner = .entries x xs → ∃ y ys, R.inner = .entries y ys) (h4 : R'.parts.head?.map (·.1) = R.parts.head?.map (·.1)) : Fits m R' where
  conts := by rw [h1]; exact f.conts
  items x xs h := by obtain ⟨y, ys, e⟩ := h2 x xs h; rw [h1]; exact f.items y ys e
  entries x xs h := by obtain ⟨y, ys, e⟩ := h3 x xs h; rw [h1]; exact f.entries y ys e
  depth p hp := by
    cases hr : R.parts.head? with
    | none => rw [hr] at h4; rw [Option.mem_def] at hp; rw [hp] at h4; cases h4
    | some q =>
      rw [hr] at h4; rw [Option.mem_def] at hp; rw [hp] at h4
      simp at h4
      rw [h4]; exact f.depth q hr

theorem comment_fits {c : Nat × Option Str} {R R' : Coming} (h : R.comment c = some R') (m : Nat × Lead) : Fits m R' ↔ Fits m R := by
  unfold comment at h
  split at h
  · cases h
  · split at h
    all_goals first
      | (cases h; done)
      | (injection h with h; subst h
         constructor <;> intro f <;> refine fits_same f ?_ ?_ ?_ ?_ <;> simp_all)

theorem depth_low {m n : Nat × Lead} {R : Coming} (h : ∀ p ∈ R.parts.head?, p.1 ≤ m.1 + 1) (e : n.1 = m.1) : ∀ p ∈ R.parts.head?, p.1 ≤ n.1 + 1 := by rw [e]; exact h

/-- One more legal line in front. -/
theorem add_fits {e : Said} {R : Coming} {m m' : Nat × Lead} (g : R.Good) (f : R.Fits m') (hn : e.role.next m = some m')
    (he : e.Clear R.alone) :
    ∃ R', R.add e = some R' ∧ R'.Fits m := by
  cases e with
  | comment c =>
    injection hn with hn; subst hn
    obtain ⟨R', h⟩ := comment_some (c := line c) he
    exact ⟨R', h, (comment_fits h m).2 f⟩
  | multi k t =>
    injection hn with hn; subst hn
    have hc : R.conts = [] := by have := f.conts; simpa using this
    have h1 := f.items
    have h2 := f.entries
    simp only [add]
    cases hi : R.inner with
    | items x xs => have := h1 x xs hi; simp at this
    | entries x xs => have := h2 x xs hi; simp at this
    | nothing =>
      rw [if_pos hc]
      exact ⟨_, rfl, ⟨by simp [hc], by simp, by simp, f.depth⟩⟩
  | line l =>
    cases l with
    | empty => exact he.elim
    | multiline => exact he.elim
    | comment => exact he.elim
    | continuation b v =>
      refine ⟨_, rfl, ?_⟩
      simp only [Said.role, Role.next] at hn
      split at hn
      · rename_i hm
        injection hn with hn; subst hn
        exact ⟨fun _ => .inl hm, fun x xs h => by have := f.items x xs h; simp at this, fun x xs h => by have := f.entries x xs h; simp at this, f.depth⟩
      · split at hn
        · rename_i h1 hm
          injection hn with hn; subst hn
          refine ⟨fun _ => .inr hm, fun x xs h => ?_, fun x xs h => ?_, f.depth⟩
          · rcases f.items x xs h with h | ⟨h, _⟩
            · exact .inl h
            · rcases h with h | h <;> rw [h] at hm h1 <;> simp at hm h1
          · rcases f.entries x xs h with h | ⟨h, _⟩
            · exact .inl h
            · rcases h with h | h <;> rw [h] at hm h1 <;> simp at hm h1
        · cases hn
    | listItem v =>
      simp only [Said.role, Role.next] at hn
      split at hn
      · rename_i hm
        injection hn with hn; subst hn
        have hm' : m.2 = .list ∨ (m.2 = .fresh ∨ m.2 = .copied) := by rcases hm with h | h | h <;> simp [h]
        simp only [add]
        cases hi : R.inner with
        | nothing => exact ⟨_, rfl, by simp, fun _ _ _ => hm'.imp_right fun h => ⟨h, rfl⟩, by simp, f.depth⟩
        | items x xs => exact ⟨_, rfl, by simp, fun _ _ _ => hm'.imp_right fun h => ⟨h, rfl⟩, by simp, f.depth⟩
        | entries x xs => have := f.entries x xs hi; simp at this
      · cases hn
    | entry k v =>
      simp only [Said.role, Role.next] at hn
      split at hn
      · rename_i hm
        injection hn with hn; subst hn
        have hm' : m.2 = .fieldset ∨ (m.2 = .fresh ∨ m.2 = .copied) := by rcases hm with h | h | h <;> simp [h]
        simp only [add]
        cases hi : R.inner with
        | nothing => exact ⟨_, rfl, by simp, by simp, fun _ _ _ => hm'.imp_right fun h => ⟨h, rfl⟩, f.depth⟩
        | entries x xs => exact ⟨_, rfl, by simp, by simp, fun _ _ _ => hm'.imp_right fun h => ⟨h, rfl⟩, f.depth⟩
        | items x xs => have := f.items x xs hi; simp at this
      · cases hn
    | element k v =>
      cases v with
      | none =>
        injection hn with hn; subst hn
        simp only [add]
        cases hi : R.inner with
        | nothing => exact ⟨_, rfl, by simp, by simp, by simp, f.depth⟩
        | items x xs =>
          have h := f.items x xs hi
          simp at h
          simp only [h, and_self, if_true]
          exact ⟨_, rfl, by simp, by simp, by simp, f.depth⟩
        | entries x xs =>
          have h := f.entries x xs hi
          simp at h
          simp only [h, and_self, if_true]
          exact ⟨_, rfl, by simp, by simp, by simp, f.depth⟩
      | some v =>
        injection hn with hn; subst hn
        simp only [add]
        cases hi : R.inner with
        | nothing => exact ⟨_, rfl, by simp, by simp, by simp, f.depth⟩
        | items x xs => have h := f.items x xs hi; simp at h
        | entries x xs => have h := f.entries x xs hi; simp at h
    | copy k t =>
      injection hn with hn; subst hn
      have hc : R.conts = [] := by have := f.conts; simpa using this
      simp only [add]
      rw [if_pos hc]
      exact ⟨_, rfl, by simp [hc], by simp, by simp, f.depth⟩
    | heading d k c =>
      simp only [Said.role, Role.next] at hn
      split at hn
      · rename_i hd
        injection hn with hn; subst hn
        have hc : R.conts = [] := by have := f.conts; simpa using this
        simp only [add]
        cases hi : R.inner with
        | items x xs => have h := f.items x xs hi; simp at h
        | entries x xs => have h := f.entries x xs hi; simp at h
        | nothing =>
          have hp : ∀ p ∈ R.parts.takeWhile (fun p : Nat × Part => decide (d < p.1)), p.1 = d + 1 := by
            intro p hp
            have h1 := mem_takeWhile_imp hp
            simp at h1
            have hm := (List.takeWhile_sublist _).mem hp
            have h2 : p.1 ≤ d + 1 := by
              cases hR : R.parts with
              | nil => rw [hR] at hm; cases hm
              | cons q l =>
                have h3 := f.depth q (by rw [hR]; rfl)
                have h4 := g.order
                rw [hR, List.pairwise_cons] at h4
                rw [hR, List.mem_cons] at hm
                rcases hm with rfl | hm
                · exact h3
                · have := h4.1 p hm; simp at h3; omega
            omega
          simp only [hc, hd.1, true_and, if_pos hp]
          exact ⟨_, rfl, by simp, by simp, by simp, by simpa using hd.2⟩
      · cases hn

/-- And the other way round. -/
theorem fits_add {e : Said} {R R' : Coming} {m : Nat × Lead} (h : R.add e = some R') (f : R'.Fits m) : ∃ m', e.role.next m = some m' ∧ R.Fits m' := by
  cases e with
  | comment c => exact ⟨m, rfl, (comment_fits h m).1 f⟩
  | multi k t =>
    simp only [add] at h
    split at h
    · rename_i hi
      split at h
      · rename_i hc
        injection h with h; subst h
        exact ⟨_, rfl, by simp [hc], by simp [hi], by simp [hi], f.depth⟩
      · cases h
    · cases h
  | line l =>
    cases l with
    | empty => cases h
    | multiline => cases h
    | comment => cases h
    | continuation b v =>
      simp only [add] at h
      injection h with h; subst h
      have h1 := f.conts (by simp)
      by_cases hm : m.2 = .fresh
      · refine ⟨(m.1, .field), by simp [Said.role, Role.next, hm], by simp, ?_, ?_, f.depth⟩
        · intro x xs hx; have := f.items x xs hx; simp [hm] at this
        · intro x xs hx; have := f.entries x xs hx; simp [hm] at this
      · have h2 : m.2 = .field ∨ m.2 = .list ∨ m.2 = .fieldset := by rcases h1 with h | h; exact absurd h hm; exact h
        refine ⟨m, by simp [Said.role, Role.next, hm, h2], fun _ => .inr h2, ?_, ?_, f.depth⟩
        · intro x xs hx; have := f.items x xs hx; simp at this; exact .inl this
        · intro x xs hx; have := f.entries x xs hx; simp at this; exact .inl this
    | listItem v =>
      simp only [add] at h
      split at h
      · rename_i hi
        injection h with h; subst h
        have := f.items _ _ rfl
        refine ⟨(m.1, .list), ?_, by simp, by simp, by simp [hi], f.depth⟩
        simp only [Said.role, Role.next]
        rw [if_pos]; rcases this with h | ⟨h | h, _⟩ <;> simp [h]
      · rename_i hi
        injection h with h; subst h
        have := f.items _ _ rfl
        refine ⟨(m.1, .list), ?_, by simp, by simp, by simp [hi], f.depth⟩
        simp only [Said.role, Role.next]
        rw [if_pos]; rcases this with h | ⟨h | h, _⟩ <;> simp [h]
      · cases h
    | entry k v =>
      simp only [add] at h
      split at h
      · rename_i hi
        injection h with h; subst h
        have := f.entries _ _ rfl
        refine ⟨(m.1, .fieldset), ?_, by simp, by simp [hi], by simp, f.depth⟩
        simp only [Said.role, Role.next]
        rw [if_pos]; rcases this with h | ⟨h | h, _⟩ <;> simp [h]
      · rename_i hi
        injection h with h; subst h
        have := f.entries _ _ rfl
        refine ⟨(m.1, .fieldset), ?_, by simp, by simp [hi], by simp, f.depth⟩
        simp only [Said.role, Role.next]
        rw [if_pos]; rcases this with h | ⟨h | h, _⟩ <;> simp [h]
      · cases h
    | element k v =>
      simp only [add] at h
      split at h
      · rename_i hi
        injection h with h; subst h
        cases v with
        | none => exact ⟨_, rfl, by simp, by simp [hi], by simp [hi], f.depth⟩
        | some v => exact ⟨_, rfl, by simp, by simp [hi], by simp [hi], f.depth⟩
      · rename_i hi
        split at h
        · rename_i hc
          obtain ⟨hc, rfl⟩ := hc
          injection h with h; subst h
          exact ⟨_, rfl, by simp, by simp [hc], by simp [hi], f.depth⟩
        · cases h
      · rename_i hi
        split at h
        · rename_i hc
          obtain ⟨hc, rfl⟩ := hc
          injection h with h; subst h
          exact ⟨_, rfl, by simp, by simp [hi], by simp [hc], f.depth⟩
        · cases h
    | copy k t =>
      simp only [add] at h
      split at h
      · rename_i hc
        injection h with h; subst h
        exact ⟨_, rfl, by simp [hc], by simp [hc], by simp [hc], f.depth⟩
      · cases h
    | heading d k c =>
      simp only [add] at h
      split at h
      · rename_i hi
        split at h
        · rename_i hc
          obtain ⟨hc, hd, hp⟩ := hc
          injection h with h; subst h
          have := f.depth _ rfl
          simp at this
          refine ⟨(d, .closed), by simp [Said.role, Role.next, hd, this], by simp [hc], by simp [hi], by simp [hi], ?_⟩
          intro p hm
          cases hR : R.parts with
          | nil => rw [hR] at hm; cases hm
          | cons q l =>
            rw [hR] at hm hp
            simp at hm
            subst hm
            by_cases hq : d < q.1
            · have := hp q (by simp [hq])
              simp; omega
            · simp; omega
        · cases h
      · cases h

end Coming

/-- Legal lines are those of a document. -/
theorem build_roles : ∀ {es : List Said} (_ : Clean es) (m : Nat × Lead), (∃ m', roles m (es.map Said.role) = some m') ↔ ∃ R, build es = some R ∧ R.Fits m
  | [], _, m => by
    constructor
    · intro _; exact ⟨_, rfl, by simp, by simp, by simp, by simp⟩
    · intro _; exact ⟨m, rfl⟩
  | e :: es, hc, m => by
    constructor
    · rintro ⟨m', h⟩
      simp only [List.map_cons, roles] at h
      cases hn : e.role.next m with
      | none => rw [hn] at h; cases h
      | some n =>
        rw [hn] at h
        obtain ⟨R, h1, h2⟩ := (build_roles hc.2 n).1 ⟨m', h⟩
        obtain ⟨R', h3, h4⟩ := Coming.add_fits (build_good h1) h2 hn (by rw [build_alone h1]; exact hc.1)
        exact ⟨R', by unfold build; rw [h1]; exact h3, h4⟩
    · rintro ⟨R, h, f⟩
      obtain ⟨R', h1, h2⟩ := build_cons h
      obtain ⟨n, h3, h4⟩ := Coming.fits_add h2 f
      obtain ⟨m', h5⟩ := (build_roles hc.2 n).2 ⟨R', h1, h4⟩
      exact ⟨m', by simp only [List.map_cons, roles]; rw [h3]; exact h5⟩

end Eno
