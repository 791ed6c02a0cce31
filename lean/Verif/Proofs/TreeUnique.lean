import Verif.Proofs.TreeBuild

/-! # What a document says determines it -/

namespace Eno

open Spec

variable {rest : List Said} {ts : List Thing} {ps : List (Nat × Part)}

theorem line_said {c : Nat × Option Str} (h : c.2 = none → c.1 = 0) : Coming.line (c.2.map fun t => (c.1, t)) = c := by
  obtain ⟨n, t⟩ := c
  cases t with
  | none => simp at h; subst h; rfl
  | some t => rfl

theorem build_more {R : Coming} (h : build rest = some R) : ∀ more, build (saidMore more ++ rest) = some { R with conts := more ++ R.conts }
  | [] => by simpa [saidMore] using h
  | x :: more => by
    have ih := build_more h more
    show (match build (saidMore more ++ rest) with | none => none | some R => R.add _) = _
    rw [ih]; rfl

theorem build_remark {R : Remark → Coming} (step : ∀ c r, (R r).comment c = some (R (c :: r))) (h : build rest = some (R [])) :
    ∀ {r : Remark}, Remark.Ok r → build (Remark.said r ++ rest) = some (R r)
  | [], _ => by simpa [Remark.said] using h
  | c :: r, hr => by
    have ih := build_remark step h (r := r) fun x hx => hr x (by simp [hx])
    show (match build (Remark.said r ++ rest) with | none => none | some R => R.add (.comment (c.2.map fun t => (c.1, t)))) = _
    rw [ih]
    simp only [Coming.add]
    rw [line_said (hr c (by simp))]
    exact step c r

theorem build_item {x : Item} (hx : Remark.Ok x.remark) {inner : Inner} (h : build rest = some ⟨[], inner, ts, ps⟩) {xs : List Item}
    (hi : inner = match xs with | [] => .nothing | y :: ys => .items y ys) : build (x.said ++ rest) = some ⟨[], .items x xs, ts, ps⟩ := by
  have h1 := build_more h x.parts.more
  rw [Item.said, List.append_assoc, List.cons_append]
  refine build_remark (R := fun r => ⟨[], .items ⟨r, x.parts⟩ xs, ts, ps⟩) (fun c r => rfl) ?_ hx
  show (match build (saidMore x.parts.more ++ rest) with | none => none | some R => R.add _) = _
  rw [h1]
  subst hi
  cases xs <;> simp [Coming.add]

theorem build_entry {x : Entry} (hx : Remark.Ok x.remark) {inner : Inner} (h : build rest = some ⟨[], inner, ts, ps⟩) {xs : List Entry}
    (hi : inner = match xs with | [] => .nothing | y :: ys => .entries y ys) : build (x.said ++ rest) = some ⟨[], .entries x xs, ts, ps⟩ := by
  have h1 := build_more h x.parts.more
  rw [Entry.said, List.append_assoc, List.cons_append]
  refine build_remark (R := fun r => ⟨[], .entries ⟨r, x.key, x.parts⟩ xs, ts, ps⟩) (fun c r => rfl) ?_ hx
  show (match build (saidMore x.parts.more ++ rest) with | none => none | some R => R.add _) = _
  rw [h1]
  subst hi
  cases xs <;> simp [Coming.add]

theorem build_items (h : build rest = some ⟨[], .nothing, ts, ps⟩) : ∀ {xs : List Item}, (∀ y ∈ xs, Remark.Ok y.remark) →
    build (xs.flatMap Item.said ++ rest) = some ⟨[], (match xs with | [] => .nothing | y :: ys => .items y ys), ts, ps⟩
  | [], _ => by simpa using h
  | x :: xs, hx => by
    rw [List.flatMap_cons, List.append_assoc]
    exact build_item (hx x (by simp)) (build_items h fun y hy => hx y (by simp [hy])) rfl

theorem build_entries (h : build rest = some ⟨[], .nothing, ts, ps⟩) : ∀ {xs : List Entry}, (∀ y ∈ xs, Remark.Ok y.remark) →
    build (xs.flatMap Entry.said ++ rest) = some ⟨[], (match xs with | [] => .nothing | y :: ys => .entries y ys), ts, ps⟩
  | [], _ => by simpa using h
  | x :: xs, hx => by
    rw [List.flatMap_cons, List.append_assoc]
    exact build_entry (hx x (by simp)) (build_entries h fun y hy => hx y (by simp [hy])) rfl

theorem build_inner {inner : Inner} (hi : inner.Ok) (h : build rest = some ⟨[], .nothing, ts, ps⟩) : build (inner.said ++ rest) = some ⟨[], inner, ts, ps⟩ := by
  cases inner with
  | nothing => simpa [Inner.said] using h
  | items x xs => exact build_items h hi
  | entries x xs => exact build_entries h hi

theorem split_line {l : Str} (h : '\n' ∉ l) : splitNl l = [l] := by
  induction l with
  | nil => rfl
  | cons c t ih =>
    simp at h
    unfold splitNl
    rw [if_neg (Ne.symm h.1), ih h.2]

theorem split_intercalate : ∀ {ls : List Str}, ls ≠ [] → (∀ l ∈ ls, '\n' ∉ l) → splitNl (['\n'].intercalate ls) = ls
  | [], h, _ => absurd rfl h
  | [l], _, h => by
    have : ['\n'].intercalate [l] = l := by simp [List.intercalate]
    rw [this]; exact split_line (h l (by simp))
  | l :: m :: ls, _, h => by
    have : ['\n'].intercalate (l :: m :: ls) = l ++ '\n' :: ['\n'].intercalate (m :: ls) := by simp [List.intercalate, List.intersperse]
    rw [this, splitNl_nl, split_line (h l (by simp)), split_intercalate (by simp) fun x hx => h x (by simp only [List.mem_cons] at hx ⊢; exact .inr hx)]
    rfl

theorem build_thing {t : Thing} (ht : t.Ok) (h : build rest = some ⟨[], .nothing, ts, ps⟩) : build (t.said ++ rest) = some ⟨[], .nothing, t :: ts, ps⟩ := by
  cases t with
  | copy r k t inner =>
    rw [Thing.said, List.append_assoc, List.cons_append]
    refine build_remark (R := fun r => ⟨[], .nothing, .copy r k t inner :: ts, ps⟩) (fun c r => rfl) ?_ ht.1
    show (match build (inner.said ++ rest) with | none => none | some R => R.add _) = _
    rw [build_inner ht.2 h]; rfl
  | plain e =>
    obtain ⟨r, k, c⟩ := e
    rw [Thing.said, Element.said, List.append_assoc]
    refine build_remark (R := fun r => ⟨[], .nothing, .plain ⟨r, k, c⟩ :: ts, ps⟩) (fun c r => rfl) ?_ ht.1
    have hc := ht.2
    cases c with
    | parts p =>
      show (match build (saidMore p.more ++ rest) with | none => none | some R => R.add _) = _
      rw [build_more h]; simp [Coming.add]
    | items x xs =>
      show (match build ((Inner.items x xs).said ++ rest) with | none => none | some R => R.add _) = _
      rw [build_inner (inner := .items x xs) hc h]; rfl
    | entries x xs =>
      show (match build ((Inner.entries x xs).said ++ rest) with | none => none | some R => R.add _) = _
      rw [build_inner (inner := .entries x xs) hc h]; rfl
    | verbatim ls =>
      show (match build rest with | none => none | some R => R.add _) = _
      rw [h]
      simp only [Coming.add]
      by_cases hl : ls = []
      · subst hl; rfl
      · simp only [if_neg hl, if_true, Coming.body]
        rw [split_intercalate hl hc]

theorem build_things (h : build rest = some ⟨[], .nothing, [], ps⟩) : ∀ {ts : List Thing}, (∀ t ∈ ts, t.Ok) → build (ts.flatMap Thing.said ++ rest) = some ⟨[], .nothing, ts, ps⟩
  | [], _ => by simpa using h
  | t :: ts, ht => by
    rw [List.flatMap_cons, List.append_assoc]
    exact build_thing (ht t (by simp)) (build_things h fun y hy => ht y (by simp [hy]))

theorem take_low {d : Nat} {ps : List (Nat × Part)} (hd : ∀ p ∈ ps.head?, p.1 ≤ d) : ps.takeWhile (fun p => decide (d < p.1)) = [] ∧ ps.dropWhile (fun p => decide (d < p.1)) = ps := by
  cases ps with
  | nil => simp
  | cons p ps =>
    have : ¬ d < p.1 := by have := hd p rfl; omega
    simp [this]

theorem take_own {d : Nat} {qs : List Part} {ps : List (Nat × Part)} (hd : ∀ p ∈ ps.head?, p.1 ≤ d) :
    (qs.map (fun q => (d + 1, q)) ++ ps).takeWhile (fun p => decide (d < p.1)) = qs.map (fun q => (d + 1, q)) ∧
    (qs.map (fun q => (d + 1, q)) ++ ps).dropWhile (fun p => decide (d < p.1)) = ps := by
  induction qs with
  | nil => exact take_low hd
  | cons q qs ih => simpa using ih

mutual

theorem build_part (d : Nat) (hd : 0 < d) (rest : List Said) (ps : List (Nat × Part)) (hp : ∀ p ∈ ps.head?, p.1 ≤ d) (h : build rest = some ⟨[], .nothing, [], ps⟩) :
    (p : Part) → p.Ok → build (p.said d ++ rest) = some ⟨[], .nothing, [], (d, p) :: ps⟩
  | .mk r k c ts qs, ok => by
    rw [Part.Ok] at ok
    obtain ⟨h1, h2, h3⟩ := ok
    rw [Part.said, List.append_assoc, List.cons_append, List.append_assoc]
    refine build_remark (R := fun r => ⟨[], .nothing, [], (d, .mk r k c ts qs) :: ps⟩) (fun c r => rfl) ?_ h1
    have e1 := build_parts (d + 1) (by omega) rest ps (fun p hx => Nat.le_succ_of_le (hp p hx)) h qs h3
    have e2 := build_things e1 h2
    show (match build (ts.flatMap Thing.said ++ (partsSaid (d + 1) qs ++ rest)) with | none => none | some R => R.add _) = _
    rw [e2]
    have e3 := take_own (qs := qs) hp
    simp only [Coming.add, e3.1, e3.2, hd, true_and, List.map_map]
    rw [if_pos (by simp)]
    simp [Function.comp_def]

theorem build_parts (d : Nat) (hd : 0 < d) (rest : List Said) (ps : List (Nat × Part)) (hp : ∀ p ∈ ps.head?, p.1 ≤ d) (h : build rest = some ⟨[], .nothing, [], ps⟩) :
    (qs : List Part) → PartsOk qs → build (partsSaid d qs ++ rest) = some ⟨[], .nothing, [], qs.map (fun q => (d, q)) ++ ps⟩
  | [], _ => by simpa [partsSaid] using h
  | q :: qs, ok => by
    rw [PartsOk] at ok
    rw [partsSaid, List.append_assoc]
    exact build_part d hd _ _ (by
      intro p hx
      cases qs with
      | nil => exact hp p (by simpa using hx)
      | cons a b => simp at hx; subst hx; exact Nat.le_refl _) (build_parts d hd rest ps hp h qs ok.2) q ok.1

end

/-- A document is built from what it says. -/
theorem build_doc {T : Doc} (h : T.Ok) : build T.said = some ⟨[], .nothing, T.things, T.parts.map fun q => (1, q)⟩ := by
  have h1 := build_parts 1 (by omega) [] [] (by simp) rfl T.parts h.2
  rw [List.append_nil, List.append_nil] at h1
  exact build_things h1 h.1

end Eno
