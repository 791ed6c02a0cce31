import Verif.Spec.Copied
import Verif.Spec.Uncommented
import Verif.Proofs.CopiedText

/-! # Documents with copies, without their comments -/

namespace Eno

open Spec

variable {ns : List Node}

def Spec.Item.quiet (x : Item) : Item := { x with remark := [] }

def Spec.Entry.quiet (x : Entry) : Entry := { x with remark := [] }

def Spec.Inner.quiet : Inner → Inner
  | .nothing => .nothing
  | .items x xs => .items x.quiet (xs.map Item.quiet)
  | .entries x xs => .entries x.quiet (xs.map Entry.quiet)

def Spec.Content.quiet : Content → Content
  | .parts p => .parts p
  | .items x xs => .items x.quiet (xs.map Item.quiet)
  | .entries x xs => .entries x.quiet (xs.map Entry.quiet)
  | .verbatim ls => .verbatim ls

def Spec.Element.quiet (e : Element) : Element := ⟨[], e.key, e.content.quiet⟩

def Spec.Thing.quiet : Thing → Thing
  | .plain e => .plain e.quiet
  | .copy _ k t inner => .copy [] k t inner.quiet

mutual

def Spec.Part.quiet : Part → Part
  | .mk _ k c ts ps => .mk [] k c (ts.map Thing.quiet) (partsQuiet ps)

def partsQuiet : List Part → List Part
  | [] => []
  | p :: ps => p.quiet :: partsQuiet ps

end

/-- A document without its comments. -/
def Spec.Doc.quiet (T : Doc) : Doc := ⟨T.things.map Thing.quiet, partsQuiet T.parts⟩

def Spec.Node.quiet : Node → Node
  | .thing t => .thing t.quiet
  | .part p => .part p.quiet

def Spec.Held.quiet : Held → Held
  | .items xs => .items (xs.map Item.quiet)
  | .entries xs => .entries (xs.map Entry.quiet)
  | b => b

def Spec.Meant.quiet (m : Meant) : Meant := ⟨[], m.key, m.held.quiet⟩

/-! ## What is said -/

theorem wordless_join : ∀ (a b : List Said), wordless (a ++ b) = wordless a ++ wordless b
  | [], _ => rfl
  | .comment x :: a, b => wordless_join a b
  | .multi k v :: a, b => by simp only [List.cons_append, wordless, wordless_join a b]
  | .line l :: a, b => by cases l <;> simp only [List.cons_append, wordless, wordless_join a b]

theorem wordless_told : ∀ es : List Said, wordless (told es) = wordless es
  | [] => rfl
  | .comment x :: es => by
    rw [told]
    split
    · exact wordless_told es
    · exact wordless_told es
  | .multi k v :: es => by simp only [told, wordless, wordless_told es]
  | .line l :: es => by cases l <;> simp only [told, wordless, wordless_told es]

theorem mem_wordless : ∀ {es : List Said} {e : Said}, e ∈ wordless es → e ∈ es
  | [], _, h => h
  | .comment x :: es, e, h => List.mem_cons_of_mem _ (mem_wordless (es := es) h)
  | .multi k v :: es, e, h => by
    rcases List.mem_cons.1 h with rfl | h
    · simp
    · exact List.mem_cons_of_mem _ (mem_wordless h)
  | .line l :: es, e, h => by
    by_cases hl : l = .empty
    · subst hl; exact List.mem_cons_of_mem _ (mem_wordless (es := es) h)
    · have h : e ∈ Said.line l :: wordless es := by cases l <;> first | exact absurd rfl hl | exact h
      rcases List.mem_cons.1 h with rfl | h
      · simp
      · exact List.mem_cons_of_mem _ (mem_wordless h)

theorem wordless_twice : ∀ es : List Said, wordless (wordless es) = wordless es
  | [] => rfl
  | .comment x :: es => wordless_twice es
  | .multi k v :: es => by simp only [wordless, wordless_twice es]
  | .line l :: es => by cases l <;> simp only [wordless, wordless_twice es]

theorem wordless_remark (r : Remark) : wordless (Remark.said r) = [] := by
  unfold Remark.said
  induction r with
  | nil => rfl
  | cons x r ih => exact ih

theorem wordless_more (more : List (Bool × Option Str)) : wordless (saidMore more) = saidMore more := by
  unfold saidMore
  induction more with
  | nil => rfl
  | cons x r ih => simp only [List.map_cons, wordless, ih]

theorem quiet_item (x : Item) : wordless x.said = x.quiet.said := by
  unfold Item.said
  rw [wordless_join, wordless_remark]
  simp only [wordless, wordless_more, List.nil_append]
  rfl

theorem quiet_entry (x : Entry) : wordless x.said = x.quiet.said := by
  unfold Entry.said
  rw [wordless_join, wordless_remark]
  simp only [wordless, wordless_more, List.nil_append]
  rfl

theorem wordless_flat {α : Type} {f g : α → List Said} {q : α → α} (h : ∀ x, wordless (f x) = g (q x)) : ∀ l : List α, wordless (l.flatMap f) = (l.map q).flatMap g
  | [] => rfl
  | x :: l => by rw [List.flatMap_cons, wordless_join, h, wordless_flat h l, List.map_cons, List.flatMap_cons]

theorem quiet_inner (x : Inner) : wordless x.said = x.quiet.said := by
  cases x with
  | nothing => rfl
  | items x xs => exact wordless_flat quiet_item (x :: xs)
  | entries x xs => exact wordless_flat quiet_entry (x :: xs)

theorem quiet_element (e : Element) : wordless e.said = e.quiet.said := by
  unfold Element.said
  rw [wordless_join, wordless_remark, List.nil_append]
  obtain ⟨r, k, c⟩ := e
  cases c with
  | parts p => simp only [wordless, wordless_more]; rfl
  | items x xs => simp only [wordless, quiet_inner]; rfl
  | entries x xs => simp only [wordless, quiet_inner]; rfl
  | verbatim ls => rfl

theorem quiet_thing (t : Thing) : wordless t.said = t.quiet.said := by
  cases t with
  | plain e => exact quiet_element e
  | copy r k t inner =>
    unfold Thing.said
    rw [wordless_join, wordless_remark, List.nil_append]
    simp only [wordless, quiet_inner]
    rfl

mutual

theorem quiet_part : ∀ (d : Nat) (p : Part), wordless (p.said d) = p.quiet.said d
  | d, .mk r k c ts ps => by
    rw [Part.said, Part.quiet, Part.said, wordless_join, wordless_remark]
    simp only [wordless, wordless_join, wordless_flat quiet_thing, quiet_parts (d + 1) ps]
    rfl

theorem quiet_parts : ∀ (d : Nat) (ps : List Part), wordless (partsSaid d ps) = partsSaid d (partsQuiet ps)
  | _, [] => by simp only [partsSaid, partsQuiet, wordless]
  | d, p :: ps => by simp only [partsSaid, partsQuiet, wordless_join, quiet_part d p, quiet_parts d ps]

end

theorem quiet_said (T : Doc) : wordless T.said = T.quiet.said := by
  unfold Doc.said
  rw [wordless_join, wordless_flat quiet_thing, quiet_parts]
  rfl

/-! ## It can be written -/

theorem shown_nil : Remark.Shown [] := fun _ h => by cases h
theorem ok_nil : Remark.Ok [] := fun _ h => by cases h

theorem thing_quiet_shown (t : Thing) : t.quiet.Shown := by
  have it : ∀ (x : Item) (xs : List Item), ∀ y ∈ Item.quiet x :: xs.map Item.quiet, Remark.Shown y.remark := by
    intro x xs y hy
    rw [← List.map_cons] at hy
    obtain ⟨z, _, rfl⟩ := List.mem_map.1 hy
    exact shown_nil
  have en : ∀ (x : Entry) (xs : List Entry), ∀ y ∈ Entry.quiet x :: xs.map Entry.quiet, Remark.Shown y.remark := by
    intro x xs y hy
    rw [← List.map_cons] at hy
    obtain ⟨z, _, rfl⟩ := List.mem_map.1 hy
    exact shown_nil
  cases t with
  | plain e =>
    obtain ⟨r, k, c⟩ := e
    refine ⟨shown_nil, ?_⟩
    cases c with
    | parts p => trivial
    | items x xs => exact it x xs
    | entries x xs => exact en x xs
    | verbatim ls => trivial
  | copy r k t inner =>
    refine ⟨shown_nil, ?_⟩
    cases inner with
    | nothing => trivial
    | items x xs => exact it x xs
    | entries x xs => exact en x xs

theorem thing_quiet_ok {t : Thing} (h : t.Ok) : t.quiet.Ok := by
  have it : ∀ (x : Item) (xs : List Item), ∀ y ∈ Item.quiet x :: xs.map Item.quiet, Remark.Ok y.remark := by
    intro x xs y hy
    rw [← List.map_cons] at hy
    obtain ⟨z, _, rfl⟩ := List.mem_map.1 hy
    exact ok_nil
  have en : ∀ (x : Entry) (xs : List Entry), ∀ y ∈ Entry.quiet x :: xs.map Entry.quiet, Remark.Ok y.remark := by
    intro x xs y hy
    rw [← List.map_cons] at hy
    obtain ⟨z, _, rfl⟩ := List.mem_map.1 hy
    exact ok_nil
  cases t with
  | plain e =>
    obtain ⟨r, k, c⟩ := e
    refine ⟨ok_nil, ?_⟩
    cases c with
    | parts p => trivial
    | items x xs => exact it x xs
    | entries x xs => exact en x xs
    | verbatim ls => exact h.2
  | copy r k t inner =>
    refine ⟨ok_nil, ?_⟩
    cases inner with
    | nothing => trivial
    | items x xs => exact it x xs
    | entries x xs => exact en x xs

theorem things_quiet {P : Thing → Prop} {ts : List Thing} (h : ∀ t ∈ ts, P t.quiet) : ∀ t ∈ ts.map Thing.quiet, P t := by
  intro t ht
  obtain ⟨u, hu, rfl⟩ := List.mem_map.1 ht
  exact h u hu

mutual

theorem part_quiet_shown : ∀ p : Part, p.quiet.Shown
  | .mk r k c ts ps => by
    rw [Part.quiet, Part.Shown]
    exact ⟨shown_nil, things_quiet fun t _ => thing_quiet_shown t, parts_quiet_shown ps⟩

theorem parts_quiet_shown : ∀ ps : List Part, PartsShown (partsQuiet ps)
  | [] => by rw [partsQuiet, PartsShown]; trivial
  | p :: ps => by rw [partsQuiet, PartsShown]; exact ⟨part_quiet_shown p, parts_quiet_shown ps⟩

end

mutual

theorem part_quiet_ok : ∀ p : Part, p.Ok → p.quiet.Ok
  | .mk r k c ts ps, h => by
    rw [Part.Ok] at h
    rw [Part.quiet, Part.Ok]
    exact ⟨ok_nil, things_quiet fun t ht => thing_quiet_ok (h.2.1 t ht), parts_quiet_ok ps h.2.2⟩

theorem parts_quiet_ok : ∀ ps : List Part, PartsOk ps → PartsOk (partsQuiet ps)
  | [], _ => by rw [partsQuiet, PartsOk]; trivial
  | p :: ps, h => by
    rw [PartsOk] at h
    rw [partsQuiet, PartsOk]
    exact ⟨part_quiet_ok p h.1, parts_quiet_ok ps h.2⟩

end

theorem quiet_shown (T : Doc) : T.quiet.Shown := ⟨things_quiet fun t _ => thing_quiet_shown t, parts_quiet_shown _⟩

theorem quiet_ok {T : Doc} (h : T.Ok) : T.quiet.Ok := ⟨things_quiet fun t ht => thing_quiet_ok (h.1 t ht), parts_quiet_ok _ h.2⟩

/-! ## What it means -/

mutual

theorem quiet_nodes : ∀ p : Part, p.quiet.nodes = p.nodes.map Node.quiet
  | .mk r k c ts ps => by
    rw [Part.quiet, Part.nodes, Part.nodes, quiet_partsNodes ps]
    simp only [List.map_cons, List.map_append, List.map_map, Node.quiet, Part.quiet]
    rfl

theorem quiet_partsNodes : ∀ ps : List Part, partsNodes (partsQuiet ps) = (partsNodes ps).map Node.quiet
  | [] => by simp [partsQuiet, partsNodes]
  | p :: ps => by rw [partsQuiet, partsNodes, partsNodes, quiet_nodes p, quiet_partsNodes ps, List.map_append]

end

theorem quiet_docNodes (T : Doc) : T.quiet.nodes = T.nodes.map Node.quiet := by
  unfold Doc.nodes
  rw [List.map_append, ← quiet_partsNodes]
  simp only [Doc.quiet, List.map_map]
  rfl

theorem quiet_serves (sec : Bool) (k : Str) (n : Node) : n.quiet.serves sec k = n.serves sec k := by
  cases n with
  | thing t => cases t <;> rfl
  | part p => obtain ⟨r, k', c, ts, ps⟩ := p; simp only [Node.quiet, Part.quiet]; rfl

theorem quiet_filter (sec : Bool) (k : Str) : (ns.map Node.quiet).filter (Node.serves sec k) = (ns.filter (Node.serves sec k)).map Node.quiet := by
  rw [List.filter_map]
  congr 1
  exact List.filter_congr fun n _ => quiet_serves sec k n

theorem quiet_held (c : Content) : c.quiet.held = c.held.quiet := by
  cases c with
  | parts p => obtain ⟨f, m⟩ := p; cases f <;> cases m <;> rfl
  | items x xs => rfl
  | entries x xs => rfl
  | verbatim ls => rfl

theorem quiet_extend (b : Held) (x : Inner) : b.quiet.extend x.quiet = (b.extend x).map Held.quiet := by
  cases b <;> cases x <;> simp only [Held.quiet, Inner.quiet, Held.extend, Option.map_some, Option.map_none, List.map_append, List.map_cons]
  rename_i ys x xs
  congr 2
  congr 1
  rw [List.filter_map]
  congr 1
  apply List.filter_congr
  intro y _
  simp only [Function.comp_apply, decide_eq_decide]
  constructor
  · intro h o ho
    exact h o.quiet (by rw [← List.map_cons]; exact List.mem_map_of_mem ho)
  · intro h o ho
    rw [← List.map_cons] at ho
    obtain ⟨z, hz, rfl⟩ := List.mem_map.1 ho
    exact h z hz

theorem quiet_raw (m : Meant) : m.quiet.raw = uncommented m.raw := by
  obtain ⟨r, k, b⟩ := m
  have it : ∀ l : List Item, (l.map Item.quiet).map Item.raw = uncommentedAll (l.map Item.raw) := by
    intro l
    induction l with
    | nil => rfl
    | cons x l ih => simp only [List.map_cons, uncommentedAll, ih]; rfl
  have en : ∀ l : List Entry, (l.map Entry.quiet).map Entry.raw = uncommentedAll (l.map Entry.raw) := by
    intro l
    induction l with
    | nil => rfl
    | cons x l ih => simp only [List.map_cons, uncommentedAll, ih]; rfl
  cases b with
  | items xs => simp only [Meant.quiet, Meant.raw, Held.quiet, uncommented, it]; rfl
  | entries xs => simp only [Meant.quiet, Meant.raw, Held.quiet, uncommented, en]; rfl
  | nothing => rfl
  | text v => rfl
  | verbatim v => rfl

theorem uncommentedAll_map : ∀ l : List Raw, uncommentedAll l = l.map uncommented
  | [] => rfl
  | x :: l => by rw [uncommentedAll, uncommentedAll_map l, List.map_cons]

theorem quiet_raws (ms : List Meant) : (ms.map Meant.quiet).map Meant.raw = (ms.map Meant.raw).map uncommented := by
  rw [List.map_map, List.map_map]
  exact List.map_congr_left fun m _ => quiet_raw m

theorem rawKey_uncommented (x : Raw) : rawKey (uncommented x) = rawKey x := by cases x <;> rfl

/-! ### Forwards -/

theorem thing_quieter : ∀ {t : Thing} {m : Meant}, t.Means ns m → t.quiet.Means (ns.map Node.quiet) m.quiet
  | _, _, .plain (e := e) => by
    have : Meant.quiet ⟨e.remark, e.key, e.content.held⟩ = ⟨e.quiet.remark, e.quiet.key, e.quiet.content.held⟩ := by
      simp only [Meant.quiet, Element.quiet, quiet_held]
    rw [this]
    exact .plain
  | _, _, .copy (k := k) (x := x) (inner := inner) h0 h1 h2 => by
    have := Thing.Means.copy (ns := ns.map Node.quiet) (r := []) (k := k) (x := x.quiet) (inner := inner.quiet) (by rw [quiet_filter, h0]; rfl) (thing_quieter h1)
      (by rw [Meant.quiet, quiet_extend, h2]; rfl)
    exact this

theorem things_quieter : ∀ {ts : List Thing} {ms : List Meant}, ThingsMean ns ts ms → ThingsMean (ns.map Node.quiet) (ts.map Thing.quiet) (ms.map Meant.quiet)
  | _, _, .nil => .nil
  | _, _, .cons h1 h2 => .cons (thing_quieter h1) (things_quieter h2)

theorem part_key_quiet (p : Part) : p.quiet.key = p.key := by
  obtain ⟨r, k, c, ts, ps⟩ := p
  rw [Part.quiet]; rfl

mutual

theorem part_quieter : ∀ {p : Part} {r : Remark} {xs : List Raw}, p.Means ns r xs → p.quiet.Means (ns.map Node.quiet) [] (xs.map uncommented)
  | _, _, _, .own h1 h2 => by
    rw [Part.quiet, List.map_append, ← quiet_raws]
    exact .own (things_quieter h1) (parts_quieter h2)
  | _, _, _, .copy (k := k) (d := d) (t := t) (ms := ms) (rs := rs) (q := q) (xs := xs) h0 h1 h2 h3 => by
    rw [Part.quiet, List.map_append, List.map_append, ← quiet_raws]
    have := Part.Means.copy (ns := ns.map Node.quiet) (r := []) (k := k) (d := d) (t := t) (q := q.quiet) (by rw [quiet_filter, h0]; rfl) (part_quieter h1) (things_quieter h2) (parts_quieter h3)
    have e : (xs.map uncommented).filter (fun x => decide (∀ o ∈ (ms.map Meant.quiet).map Meant.raw ++ rs.map uncommented, rawKey o ≠ rawKey x)) =
        (xs.filter fun x => decide (∀ o ∈ ms.map Meant.raw ++ rs, rawKey o ≠ rawKey x)).map uncommented := by
      rw [List.filter_map]
      congr 1
      apply List.filter_congr
      intro y _
      simp only [Function.comp_apply, decide_eq_decide, rawKey_uncommented]
      rw [quiet_raws, ← List.map_append]
      constructor
      · intro h o ho
        have := h (uncommented o) (List.mem_map_of_mem ho)
        rwa [rawKey_uncommented] at this
      · intro h o ho
        obtain ⟨z, hz, rfl⟩ := List.mem_map.1 ho
        rw [rawKey_uncommented]
        exact h z hz
    rw [← e]
    simpa using this

theorem parts_quieter : ∀ {ps : List Part} {rs : List Raw}, PartsMean ns ps rs → PartsMean (ns.map Node.quiet) (partsQuiet ps) (rs.map uncommented)
  | _, _, .nil => by rw [partsQuiet]; exact .nil
  | _, _, .cons (p := p) h1 h2 => by
    rw [partsQuiet, List.map_cons, uncommented, uncommentedAll_map, ← part_key_quiet p]
    exact .cons (part_quieter h1) (parts_quieter h2)

end

theorem doc_quieter {T : Doc} {R : Raw} (h : T.Means R) : T.quiet.Means (uncommented R) := by
  obtain ⟨h1, h2⟩ := h
  rw [uncommented, uncommentedAll_map, List.map_append, ← quiet_raws]
  exact .mk (by rw [quiet_docNodes]; exact things_quieter h1) (by rw [quiet_docNodes]; exact parts_quieter h2)

/-! ### Backwards -/

theorem single_thing {sec : Bool} {k : Str} {y : Thing} (h : (ns.map Node.quiet).filter (Node.serves sec k) = [.thing y]) : ∃ x, y = x.quiet ∧ ns.filter (Node.serves sec k) = [.thing x] := by
  rw [quiet_filter] at h
  cases hf : ns.filter (Node.serves sec k) with
  | nil => rw [hf] at h; cases h
  | cons n l =>
    rw [hf, List.map_cons] at h
    injection h with h1 h2
    rw [List.map_eq_nil_iff] at h2
    subst h2
    cases n with
    | thing x => injection h1 with h1; exact ⟨x, h1.symm, rfl⟩
    | part p => cases h1

theorem single_part {sec : Bool} {k : Str} {y : Part} (h : (ns.map Node.quiet).filter (Node.serves sec k) = [.part y]) : ∃ x, y = x.quiet ∧ ns.filter (Node.serves sec k) = [.part x] := by
  rw [quiet_filter] at h
  cases hf : ns.filter (Node.serves sec k) with
  | nil => rw [hf] at h; cases h
  | cons n l =>
    rw [hf, List.map_cons] at h
    injection h with h1 h2
    rw [List.map_eq_nil_iff] at h2
    subst h2
    cases n with
    | part x => injection h1 with h1; exact ⟨x, h1.symm, rfl⟩
    | thing p => cases h1

theorem thing_louder : ∀ {y : Thing} {m' : Meant}, y.Means (ns.map Node.quiet) m' → ∀ t : Thing, y = t.quiet → ∃ m, t.Means ns m ∧ m' = m.quiet
  | _, _, .plain, .plain e, h => by
    injection h with h
    subst h
    exact ⟨_, .plain, by simp only [Meant.quiet, Element.quiet, quiet_held]⟩
  | _, _, .plain, .copy .., h => by cases h
  | _, _, .copy h0 h1 h2, .plain _, h => by cases h
  | _, _, .copy h0 h1 h2, .copy r k t inner, h => by
    injection h with e1 e2 e3 e4
    subst e1 e2 e3 e4
    obtain ⟨x, ex, hx⟩ := single_thing h0
    obtain ⟨m, hm, em⟩ := thing_louder h1 x ex
    rw [em, Meant.quiet, quiet_extend] at h2
    cases hb : m.held.extend inner with
    | none => rw [hb] at h2; cases h2
    | some b =>
      rw [hb] at h2
      injection h2 with h2
      subst h2
      exact ⟨_, .copy (r := r) hx hm hb, by simp [em, Meant.quiet]⟩

theorem things_louder : ∀ {ys : List Thing} {ms' : List Meant}, ThingsMean (ns.map Node.quiet) ys ms' → ∀ ts : List Thing, ys = ts.map Thing.quiet → ∃ ms, ThingsMean ns ts ms
  | _, _, .nil, [], _ => ⟨_, .nil⟩
  | _, _, .nil, _ :: _, h => by cases h
  | _, _, .cons h1 h2, [], h => by cases h
  | _, _, .cons h1 h2, t :: ts, h => by
    rw [List.map_cons] at h
    injection h with e1 e2
    obtain ⟨m, hm, _⟩ := thing_louder h1 t e1
    obtain ⟨ms, hms⟩ := things_louder h2 ts e2
    exact ⟨_, .cons hm hms⟩

mutual

theorem part_louder : ∀ {y : Part} {r' : Remark} {xs' : List Raw}, y.Means (ns.map Node.quiet) r' xs' → ∀ p : Part, y = p.quiet → ∃ r xs, p.Means ns r xs
  | _, _, _, .own h1 h2, .mk r k c ts ps, h => by
    rw [Part.quiet] at h
    injection h with e1 e2 e3 e4 e5
    subst e3
    obtain ⟨ms, hms⟩ := things_louder h1 ts e4
    obtain ⟨rs, hrs⟩ := parts_louder h2 ps e5
    exact ⟨_, _, .own hms hrs⟩
  | _, _, _, .copy h0 h1 h2 h3, .mk r k c ts ps, h => by
    rw [Part.quiet] at h
    injection h with e1 e2 e3 e4 e5
    subst e3
    obtain ⟨q, eq, hq⟩ := single_part h0
    obtain ⟨r', xs, hx⟩ := part_louder h1 q eq
    obtain ⟨ms, hms⟩ := things_louder h2 ts e4
    obtain ⟨rs, hrs⟩ := parts_louder h3 ps e5
    exact ⟨_, _, .copy hq hx hms hrs⟩

theorem parts_louder : ∀ {ys : List Part} {rs' : List Raw}, PartsMean (ns.map Node.quiet) ys rs' → ∀ ps : List Part, ys = partsQuiet ps → ∃ rs, PartsMean ns ps rs
  | _, _, .nil, [], _ => ⟨_, .nil⟩
  | _, _, .nil, _ :: _, h => by rw [partsQuiet] at h; cases h
  | _, _, .cons h1 h2, [], h => by rw [partsQuiet] at h; cases h
  | _, _, .cons h1 h2, p :: ps, h => by
    rw [partsQuiet] at h
    injection h with e1 e2
    obtain ⟨r, xs, hp⟩ := part_louder h1 p e1
    obtain ⟨rs, hrs⟩ := parts_louder h2 ps e2
    exact ⟨_, .cons hp hrs⟩

end

theorem doc_louder {T : Doc} {R : Raw} (h : T.quiet.Means R) : ∃ R, T.Means R := by
  obtain ⟨h1, h2⟩ := h
  rw [quiet_docNodes] at h1 h2
  obtain ⟨ms, hms⟩ := things_louder h1 _ rfl
  obtain ⟨rs, hrs⟩ := parts_louder h2 _ rfl
  exact ⟨_, .mk hms hrs⟩

/-- Without comments, a document means the same apart from comments. -/
theorem quiet_means {T : Doc} : (∃ R, T.Means R) ↔ ∃ R, T.quiet.Means R := ⟨fun ⟨_, h⟩ => ⟨_, doc_quieter h⟩, fun ⟨_, h⟩ => doc_louder h⟩

end Eno
