import Verif.Proofs.Reportable

/-! # The index of a reporter -/

namespace Eno

open Spec

variable {input : Str} {ctx : Ctx} {B : List Base} {h h0 : Heap}

/-- A context that can be reported about. -/
structure Reportable (ctx : Ctx) : Prop where
  heap : ∃ h0, HeapOk h0 ∧ Shadow h0 ctx.heap
  chart : ∃ B, Charted ctx B

/-! ## The shape of the elements -/

/-- What is left of the shape of an element when resolving may have changed its type. -/
structure Shape (e : Elem) : Prop where
  items : ∀ xs, e.items = some xs → e.type = .list ∧ xs ≠ [] ∧ ∀ x ∈ xs, SubOk false x
  entries : ∀ xs, e.entries = some xs → e.type = .fieldset ∧ xs ≠ [] ∧ ∀ x ∈ xs, SubOk true x
  conts : ∀ cs, e.continuations = some cs → e.type = .field ∧ cs ≠ []
  lines : ∀ ls, e.lines = some ls → e.type = .mlBegin ∧ ls ≠ []
  fin : e.fin.isSome → e.type = .mlBegin
  comments : e.comments ≠ some []

/-- What reporting uses of a heap. -/
structure Grown (h : Heap) : Prop where
  doc : (h.at 0).type = .document
  types : ∀ i, 0 < i → i < h.length → (h.at i).type ∈ [Ty.section, .field, .empty, .list, .fieldset, .mlBegin]
  down : ∀ i j, j ∈ (h.at i).elements → i < j ∧ j < h.length
  up : ∀ j, 0 < j → j < h.length → ∃ p, p < j ∧ j ∈ (h.at p).elements ∧ (p = 0 ∨ (h.at p).type = .section)
  shape : ∀ i, i < h.length → Shape (h.at i)
  sections : ∀ i, (h.at i).elements ≠ [] → i = 0 ∨ (h.at i).type = .section

theorem still_elements {a b : Elem} (h : a.still = b.still) : a.elements = b.elements ∧ a.items = b.items ∧ a.entries = b.entries ∧
    a.continuations = b.continuations ∧ a.lines = b.lines ∧ a.fin = b.fin ∧ a.toBase = b.toBase ∧ a.template = b.template ∧ a.key = b.key ∧ a.parent = b.parent := by
  have hb := congrArg Elem.toBase h
  have h1 := congrArg Elem.elements h
  have h2 := congrArg Elem.items h
  have h3 := congrArg Elem.entries h
  have h4 := congrArg Elem.continuations h
  have h5 := congrArg Elem.lines h
  have h6 := congrArg Elem.fin h
  have h7 := congrArg Elem.template h
  have h8 := congrArg Elem.key h
  have h9 := congrArg Elem.parent h
  exact ⟨h1, h2, h3, h4, h5, h6, hb, h7, h8, h9⟩

theorem Shadow.fixed (S : Shadow h0 h) {i : Nat} (hi : (h0.at i).type ≠ .empty) : (h.at i).type = (h0.at i).type := by
  rcases S.type i with h1 | ⟨h1, _⟩
  · exact h1
  · exact absurd h1 hi

theorem grown (ok : HeapOk h0) (S : Shadow h0 h) : Grown h := by
  have hlen := S.len
  have down0 : ∀ i j, j ∈ (h0.at i).elements → i < j ∧ j < h0.length ∧ (h0.at i).isContainer := by
    intro i j hj
    by_cases hi : i < h0.length
    · rw [ok.els i hi] at hj
      simp only [List.mem_filter, List.mem_range, decide_eq_true_eq] at hj
      have hpos : 0 < j := by
        rcases Nat.eq_zero_or_pos j with h | h
        · subst h; rw [ok.doc.2.1] at hj; exact absurd hj.2 (by simp)
        · exact h
      obtain ⟨_, p, hp, hlt, hc⟩ := ok.par j hpos hj.1
      rw [hj.2] at hp; injection hp with hp; subst hp
      exact ⟨hlt, hj.1, hc⟩
    · rw [Heap.at_ge (by omega)] at hj; simp [Elem.document] at hj
  have container : ∀ i, i < h0.length → (h0.at i).isContainer → i = 0 ∨ (h.at i).type = .section := by
    intro i hi hc
    rcases Nat.eq_zero_or_pos i with h | h
    · exact .inl h
    · right
      rcases hc with hc | hc
      · exact absurd hc (ok.par i h hi).1
      · rw [S.fixed (by rw [hc]; decide), hc]
  refine ⟨?_, ?_, ?_, ?_, ?_, ?_⟩
  · rw [S.fixed (by rw [ok.doc.1]; decide), ok.doc.1]
  · intro i h1 h2
    rw [hlen] at h2
    have ht := (ok.elem i h2).types
    have hd := (ok.par i h1 h2).1
    rcases S.type i with e | ⟨_, e⟩
    · rw [e]
      simp only [List.mem_cons, List.not_mem_nil, or_false] at ht ⊢
      rcases ht with ht | ht | ht | ht | ht | ht | ht <;> simp [ht] at hd ⊢
    · rcases e with e | e | e <;> rw [e] <;> decide
  · intro i j hj
    rw [(still_elements (S.own i)).1] at hj
    have := down0 i j hj
    exact ⟨this.1, by omega⟩
  · intro j h1 h2
    rw [hlen] at h2
    obtain ⟨_, p, hp, hlt, hc⟩ := ok.par j h1 h2
    refine ⟨p, hlt, ?_, container p (by omega) hc⟩
    rw [(still_elements (S.own p)).1, ok.els p (by omega)]
    simp [h2, hp]
  · intro i hi
    rw [hlen] at hi
    have E := ok.elem i hi
    obtain ⟨e1, e2, e3, e4, e5, e6, e7, _⟩ := still_elements (S.own i)
    refine ⟨?_, ?_, ?_, ?_, ?_, ?_⟩
    · intro xs hx
      rw [e2] at hx
      obtain ⟨a, b⟩ := E.items xs hx
      exact ⟨by rw [S.fixed (by rw [a]; decide), a], b⟩
    · intro xs hx
      rw [e3] at hx
      obtain ⟨a, b⟩ := E.entries xs hx
      exact ⟨by rw [S.fixed (by rw [a]; decide), a], b⟩
    · intro xs hx
      rw [e4] at hx
      obtain ⟨a, b⟩ := E.conts xs hx
      exact ⟨by rw [S.fixed (by rw [a]; decide), a], b⟩
    · intro xs hx
      rw [e5] at hx
      obtain ⟨a, b, _⟩ := E.lines xs hx
      exact ⟨by rw [S.fixed (by rw [a]; decide), a], b⟩
    · intro hx
      rw [e6] at hx
      have a := E.fin hx
      rw [S.fixed (by rw [a]; decide), a]
    · obtain ⟨j, hj⟩ := S.written i
      rw [hj]
      by_cases hl : j < h0.length
      · exact (ok.elem j hl).comments
      · rw [Heap.at_ge (by omega)]; simp [Elem.document]
  · intro i hi
    rw [(still_elements (S.own i)).1] at hi
    obtain ⟨j, hj⟩ := List.exists_mem_of_ne_nil _ hi
    obtain ⟨h1, h2, h3⟩ := down0 i j hj
    exact container i (by omega) h3

theorem Reportable.grown (R : Reportable ctx) : Grown ctx.heap := by
  obtain ⟨h0, ok, S⟩ := R.heap
  exact Eno.grown ok S

/-! ## Instructions of an element -/

theorem contRows_base (cs : Option (List Cont)) : (contRows cs).map Row.toBase = (cs.getD []).map Cont.toBase := by
  simp [contRows, Function.comp_def]

theorem commentRows_base (cs : Option (List Comment)) : (commentRows cs).map Row.toBase = (cs.getD []).map Comment.toBase := by
  simp [commentRows, Function.comp_def]

theorem subRows_base (x : Sub) : (subRows x).map Row.toBase = x.bases := by
  simp [subRows, Sub.bases, commentRows_base, contRows_base]

theorem subsRows_base (xs : List Sub) : (xs.flatMap subRows).map Row.toBase = xs.flatMap Sub.bases := by
  rw [List.map_flatMap]; simp only [subRows_base]

/-- An element is indexed with all its instructions. -/
theorem elemRows_mem {e : Elem} (s : Shape e) (b : Base) : b ∈ (elemRows e).map Row.toBase ↔ b ∈ e.bases := by
  have hc : e.type ≠ .field → e.continuations = none := by
    intro h; cases hx : e.continuations with
    | none => rfl
    | some cs => exact absurd (s.conts cs hx).1 h
  have hi : e.type ≠ .list → e.items = none := by
    intro h; cases hx : e.items with
    | none => rfl
    | some cs => exact absurd (s.items cs hx).1 h
  have he : e.type ≠ .fieldset → e.entries = none := by
    intro h; cases hx : e.entries with
    | none => rfl
    | some cs => exact absurd (s.entries cs hx).1 h
  have hl : e.type ≠ .mlBegin → e.lines = none := by
    intro h; cases hx : e.lines with
    | none => rfl
    | some cs => exact absurd (s.lines cs hx).1 h
  have hf : e.type ≠ .mlBegin → e.fin = none := by
    intro h; cases hx : e.fin with
    | none => rfl
    | some b => exact absurd (s.fin (by rw [hx]; rfl)) h
  unfold elemRows Elem.bases
  rw [List.map_append, commentRows_base, List.map_cons]
  cases ht : e.type <;> simp only [ht] at hc hi he hl hf <;>
    simp only [List.mem_append, List.mem_cons, List.map_append, contRows_base, subsRows_base, List.map_map, Function.comp_def, List.map_id', List.map_nil,
      List.not_mem_nil, or_false, or_assoc] <;>
    (try rw [hc (by decide)]) <;> (try rw [hi (by decide)]) <;> (try rw [he (by decide)]) <;> (try rw [hl (by decide)]) <;> (try rw [hf (by decide)]) <;>
    simp <;> try (rw [or_comm (a := e.fin = some b)])

/-! ## Traversing -/

/-- Inside a section or the document, at any depth. -/
inductive Inside (h : Heap) : Nat → Nat → Prop where
  | direct {s j} : j ∈ (h.at s).elements → Inside h s j
  | deep {s t j} : t ∈ (h.at s).elements → (h.at t).type = .section → Inside h t j → Inside h s j

theorem Inside.snoc {s t j : Nat} (a : Inside h s t) (ht : (h.at t).type = .section) (hj : j ∈ (h.at t).elements) : Inside h s j := by
  induction a with
  | direct h1 => exact .deep h1 ht (.direct hj)
  | deep h1 h2 _ ih => exact .deep h1 h2 (ih ht hj)

theorem inside_document (g : Grown h) : ∀ (n j : Nat), j < n → 0 < j → j < h.length → Inside h 0 j
  | 0, _, h, _, _ => by omega
  | n + 1, j, h1, h2, h3 => by
    obtain ⟨p, hp, hm, hc⟩ := g.up j h2 h3
    rcases hc with hc | hc
    · subst hc; exact .direct hm
    · rcases Nat.eq_zero_or_pos p with h0 | h0
      · subst h0; exact .direct hm
      · exact (inside_document g n p (by omega) h0 (by omega)).snoc hc hm

theorem traverse_ok (g : Grown h) : ∀ (n s : Nat), h.length - s < n → ∃ rows, traverse h n s = .ok rows ∧
    (∀ r ∈ rows, ∃ j, 0 < j ∧ j < h.length ∧ r ∈ elemRows (h.at j)) ∧ ∀ j, Inside h s j → ∀ r ∈ elemRows (h.at j), r ∈ rows
  | 0, _, h => by omega
  | n + 1, s, hn => by
    unfold traverse
    have key : ∀ (l : List Nat) (acc : List Row), (∀ i ∈ l, s < i ∧ i < h.length) → (∀ r ∈ acc, ∃ j, 0 < j ∧ j < h.length ∧ r ∈ elemRows (h.at j)) →
        ∃ rows, l.foldlM (fun rows i =>
          if (h.at i).type = .section then
            match traverse h n i with
            | .error e => .error e
            | .ok inner => .ok (rows ++ elemRows (h.at i) ++ inner)
          else .ok (rows ++ elemRows (h.at i))) acc = (.ok rows : Except PyExc (List Row)) ∧
          (∀ r ∈ rows, ∃ j, 0 < j ∧ j < h.length ∧ r ∈ elemRows (h.at j)) ∧ (∀ r ∈ acc, r ∈ rows) ∧
          ∀ i ∈ l, (∀ r ∈ elemRows (h.at i), r ∈ rows) ∧ ((h.at i).type = .section → ∀ j, Inside h i j → ∀ r ∈ elemRows (h.at j), r ∈ rows) := by
      intro l
      induction l with
      | nil => intro acc _ ha; exact ⟨acc, rfl, ha, fun _ h => h, by simp⟩
      | cons i l ih =>
        intro acc hl ha
        have hi := hl i (by simp)
        rw [List.foldlM_cons]
        by_cases ht : (h.at i).type = .section
        · obtain ⟨inner, e, i1, i2⟩ := traverse_ok g n i (by omega)
          have hacc : ∀ r ∈ acc ++ elemRows (h.at i) ++ inner, ∃ j, 0 < j ∧ j < h.length ∧ r ∈ elemRows (h.at j) := by
            intro r hr
            simp only [List.mem_append] at hr
            rcases hr with (hr | hr) | hr
            · exact ha r hr
            · exact ⟨i, by omega, hi.2, hr⟩
            · exact i1 r hr
          obtain ⟨rows, h1, h2, h3, h4⟩ := ih _ (fun j hj => hl j (by simp [hj])) hacc
          refine ⟨rows, ?_, h2, fun r hr => h3 r (by simp [hr]), ?_⟩
          · simp only [ht, e, if_true]; exact h1
          · intro j hj
            rcases List.mem_cons.1 hj with rfl | hj
            · exact ⟨fun r hr => h3 r (by simp [hr]), fun _ k hk r hr => h3 r (List.mem_append_right _ (i2 k hk r hr))⟩
            · exact h4 j hj
        · have hacc : ∀ r ∈ acc ++ elemRows (h.at i), ∃ j, 0 < j ∧ j < h.length ∧ r ∈ elemRows (h.at j) := by
            intro r hr
            simp only [List.mem_append] at hr
            rcases hr with hr | hr
            · exact ha r hr
            · exact ⟨i, by omega, hi.2, hr⟩
          obtain ⟨rows, h1, h2, h3, h4⟩ := ih _ (fun j hj => hl j (by simp [hj])) hacc
          refine ⟨rows, ?_, h2, fun r hr => h3 r (by simp [hr]), ?_⟩
          · simp only [ht, if_false]; exact h1
          · intro j hj
            rcases List.mem_cons.1 hj with rfl | hj
            · exact ⟨fun r hr => h3 r (by simp [hr]), fun h => absurd h ht⟩
            · exact h4 j hj
    obtain ⟨rows, h1, h2, _, h4⟩ := key (h.at s).elements [] (fun i hi => g.down s i hi) (by simp)
    refine ⟨rows, h1, h2, ?_⟩
    intro j hj
    cases hj with
    | direct hm => exact (h4 j hm).1
    | deep hm ht hj => exact (h4 _ hm).2 ht j hj

/-! ## The index -/

theorem mem_tail {h : Heap} {i : Nat} (hi : 0 < i) (hl : i < h.length) : h.at i ∈ h.tail := by
  rw [Heap.at_eq_getElem hl]
  have : h.tail[i - 1]'(by simp; omega) = h[i] := by
    rw [List.getElem_tail]; congr 1; omega
  rw [← this]; exact List.getElem_mem _

theorem tail_mem {h : Heap} {e : Elem} (he : e ∈ h.tail) : ∃ i, 0 < i ∧ i < h.length ∧ h.at i = e := by
  obtain ⟨i, hi, rfl⟩ := List.getElem_of_mem he
  have : i + 1 < h.length := by simp at hi; omega
  refine ⟨i + 1, by omega, this, ?_⟩
  rw [Heap.at_eq_getElem this, List.getElem_tail]

/-- What a line of the index shows. -/
structure Indexed (ctx : Ctx) (index : List (Option Row)) : Prop where
  length : index.length = ctx.lineCount
  sound : ∀ n r, index.getD n none = some r → r.line = n ∧ r.toBase ∈ ctx.instructions
  complete : ∀ b ∈ ctx.instructions, ∃ r, index.getD b.line none = some r ∧ r.toBase = b

theorem buildIndex_ok (g : Grown ctx.heap) (C : Charted ctx B) : ∃ index, buildIndex ctx = .ok index ∧ Indexed ctx index := by
  obtain ⟨rows, h1, h2, h3⟩ := traverse_ok g (ctx.heap.length + 1) 0 (by omega)
  have mem : ∀ b, b ∈ ctx.instructions ↔ b ∈ (rows ++ ctx.metas.map fun m => (⟨m.base, m.type⟩ : Row)).map Row.toBase := by
    intro b
    unfold Ctx.instructions
    simp only [List.mem_append, List.map_append, List.mem_flatMap, List.map_map, Function.comp_def]
    refine or_congr ?_ Iff.rfl
    constructor
    · rintro ⟨e, he, hb⟩
      obtain ⟨i, hi, hl, rfl⟩ := tail_mem he
      obtain ⟨r, hr, rfl⟩ := List.mem_map.1 ((elemRows_mem (g.shape i hl) b).2 hb)
      exact List.mem_map.2 ⟨r, h3 i (inside_document g _ i (Nat.lt_succ_self _) hi hl) r hr, rfl⟩
    · intro hb
      obtain ⟨r, hr, rfl⟩ := List.mem_map.1 hb
      obtain ⟨j, hj, hl, hr⟩ := h2 r hr
      exact ⟨_, mem_tail hj hl, (elemRows_mem (g.shape j hl) _).1 (List.mem_map.2 ⟨r, hr, rfl⟩)⟩
  unfold buildIndex
  rw [h1]
  simp only
  generalize (rows ++ ctx.metas.map fun m => (⟨m.base, m.type⟩ : Row)) = rs at mem
  obtain ⟨index, e, hlen⟩ := putAll_ok (l := List.replicate ctx.lineCount (none : Option Row)) (ws := rs.map fun r => (r.line, r)) (by
    intro w hw
    obtain ⟨r, hr, rfl⟩ := List.mem_map.1 hw
    simp only [List.length_replicate]
    exact C.below r.toBase (C.all _ ((mem _).2 (List.mem_map.2 ⟨r, hr, rfl⟩))))
  refine ⟨index, e, by rw [hlen, List.length_replicate], ?_, ?_⟩
  · intro n r hr
    rw [putAll_getD e] at hr
    have h0 : (List.replicate ctx.lineCount (none : Option Row)).getD n none = none := by
      simp only [List.getD, List.getElem?_replicate]; split <;> rfl
    rw [h0, Option.or_none] at hr
    have := lastWrite_mem hr
    obtain ⟨r', hr', q⟩ := List.mem_map.1 this
    injection q with q1 q2
    subst q2
    exact ⟨q1, (mem _).2 (List.mem_map.2 ⟨_, hr', rfl⟩)⟩
  · intro b hb
    obtain ⟨r, hr, rfl⟩ := List.mem_map.1 ((mem b).1 hb)
    obtain ⟨y, hy⟩ := lastWrite_isSome (n := r.line) (x := r) (ws := rs.map fun r => (r.line, r)) (List.mem_map.2 ⟨r, hr, rfl⟩)
    refine ⟨y, by rw [putAll_getD e, hy]; rfl, ?_⟩
    have hm := lastWrite_mem hy
    obtain ⟨r', hr', q⟩ := List.mem_map.1 hm
    injection q with q1 q2
    subst q2
    exact C.same (C.all _ ((mem _).2 (List.mem_map.2 ⟨_, hr', rfl⟩))) (C.all _ hb) q1

end Eno
