import Verif.Proofs.Outcome

/-! # Further consequences of the layout -/

namespace Eno

open Spec

variable {input : Str} {es : List Event} {s : AS}

/-- Every comment is owned, loose or at the end. -/
theorem comments_partition (es : List Event) :
    ((owned [] es).flatMap (·.1) ++ loose [] es ++ commentRun es).Perm (es.filter fun e => e.role == .comment) := by
  induction es using snoc_induction with
  | h0 => simp [owned, loose, commentRun]
  | h1 es ev ih =>
    rw [owned_snoc, loose_snoc, commentRun_snoc, List.filter_append]
    simp only [List.nil_append]
    by_cases ho : ev.role.owns = true
    · have h1 : ev.role ≠ .comment := by intro e; rw [e] at ho; exact absurd ho (by decide)
      have h2 : ¬ (ev.role = .blank ∨ ev.role = .continuation) := by
        rintro (e | e) <;> rw [e] at ho <;> exact absurd ho (by decide)
      simp only [ho, if_true, h2, if_false, h1, List.flatMap_append, List.append_nil]
      have : [ev].filter (fun e => e.role == .comment) = [] := by simp [h1]
      rw [this, List.append_nil]
      refine List.Perm.trans ?_ ih
      simp only [List.flatMap_cons, List.flatMap_nil, List.append_nil, List.append_assoc]
      exact List.Perm.append_left _ List.perm_append_comm
    · simp only [ho, if_false, List.append_nil, Bool.false_eq_true]
      by_cases h2 : ev.role = .blank ∨ ev.role = .continuation
      · have h1 : ev.role ≠ .comment := by rcases h2 with e | e <;> rw [e] <;> simp
        have : [ev].filter (fun e => e.role == .comment) = [] := by simp [h1]
        simp only [h2, if_true, h1, if_false, this, List.append_nil, ← List.append_assoc]
        exact ih
      · have h1 : ev.role = .comment := by
          cases hr : ev.role <;> rw [hr] at ho h2 <;> simp [Role.owns, Role.starts] at ho h2 <;> rfl
        have : [ev].filter (fun e => e.role == .comment) = [ev] := by simp [h1]
        rw [if_neg h2, if_pos h1, this, List.append_nil, ← List.append_assoc]
        exact List.Perm.append_right _ ih

/-- The head of every element is recorded from the first event of its block. -/
theorem elem_block {i : Nat} (lay : Layout es s) (hi : 0 < i) (hl : i < s.heap.length) :
    ∃ b, (blocks es)[i - 1]? = some b ∧ (s.heap.at i).parts = (parts b).map (fun g => g.flatMap Event.pieces) ∧ (s.heap.at i).type = kindOf b := by
  obtain ⟨j, rfl⟩ : ∃ j, i = j + 1 := ⟨i - 1, by omega⟩
  have hj : j < s.heap.tail.length := by simp; omega
  have hat : s.heap.at (j + 1) = s.heap[j + 1] := by simp [Heap.at, hl]
  have h1 := congrArg (fun l => l[j]?) lay.trees
  have h2 := congrArg (fun l => l[j]?) lay.kinds
  simp only [List.getElem?_map, List.getElem?_eq_getElem hj, Option.map_some] at h1 h2
  cases hb : (blocks es)[j]? with
  | none => rw [hb] at h1; simp at h1
  | some b =>
    rw [hb] at h1 h2
    simp at h1 h2
    exact ⟨b, hb, by rw [hat]; exact h1, by rw [hat]; exact h2⟩

/-- The groups of a block start with the block's first event. -/
theorem parts_head {b : List Event} (hb : b ∈ blocks es) : ∃ e g gs, parts b = (e :: g) :: gs ∧ e.role.starts = true ∧ b.head? = some e ∧
    ∀ x ∈ g, x.role = .continuation := by
  obtain ⟨e, r, rfl, h2, h3⟩ := blocks_spec hb
  clear hb
  induction r using snoc_induction with
  | h0 => exact ⟨e, [], [], parts_single (starts_owns h2), h2, rfl, by simp⟩
  | h1 l a ih =>
    obtain ⟨e', g, gs, h4, h5, h6, h7⟩ := ih (fun x hx => h3 x (by simp [hx]))
    simp at h6; subst h6
    rw [← List.cons_append]
    by_cases ha : a.role.owns = true
    · exact ⟨e, g, gs ++ [[a]], by rw [parts_snoc_owns ha, h4]; rfl, h2, rfl, h7⟩
    · have hac : a.role = .continuation := by
        rcases h3 a (by simp) with h | h | h
        · rw [h] at ha; exact absurd rfl ha
        · rw [h] at ha; exact absurd rfl ha
        · exact h
      rcases List.eq_nil_or_concat gs with rfl | ⟨gs', g', rfl⟩
      · have := parts_snoc_joins (b := e :: l) (gs := []) (ev := a) (by simpa using ha) h4
        refine ⟨e, g ++ [a], [], this, h2, rfl, ?_⟩
        intro x hx; simp at hx
        rcases hx with hx | rfl
        · exact h7 x hx
        · exact hac
      · rw [List.concat_eq_append] at h4
        have := parts_snoc_joins (b := e :: l) (gs := (e :: g) :: gs') (g := g') (ev := a) (by simpa using ha) (by rw [h4]; rfl)
        exact ⟨e, g, gs' ++ [g' ++ [a]], this, h2, rfl, h7⟩

theorem mem_of_getElem? {α} {l : List α} {i : Nat} {a : α} (h : l[i]? = some a) : a ∈ l := List.mem_of_getElem? h

/-- The operator of a section heading is its hash signs. -/
theorem section_operator {i : Nat} {r : Ending} (ht : Trace input 0 0 es r) (lay : Layout es s) (hi : 0 < i) (hl : i < s.heap.length)
    (hs : (s.heap.at i).type = .section) :
    ∃ x y, (s.heap.at i).range? .sectionOperator = some (x, y) ∧ x < y ∧ slice input x y = rep (y - x) '#' := by
  obtain ⟨b, hb, hp, hk⟩ := elem_block lay hi hl
  have hbm := List.mem_of_getElem? hb
  obtain ⟨e, g, gs, h1, h2, h3, _⟩ := parts_head hbm
  obtain ⟨e', r', hb', _, _⟩ := blocks_spec hbm
  have : e' = e := by rw [hb'] at h3; simpa using h3
  subst this
  rw [hs, hb'] at hk
  -- the role of the first event is a heading
  have hrole : ∃ d, e'.role = .heading d := by
    simp only [kindOf] at hk
    split at hk
    · rename_i d hd; exact ⟨d, hd⟩
    · simp at hk
    · simp at hk
    · split at hk <;> simp at hk
  obtain ⟨d, hd⟩ := hrole
  have hin := trace_events ht e' (blocks_mem hbm (by rw [hb']; simp)).1
  match e', hd, hin with
  | .line n i0 ⟨fin, .heading op k c⟩, hd, hin =>
    have hpiece : (s.heap.at i).toBase = (pieceOf n i0 ⟨fin, .heading op k c⟩).toBase := by
      rw [h1] at hp
      simp only [Elem.parts, Elem.head, List.map_cons, List.cons_append, List.flatMap_cons, Event.pieces] at hp
      rw [if_neg (by simp)] at hp
      simp only [List.cons_append, List.cons.injEq, List.nil_append] at hp
      have := congrArg Piece.toBase hp.1.1
      exact this
    have tok := scan_ok (Nat.le_of_lt hin.1) hin.2.1
    have shp := scan_shape hin.2.1
    obtain ⟨s1, s2, s3, _⟩ := shp
    refine ⟨op.b, op.e, ?_, by omega, ?_⟩
    · rw [hpiece]
      cases c with
      | none => cases k <;> rfl
      | some ct => cases k <;> rfl
    · have hm : op ∈ Body.caps (.heading op k c) := by cases c <;> simp [Body.caps]
      rw [slice_cap (placed_mem tok.placed op hm).2.1]
      unfold rep
      rw [List.eq_replicate_iff]
      exact ⟨by omega, s3⟩

/-- Nothing joins a section heading or a multiline field. -/
theorem closed_block (hL : AllLegal es) : ∀ b ∈ blocks es, kindOf b = .section ∨ kindOf b = .mlBegin → ∃ e, b = [e] := by
  induction es using snoc_induction with
  | h0 => simp [blocks, splitBefore]
  | h1 es ev ih =>
    obtain ⟨hA, hL⟩ := allLegal_snoc hL
    have ih := ih hA
    by_cases hc : ev.role.content = true
    · by_cases hs : ev.role.starts = true
      · rw [blocks_snoc_starts hs]
        intro b hb hk
        simp at hb
        rcases hb with hb | rfl
        · exact ih b hb hk
        · exact ⟨ev, rfl⟩
      · have hr : ev.role = .item ∨ ev.role = .entry ∨ ev.role = .continuation := by
          cases hr : ev.role <;> rw [hr] at hc hs <;> simp [Role.content, Role.starts] at hc hs <;> simp
        rcases List.eq_nil_or_concat (blocks es) with hb | ⟨gs, g, hb⟩
        · exact absurd hb (blocks_of_legal hL hr)
        · rw [List.concat_eq_append] at hb
          rw [blocks_snoc_joins hc (by simpa using hs) hb]
          intro b hbm hk
          simp at hbm
          rcases hbm with hbm | rfl
          · exact ih b (by rw [hb]; simp [hbm]) hk
          · exfalso
            obtain ⟨e, r, rfl, _, _⟩ := blocks_spec (es := es) (b := g) (by rw [hb]; simp)
            have hkk : kindOf (e :: r) = .section ∨ kindOf (e :: r) = .mlBegin := by
              simp only [kindOf, List.cons_append] at hk ⊢
              cases he : e.role <;> rw [he] at hk <;> simp at hk ⊢
              · split at hk <;> simp at hk
              · split at hk <;> simp at hk
              · rename_i v; cases v
                · simp only at hk; split at hk <;> simp at hk
                · simp at hk
              all_goals (split at hk <;> simp at hk)
            unfold Legal at hL
            rcases hr with hr | hr | hr <;> rw [hr] at hL <;> simp only [hb, List.getLast?_append, List.getLast?_singleton, Option.some_or] at hL
            · obtain ⟨b, hb1, hb2⟩ := hL
              simp at hb1; subst hb1
              rcases hkk with h | h <;> rw [h] at hb2 <;> simp at hb2
            · obtain ⟨b, hb1, hb2⟩ := hL
              simp at hb1; subst hb1
              rcases hkk with h | h <;> rw [h] at hb2 <;> simp at hb2
            · obtain ⟨b, hb1, hb2, _⟩ := hL
              simp at hb1; subst hb1
              rcases hkk with h | h <;> rw [h] at hb2 <;> simp at hb2
    · rw [blocks_snoc_skip (by simpa using hc)]
      exact ih

/-- A multiline field is recorded from an opener, its body and the first terminator. -/
theorem multiline_recorded {i : Nat} {r : Ending} (ht : Trace input 0 0 es r) (lay : Layout es s) (hL : AllLegal es) (hi : 0 < i) (hl : i < s.heap.length)
    (hs : (s.heap.at i).type = .mlBegin) :
    ∃ n b fin op key T, EventIn input (.multi n b fin op key (mlBody input n fin T.start) T) ∧
      Event.multi n b fin op key (mlBody input n fin T.start) T ∈ es ∧
      (s.heap.at i).head = (Event.multi n b fin op key (mlBody input n fin T.start) T).pieces := by
  obtain ⟨b, hb, hp, hk⟩ := elem_block lay hi hl
  have hbm := List.mem_of_getElem? hb
  rw [hs] at hk
  obtain ⟨e, rfl⟩ := closed_block hL b hbm (.inr hk.symm)
  have hrole : e.role = .multiline := by
    simp only [kindOf] at hk
    split at hk
    · simp at hk
    · rename_i hd; exact hd
    · simp at hk
    · split at hk <;> simp at hk
  have hmem := (blocks_mem hbm (show e ∈ [e] by simp)).1
  have hin := trace_events ht e hmem
  match e, hrole, hin, hmem with
  | .line n b0 ⟨fin, .multiline op k⟩, hrole, hin, hmem => exact absurd rfl (hin.2.2 op k)
  | .multi n b0 fin op key body T, _, hin, hmem =>
    obtain ⟨q1, q2, q3, rfl⟩ := hin
    refine ⟨n, b0, fin, op, key, T, ⟨q1, q2, q3, rfl⟩, hmem, ?_⟩
    rw [parts_single rfl] at hp
    simp only [Elem.parts, List.map_cons, List.cons_append, List.flatMap_cons, List.cons.injEq, List.flatMap_nil, List.append_nil] at hp
    exact hp.1

/-- Multiline fields have an end. -/
theorem multiline_end {i : Nat} {r : Ending} (ht : Trace input 0 0 es r) (lay : Layout es s) (inv : Inv s) (hL : AllLegal es) (hi : 0 < i)
    (hl : i < s.heap.length) (hs : (s.heap.at i).type = .mlBegin) : (s.heap.at i).fin.isSome := by
  obtain ⟨n, b, fin, op, key, T, _, _, h⟩ := multiline_recorded ht lay hL hi hl hs
  have eok := inv.heap.elem i hl
  cases hf : (s.heap.at i).fin with
  | some x => rfl
  | none =>
    exfalso
    have hcn : (s.heap.at i).continuations = none := by
      cases hc : (s.heap.at i).continuations with
      | none => rfl
      | some cs => have := (eok.conts cs hc).1; rw [hs] at this; simp at this
    unfold Elem.head at h
    rw [hf, hcn] at h
    simp only [Event.pieces, Option.getD_none, List.map_nil, Option.toList_none, List.append_nil, List.cons_append, List.nil_append,
      List.cons.injEq] at h
    have hmem : ({ line := n + (mlBody input n fin T.start).length + 1
                   ranges := [(.key, (T.key, T.key + key.text.length)), (.line, (T.start + 1, T.fin)),
                     (.multilineFieldOperator, (T.op, T.op + op.text.length))] } : Piece) ∈ ((s.heap.at i).lines.getD []).map Base.piece := by
      rw [h.2]; simp
    simp only [List.mem_map] at hmem
    obtain ⟨x, hx, hxe⟩ := hmem
    cases hln : (s.heap.at i).lines with
    | none => rw [hln] at hx; simp at hx
    | some ls =>
      rw [hln] at hx
      have := (eok.lines ls hln).2.2 x hx
      have h2 := congrArg (fun p : Piece => p.ranges.map Prod.fst) hxe
      simp only [Base.piece] at h2
      rw [this] at h2
      simp at h2

/-! ## Terminators in an input -/

theorem lineOf_split (w : Str) : ∃ rest, w = lineOf w ++ rest ∧ '\n' ∉ lineOf w ∧ LineEnd rest := by
  refine ⟨w.dropWhile (· != '\n'), by simp [lineOf], ?_, ?_⟩
  · intro h; exact not_nl_of_mem_lineOf h rfl
  · cases hd : w.dropWhile (· != '\n') with
    | nil => exact .inl rfl
    | cons c t =>
      have := dropWhile_head hd
      simp at this
      exact .inr ⟨t, by rw [this]⟩

theorem lineOf_append_end {l r : Str} (h : '\n' ∉ l) (hr : LineEnd r) : lineOf (l ++ r) = l := by
  unfold lineOf
  induction l with
  | nil =>
    rcases hr with rfl | ⟨t, rfl⟩ <;> simp
  | cons c t ih =>
    simp at h
    simp [Ne.symm h.1, ih h.2]

end Eno
