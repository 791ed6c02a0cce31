import Verif.Proofs.IndexRows

/-! # The contexts of parse errors -/

namespace Eno

open Spec

variable {input : Str} {ctx : Ctx} {B : List Base} {h h0 : Heap}

/-! ## After resolving -/

/-- The instructions of an element without its comments. -/
def Elem.rest (e : Elem) : List Base :=
  e.toBase :: ((e.continuations.getD []).map Cont.toBase ++ e.lines.getD [] ++ e.fin.toList ++ (e.items.getD []).flatMap Sub.bases ++ (e.entries.getD []).flatMap Sub.bases)

theorem bases_rest (e : Elem) : e.bases = (e.comments.getD []).map Comment.toBase ++ e.rest := by simp [Elem.bases, Elem.rest]

theorem still_rest {a b : Elem} (h : a.still = b.still) : a.rest = b.rest := by
  obtain ⟨_, e2, e3, e4, e5, e6, e7, _⟩ := still_elements h
  simp only [Elem.rest, e2, e3, e4, e5, e6, e7]

theorem shadow_bases_sub (ok : HeapOk h0) (S : Shadow h0 h) (b : Base) (hb : b ∈ h.tail.flatMap Elem.bases) : b ∈ h0.tail.flatMap Elem.bases := by
  rw [List.mem_flatMap] at hb ⊢
  obtain ⟨e, he, hb⟩ := hb
  obtain ⟨i, hi, hl, rfl⟩ := tail_mem he
  have hl0 : i < h0.length := by rw [← S.len]; exact hl
  rw [bases_rest, still_rest (S.own i), List.mem_append] at hb
  rcases hb with hb | hb
  · obtain ⟨j, hj⟩ := S.written i
    rw [hj] at hb
    have hj0 : 0 < j ∧ j < h0.length := by
      refine ⟨Nat.pos_of_ne_zero ?_, Nat.lt_of_not_le ?_⟩
      · rintro rfl; rw [ok.doc.2.2] at hb; simp at hb
      · intro hge; rw [Heap.at_ge hge] at hb; simp [Elem.document] at hb
    exact ⟨_, mem_tail hj0.1 hj0.2, by rw [bases_rest]; exact List.mem_append_left _ hb⟩
  · exact ⟨_, mem_tail hi hl0, by rw [bases_rest]; exact List.mem_append_right _ hb⟩

theorem shadow_bases_sup (S : Shadow h0 h) (b : Base) (hb : b ∈ h0.tail.flatMap Elem.bases) : b ∈ h.tail.flatMap Elem.bases := by
  rw [List.mem_flatMap] at hb ⊢
  obtain ⟨e, he, hb⟩ := hb
  obtain ⟨i, hi, hl0, rfl⟩ := tail_mem he
  have hl : i < h.length := by rw [S.len]; exact hl0
  refine ⟨_, mem_tail hi hl, ?_⟩
  rw [bases_rest, List.mem_append] at hb
  rw [bases_rest, still_rest (S.own i), List.mem_append]
  refine hb.imp ?_ id
  intro hb
  cases hc : (h0.at i).comments with
  | none => rw [hc] at hb; simp at hb
  | some cs => rw [hc] at hb; rw [S.kept i cs hc]; exact hb

theorem shadow_instructions (ok : HeapOk ctx.heap) (S : Shadow ctx.heap h) (b : Base) :
    b ∈ ({ ctx with heap := h } : Ctx).instructions ↔ b ∈ ctx.instructions := by
  simp only [Ctx.instructions, List.mem_append]
  exact or_congr ⟨shadow_bases_sub ok S b, shadow_bases_sup S b⟩ Iff.rfl

theorem Charted.shadow (C : Charted ctx B) (ok : HeapOk ctx.heap) (S : Shadow ctx.heap h) : Charted { ctx with heap := h } B :=
  ⟨C.sorted, C.ranges, C.below, C.text, fun b hb => C.all b ((shadow_instructions ok S b).1 hb),
    fun b hb => (C.hidden b hb).imp (shadow_instructions ok S b).2 id, C.rest, C.placed, C.counted, C.most, C.neat⟩

/-- A context whose instructions are all that is written. -/
structure Complete (ctx : Ctx) : Prop extends Reportable ctx where
  full : ∃ B, Charted ctx B ∧ ∀ b ∈ B, b ∈ ctx.instructions

/-! ## Successful analysis -/

theorem complete_analyze (h : analyze input = .ok ctx) : Complete ctx ∧ HeapOk ctx.heap ∧ ctx.input = input := by
  obtain ⟨es, n, s, ht, hL, inv, lay, rfl⟩ := analyze_facts h
  have C := charted_finished ht hL lay
  refine ⟨⟨⟨⟨_, inv.heap, Shadow.refl _⟩, ⟨_, C⟩⟩, ⟨_, C, ?_⟩⟩, inv.heap, rfl⟩
  intro b hb
  have fl := flat_ok es hL
  simp only [Ctx.instructions, ctxOf, layout_bases lay, metas_bases lay]
  rw [← List.append_assoc]
  exact fl.perm.mem_iff.2 hb

theorem complete_shadow (h : analyze input = .ok ctx) {h' : Heap} (S : Shadow ctx.heap h') : Complete { ctx with heap := h' } := by
  obtain ⟨c, ok, _⟩ := complete_analyze h
  obtain ⟨B, C, hB⟩ := c.full
  exact ⟨⟨⟨_, ok, S⟩, ⟨B, C.shadow ok S⟩⟩, B, C.shadow ok S, fun b hb => (shadow_instructions ok S b).2 (hB b hb)⟩

/-! ## Errors of the analysis -/

/-- The line that an error of the analysis is about. -/
structure Accused (input : Str) (ctx : Ctx) (b : Base) : Prop where
  source : ctx.input = input
  mem : b ∈ ctx.instructions
  range : b.range? .line = some b.span
  isLine : IsLine input b.span.1 b.span.2
  oneLine : NoNl input b.span.1 b.span.2

/-- The line without a type. -/
structure Untyped (ctx : Ctx) (x : Base) : Prop where
  mem : Meta.raw x none ∈ ctx.metas
  only : ∀ m ∈ ctx.metas, m.base.line = x.line → m = .raw x none
  before : ∀ y ∈ ctx.heap.tail.flatMap Elem.bases, y.line < x.line

theorem pieces_lines {stop : Nat} : ∀ {fuel index line : Nat} {ps : List Spot}, pieces input stop fuel index line = some ps →
    (∀ p ∈ ps, line ≤ p.1) ∧ ∀ p rest, ps = p :: rest → p.1 = line ∧ ∀ q ∈ rest, line < q.1
  | 0, _, _, _, h => by simp [pieces] at h
  | fuel + 1, index, line, ps, h => by
    unfold pieces at h
    split at h
    · injection h with h; subst h
      refine ⟨by simp, ?_⟩
      intro p rest e
      injection e with e1 e2; subst e1; subst e2
      simp
    · simp only [Option.map_eq_some_iff] at h
      obtain ⟨qs, hq, rfl⟩ := h
      have ih := (pieces_lines hq).1
      refine ⟨?_, ?_⟩
      · intro p hp
        rcases List.mem_cons.1 hp with rfl | hp
        · exact Nat.le_refl _
        · have := ih p hp; omega
      · intro p rest e
        injection e with e1 e2; subst e1; subst e2
        exact ⟨rfl, fun q hq => ih q hq⟩

theorem tokenize_untyped {s : AS} {i n : Nat} {x : Base} (h : tokenizeErrorContext input s i n = some (ctx, x)) (hm : ∀ m ∈ s.metas, m.base.line < n)
    (hh : ∀ y ∈ s.heap.tail.flatMap Elem.bases, y.line < n) : Untyped ctx x ∧ x.line = n := by
  unfold tokenizeErrorContext at h
  split at h
  · cases h
  · cases h
  · rename_i first rest hp
    injection h with h
    injection h with h1 h2
    obtain ⟨hf, hr⟩ := (pieces_lines hp).2 first rest rfl
    subst h1; subst h2
    refine ⟨⟨by simp, ?_, fun y hy => by have := hh y hy; simp only; omega⟩, hf⟩
    intro m hmm hl
    simp only [List.mem_append, List.mem_cons, List.mem_map] at hmm
    rcases hmm with hmm | rfl | ⟨p, hp, rfl⟩
    · have := hm m hmm; simp only at hl; omega
    · rfl
    · have := hr p hp; simp only [Meta.base] at hl; omega

theorem errorLine_head (i n : Nat) : ∃ ls, (place n i (splitNl (input.drop i))).map rawBase = errorLine input i n :: ls := by
  obtain ⟨ls, hl⟩ := splitNl_head (input.drop i)
  rw [hl]
  exact ⟨(place (n + 1) (i + (lineOf (input.drop i)).length + 1) ls).map rawBase, rfl⟩

theorem line_stop {i : Nat} (hi : i ≤ input.length) : i + (lineOf (input.drop i)).length ≤ input.length ∧
    (i + (lineOf (input.drop i)).length = input.length ∨ input[i + (lineOf (input.drop i)).length]? = some '\n') := by
  obtain ⟨r, hr⟩ := List.takeWhile_prefix (p := fun c => c != '\n') (l := input.drop i)
  have hlen : (lineOf (input.drop i)).length + r.length = input.length - i := by
    have := congrArg List.length hr
    simpa [lineOf] using this
  refine ⟨by omega, ?_⟩
  cases hr' : r with
  | nil => left; rw [hr'] at hlen; simp at hlen; omega
  | cons c t =>
    right
    have hdw : (input.drop i).dropWhile (fun c => c != '\n') = c :: t := by
      have e := List.takeWhile_append_dropWhile (p := fun c => c != '\n') (l := input.drop i)
      rw [← hr, hr'] at e
      have := hr
      have e2 : (input.drop i).takeWhile (fun c => c != '\n') ++ (input.drop i).dropWhile (fun c => c != '\n') =
          (input.drop i).takeWhile (fun c => c != '\n') ++ c :: t := by
        rw [List.takeWhile_append_dropWhile, ← hr']; exact hr.symm
      exact List.append_cancel_left e2
    have hc : c = '\n' := by
      have hh := List.head?_dropWhile_not (p := fun c => c != '\n') (l := input.drop i)
      rw [hdw] at hh
      simpa using hh
    have := congrArg (fun l => l[(lineOf (input.drop i)).length]?) hr
    simp only [List.getElem?_drop] at this
    rw [← this, hr', hc]
    exact List.getElem?_append_right (Nat.le_refl _) |>.trans (by simp)

/-- An error about the line where reading is. -/
theorem accused_line {es post : List Event} {r : Ending} {s : AS} {i n : Nat} (h : Trace input 0 0 (es ++ post) r) (hL : AllLegal es) (inv : Inv s)
    (lay : Layout es s) (hi : ∀ i' n', Trace input i' n' post r → i' = i ∧ n' = n) (hle : i < input.length) :
    Reportable (errorCtx input s i n) ∧ Accused input (errorCtx input s i n) (errorLine input i n) ∧
      Untyped (errorCtx input s i n) (errorLine input i n) := by
  have C := charted_error h hL lay hi hle
  obtain ⟨i', n', ht, hp⟩ := trace_prefix h
  obtain ⟨rfl, rfl⟩ := hi i' n' ht
  have hst := start_of_starts (hp.starts (.inl rfl)) hle
  obtain ⟨ls, hls⟩ := errorLine_head (input := input) i' n'
  have hstop := line_stop (input := input) (Nat.le_of_lt hle)
  refine ⟨⟨⟨_, inv.heap, Shadow.refl _⟩, _, C⟩, ⟨rfl, ?_, rfl, ⟨?_, hstop.1, hst, hstop.2⟩, noNl_line i'⟩, ?_⟩
  · rw [Ctx.instructions, errorCtx_metas, hls]; simp
  · simp [errorLine, Base.span, Base.range?]
  · refine (tokenize_untyped (tokenize_eq s (Nat.le_of_lt hle) n') ?_ ?_).1
    rotate_left
    · intro y hy
      rw [layout_bases lay] at hy
      exact (hp.bounds (spotOf y) (by rw [spots_bases]; exact List.mem_map_of_mem ((flat_ok es hL).sub.subset (List.mem_append_left _ hy)))).2.1
    intro m hm
    have : m.base ∈ basesOf es := by
      refine (flat_ok es hL).subLoose.subset (List.mem_append_left _ ?_)
      have hm' := List.mem_map_of_mem (f := Meta.base) hm
      rw [lay.metas] at hm'
      simpa [commentBases, Function.comp_def, Meta.base, List.map_flatMap] using hm'
    have hb := hp.bounds (spotOf m.base) (by rw [spots_bases]; exact List.mem_map_of_mem this)
    exact hb.2.1

theorem open_heap {s : AS} (inv : Inv s) (line index fin : Nat) (op key : Cap) : HeapOk (openMultiline s line index fin op key).heap := by
  refine inv.appendElem rfl rfl (by simp [Elem.isContainer]) ?_
  exact ⟨by simp, by simp, by simp, by simp, by simp, by simp, by simp, by simp, by simp, by simp, inv.comments, by simp, rfl, by simp, rfl, rfl, rfl⟩

/-- The field that is not terminated. -/
structure OpenField (h : Heap) (f : Nat) (b : Base) : Prop where
  lt : f < h.length
  type : (h.at f).type = .mlBegin
  lines : (h.at f).lines = none
  fin : (h.at f).fin = none
  base : (h.at f).toBase = b

/-- An error about a multiline field without end. -/
theorem accused_unterminated {es : List Event} {s : AS} {n i fin : Nat} {op key : Cap} {x : Base} (h : Trace input 0 0 es (.unterminated n i fin op key))
    (hL : AllLegal es) (inv : Inv s) (lay : Layout es s)
    (hx : tokenizeErrorContext input (openMultiline s n i fin op key) (fin + 1) (n + 1) = some (ctx, x)) :
    Reportable ctx ∧ Accused input ctx (pieceOf n i ⟨fin, .multiline op key⟩).toBase ∧ (Untyped ctx x ∧ x.line = n + 1) ∧
      OpenField ctx.heap ((blocks es).length + 1) (pieceOf n i ⟨fin, .multiline op key⟩).toBase := by
  obtain ⟨rest, C⟩ := charted_unterminated h hL inv lay hx
  obtain ⟨i', n', ht, hp⟩ := trace_prefix (post := []) (pre := es) (by simpa using h)
  obtain ⟨hlt, hsc⟩ : i < input.length ∧ scan i (input.drop i) = some ⟨fin, .multiline op key⟩ := by
    cases ht with
    | unterminated h1 h2 h3 => exact ⟨h1, h2⟩
  have hin : i' = i ∧ n' = n := by cases ht; exact ⟨rfl, rfl⟩
  obtain ⟨rfl, rfl⟩ := hin
  have hst := start_of_starts (hp.starts (.inl rfl)) hlt
  have hfin := scan_simple hsc rfl
  simp only at hfin
  have hstop := line_stop (input := input) (Nat.le_of_lt hlt)
  have hheap : ctx.heap = (openMultiline s n' i' fin op key).heap ∧ ctx.input = input := by
    unfold tokenizeErrorContext at hx
    split at hx
    · cases hx
    · cases hx
    · injection hx with hx
      injection hx with hx _
      rw [← hx]; exact ⟨rfl, rfl⟩
  have hlen : s.heap.length = (blocks es).length + 1 := by
    have := congrArg List.length lay.kinds
    have := inv.heap.pos
    simp at *; omega
  have hspan : (pieceOf n' i' ⟨fin, .multiline op key⟩).toBase.span = (i', fin) := rfl
  refine ⟨⟨⟨_, by rw [hheap.1]; exact open_heap inv _ _ _ _ _, Shadow.refl _⟩, _, C⟩, ⟨hheap.2, ?_, rfl, ?_, ?_⟩, ?_, ?_⟩
  · rw [Ctx.instructions, hheap.1, openMultiline_tail inv.heap.pos]; simp
  · rw [hspan, hfin]; exact ⟨by simp, hstop.1, hst, hstop.2⟩
  · rw [hspan, hfin]; exact noNl_line i'
  · refine tokenize_untyped hx ?_ ?_
    rotate_left
    · intro y hy
      rw [openMultiline_tail inv.heap.pos, layout_bases lay, lay.comments] at hy
      simp only [List.mem_append, List.mem_singleton] at hy
      have up : y ∈ basesOf es → y.line < n' + 1 := by
        intro hy
        have := (hp.bounds (spotOf y) (by rw [spots_bases]; exact List.mem_map_of_mem hy)).2.1
        simp only [spotOf] at this
        omega
      rcases hy with hy | hy | hy
      · exact up ((flat_ok es hL).sub.subset (List.mem_append_left _ hy))
      · refine up ((flat_ok es hL).sub.subset (List.mem_append_right _ ?_))
        rw [← commentBases_run]
        simpa [commentBases, Function.comp_def, List.map_flatMap] using hy
      · rw [hy]; exact Nat.lt_succ_self n'
    intro m hm
    have : m.base ∈ basesOf es := by
      refine (flat_ok es hL).subLoose.subset (List.mem_append_left _ ?_)
      have hm' := List.mem_map_of_mem (f := Meta.base) (show m ∈ s.metas from hm)
      rw [lay.metas] at hm'
      simpa [commentBases, Function.comp_def, Meta.base, List.map_flatMap] using hm'
    have hb := hp.bounds (spotOf m.base) (by rw [spots_bases]; exact List.mem_map_of_mem this)
    have := hb.2.1
    simp only [spotOf] at this
    omega
  · rw [hheap.1, ← hlen]
    have hl : (openMultiline s n' i' fin op key).heap.length = s.heap.length + 1 := append_length _ _ _
    have ha : (openMultiline s n' i' fin op key).heap.at s.heap.length =
      ({ line := n', ranges := [(.line, (i', fin)), (.multilineFieldOperator, op.span), (.key, key.span)]
         comments := s.comments, key := key.text, parent := some s.lastSection, type := .mlBegin } : Elem) := at_AS_append_last _ _ _
    exact ⟨by omega, by rw [ha], by rw [ha], by rw [ha], by rw [ha]; rfl⟩

/-- The line without a type: the one the error is about, or the one after the opening of an unterminated multiline field. -/
def Untypable (ctx : Ctx) (b : Base) : FailKind → Prop
  | .unterminatedMultilineField f => OpenField ctx.heap f b ∧ ∃ x, Untyped ctx x ∧ x.line = b.line + 1
  | _ => Untyped ctx b

/-- Every error of the analysis. -/
theorem analysis_context {k : FailKind} {b : Base} (h : analyze input = .error (.parse k ctx b)) : Reportable ctx ∧ Accused input ctx b ∧ Untypable ctx b k := by
  rcases analyze_error_cases h with ⟨pre, ev, post, r, s, ht, hL, _, hk, hs, rfl, rfl⟩ | ⟨es, n, i, s, ht, hL, rfl, hs, rfl, rfl⟩ |
      ⟨es, n, i, fin, op, key, s, x, ht, hL, rfl, hs, hx, rfl⟩
  · have hsh := trace_shaped ht
    obtain ⟨inv, lay⟩ := layout_runEvents pre (fun e he => hsh e (by simp [he])) hs
    obtain ⟨i', n', ht', _⟩ := trace_prefix ht
    have hat : ∀ i' n', Trace input i' n' (ev :: post) r → i' = ev.at.2 ∧ n' = ev.at.1 := by
      intro i' n' h
      cases h <;> exact ⟨rfl, rfl⟩
    obtain ⟨rfl, rfl⟩ := hat i' n' ht'
    have hlt : ev.at.2 < input.length := by
      generalize ev.at = q at ht'
      cases ht' <;> assumption
    obtain ⟨h1, h2, h3⟩ := accused_line ht hL inv lay hat hlt
    refine ⟨h1, h2, ?_⟩
    cases hr : ev.role <;> simp [rejection, hr] at hk <;> subst hk <;> exact h3
  · have hsh := trace_shaped ht
    obtain ⟨inv, lay⟩ := layout_runEvents es hsh hs
    obtain ⟨i', n', ht', _⟩ := trace_prefix (post := []) (pre := es) (by simpa using ht)
    have hlt : i < input.length := by cases ht' with | bad h1 h2 => exact h1
    exact accused_line (post := []) (by simpa using ht) hL inv lay (by intro i' n' h; cases h; exact ⟨rfl, rfl⟩) hlt
  · have hsh := trace_shaped ht
    obtain ⟨inv, lay⟩ := layout_runEvents es hsh hs
    obtain ⟨h1, h2, h3, h4⟩ := accused_unterminated ht hL inv lay hx
    exact ⟨h1, h2, h4, x, h3.1, h3.2⟩

end Eno
