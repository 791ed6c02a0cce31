import Verif.Proofs.Shadow
import Verif.Proofs.NeatLines
import Verif.Proofs.ReportLemmas

/-! # The contexts that are reported about -/

namespace Eno

open Spec

variable {input : Str} {ctx : Ctx} {B : List Base}

/-- All instructions of a context are among `B`, one per line. -/
structure Charted (ctx : Ctx) (B : List Base) : Prop where
  sorted : B.Pairwise fun a b => a.line < b.line
  ranges : ∀ b ∈ B, b.range? .line = some b.span
  below : ∀ b ∈ B, b.line < ctx.lineCount
  text : (∀ b ∈ B, NoNl ctx.input b.span.1 b.span.2) → ∀ b ∈ B, sourceText ctx.input b = (splitNl ctx.input).getD b.line []
  all : ∀ b ∈ ctx.instructions, b ∈ B
  hidden : ∀ b ∈ B, b ∈ ctx.instructions ∨ (NoNl ctx.input b.span.1 b.span.2 ∧ IsCommentLine (sourceText ctx.input b))
  rest : (∀ b ∈ B, NoNl ctx.input b.span.1 b.span.2) → ∀ n, (∀ b ∈ B, b.line ≠ n) → ∀ c ∈ (splitNl ctx.input).getD n [], isSp c = true
  placed : ∀ b ∈ B, b.span.1 ≤ b.span.2 → IsLine ctx.input b.span.1 b.span.2
  counted : (∀ b ∈ B, NoNl ctx.input b.span.1 b.span.2) → ∀ b ∈ B, b.span.1 ≤ b.span.2 → b.line = nlBefore ctx.input b.span.1
  most : ∀ b ∈ B, b.span.1 ≤ b.span.2 → b.line ≤ nlBefore ctx.input b.span.1
  neat : Neat ctx.input → ∀ b ∈ B, NoNl ctx.input b.span.1 b.span.2

theorem Charted.same (C : Charted ctx B) {a b : Base} (ha : a ∈ B) (hb : b ∈ B) (h : a.line = b.line) : a = b := by
  obtain ⟨i, hi, rfl⟩ := List.getElem_of_mem ha
  obtain ⟨j, hj, rfl⟩ := List.getElem_of_mem hb
  have hp := List.pairwise_iff_getElem.1 C.sorted
  rcases Nat.lt_trichotomy i j with hij | hij | hij
  · have := hp i j hi hj hij; omega
  · subst hij; rfl
  · have := hp j i hj hi hij; omega

theorem piece_ranges {ev : Event} : ∀ p ∈ ev.pieces, p.toBase.range? .line = some p.toBase.span := by
  cases ev with
  | line n b t =>
    intro p hp
    unfold Event.pieces at hp
    simp only at hp
    split at hp
    · simp at hp
    · simp at hp; subst hp; rfl
  | multi n b fin op key body T =>
    intro p hp
    simp only [Event.pieces, List.mem_cons, List.mem_append, List.mem_map, List.cons_append, List.not_mem_nil, or_false] at hp
    rcases hp with rfl | ⟨q, hq, rfl⟩ | rfl <;> rfl

theorem basesOf_ranges {es : List Event} : ∀ b ∈ basesOf es, b.range? .line = some b.span := by
  intro b hb
  simp only [basesOf, List.mem_flatMap, List.mem_map] at hb
  obtain ⟨ev, _, p, hp, rfl⟩ := hb
  exact piece_ranges p hp

/-- The place of a character of a line. -/
theorem splitNl_place (w : Str) (n : Nat) (c : Char) (h : c ∈ (splitNl w).getD n []) : ∃ k, w[k]? = some c ∧ nlBefore w k = n ∧ c ≠ '\n' := by
  induction w generalizing n with
  | nil => cases n <;> simp [splitNl] at h
  | cons a t ih =>
    have nlS : ∀ k, nlBefore (a :: t) (k + 1) = (if a = '\n' then 1 else 0) + nlBefore t k := by
      intro k
      simp only [nlBefore, List.take_succ_cons, countNl]
      by_cases ha : a = '\n' <;> simp [ha]; omega
    by_cases ha : a = '\n'
    · rw [splitNl, if_pos ha] at h
      cases n with
      | zero => simp at h
      | succ n =>
        obtain ⟨k, h1, h2, h3⟩ := ih n (by simpa using h)
        exact ⟨k + 1, by simpa using h1, by rw [nlS, if_pos ha]; omega, h3⟩
    · rw [splitNl, if_neg ha] at h
      cases hs : splitNl t with
      | nil => exact absurd hs (splitNl_ne_nil t)
      | cons l ls =>
        rw [hs] at h
        cases n with
        | zero =>
          simp at h
          rcases h with rfl | h
          · exact ⟨0, by simp, by simp [nlBefore, countNl], ha⟩
          · obtain ⟨k, h1, h2, h3⟩ := ih 0 (by rw [hs]; simpa using h)
            exact ⟨k + 1, by simpa using h1, by rw [nlS, if_neg ha]; omega, h3⟩
        | succ n =>
          obtain ⟨k, h1, h2, h3⟩ := ih (n + 1) (by rw [hs]; simpa using h)
          exact ⟨k + 1, by simpa using h1, by rw [nlS, if_neg ha]; omega, h3⟩

/-- What passing over instructions tells about them. -/
theorem charted_of_passes {i n : Nat} (h : Passes input 0 0 (B.map spotOf) i n) (hr : ∀ b ∈ B, b.range? .line = some b.span)
    (hin : ctx.input = input) (hl : n ≤ ctx.lineCount) (ha : ∀ b ∈ ctx.instructions, b ∈ B)
    (hh : ∀ b ∈ B, b ∈ ctx.instructions ∨ (NoNl ctx.input b.span.1 b.span.2 ∧ IsCommentLine (sourceText ctx.input b))) (hi : input.length ≤ i)
    (hN : Neat input → ∀ b ∈ B, NoNl input b.span.1 b.span.2) : Charted ctx B := by
  have hB := fun b hb => h.bounds (spotOf b) (List.mem_map.2 ⟨b, hb, rfl⟩)
  refine ⟨?_, hr, ?_, ?_, ha, hh, ?_, ?_, ?_, ?_, by rw [hin]; exact hN⟩
  rotate_right 3
  · intro b hb _
    rw [hin]
    exact h.lines (.inl rfl) _ (List.mem_map.2 ⟨b, hb, rfl⟩)
  · intro hc b hb _
    rw [hin] at hc ⊢
    have c := h.clean (by simp [lineAt, nlBefore, countNl]) (by
      intro x hx
      obtain ⟨b, hb, rfl⟩ := List.mem_map.1 hx
      exact hc b hb)
    exact c.2 _ (List.mem_map.2 ⟨b, hb, rfl⟩)
  · intro b hb _
    rw [hin]
    exact (h.most (Nat.zero_le _)).2 _ (List.mem_map.2 ⟨b, hb, rfl⟩)
  · have := List.pairwise_map.1 h.sorted
    exact this.imp fun h => h.1
  · intro b hb
    have := (hB b hb).2.1
    simp only [spotOf] at this
    omega
  · intro hc b hb
    rw [hin] at hc ⊢
    have c := h.clean (by simp [lineAt, nlBefore, countNl]) (by
      intro x hx
      obtain ⟨b, hb, rfl⟩ := List.mem_map.1 hx
      exact hc b hb)
    have e := c.2 _ (List.mem_map.2 ⟨b, hb, rfl⟩)
    have l := h.lines (.inl rfl) _ (List.mem_map.2 ⟨b, hb, rfl⟩)
    have t := isLine_text l (hc b hb)
    simp only [spotOf] at e t
    rw [← e] at t
    rw [List.getD, t]
    rfl
  · intro hc m hm c hcm
    rw [hin] at hc hcm
    have cl := (h.clean (by simp [lineAt, nlBefore, countNl]) (by
      intro x hx
      obtain ⟨b, hb, rfl⟩ := List.mem_map.1 hx
      exact hc b hb)).2
    obtain ⟨k, h1, h2, _⟩ := splitNl_place _ _ _ hcm
    by_cases hw : isSp c = true
    · exact hw
    · exfalso
      have hk : k < input.length := (List.getElem?_eq_some_iff.1 h1).1
      obtain ⟨x, hx, h3, h4⟩ := h.covered k c (by omega) (by omega) h1 (by simpa using hw)
      obtain ⟨b, hb, rfl⟩ := List.mem_map.1 hx
      refine hm b hb ?_
      have := cl _ hx
      simp only [spotOf] at this h3 h4
      rw [this, ← h2]
      exact (nlBefore_mid (hc b hb) h3 (by omega)).symm

/-- The rest of the input as lines. -/
theorem passes_rest {i n : Nat} (hi : i ≤ input.length) (hs : i = 0 ∨ (0 < i ∧ input[i - 1]? = some '\n')) :
    Passes input i n (place n i (splitNl (input.drop i))) (input.length + 1) (n + (splitNl (input.drop i)).length) := by
  have hP := fun p (hp : p ∈ place n i (splitNl (input.drop i))) =>
    place_lines_of (input := input) (i := i) (j := input.length) (n := n) hi (Nat.le_refl _) hs (.inl rfl) (p := p) (by rw [List.take_length]; exact hp)
  refine ⟨by omega, by omega, ?_, place_sorted _ _ _, fun _ => .inr (.inr rfl), fun _ p hp => (hP p hp).1, ?_, ?_, ?_⟩
  rotate_right
  · intro hn
    rw [lineAt_le hi] at hn
    refine ⟨?_, fun x hx => (hP x hx).2.2.2.2.2.2 hn⟩
    have ha := nlBefore_add (input := input) i (input.length - i)
    rw [show i + (input.length - i) = input.length by omega] at ha
    rw [splitNl_length, lineAt, if_neg (by omega)]
    have e1 : nlBefore input input.length = countNl input := by simp [nlBefore]
    have e2 : (input.drop i).take (input.length - i) = input.drop i := by rw [List.take_of_length_le (by simp)]
    rw [e1, e2] at ha
    omega
  rotate_right
  · intro k c h1 h2 h3 h4
    have hk : k < input.length := (List.getElem?_eq_some_iff.1 h3).1
    have hd : (input.drop i)[k - i]? = some c := by rw [List.getElem?_drop, show i + (k - i) = k by omega]; exact h3
    have hg := List.getElem?_eq_some_iff.1 hd
    obtain ⟨p, hp, hp1, hp2⟩ := place_cover (input.drop i) n i (k - i) hg.1 (by
      rw [hg.2]; intro e; subst e; exact absurd h4 (by decide))
    exact ⟨p, hp, by omega, by omega⟩
  · intro x hx
    have hb := place_bounds _ _ _ _ hx
    obtain ⟨h1, _, h3, h4, h5, _, _⟩ := hP x hx
    have := h1.le
    exact ⟨h5, by omega, h3, this, by omega⟩
  · intro hn _
    rw [lineAt_le hi] at hn
    refine ⟨?_, fun x hx => (hP x hx).2.2.2.2.2.1 hn⟩
    have ha := nlBefore_add (input := input) i (input.length - i)
    rw [show i + (input.length - i) = input.length by omega] at ha
    rw [splitNl_length, lineAt, if_neg (by omega), hn]
    have e1 : nlBefore input input.length = countNl input := by simp [nlBefore]
    have e2 : (input.drop i).take (input.length - i) = input.drop i := by rw [List.take_of_length_le (by simp)]
    rw [e1, e2] at ha
    omega

theorem rawBase_spot (p : Spot) : spotOf (rawBase p) = p := rfl

theorem place_rawBase (ls : List Spot) : (ls.map rawBase).map spotOf = ls := by
  rw [List.map_map]; exact List.map_id'' rawBase_spot ls

theorem errorCtx_metas (s : AS) (i n : Nat) : (errorCtx input s i n).metas.map Meta.base =
    s.metas.map Meta.base ++ (place n i (splitNl (input.drop i))).map rawBase := by
  simp only [errorCtx, List.map_append, List.map_map]
  congr 1
  apply List.ext_getElem
  · simp
  · intro k h1 h2; simp [Meta.base]

/-- Pending comments hold no line feed. -/
theorem pending_clean {es es' : List Event} {r : Ending} (h : Trace input 0 0 es' r) (hs : ∀ ev ∈ es, ev ∈ es') {b : Base}
    (hb : b ∈ basesOf (commentRun es)) : NoNl input b.span.1 b.span.2 ∧ IsCommentLine (sourceText input b) := by
  simp only [basesOf, List.mem_flatMap] at hb
  obtain ⟨ev, hev, hb⟩ := hb
  refine trace_comments h ev (hs _ (commentRun_mem hev)) (commentRun_role es ev hev) (spotOf b) ?_
  have : spotOf b ∈ (basesOf [ev]).map spotOf := List.mem_map.2 ⟨b, by simpa [basesOf] using hb, rfl⟩
  rw [← spots_bases] at this
  simpa using this

theorem rest_noNl {i n : Nat} {b : Base} (hb : b ∈ (place n i (splitNl (input.drop i))).map rawBase) : NoNl input b.span.1 b.span.2 := by
  obtain ⟨p, hp, rfl⟩ := List.mem_map.1 hb
  obtain ⟨p1, p2, p3⟩ := place_isLine _ _ _ _ hp
  intro k k1 k2 hk
  have k1' : p.2.1 ≤ k := k1
  have k2' : k < p.2.2 := k2
  refine p3 (k - i) (by omega) (by omega) ?_
  rw [List.getElem?_drop, ← hk]; congr 1; omega

theorem basesOf_neat {es post : List Event} {r : Ending} (h : Trace input 0 0 (es ++ post) r) (hN : Neat input) : ∀ b ∈ basesOf es, NoNl input b.span.1 b.span.2 := by
  intro b hb
  have : spotOf b ∈ es.flatMap Event.spots := by rw [spots_bases]; exact List.mem_map.2 ⟨b, hb, rfl⟩
  obtain ⟨ev, hev, hx⟩ := List.mem_flatMap.1 this
  exact trace_neat hN h (.inr (.inl rfl)) ev (List.mem_append_left _ hev) _ hx

/-- The context of an error about a line. -/
theorem charted_error {es post : List Event} {r : Ending} {s : AS} {i n : Nat} (h : Trace input 0 0 (es ++ post) r) (hL : AllLegal es) (lay : Layout es s)
    (hi : ∀ i' n', Trace input i' n' post r → i' = i ∧ n' = n) (hle : i < input.length) :
    Charted (errorCtx input s i n) (basesOf es ++ (place n i (splitNl (input.drop i))).map rawBase) := by
  obtain ⟨i', n', ht, hp⟩ := trace_prefix h
  obtain ⟨rfl, rfl⟩ := hi i' n' ht
  have hst := start_of_starts (hp.starts (.inl rfl)) hle
  have hp2 := hp.trans (passes_rest (input := input) (Nat.le_of_lt hle) hst)
  rw [spots_bases, ← place_rawBase (place n' i' _), ← List.map_append] at hp2
  refine charted_of_passes hp2 ?_ rfl (by simp [errorCtx, place_length]) ?_ ?_ (by omega) (fun hN b hb =>
    (List.mem_append.1 hb).elim (basesOf_neat h hN b) rest_noNl)
  · intro b hb
    rcases List.mem_append.1 hb with hb | hb
    · exact basesOf_ranges b hb
    · obtain ⟨p, _, rfl⟩ := List.mem_map.1 hb; rfl
  rotate_left
  · intro b hb
    have fl := flat_ok es hL
    rw [Ctx.instructions, errorCtx_metas]
    simp only [List.mem_append] at hb ⊢
    rcases hb with hb | hb
    · rw [← fl.perm.mem_iff] at hb
      simp only [List.mem_append] at hb
      rcases hb with (hb | hb) | hb
      · left; left
        simp only [errorCtx, layout_bases lay]; exact hb
      · left; right; left
        rw [lay.metas]
        simpa [commentBases, Function.comp_def, Meta.base, List.map_flatMap] using hb
      · exact .inr (pending_clean h (fun ev hev => List.mem_append_left _ hev) hb)
    · exact .inl (.inr (.inr hb))
  · intro b hb
    have fl := flat_ok es hL
    rw [Ctx.instructions, errorCtx_metas] at hb
    simp only [List.mem_append] at hb ⊢
    rcases hb with hb | hb | hb
    · left; simp only [errorCtx, layout_bases lay] at hb
      exact fl.sub.subset (List.mem_append_left _ hb)
    · left
      rw [lay.metas] at hb
      refine fl.subLoose.subset (List.mem_append_left _ ?_)
      simpa [commentBases, Function.comp_def, Meta.base, List.map_flatMap] using hb
    · exact .inr hb

/-- The context of a finished analysis. -/
theorem charted_finished {es : List Event} {s : AS} {n : Nat} (h : Trace input 0 0 es (.finished n)) (hL : AllLegal es) (lay : Layout es s) :
    Charted (ctxOf input n s) (basesOf es) := by
  obtain ⟨i', n', ht, hp⟩ := trace_prefix (post := []) (pre := es) (by simpa using h)
  have hn : n' = n := by cases ht; rfl
  subst hn
  rw [spots_bases] at hp
  have fl := flat_ok es hL
  have hmem : ∀ b, b ∈ (ctxOf input n' s).instructions ↔ b ∈ basesOf es := by
    intro b
    simp only [Ctx.instructions, ctxOf, layout_bases lay, metas_bases lay]
    rw [← List.append_assoc]
    exact fl.perm.mem_iff
  refine charted_of_passes hp basesOf_ranges rfl ?_ (fun b hb => (hmem b).1 hb) (fun b hb => .inl ((hmem b).2 hb)) (by cases ht; assumption)
    (basesOf_neat (post := []) (by simpa using h))
  · unfold ctxOf lineCountOf
    simp only
    split
    · rename_i q
      subst q
      cases h with
      | done => omega
      | line hi => simp at hi
      | multi hi => simp at hi
    · split <;> omega

theorem openMultiline_tail {s : AS} (hp : 0 < s.heap.length) (n i fin : Nat) (op key : Cap) :
    (openMultiline s n i fin op key).heap.tail.flatMap Elem.bases =
      s.heap.tail.flatMap Elem.bases ++ ((s.comments.getD []).map Comment.toBase ++ [(pieceOf n i ⟨fin, .multiline op key⟩).toBase]) := by
  have e : ∀ e : Elem, e.core.bases = e.bases := fun _ => rfl
  have h1 : ∀ h : Heap, h.tail.flatMap Elem.bases = h.core.tail.flatMap Elem.bases := by
    intro h
    rw [flatMap_eq_flatten, flatMap_eq_flatten, map_core Elem.bases e]
  rw [h1, h1 s.heap]
  simp only [openMultiline]
  rw [core_append, tail_append (by rw [Heap.core_length]; exact hp), List.flatMap_append]
  congr 1
  simp [Elem.core, Elem.bases, pieceOf, rangesOf, at_, Cap.span]

/-- The context of an unterminated multiline field. -/
theorem charted_unterminated {es : List Event} {s : AS} {n i fin : Nat} {op key : Cap} {x : Base} (h : Trace input 0 0 es (.unterminated n i fin op key))
    (hL : AllLegal es) (inv : Inv s) (lay : Layout es s)
    (hx : tokenizeErrorContext input (openMultiline s n i fin op key) (fin + 1) (n + 1) = some (ctx, x)) :
    ∃ rest, Charted ctx (basesOf es ++ (pieceOf n i ⟨fin, .multiline op key⟩).toBase :: rest) := by
  obtain ⟨i', n', ht, hp⟩ := trace_prefix (post := []) (pre := es) (by simpa using h)
  obtain ⟨hlt, hsc⟩ : i < input.length ∧ scan i (input.drop i) = some ⟨fin, .multiline op key⟩ := by
    cases ht with
    | unterminated h1 h2 h3 => exact ⟨h1, h2⟩
  have hin : i' = i ∧ n' = n := by cases ht; exact ⟨rfl, rfl⟩
  obtain ⟨rfl, rfl⟩ := hin
  have hp2 := hp.trans (passes_line (n := n') hlt hsc)
  have tok := scan_ok (by omega) hsc
  have hfl := tok.fin_le
  simp only at hp2 hfl
  have e1 : es.flatMap Event.spots ++ (Event.line n' i' ⟨fin, .multiline op key⟩).spots =
      (basesOf es ++ [(pieceOf n' i' ⟨fin, .multiline op key⟩).toBase]).map spotOf := by
    rw [spots_line, if_neg (by simp), List.map_append, spots_bases]; rfl
  rw [e1] at hp2
  have hr : ∀ b ∈ basesOf es ++ [(pieceOf n' i' ⟨fin, .multiline op key⟩).toBase], b.range? .line = some b.span := by
    intro b hb
    rcases List.mem_append.1 hb with hb | hb
    · exact basesOf_ranges b hb
    · rw [List.mem_singleton] at hb; subst hb; rfl
  have fl := flat_ok es hL
  have hinst' : ∀ b, b ∈ basesOf es ++ [(pieceOf n' i' ⟨fin, .multiline op key⟩).toBase] →
      b ∈ (openMultiline s n' i' fin op key).heap.tail.flatMap Elem.bases ++ s.metas.map Meta.base := by
    intro b hb
    rw [openMultiline_tail inv.heap.pos, layout_bases lay, lay.comments, lay.metas]
    simp only [List.mem_append] at hb ⊢
    rcases hb with hb | hb
    · rw [← fl.perm.mem_iff] at hb
      simp only [List.mem_append] at hb
      rcases hb with (hb | hb) | hb
      · exact .inl (.inl hb)
      · right
        simpa [commentBases, Function.comp_def, Meta.base, List.map_flatMap] using hb
      · left; right; left
        rw [← commentBases_run] at hb
        simpa [commentBases, Function.comp_def, List.map_flatMap] using hb
    · exact .inl (.inr (.inr hb))
  have hinst : ∀ b, b ∈ (openMultiline s n' i' fin op key).heap.tail.flatMap Elem.bases ++ s.metas.map Meta.base →
      b ∈ basesOf es ++ [(pieceOf n' i' ⟨fin, .multiline op key⟩).toBase] := by
    intro b hb
    rw [openMultiline_tail inv.heap.pos, layout_bases lay, lay.comments, lay.metas] at hb
    simp only [List.mem_append] at hb ⊢
    rcases hb with (hb | hb | hb) | hb
    · exact .inl (fl.sub.subset (List.mem_append_left _ hb))
    · refine .inl (fl.sub.subset (List.mem_append_right _ ?_))
      rw [← commentBases_run]
      simpa [commentBases, Function.comp_def, List.map_flatMap] using hb
    · exact .inr hb
    · refine .inl (fl.subLoose.subset (List.mem_append_left _ ?_))
      simpa [commentBases, Function.comp_def, Meta.base, List.map_flatMap] using hb
  have hN : Neat input → ∀ b ∈ basesOf es ++ [(pieceOf n' i' ⟨fin, .multiline op key⟩).toBase], NoNl input b.span.1 b.span.2 := by
    intro hN b hb
    rcases List.mem_append.1 hb with hb | hb
    · exact basesOf_neat (post := []) (by simpa using h) hN b hb
    · rw [List.mem_singleton] at hb; subst hb
      show NoNl input i' fin
      have := scan_simple hsc rfl
      simp only at this
      rw [this]; exact noNl_line _
  by_cases hf : fin < input.length
  · have hnl := atEol_get tok.eol hf
    rw [tokenize_eq _ (show fin + 1 ≤ input.length by omega)] at hx
    injection hx with hx
    injection hx with hx _
    subst hx
    have hp3 := hp2.trans (passes_rest (input := input) (i := fin + 1) (n := n' + 1) hf (.inr ⟨by omega, hnl⟩))
    rw [← place_rawBase (place (n' + 1) (fin + 1) _), ← List.map_append] at hp3
    refine ⟨(place (n' + 1) (fin + 1) (splitNl (input.drop (fin + 1)))).map rawBase, ?_⟩
    have := charted_of_passes (ctx := errorCtx input (openMultiline s n' i' fin op key) (fin + 1) (n' + 1)) hp3 ?_ rfl
      (by simp [errorCtx, place_length]) ?_ ?_ (by omega) (fun q b hb => (List.mem_append.1 hb).elim (hN q b) rest_noNl)
    · simpa using this
    · intro b hb
      rcases List.mem_append.1 hb with hb | hb
      · exact hr b hb
      · obtain ⟨p, _, rfl⟩ := List.mem_map.1 hb; rfl
    · intro b hb
      rw [Ctx.instructions, errorCtx_metas, ← List.append_assoc] at hb
      rcases List.mem_append.1 hb with hb | hb
      · exact List.mem_append_left _ (hinst b hb)
      · exact List.mem_append_right _ hb
    · intro b hb
      left
      rw [Ctx.instructions, errorCtx_metas, ← List.append_assoc]
      rcases List.mem_append.1 hb with hb | hb
      · exact List.mem_append_left _ (hinst' b hb)
      · exact List.mem_append_right _ hb
  · have hfe : fin = input.length := by omega
    have hpc : pieces input input.length (input.length + 2) (fin + 1) (n' + 1) = some [(n' + 1, fin + 1, input.length)] := by
      unfold pieces findNl
      rw [List.take_length, List.drop_eq_nil_of_le (by omega)]
      rfl
    unfold tokenizeErrorContext at hx
    rw [hpc] at hx
    simp only [List.map_nil, List.length_nil, Nat.add_zero, Option.some.injEq, Prod.mk.injEq] at hx
    obtain ⟨hx, _⟩ := hx
    refine ⟨[rawBase (n' + 1, fin + 1, input.length)], ?_⟩
    have hch : Charted { ctx with metas := s.metas, lineCount := n' + 1 } (basesOf es ++ [(pieceOf n' i' ⟨fin, .multiline op key⟩).toBase]) := by
      refine charted_of_passes hp2 hr (by rw [← hx]) (Nat.le_refl _) ?_ ?_ (by omega) hN
      · intro b hb
        refine hinst b ?_
        rw [Ctx.instructions, ← hx] at hb
        exact hb
      · intro b hb
        left
        rw [Ctx.instructions, ← hx]
        exact hinst' b hb
    have hlc : ctx.lineCount = n' + 1 + 1 := by rw [← hx]
    have hci : ctx.input = input := by rw [← hx]
    have happ : basesOf es ++ (pieceOf n' i' ⟨fin, .multiline op key⟩).toBase :: [rawBase (n' + 1, fin + 1, input.length)] =
        (basesOf es ++ [(pieceOf n' i' ⟨fin, .multiline op key⟩).toBase]) ++ [rawBase (n' + 1, fin + 1, input.length)] := by simp
    rw [happ]
    have hph : ¬ (rawBase (n' + 1, fin + 1, input.length)).span.1 ≤ (rawBase (n' + 1, fin + 1, input.length)).span.2 := by
      simp [rawBase, Base.span, Base.range?, hfe]
    have hNeat : Neat ctx.input → ∀ b ∈ (basesOf es ++ [(pieceOf n' i' ⟨fin, .multiline op key⟩).toBase]) ++ [rawBase (n' + 1, fin + 1, input.length)],
        NoNl ctx.input b.span.1 b.span.2 := by
      rw [hci]
      intro q b hb
      rcases List.mem_append.1 hb with hb | hb
      · exact hN q b hb
      · rw [List.mem_singleton] at hb; subst hb
        intro k k1 k2
        omega
    refine ⟨?_, ?_, ?_, ?_, ?_, ?_, ?_, ?_, ?_, ?_, hNeat⟩
    rotate_right 4
    rotate_left
    · intro b hb hs
      rcases List.mem_append.1 hb with hb | hb
      · exact hch.placed b hb hs
      · rw [List.mem_singleton] at hb; subst hb; exact absurd hs hph
    · intro hc b hb hs
      rcases List.mem_append.1 hb with hb | hb
      · exact hch.counted (fun b hb => hc b (List.mem_append_left _ hb)) b hb hs
      · rw [List.mem_singleton] at hb; subst hb; exact absurd hs hph
    · intro b hb hs
      rcases List.mem_append.1 hb with hb | hb
      · exact hch.most b hb hs
      · rw [List.mem_singleton] at hb; subst hb; exact absurd hs hph
    rotate_right
    · intro hc m hm
      exact hch.rest (fun b hb => hc b (List.mem_append_left _ hb)) m (fun b hb => hm b (List.mem_append_left _ hb))
    · rw [List.pairwise_append]
      refine ⟨hch.sorted, by simp, ?_⟩
      intro a ha b hb
      rw [List.mem_singleton] at hb; subst hb
      exact hch.below a ha
    · intro b hb
      rcases List.mem_append.1 hb with hb | hb
      · exact hr b hb
      · rw [List.mem_singleton] at hb; subst hb; rfl
    · intro b hb
      rcases List.mem_append.1 hb with hb | hb
      · have := hch.below b hb
        simp only at this
        omega
      · rw [List.mem_singleton] at hb; subst hb; rw [hlc]; exact Nat.lt_succ_self _
    · intro hc b hb
      rcases List.mem_append.1 hb with hb | hb
      · exact hch.text (fun b hb => hc b (List.mem_append_left _ hb)) b hb
      · rw [List.mem_singleton] at hb; subst hb
        have c := (hp2.clean (by simp [lineAt, nlBefore, countNl]) (by
          intro x hx
          obtain ⟨b, hb, rfl⟩ := List.mem_map.1 hx
          have := hc b (List.mem_append_left _ hb)
          rw [hci] at this
          exact this)).1
        rw [lineAt, if_neg (by omega)] at c
        have hle : (splitNl input).length ≤ n' + 1 := by rw [splitNl_length]; omega
        rw [hci]
        show _ = (splitNl input).getD (n' + 1) []
        rw [List.getD, List.getElem?_eq_none hle]
        simp [sourceText, rawBase, Base.span, Base.range?, hfe]
    · intro b hb
      rw [Ctx.instructions, ← hx] at hb
      simp only [List.map_append, List.map_cons, List.map_nil, ← List.append_assoc] at hb
      rcases List.mem_append.1 hb with hb | hb
      · exact List.mem_append_left _ (hinst b hb)
      · exact List.mem_append_right _ hb
    · intro b hb
      left
      rw [Ctx.instructions, ← hx]
      simp only [List.map_append, List.map_cons, List.map_nil, ← List.append_assoc]
      rcases List.mem_append.1 hb with hb | hb
      · exact List.mem_append_left _ (hinst' b hb)
      · exact List.mem_append_right _ hb

end Eno
