import Verif.Proofs.LookupFacts
import Verif.Spec.Position

/-! # The range at a position, and the last line -/

namespace Eno

open Spec

variable {input : Str} {ctx ctx' : Ctx} {h : Heap} {i j n e : Nat} {r : Ref} {b : Base}

theorem rangeLoop_found (index : Int) (rs : Ranges) (n0 : RangeName) :
    (rangeLoop index rs (some n0) index = some n0 ∧ ∀ n r, (n, r) ∈ rs → n ≠ .line → (r.1 : Int) = index → ¬ index ≤ r.2) ∨
    ∃ n r, rangeLoop index rs (some n0) index = some n ∧ (n, r) ∈ rs ∧ n ≠ .line ∧ (r.1 : Int) = index ∧ index ≤ r.2 := by
  induction rs generalizing n0 with
  | nil => left; exact ⟨rfl, by simp⟩
  | cons x rs ih =>
    obtain ⟨n, r⟩ := x
    have step : ∀ m0, rangeLoop index rs (some m0) index = rangeLoop index ((n, r) :: rs) (some n0) index →
        (m0 = n0 ∧ (n ≠ .line → (r.1 : Int) = index → ¬ index ≤ r.2)) ∨ (m0 = n ∧ n ≠ .line ∧ (r.1 : Int) = index ∧ index ≤ r.2) →
        (rangeLoop index ((n, r) :: rs) (some n0) index = some n0 ∧ ∀ n' r', (n', r') ∈ (n, r) :: rs → n' ≠ .line → (r'.1 : Int) = index → ¬ index ≤ r'.2) ∨
        ∃ n' r', rangeLoop index ((n, r) :: rs) (some n0) index = some n' ∧ (n', r') ∈ (n, r) :: rs ∧ n' ≠ .line ∧ (r'.1 : Int) = index ∧ index ≤ r'.2 := by
      intro m0 he hm
      rw [← he]
      rcases ih m0 with ⟨h1, h2⟩ | ⟨n', r', h1, h2, h3⟩
      · rcases hm with ⟨rfl, hm⟩ | ⟨rfl, hm⟩
        · left
          refine ⟨h1, fun n' r' hmem => ?_⟩
          rcases List.mem_cons.1 hmem with q | q
          · injection q with q1 q2; subst q1; subst q2; exact hm
          · exact h2 n' r' q
        · right; exact ⟨_, r, h1, by simp, hm⟩
      · right; exact ⟨n', r', h1, List.mem_cons_of_mem _ h2, h3⟩
    by_cases hn : n = .line
    · exact step n0 (by rw [rangeLoop, if_pos hn]) (.inl ⟨rfl, fun q => absurd hn q⟩)
    · by_cases hc : index ≥ r.1 ∧ index ≤ r.2 ∧ (r.1 : Int) ≥ index
      · exact step n (by rw [rangeLoop, if_neg hn, if_pos hc]) (.inr ⟨rfl, hn, by omega, hc.2.1⟩)
      · exact step n0 (by rw [rangeLoop, if_neg hn, if_neg hc]) (.inl ⟨rfl, fun _ h1 h2 => hc ⟨by omega, h2, by omega⟩⟩)

theorem rangeLoop_spec (index : Int) (start : Nat) (rs : Ranges) (hs : ∀ n r, (n, r) ∈ rs → start ≤ r.1) :
    RangeAt rs index (rangeLoop index rs none start) := by
  induction rs with
  | nil => intro n r h; simp at h
  | cons x rs ih =>
    obtain ⟨n, r⟩ := x
    have ih := ih fun n r h => hs n r (List.mem_cons_of_mem _ h)
    have hr := hs n r (by simp)
    have skip : (n = .line ∨ ¬ ((r.1 : Int) ≤ index ∧ index ≤ r.2)) → RangeAt rs index (rangeLoop index rs none start) →
        RangeAt ((n, r) :: rs) index (rangeLoop index rs none start) := by
      intro hsk
      generalize rangeLoop index rs none start = o
      intro h
      cases o with
      | none =>
        intro n' r' hm hl
        rcases List.mem_cons.1 hm with q | q
        · injection q with q1 q2; subst q1; subst q2
          exact hsk.resolve_left hl
        · exact h n' r' q hl
      | some n' =>
        obtain ⟨h1, r', h2, h3, h4, h5⟩ := h
        refine ⟨h1, r', List.mem_cons_of_mem _ h2, h3, h4, ?_⟩
        rintro ⟨m, q, hm, hl, hq, hq2⟩
        rcases List.mem_cons.1 hm with hm | hm
        · injection hm with q1 q2; subst q1; subst q2
          exact absurd ⟨by omega, hq2⟩ (hsk.resolve_left hl)
        · exact h5 ⟨m, q, hm, hl, hq, hq2⟩
    by_cases hn : n = .line
    · rw [rangeLoop, if_pos hn]; exact skip (.inl hn) ih
    · by_cases hc : (r.1 : Int) ≤ index ∧ index ≤ r.2
      · rw [rangeLoop, if_neg hn, if_pos ⟨hc.1, hc.2, by omega⟩]
        rcases rangeLoop_found index rs n with ⟨h1, h2⟩ | ⟨n', r', h1, h2, h3, h4, h5⟩
        · rw [h1]
          refine ⟨hn, r, by simp, hc.1, hc.2, ?_⟩
          rintro ⟨m, q, hm, hl, hq, hq2⟩
          rcases List.mem_cons.1 hm with hm | hm
          · injection hm with q1 q2; subst q1; subst q2; exact hq
          · exact absurd hq2 (h2 m q hm hl hq)
        · rw [h1]
          exact ⟨h3, r', List.mem_cons_of_mem _ h2, by omega, h5, fun _ => h4⟩
      · rw [rangeLoop, if_neg hn, if_neg (fun q => hc ⟨q.1, q.2.1⟩)]; exact skip (.inr hc) ih


/-! ## Lines are below the line count -/

theorem trace_below {i n m : Nat} {es : List Event} (h : Trace input i n es (.finished m)) : n ≤ m ∧ ∀ x ∈ es.flatMap Event.spots, x.1 < m := by
  generalize hr : Ending.finished m = r at h
  induction h with
  | done => injection hr with hr; subst hr; simp
  | bad => simp at hr
  | unterminated => simp at hr
  | @line i n t es r hi hs ho _ ih =>
    obtain ⟨h1, h2⟩ := ih hr
    refine ⟨by omega, ?_⟩
    rw [List.flatMap_cons, spots_line]
    intro x hx
    rcases List.mem_append.1 hx with hx | hx
    · split at hx
      · simp at hx
      · rw [List.mem_singleton] at hx; subst hx; exact h1
    · exact h2 x hx
  | @multi i n fin op key T es r hi hs ht _ ih =>
    obtain ⟨h1, h2⟩ := ih hr
    have geo := multi_geo hi hs ht
    have g1 := geo.start
    have g2 := geo.opStart
    have g3 := geo.keyStart
    have g4 := geo.keyEnd
    have g5 := geo.fin_le
    have hB := fun p hp => mlBody_bounds (input := input) (n := n) (p := p) g1 (by omega) hp
    refine ⟨by omega, ?_⟩
    rw [List.flatMap_cons, spots_multi]
    intro x hx
    rcases List.mem_append.1 hx with hx | hx
    · rw [List.cons_append, List.mem_cons, List.mem_append, List.mem_singleton] at hx
      rcases hx with rfl | hx | rfl
      · simp only; omega
      · have := hB x hx; omega
      · simp only; omega
    · exact h2 x hx

/-- Every instruction lies on a line below the line count. -/
theorem line_below (ha : analyze input = .ok ctx) (hb : b ∈ ctx.instructions) : b.line < ctx.lineCount := by
  obtain ⟨es, n, s, ht, hL, inv, lay, rfl⟩ := analyze_facts ha
  have fl := flat_ok es hL
  simp only [Ctx.instructions, ctxOf, layout_bases lay, metas_bases lay] at hb
  rw [← List.append_assoc] at hb
  have hm := fl.perm.mem_iff.1 hb
  have hlt : b.line < n := by
    refine (trace_below ht).2 (spotOf b) ?_
    rw [spots_bases]; exact List.mem_map.2 ⟨b, hm, rfl⟩
  unfold ctxOf lineCountOf
  simp only
  split
  · rename_i q
    subst q
    cases ht with
    | done => omega
    | line hi => simp at hi
    | multi hi => simp at hi
  · split <;> omega

theorem load_meta (ha : analyze input = .ok ctx) (hl : load input = .ok ctx') : ctx'.metas = ctx.metas ∧ ctx'.lineCount = ctx.lineCount := by
  rcases load_cases ha with ⟨c, h1, _, _, h2, h3, _⟩ | ⟨x, h1, _⟩
  · rw [hl] at h1; injection h1 with h1; subst h1; exact ⟨h2, h3⟩
  · rw [hl] at h1; simp at h1

/-- What is true of the instructions of an element of a loaded document. -/
theorem row_facts (ha : analyze input = .ok ctx) (hl : load input = .ok ctx') (hi : 0 < i) (hil : i < ctx'.heap.length) (hb : b ∈ (ctx'.heap.at i).rows) :
    b ∈ ctx.instructions ∧ RangesOk input b ∧ b.line < ctx'.lineCount := by
  have hlen := load_length ha hl
  have hm : b ∈ ctx.instructions := by
    rw [hlen] at hil
    rw [(kept' ha hl hil).rows] at hb
    obtain ⟨hl', e⟩ := at_tail hi hil
    unfold Ctx.instructions
    exact List.mem_append_left _ (List.mem_flatMap.2 ⟨_, by rw [← e]; exact List.getElem_mem hl', (rows_sublist _).subset hb⟩)
  exact ⟨hm, C10_ranges ha b hm, by rw [(load_meta ha hl).2]; exact line_below ha hm⟩

theorem docType_loaded (ha : analyze input = .ok ctx) (hl : load input = .ok ctx') : (ctx'.heap.at 0).type = .document := (loaded ha hl).docType

theorem first_row (K : Kinds h) (hd : (Heap.at h 0).type = .document) (hf : FirstLine h r b) : ∃ i, 0 < i ∧ i < h.length ∧ b ∈ (Heap.at h i).rows := by
  cases hf with
  | @elem i hi hl => exact ⟨i, hi, hl, rows_head _⟩
  | @item i k xs x hl hx hk =>
    obtain ⟨hty, _, _⟩ := K.items i xs hl hx
    refine ⟨i, owner_pos hl (by rw [hty]; decide) hd, hl, ?_⟩
    simp only [Elem.rows, List.mem_append, List.mem_flatMap, hx]
    exact .inl (.inr ⟨x, List.mem_of_getElem? hk, sub_head x⟩)
  | @entry i k xs x hl hx hk =>
    obtain ⟨hty, _, _⟩ := K.entries i xs hl hx
    refine ⟨i, owner_pos hl (by rw [hty]; decide) hd, hl, ?_⟩
    simp only [Elem.rows, List.mem_append, List.mem_flatMap, hx]
    exact .inr ⟨x, List.mem_of_getElem? hk, sub_head x⟩

theorem further_row (K : Kinds h) (hd : (Heap.at h 0).type = .document) (hf : FurtherLine h r b) : ∃ i, 0 < i ∧ i < h.length ∧ b ∈ (Heap.at h i).rows := by
  cases hf with
  | @cont i cs c hl hcs hc =>
    obtain ⟨hty, _⟩ := K.conts i cs hl hcs
    refine ⟨i, owner_pos hl (by rw [hty]; decide) hd, hl, ?_⟩
    simp only [Elem.rows, List.mem_append, List.mem_cons, List.mem_map, hcs]
    exact .inl (.inl (.inl (.inl (.inr ⟨c, hc, rfl⟩))))
  | @line i ls b hl hls hb =>
    have hty := K.lines i hl (.inl (by rw [hls]; simp))
    refine ⟨i, owner_pos hl (by rw [hty]; decide) hd, hl, ?_⟩
    simp only [Elem.rows, List.mem_append, hls]
    exact .inl (.inl (.inl (.inr hb)))
  | @fin i b hl hf =>
    have hty := K.lines i hl (.inr (by rw [hf]; simp))
    refine ⟨i, owner_pos hl (by rw [hty]; decide) hd, hl, ?_⟩
    simp [Elem.rows, hf]
  | @item i k xs x cs c hl hx hk hlt hcs hc =>
    obtain ⟨hty, _, _⟩ := K.items i xs hl hx
    refine ⟨i, owner_pos hl (by rw [hty]; decide) hd, hl, ?_⟩
    simp only [Elem.rows, List.mem_append, List.mem_flatMap, hx]
    exact .inl (.inr ⟨x, List.mem_of_getElem? hk, sub_cont (by rw [hcs]; exact hc)⟩)
  | @entry i k xs x cs c hl hx hk hlt hcs hc =>
    obtain ⟨hty, _, _⟩ := K.entries i xs hl hx
    refine ⟨i, owner_pos hl (by rw [hty]; decide) hd, hl, ?_⟩
    simp only [Elem.rows, List.mem_append, List.mem_flatMap, hx]
    exact .inr ⟨x, List.mem_of_getElem? hk, sub_cont (by rw [hcs]; exact hc)⟩

/-! ## What `lookup` makes of what is found -/

theorem lookup_line_hit (hl : load input = .ok ctx') (hb : n < ctx'.lineCount) (hf : checkInSectionByLine ctx'.heap n (ctx'.heap.length + 1) 0 = .ok ⟨r, some b⟩)
    (c : Int) : lookup input (some n) (some c) none = .ok ⟨r, rangeLoop (b.span.1 + c) b.ranges none b.span.1⟩ := by
  unfold lookup
  rw [hl]
  simp only
  rw [if_neg (by omega), Int.toNat_natCast, hf]

theorem lookup_index_hit (hl : load input = .ok ctx') (hb : n ≤ input.length) (hf : checkInSectionByIndex ctx'.heap n (ctx'.heap.length + 1) 0 = .ok ⟨r, some b⟩)
    (l c : Option Int) : lookup input l c (some n) = .ok ⟨r, rangeLoop n b.ranges none b.span.1⟩ := by
  unfold lookup
  rw [hl]
  simp only
  rw [if_neg (by omega), Int.toNat_natCast, hf]

theorem range_spec (hr : RangesOk input b) (index : Int) : RangeAt b.ranges index (rangeLoop index b.ranges none b.span.1) :=
  rangeLoop_spec index _ _ fun n r h => (hr.within n r h).1

theorem multiline_sound_byLine {h : Heap} : Sound byLine n (h.at i).rows (checkMultilineByLine (.elem i) (h.at i) n) := by
  intro r b hb
  unfold checkMultilineByLine at hb
  cases hf : (h.at i).fin with
  | none => rw [hf] at hb; simp at hb
  | some f =>
    rw [hf] at hb
    simp only at hb
    split at hb
    · simp at hb
    · split at hb
      · rename_i h1
        simp only [Except.ok.injEq, Option.some.injEq, Hit.mk.injEq] at hb
        obtain ⟨_, rfl⟩ := hb
        exact ⟨rows_head _, Nat.le_of_eq h1.symm, Nat.le_of_eq h1⟩
      · split at hb
        · rename_i h1
          simp only [Except.ok.injEq, Option.some.injEq, Hit.mk.injEq] at hb
          obtain ⟨_, rfl⟩ := hb
          exact ⟨by simp [Elem.rows, hf], Nat.le_of_eq h1.symm, Nat.le_of_eq h1⟩
        · cases hls : (h.at i).lines with
          | none => rw [hls] at hb; simp at hb
          | some ls =>
            rw [hls] at hb
            simp only [Except.ok.injEq, Option.some.injEq, Hit.mk.injEq] at hb
            have h1 := List.find?_some hb.2
            have h2 := List.mem_of_find?_eq_some hb.2
            simp only [decide_eq_true_eq] at h1
            refine ⟨?_, Nat.le_of_eq h1, Nat.le_of_eq h1.symm⟩
            simp only [Elem.rows, List.mem_append, hls]
            exact .inl (.inl (.inl (.inr h2)))

/-! ## Witnesses -/

theorem firstLine_item {k : Nat} (hi : i < h.length) (hk : k < ((h.at i).items.getD []).length) : ∃ b, FirstLine h (.item i k) b := by
  cases hx : (h.at i).items with
  | none => rw [hx] at hk; simp at hk
  | some xs => rw [hx] at hk; exact ⟨_, .item hi hx (List.getElem?_eq_getElem hk)⟩

theorem furtherLine_item {k : Nat} (hi : i < h.length) (hk : k + 1 < ((h.at i).items.getD []).length)
    (hc : ((((h.at i).items.getD [])[k]?.bind Sub.continuations).getD []).length ≠ 0) : ∃ b, FurtherLine h (.item i k) b := by
  cases hx : (h.at i).items with
  | none => rw [hx] at hk; simp at hk
  | some xs =>
    rw [hx] at hk hc
    simp only [Option.getD_some] at hk hc
    rw [List.getElem?_eq_getElem (by omega)] at hc
    simp only [Option.bind_some] at hc
    cases hcs : (xs[k]).continuations with
    | none => rw [hcs] at hc; simp at hc
    | some cs =>
      rw [hcs] at hc
      cases cs with
      | nil => simp at hc
      | cons c cs => exact ⟨_, .item hi hx (List.getElem?_eq_getElem (by omega)) hk hcs (List.mem_cons_self)⟩

end Eno
