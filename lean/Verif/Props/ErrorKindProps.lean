import Verif.Proofs.ErrorKinds
import Verif.Spec.Selection
import Verif.Spec.Reading

/-!
# Properties of errors about keys, values and comments

`FirstLine h r b` says that `r` is an element, item or entry, written with the instruction `b`.
-/

namespace Eno

open Spec

variable {input : Str} {ctx : Ctx} {o : Options} {r : Ref} {b : Base} {msg : Str}

/-! ## C60 -/

/-- An error about the key of an element or entry selects the key and emphasises its line. -/
theorem C60_key {k : Str} (hl : load input = .ok ctx) (hr : FirstLine ctx.heap r b) (hk : writtenKey ctx.heap r = some k) (ho : o.reporter ≠ .terminal) :
    ∃ e, keyError o ctx msg r = .ok e ∧ e.text = .keyError msg ∧ Selects b.span.1 b.span.2 e.selection ∧ e.selection.start.line = b.line ∧
      slice input e.selection.start.index e.selection.stop.index = k ∧
      (o.reporter = .text → SnippetShows o input ctx.lineCount e.snippet (· = b.line) fun _ => False) := by
  obtain ⟨C, hin, S⟩ := loaded_all hl
  have W := load_written hl hr
  obtain ⟨B, c⟩ := C.chart
  obtain ⟨out, h1, h2⟩ := shows_line (o := o) C hin (c.below _ (c.all _ (firstLine_mem S C.grown.doc hr))) ho
  obtain ⟨sel, h3, h4, h5, h6⟩ := selects_text W.ranges (W.key k hk)
  refine ⟨⟨.keyError msg, out, sel⟩, ?_, rfl, h4, h5, h6, h2⟩
  unfold keyError selectKey
  simp only [base?_ok S hr, h1, h3, bind, Except.bind]

/-- Sample for the hypotheses: an entry and an element with escaped key. -/
example : ∃ ctx, load (chars!"`a` :\n`b` = 1") = .ok ctx ∧ FirstLine ctx.heap (.elem 1) (ctx.heap.at 1).toBase ∧ writtenKey ctx.heap (.elem 1) = some (chars!"a") ∧
    writtenKey ctx.heap (.entry 1 0) = some (chars!"b") := by
  obtain ⟨ctx, h, h1, h2, h3⟩ : ∃ c, load (chars!"`a` :\n`b` = 1") = .ok c ∧ 1 < c.heap.length ∧ writtenKey c.heap (.elem 1) = some (chars!"a") ∧
      writtenKey c.heap (.entry 1 0) = some (chars!"b") := by
    refine ⟨_, rfl, ?_⟩; decide +kernel
  exact ⟨ctx, h, .elem (by omega) h1, h2, h3⟩

/-- Items have no key; an error about it is a `KeyError`. -/
theorem C60_key_item {i k : Nat} (hl : load input = .ok ctx) (hr : FirstLine ctx.heap (.item i k) b) (ho : o.reporter ≠ .terminal) :
    keyError o ctx msg (.item i k) = .error .keyError := by
  obtain ⟨C, hin, S⟩ := loaded_all hl
  have W := load_written hl hr
  obtain ⟨B, c⟩ := C.chart
  obtain ⟨out, h1, h2⟩ := shows_line (o := o) C hin (c.below _ (c.all _ (firstLine_mem S C.grown.doc hr))) ho
  have hn : b.range? .key = none := by
    cases q : b.range? .key with
    | none => rfl
    | some p =>
      have := (hasRanges_iff (W.item i k rfl) .key).1 (by rw [q]; rfl)
      cases hv : lineValue ctx.heap (.item i k) <;> simp [valueNames, hv] at this
  unfold keyError selectKey selection cursor
  simp only [base?_ok S hr, h1, hn, bind, Except.bind]

/-- Sample for the hypotheses: an item, with and without comment lines before it. -/
theorem item_sample : ∃ ctx b b', load (chars!"l:\n> c\n> d\n- x\n- y") = .ok ctx ∧ FirstLine ctx.heap (.item 1 0) b ∧ FirstLine ctx.heap (.item 1 1) b' ∧
    (ctx.heap.comments (.item 1 0)).map (·.length) = some 2 ∧ ctx.heap.comments (.item 1 1) = none ∧ ctx.heap.type (.item 1 0) = .listItem ∧
    ctx.heap.mirror? (.item 1 0) = none ∧ ctx.heap.type (.elem 1) = .list := by
  obtain ⟨ctx, h, h1, h2, h3⟩ : ∃ c, load (chars!"l:\n> c\n> d\n- x\n- y") = .ok c ∧ 1 < c.heap.length ∧ 1 < ((c.heap.at 1).items.getD []).length ∧
      (c.heap.comments (.item 1 0)).map (·.length) = some 2 ∧ c.heap.comments (.item 1 1) = none ∧ c.heap.type (.item 1 0) = .listItem ∧
      c.heap.mirror? (.item 1 0) = none ∧ c.heap.type (.elem 1) = .list := by
    refine ⟨_, rfl, ?_⟩; decide +kernel
  cases hx : (ctx.heap.at 1).items with
  | none => rw [hx] at h2; simp at h2
  | some xs =>
    rw [hx, Option.getD_some] at h2
    exact ⟨ctx, _, _, h, .item h1 hx (List.getElem?_eq_getElem (by omega)), .item h1 hx (List.getElem?_eq_getElem h2), h3⟩

example : ∃ ctx b, load (chars!"l:\n> c\n> d\n- x\n- y") = .ok ctx ∧ FirstLine ctx.heap (.item 1 0) b := by
  obtain ⟨ctx, b, _, h, hb, _⟩ := item_sample
  exact ⟨ctx, b, h, hb⟩

/-- An error about a missing comment selects nothing, at the beginning of the line of the element, and emphasises that line. -/
theorem C60_missing_comment (hl : load input = .ok ctx) (hr : FirstLine ctx.heap r b) (ho : o.reporter ≠ .terminal) :
    ∃ e, missingComment o ctx r = .ok e ∧ e.text = .missingComment ∧ e.selection = ⟨⟨0, b.span.1, b.line⟩, ⟨0, b.span.1, b.line⟩⟩ ∧
      (o.reporter = .text → SnippetShows o input ctx.lineCount e.snippet (· = b.line) fun _ => False) := by
  obtain ⟨C, hin, S⟩ := loaded_all hl
  have W := load_written hl hr
  obtain ⟨B, c⟩ := C.chart
  obtain ⟨out, h1, h2⟩ := shows_line (o := o) C hin (c.below _ (c.all _ (firstLine_mem S C.grown.doc hr))) ho
  refine ⟨⟨.missingComment, out, ⟨⟨0, b.span.1, b.line⟩, ⟨0, b.span.1, b.line⟩⟩⟩, ?_, rfl, rfl, h2⟩
  unfold missingComment selection cursor
  simp only [base?_ok S hr, h1, W.ranges.line, bind, Except.bind, Side.of, Int.sub_self]

example : ∃ ctx b, load (chars!"l:\n> c\n> d\n- x\n- y") = .ok ctx ∧ FirstLine ctx.heap (.item 1 1) b := by
  obtain ⟨ctx, _, b, h, _, hb, _⟩ := item_sample
  exact ⟨ctx, b, h, hb⟩

/-- An error about the comments of an element, item or entry can be made if there are any. It emphasises their lines and indicates that of the element. It selects the text of
a single comment, or the whole lines of several comments. -/
theorem C60_comment {cs : List Comment} (hl : load input = .ok ctx) (hr : FirstLine ctx.heap r b) (hc : ctx.heap.comments r = some cs) (ho : o.reporter ≠ .terminal) :
    ∃ e, commentError o ctx msg r = .ok e ∧ e.text = .commentError msg ∧
      (∀ c t, cs = [c] → c.comment = some t → Selects c.span.1 c.span.2 e.selection ∧ e.selection.start.line = c.line ∧ slice input e.selection.start.index e.selection.stop.index = t) ∧
      (∀ c, cs = [c] → c.comment = none → e.selection = ⟨positionOn c.toBase c.span.1, positionOn c.toBase c.span.2⟩) ∧
      (∀ c cs' d, cs = c :: cs' → cs'.getLast? = some d → e.selection = ⟨positionOn c.toBase c.span.1, positionOn d.toBase d.span.2⟩) ∧
      (o.reporter = .text → SnippetShows o input ctx.lineCount e.snippet (fun n => ∃ c ∈ cs, c.line = n) (· = b.line)) := by
  obtain ⟨C, hin, S⟩ := loaded_all hl
  obtain ⟨hne, F⟩ := comment_facts hl hr hc
  obtain ⟨B, ch⟩ := C.chart
  obtain ⟨out, h1, h2⟩ := shows_comments (o := o) (cs := cs) C hin (ch.below _ (ch.all _ (firstLine_mem S C.grown.doc hr))) (fun c hc => (F c hc).2.2) ho
  have fin : ∀ sel, selectComments b (some cs) = .ok sel → commentError o ctx msg r = .ok ⟨.commentError msg, out, sel⟩ := by
    intro sel hs
    unfold commentError
    simp only [base?_ok S hr, hc, h1, hs, bind, Except.bind]
  match cs, hne with
  | [c], _ =>
    obtain ⟨R, T, _⟩ := F c (by simp)
    cases hq : c.comment with
    | some t =>
      obtain ⟨sel, h3, h4, h5, h6⟩ := selects_text R (T t hq)
      refine ⟨_, fin sel (by simp only [selectComments, hq, Option.isSome_some, if_true]; exact h3), rfl, ?_, ?_, ?_, h2⟩
      · rintro _ t' ⟨⟩ ht'; rw [hq] at ht'; injection ht' with ht'; subst ht'; exact ⟨h4, h5, h6⟩
      · rintro _ ⟨⟩ hn; rw [hq] at hn; cases hn
      · rintro _ _ d ⟨⟩ hd; cases hd
    | none =>
      refine ⟨_, fin ⟨positionOn c.toBase c.span.1, positionOn c.toBase c.span.2⟩ ?_, rfl, ?_, ?_, ?_, h2⟩
      · simp only [selectComments, hq, selection, cursor_position R R.line, bind, Except.bind, Side.of]
        rfl
      · rintro _ t' ⟨⟩ ht'; rw [hq] at ht'; cases ht'
      · rintro _ ⟨⟩ _; rfl
      · rintro _ _ d ⟨⟩ hd; cases hd
  | c :: d :: ds, _ =>
    have hlast : (d :: ds).getLast? = some ((d :: ds).getLast (by simp)) := List.getLast?_eq_some_getLast (by simp)
    have R := (F c (by simp)).1
    have R' := (F ((d :: ds).getLast (by simp)) (List.mem_cons_of_mem _ (List.getLast_mem _))).1
    refine ⟨_, fin ⟨positionOn c.toBase c.span.1, positionOn ((d :: ds).getLast (by simp)).toBase ((d :: ds).getLast (by simp)).span.2⟩ ?_, rfl, ?_, ?_, ?_, h2⟩
    · simp only [selectComments, selection, cursor_position R R.line, cursor_position R' R'.line, bind, Except.bind, Side.of]
    · rintro _ t' ⟨⟩
    · rintro _ ⟨⟩
    · rintro _ _ x ⟨⟩ hx; rw [hlast] at hx; injection hx with hx; subst hx; rfl

example : ∃ ctx b cs, load (chars!"l:\n> c\n> d\n- x\n- y") = .ok ctx ∧ FirstLine ctx.heap (.item 1 0) b ∧ ctx.heap.comments (.item 1 0) = some cs ∧ cs.length = 2 := by
  obtain ⟨ctx, b, _, h, hb, _, hc, _⟩ := item_sample
  obtain ⟨cs, h1, h2⟩ := Option.map_eq_some_iff.1 hc
  exact ⟨ctx, b, cs, h, hb, h1, h2⟩

/-- Without comments it is a `KeyError`. -/
theorem C60_comment_none (hl : load input = .ok ctx) (hr : FirstLine ctx.heap r b) (hc : ctx.heap.comments r = none) :
    commentError o ctx msg r = .error .keyError := by
  obtain ⟨C, hin, S⟩ := loaded_all hl
  obtain ⟨B, ch⟩ := C.chart
  have hb := ch.below _ (ch.all _ (firstLine_mem S C.grown.doc hr))
  have hp := put_ok (l := List.replicate ctx.lineCount (none : Option Tag)) (n := b.line) (x := Tag.indicate) (by simpa using hb)
  have := snippet_error (report := reportComments b none) (py := .keyError) C (by unfold reportComments; simp only [hp, bind, Except.bind]) o
  unfold commentError
  simp only [base?_ok S hr, hc, this, bind, Except.bind]

example : ∃ ctx b, load (chars!"l:\n> c\n> d\n- x\n- y") = .ok ctx ∧ FirstLine ctx.heap (.item 1 1) b ∧ ctx.heap.comments (.item 1 1) = none := by
  obtain ⟨ctx, _, b, h, _, hb, _, hc, _⟩ := item_sample
  exact ⟨ctx, b, h, hb, hc⟩

/-- An error about a missing value of a field, an empty element, an item or an entry: the message names the field, the list or the entry, the selection goes from behind the
operator (or the template) to the end of the line, or of the last continuation of a field. The lines of the element are marked. -/
theorem C60_missing_value (hl : load input = .ok ctx) (hr : FirstLine ctx.heap r b) (ho : o.reporter ≠ .terminal)
    (ht : ctx.heap.type r ∈ [Ty.field, .empty, .mlBegin, .listItem, .fieldsetEntry]) :
    ∃ e p last, missingValue o ctx r = .ok e ∧ e.text = missingText ctx.heap r ∧ b.range? (gapAfter ctx.heap r) = some p ∧
      e.selection = ⟨positionOn b p.2, textEnd b (if ctx.heap.type r = .field then lineConts ctx.heap r else [])⟩ ∧ RefEnds ctx.heap r last ∧
      (o.reporter = .text → SnippetShows o input ctx.lineCount e.snippet (· = b.line) fun n => b.line < n ∧ n ≤ last) := by
  obtain ⟨C, hin, S⟩ := loaded_all hl
  have W := load_written hl hr
  have hbase := base?_ok S hr
  have hsec : ∀ i, r = .elem i → (ctx.heap.at i).type ≠ .section := by
    rintro i rfl q
    simp only [Heap.type, q] at ht
    simp at ht
  obtain ⟨out, last, h1, h2, h3⟩ := shows_element (o := o) C hin S hr (not_stuck_of S hr hsec) ho
  have endb : cursor b .line .ending = .ok (positionOn b b.span.2) := cursor_position W.ranges W.ranges.line
  cases r with
  | elem i =>
    obtain ⟨h0, hi⟩ : 0 < i ∧ i < ctx.heap.length := by cases hr with | elem a b => exact ⟨a, b⟩
    obtain ⟨_, esc, hn⟩ := W.elem i rfl
    have isSome : ∀ m, m ∉ [RangeName.line, .key, .escapeBeginOperator, .escapeEndOperator] → ((b.range? m).isSome ↔ m ∈ elementNames (ctx.heap.at i)) := by
      intro m hm
      rw [hasRanges_iff hn]
      simp only [List.mem_cons, List.mem_append, not_or] at hm ⊢
      have : m ∉ escapeNames esc := by cases esc <;> simp [escapeNames, hm]
      simp [hm, this]
    simp only [Heap.type] at ht hsec
    have hns := hsec i rfl
    have htm : (ctx.heap.at i).type = .mlBegin → (ctx.heap.at i).template = none := fun q => (multiline_facts hl h0 hi q).2.1
    have hstart : ∃ p, b.range? (gapAfter ctx.heap (.elem i)) = some p ∧
        (if (b.range? .template).isSome then cursor b .template .ending else if (b.range? .elementOperator).isSome then cursor b .elementOperator .ending
          else cursor b .line .ending) = .ok (positionOn b p.2) := by
      have i1 := isSome .template (by simp)
      have i2 := isSome .elementOperator (by simp)
      cases hq : (ctx.heap.at i).template with
      | some t =>
        have hml : (ctx.heap.at i).type ≠ .mlBegin := by intro q; rw [htm q] at hq; cases hq
        have : (b.range? .template).isSome := by
          rw [i1]; unfold elementNames; rw [hq]
          split <;> simp_all
        obtain ⟨p, hp⟩ := Option.isSome_iff_exists.1 this
        refine ⟨p, by simp only [gapAfter, hq, Option.isSome_some, if_true]; exact hp, ?_⟩
        rw [if_pos this]; exact cursor_position W.ranges hp
      | none =>
        have hno : ¬ (b.range? .template).isSome := by
          rw [i1]; unfold elementNames; rw [hq]
          split <;> simp_all [valueNames]
        rw [if_neg hno]
        by_cases hml : (ctx.heap.at i).type = .mlBegin
        · have : ¬ (b.range? .elementOperator).isSome := by
            rw [i2]; unfold elementNames; rw [hq, hml]; simp
          rw [if_neg this]
          exact ⟨b.span, by simp only [gapAfter, hq, hml]; exact W.ranges.line, endb⟩
        · have : (b.range? .elementOperator).isSome := by
            rw [i2]; unfold elementNames; rw [hq]
            split <;> simp_all
          obtain ⟨p, hp⟩ := Option.isSome_iff_exists.1 this
          refine ⟨p, by simp only [gapAfter, hq]; simp [hml, hp], ?_⟩
          rw [if_pos this]; exact cursor_position W.ranges hp
    obtain ⟨p, hp, hst⟩ := hstart
    have hstop : (match (ctx.heap.at i).type, (ctx.heap.at i).continuations with
      | .field, some cs =>
        match cs.getLast? with
        | some c => cursor c.toBase .line .ending
        | none => .error .indexError
      | _, _ => cursor b .line .ending : Except PyExc Cursor) = .ok (textEnd b (if (ctx.heap.at i).type = .field then lineConts ctx.heap (.elem i) else [])) := by
      simp only [lineConts]
      by_cases hf : (ctx.heap.at i).type = .field
      · rw [if_pos hf, hf]
        cases hc : (ctx.heap.at i).continuations with
        | none => simp only [Option.getD_none, textEnd, List.getLast?_nil]; exact endb
        | some cs =>
          simp only [Option.getD_some, textEnd]
          cases hx : cs.getLast? with
          | none =>
            have := List.getLast?_eq_none_iff.1 hx
            exact absurd this (S.kinds.conts i cs hi hc).2
          | some c =>
            have R := W.conts c (by simp only [lineConts, hc, Option.getD_some]; exact List.mem_of_getLast? hx)
            exact cursor_position R R.line
      · rw [if_neg hf]
        simp only [textEnd, List.getLast?_nil]
        split
        · rename_i q _; exact absurd q hf
        · exact endb
    refine ⟨⟨.missingFieldValue (ctx.heap.at i).key, out, positionOn b p.2, textEnd b (if (ctx.heap.at i).type = .field then lineConts ctx.heap (.elem i) else [])⟩, p, last, ?_, rfl, hp, rfl, h1, h3⟩
    have hty : (ctx.heap.at i).type = .field ∨ (ctx.heap.at i).type = .empty ∨ (ctx.heap.at i).type = .mlBegin := by
      have := S.types i h0 hi
      simp only [List.mem_cons, List.not_mem_nil, or_false] at this ht
      rcases this with q | q | q | q | q | q <;> rw [q] at ht ⊢ <;> simp_all
    unfold missingValue
    simp only [hbase, if_pos hty, h2, bind, Except.bind]
    have hst2 : ∀ f : Cursor → Except PyExc (Msg × Cursor), (if (b.range? .template).isSome then (cursor b .template .ending).bind f
        else if (b.range? .elementOperator).isSome then (cursor b .elementOperator .ending).bind f else (cursor b .line .ending).bind f) = f (positionOn b p.2) := by
      intro f
      split at hst
      · rename_i q; rw [if_pos q, hst]; rfl
      · rename_i q
        rw [if_neg q]
        split at hst
        · rename_i q; rw [if_pos q, hst]; rfl
        · rename_i q; rw [if_neg q, hst]; rfl
    have two : ∀ (A : Except PyExc (Msg × Cursor)) (Z : Except PyExc Cursor) {m c w}, A = .ok (m, c) → Z = .ok w →
        (A.bind fun v => Z.bind fun w => .ok (ErrObj.mk v.1 out ⟨v.2, w⟩)) = .ok ⟨m, out, c, w⟩ := by
      rintro _ _ m c w rfl rfl; rfl
    exact two _ _ (hst2 fun v => .ok (.missingFieldValue (ctx.heap.at i).key, v)) hstop
  | item i k =>
    have : (b.range? .itemOperator).isSome := (hasRanges_iff (W.item i k rfl) _).2 (by simp)
    obtain ⟨p, hp⟩ := Option.isSome_iff_exists.1 this
    refine ⟨⟨.missingListItemValue (ctx.heap.at i).key, out, positionOn b p.2, positionOn b b.span.2⟩, p, last, ?_, rfl, hp, rfl, h1, h3⟩
    unfold missingValue
    simp only [hbase, cursor_position W.ranges hp, h2, endb, bind, Except.bind, Side.of]
  | entry i k =>
    obtain ⟨hkey, esc, hn⟩ := W.entry i k rfl
    have : (b.range? .entryOperator).isSome := (hasRanges_iff hn _).2 (by simp)
    obtain ⟨p, hp⟩ := Option.isSome_iff_exists.1 this
    obtain ⟨t, hk⟩ := Option.isSome_iff_exists.1 hkey
    have hk' : ctx.heap.key? (.entry i k) = some t := hk
    refine ⟨⟨.missingFieldsetEntryValue t, out, positionOn b p.2, positionOn b b.span.2⟩, p, last, ?_, by simp only [missingText, hk, Option.getD_some], hp, rfl, h1, h3⟩
    unfold missingValue
    simp only [hbase, hk', cursor_position W.ranges hp, h2, endb, bind, Except.bind, Side.of]

example : ∃ ctx b, load (chars!"l:\n> c\n> d\n- x\n- y") = .ok ctx ∧ FirstLine ctx.heap (.item 1 0) b ∧
    ctx.heap.type (.item 1 0) ∈ [Ty.field, .empty, .mlBegin, .listItem, .fieldsetEntry] := by
  obtain ⟨ctx, b, _, h, hb, _, _, _, ht, _⟩ := item_sample
  exact ⟨ctx, b, h, hb, by rw [ht]; decide⟩

/-- For other elements it is an `UnboundLocalError`. -/
theorem C60_missing_value_other (hl : load input = .ok ctx) (hr : FirstLine ctx.heap r b) (ht : ctx.heap.type r ∉ [Ty.field, .empty, .mlBegin, .listItem, .fieldsetEntry]) :
    missingValue o ctx r = .error .unboundLocalError := by
  obtain ⟨C, hin, S⟩ := loaded_all hl
  cases r with
  | elem i =>
    simp only [Heap.type, List.mem_cons, not_or] at ht
    unfold missingValue
    simp only [base?_ok S hr, bind, Except.bind]
    rw [if_neg (by simp [ht])]
  | item => simp [Heap.type] at ht
  | entry => simp [Heap.type] at ht

example : ∃ ctx b, load (chars!"a:\nb:\n- x") = .ok ctx ∧ FirstLine ctx.heap (.elem 2) b ∧ ctx.heap.type (.elem 2) ∉ [Ty.field, .empty, .mlBegin, .listItem, .fieldsetEntry] := by
  obtain ⟨ctx, h, h1, h2⟩ : ∃ c, load (chars!"a:\nb:\n- x") = .ok c ∧ 2 < c.heap.length ∧ c.heap.type (.elem 2) = .list := by
    refine ⟨_, rfl, ?_⟩; decide +kernel
  exact ⟨ctx, _, h, .elem (by omega) h1, by rw [h2]; decide⟩

/-! ### Values -/

/-- An error about the value of a copy selects the key of the copy. -/
theorem C60_value_copy {k : Str} (hl : load input = .ok ctx) (hr : FirstLine ctx.heap r b) (hm : (ctx.heap.mirror? r).isSome) (hk : writtenKey ctx.heap r = some k) (ho : o.reporter ≠ .terminal) :
    ∃ e, valueError o ctx msg r = .ok e ∧ e.text = .valueError msg ∧ Selects b.span.1 b.span.2 e.selection ∧ e.selection.start.line = b.line ∧
      slice input e.selection.start.index e.selection.stop.index = k ∧
      (o.reporter = .text → SnippetShows o input ctx.lineCount e.snippet (· = b.line) fun _ => False) := by
  obtain ⟨C, hin, S⟩ := loaded_all hl
  have W := load_written hl hr
  obtain ⟨B, c⟩ := C.chart
  obtain ⟨out, h1, h2⟩ := shows_line (o := o) C hin (c.below _ (c.all _ (firstLine_mem S C.grown.doc hr))) ho
  obtain ⟨sel, h3, h4, h5, h6⟩ := selects_text W.ranges (W.key k hk)
  refine ⟨⟨.valueError msg, out, sel⟩, ?_, rfl, h4, h5, h6, h2⟩
  unfold valueError selectKey
  simp only [base?_ok S hr, if_pos hm, h1, h3, bind, Except.bind]

example : ∃ ctx b, load (chars!"i < a\na: 1") = .ok ctx ∧ FirstLine ctx.heap (.elem 1) b ∧ (ctx.heap.mirror? (.elem 1)).isSome ∧ writtenKey ctx.heap (.elem 1) = some (chars!"i") := by
  obtain ⟨ctx, h, h1, h2⟩ : ∃ c, load (chars!"i < a\na: 1") = .ok c ∧ 1 < c.heap.length ∧ (c.heap.mirror? (.elem 1)).isSome ∧ writtenKey c.heap (.elem 1) = some (chars!"i") := by
    refine ⟨_, rfl, ?_⟩; decide +kernel
  exact ⟨ctx, _, h, .elem (by omega) h1, h2⟩

/-- An error about the value of a multiline field selects exactly the value and emphasises its lines. -/
theorem C60_value_multiline {i : Nat} {ls : List Base} (hl : load input = .ok ctx) (h0 : 0 < i) (hi : i < ctx.heap.length) (ht : (ctx.heap.at i).type = .mlBegin)
    (hls : (ctx.heap.at i).lines = some ls) (ho : o.reporter ≠ .terminal) :
    ∃ e x y, valueError o ctx msg (.elem i) = .ok e ∧ e.text = .valueError msg ∧ ls.head? = some x ∧ ls.getLast? = some y ∧
      e.selection = ⟨positionOn x x.span.1, positionOn y y.span.2⟩ ∧ ownValue input (ctx.heap.at i) = some (slice input e.selection.start.index e.selection.stop.index) ∧
      (o.reporter = .text → SnippetShows o input ctx.lineCount e.snippet (fun n => ∃ l ∈ ls, l.line = n) fun _ => False) := by
  obtain ⟨C, hin, S⟩ := loaded_all hl
  obtain ⟨hmi, _, hf⟩ := multiline_facts hl h0 hi ht
  obtain ⟨hne, hR⟩ := hf ls hls
  obtain ⟨x, hx⟩ : ∃ x, ls.head? = some x := by cases ls with | nil => exact absurd rfl hne | cons x t => exact ⟨x, rfl⟩
  obtain ⟨y, hy⟩ : ∃ y, ls.getLast? = some y := by
    cases q : ls.getLast? with
    | some y => exact ⟨y, rfl⟩
    | none => exact absurd (List.getLast?_eq_none_iff.1 q) hne
  have Rx := (hR x (List.mem_of_head? hx)).1
  have Ry := (hR y (List.mem_of_getLast? hy)).1
  obtain ⟨s', g1, g2, g3⟩ := put_emphasis (s := List.replicate ctx.lineCount none) (ls.map (·.line)) (by
    intro n hn
    obtain ⟨l, hl', rfl⟩ := List.mem_map.1 hn
    simpa using (hR l hl').2)
  have hg : ∀ k, s'.getD k none = if ∃ l ∈ ls, l.line = k then some .emphasize else none := by
    intro k; rw [g3, fresh_getD]; simp only [List.mem_map]
  obtain ⟨out, h1, h2⟩ := snippet_shows (em := fun n => ∃ l ∈ ls, l.line = n) (ind := fun _ => False) (report := reportMultilineValue (ctx.heap.at i)) C hin (by
      unfold reportMultilineValue
      rw [List.map_map] at g1
      simp only [hls]
      exact g1) (by rw [g2]; simp) (by intro n; rw [hg]; split <;> simp_all) (by intro n; rw [hg]; split <;> simp_all) (by intro n; rw [hg]; split <;> simp_all)
      ⟨x.line, .inl ⟨x, List.mem_of_head? hx, rfl⟩⟩ ho
  refine ⟨⟨.valueError msg, out, positionOn x x.span.1, positionOn y y.span.2⟩, x, y, ?_, rfl, hx, hy, rfl, ?_, h2⟩
  · have hmi' : ¬ (ctx.heap.mirror? (.elem i)).isSome := by simp [Heap.mirror?, hmi]
    unfold valueError selection
    simp only [base?_ok S (.elem h0 hi), if_neg hmi', if_pos (show ctx.heap.type (.elem i) = .mlBegin from ht), hls, h1, hx, hy, bind, Except.bind,
      cursor_position Rx Rx.line, cursor_position Ry Ry.line, Side.of]
  · simp only [ownValue, ht, if_true, hls, Option.bind_some, hx, hy, Option.map_some, slice, positionOn]

example : ∃ ctx ls, load (chars!"a:\n-- h\n5\n\n6\n-- h") = .ok ctx ∧ 2 < ctx.heap.length ∧ (ctx.heap.at 2).type = .mlBegin ∧ (ctx.heap.at 2).lines = some ls ∧ ls.length = 3 := by
  refine ⟨_, _, rfl, ?_, ?_, rfl, ?_⟩ <;> decide +kernel

/-- If it has no lines, nothing is selected, at the end of its first line. -/
theorem C60_value_multiline_none {i : Nat} (hl : load input = .ok ctx) (h0 : 0 < i) (hi : i < ctx.heap.length) (ht : (ctx.heap.at i).type = .mlBegin)
    (hls : (ctx.heap.at i).lines = none) (ho : o.reporter ≠ .terminal) :
    ∃ e last, valueError o ctx msg (.elem i) = .ok e ∧ e.text = .valueError msg ∧
      e.selection = ⟨positionOn (ctx.heap.at i).toBase (ctx.heap.at i).span.2, positionOn (ctx.heap.at i).toBase (ctx.heap.at i).span.2⟩ ∧ RefEnds ctx.heap (.elem i) last ∧
      (o.reporter = .text → SnippetShows o input ctx.lineCount e.snippet (· = (ctx.heap.at i).line) fun n => (ctx.heap.at i).line < n ∧ n ≤ last) := by
  obtain ⟨C, hin, S⟩ := loaded_all hl
  obtain ⟨hmi, _⟩ := multiline_facts hl h0 hi ht
  have hr : FirstLine ctx.heap (.elem i) (ctx.heap.at i).toBase := .elem h0 hi
  have W := load_written hl hr
  obtain ⟨out, last, h1, h2, h3⟩ := shows_element (o := o) C hin S hr (not_stuck_of S hr (by rintro j ⟨⟩; rw [ht]; decide)) ho
  refine ⟨⟨.valueError msg, out, positionOn (ctx.heap.at i).toBase (ctx.heap.at i).span.2, positionOn (ctx.heap.at i).toBase (ctx.heap.at i).span.2⟩, last, ?_, rfl, rfl, h1, h3⟩
  have hmi' : ¬ (ctx.heap.mirror? (.elem i)).isSome := by simp [Heap.mirror?, hmi]
  unfold valueError selection
  simp only [base?_ok S hr, if_neg hmi', if_pos (show ctx.heap.type (.elem i) = .mlBegin from ht), hls, h2, bind, Except.bind, cursor_position W.ranges W.ranges.line, Side.of]

example : ∃ ctx, load (chars!"a:\n-- h\n-- h") = .ok ctx ∧ 2 < ctx.heap.length ∧ (ctx.heap.at 2).type = .mlBegin ∧ (ctx.heap.at 2).lines = none := by
  refine ⟨_, rfl, ?_⟩
  decide +kernel

/-- An error about the value of a field, item or entry that is not a copy (and of an element that has no value) marks the lines of the element. The selection begins where the
value begins, or behind the operator if there is none on the line; it ends with the last continuation, or with the value, or with the line. -/
theorem C60_value (hl : load input = .ok ctx) (hr : FirstLine ctx.heap r b) (ho : o.reporter ≠ .terminal) (hm : ctx.heap.mirror? r = none)
    (ht : ctx.heap.type r ≠ .mlBegin) (hs : ctx.heap.type r ≠ .section) :
    ∃ e last, valueError o ctx msg r = .ok e ∧ e.text = .valueError msg ∧
      (∀ v, lineValue ctx.heap r = some v → ∃ p, b.range? .value = some p ∧ slice input p.1 p.2 = v ∧ e.selection.start = positionOn b p.1 ∧
        (lineConts ctx.heap r = [] → e.selection.stop = positionOn b p.2)) ∧
      (lineValue ctx.heap r = none → ∃ p, b.range? (valueAfter ctx.heap r) = some p ∧ e.selection.start = positionOn b p.2 ∧
        (lineConts ctx.heap r = [] → e.selection.stop = positionOn b b.span.2)) ∧
      (lineConts ctx.heap r ≠ [] → e.selection.stop = textEnd b (lineConts ctx.heap r)) ∧ RefEnds ctx.heap r last ∧
      (o.reporter = .text → SnippetShows o input ctx.lineCount e.snippet (· = b.line) fun n => b.line < n ∧ n ≤ last) := by
  obtain ⟨C, hin, S⟩ := loaded_all hl
  have W := load_written hl hr
  have hbase := base?_ok S hr
  have hsec : ∀ i, r = .elem i → (ctx.heap.at i).type ≠ .section := by rintro i rfl; exact hs
  obtain ⟨out, last, h1, h2, h3⟩ := shows_element (o := o) C hin S hr (not_stuck_of S hr hsec) ho
  have endb : cursor b .line .ending = .ok (positionOn b b.span.2) := cursor_position W.ranges W.ranges.line
  have hval : (b.range? .value).isSome ↔ (lineValue ctx.heap r).isSome := by
    have ev : ∀ v : Option Str, RangeName.value ∈ valueNames v ↔ v.isSome := by intro v; cases v <;> simp [valueNames]
    have ee : ∀ v, RangeName.value ∉ escapeNames v := by intro v; cases v <;> simp [escapeNames]
    cases r with
    | item i k => rw [hasRanges_iff (W.item i k rfl)]; simp [ev]
    | entry i k => obtain ⟨_, esc, hn⟩ := W.entry i k rfl; rw [hasRanges_iff hn]; simp [ev, ee]
    | elem i =>
      obtain ⟨_, esc, hn⟩ := W.elem i rfl
      obtain ⟨h0, hi⟩ : 0 < i ∧ i < ctx.heap.length := by cases hr with | elem a b => exact ⟨a, b⟩
      rw [hasRanges_iff hn]
      have hvt := value_template hl hi
      simp only [List.mem_cons, List.mem_append, ee, false_or, lineValue]
      simp only [Heap.type] at ht hs
      unfold elementNames
      cases hq : (ctx.heap.at i).template with
      | some t =>
        have := hvt (by rw [hq]; rfl)
        rw [this]
        split <;> simp_all
      | none =>
        split <;> simp_all
  have hop : lineValue ctx.heap r = none → ∃ p, b.range? (valueAfter ctx.heap r) = some p ∧ valueStart b (ctx.heap.type r = .listItem) = .ok (positionOn b p.2) := by
    intro hv
    have hno : ¬ (b.range? .value).isSome := by rw [hval, hv]; simp
    cases r with
    | item i k =>
      have i0 := hasRanges_iff (W.item i k rfl)
      rw [hv] at i0
      obtain ⟨p, hp⟩ := Option.isSome_iff_exists.1 ((i0 .itemOperator).2 (by simp))
      refine ⟨p, hp, ?_⟩
      unfold valueStart
      rw [if_neg hno, if_neg (by rw [i0]; simp [valueNames]), if_neg (by rw [i0]; simp [valueNames]), if_pos (by simp [Heap.type])]
      exact cursor_position W.ranges hp
    | entry i k =>
      obtain ⟨_, esc, hn⟩ := W.entry i k rfl
      have i0 := hasRanges_iff hn
      rw [hv] at i0
      obtain ⟨p, hp⟩ := Option.isSome_iff_exists.1 ((i0 .entryOperator).2 (by simp))
      refine ⟨p, hp, ?_⟩
      unfold valueStart
      rw [if_neg hno, if_neg (by rw [i0]; cases esc <;> simp [valueNames, escapeNames]), if_pos (by rw [hp]; rfl)]
      exact cursor_position W.ranges hp
    | elem i =>
      obtain ⟨_, esc, hn⟩ := W.elem i rfl
      have i0 := hasRanges_iff hn
      simp only [Heap.type, lineValue] at ht hs hv
      unfold valueStart
      rw [if_neg hno]
      cases hq : (ctx.heap.at i).template with
      | some t =>
        have hel : elementNames (ctx.heap.at i) = [.template, .copyOperator] := by
          unfold elementNames; rw [hq]; split <;> simp_all
        rw [hel] at i0
        refine ⟨b.span, by simp only [valueAfter, hq]; exact W.ranges.line, ?_⟩
        rw [if_neg (by rw [i0]; cases esc <;> simp [escapeNames]), if_neg (by rw [i0]; cases esc <;> simp [escapeNames]), if_neg]
        · exact endb
        · simp only [Heap.type]
          obtain ⟨h0, hi⟩ : 0 < i ∧ i < ctx.heap.length := by cases hr with | elem a b => exact ⟨a, b⟩
          have := S.types i h0 hi
          intro q
          have q : (ctx.heap.at i).type = .listItem := of_decide_eq_true q
          rw [q] at this; simp at this
      | none =>
        have hel : elementNames (ctx.heap.at i) = [.elementOperator] := by
          unfold elementNames; rw [hq, hv]; split <;> simp_all [valueNames]
        rw [hel] at i0
        obtain ⟨p, hp⟩ := Option.isSome_iff_exists.1 ((i0 .elementOperator).2 (by simp))
        refine ⟨p, by simp only [valueAfter, hq]; simpa [hs] using hp, ?_⟩
        rw [if_pos (by rw [hp]; rfl)]
        exact cursor_position W.ranges hp
  have hstart : ∃ c, valueStart b (ctx.heap.type r = .listItem) = .ok c ∧ (∀ v, lineValue ctx.heap r = some v → ∃ p, b.range? .value = some p ∧ slice input p.1 p.2 = v ∧ c = positionOn b p.1) ∧
      (lineValue ctx.heap r = none → ∃ p, b.range? (valueAfter ctx.heap r) = some p ∧ c = positionOn b p.2) := by
    cases hv : lineValue ctx.heap r with
    | none =>
      obtain ⟨p, hp, e⟩ := hop hv
      exact ⟨_, e, by simp, fun _ => ⟨p, hp, rfl⟩⟩
    | some v =>
      obtain ⟨p, hp, e⟩ := W.value v hv
      refine ⟨positionOn b p.1, ?_, ?_, by simp⟩
      · unfold valueStart
        rw [if_pos (by rw [hp]; rfl)]
        exact cursor_position W.ranges hp
      · rintro _ ⟨⟩; exact ⟨p, hp, e, rfl⟩
  have hcs : ctx.heap.continuations r = none ∧ lineConts ctx.heap r = [] ∨ ∃ cs c, ctx.heap.continuations r = some cs ∧ lineConts ctx.heap r = cs ∧ cs.getLast? = some c := by
    have key : ∀ q : Option (List Cont), ctx.heap.continuations r = q → lineConts ctx.heap r = q.getD [] → q ≠ some [] →
        ctx.heap.continuations r = none ∧ lineConts ctx.heap r = [] ∨ ∃ cs c, ctx.heap.continuations r = some cs ∧ lineConts ctx.heap r = cs ∧ cs.getLast? = some c := by
      intro q h1 h2 h3
      cases q with
      | none => exact .inl ⟨h1, h2⟩
      | some cs =>
        cases hx : cs.getLast? with
        | none => exact absurd (congrArg some (List.getLast?_eq_none_iff.1 hx)) h3
        | some c => exact .inr ⟨cs, c, h1, h2, hx⟩
    cases hr with
    | @elem i h0 hi => exact key _ rfl rfl (fun q => (S.kinds.conts i _ hi q).2 rfl)
    | @item i k xs x hi hx hk =>
      exact key x.continuations (by simp [Heap.continuations, Heap.sub?, hx, hk]) (by simp [lineConts, hx, hk]) ((S.kinds.items i xs hi hx).2.2 x (List.mem_of_getElem? hk))
    | @entry i k xs x hi hx hk =>
      exact key x.continuations (by simp [Heap.continuations, Heap.sub?, hx, hk]) (by simp [lineConts, hx, hk]) ((S.kinds.entries i xs hi hx).2.2 x (List.mem_of_getElem? hk))
  have hstop : ∃ c, valueStop b (ctx.heap.continuations r) = .ok c ∧ (lineConts ctx.heap r = [] → ∀ p, b.range? .value = some p → c = positionOn b p.2) ∧
      (lineConts ctx.heap r = [] → lineValue ctx.heap r = none → c = positionOn b b.span.2) ∧ (lineConts ctx.heap r ≠ [] → c = textEnd b (lineConts ctx.heap r)) := by
    rcases hcs with ⟨q1, q2⟩ | ⟨cs, c, q1, q2, q3⟩
    · rw [q1, q2]
      cases hq : b.range? .value with
      | some p =>
        refine ⟨positionOn b p.2, ?_, ?_, ?_, by simp⟩
        · simp only [valueStop, hq, Option.isSome_some, if_true]; exact cursor_position W.ranges hq
        · rintro _ _ ⟨⟩; rfl
        · intro _ hv
          rw [hq, hv] at hval; simp at hval
      | none =>
        refine ⟨positionOn b b.span.2, ?_, ?_, fun _ _ => rfl, by simp⟩
        · simp only [valueStop, hq]; exact endb
        · rintro _ _ ⟨⟩
    · have R := W.conts c (by rw [q2]; exact List.mem_of_getLast? q3)
      have hne : cs ≠ [] := by rintro rfl; cases q3
      rw [q1, q2]
      refine ⟨positionOn c.toBase c.span.2, ?_, fun h => absurd h hne, fun h => absurd h hne, fun _ => by simp [textEnd, q3]⟩
      simp only [valueStop, q3]
      exact cursor_position R R.line
  obtain ⟨c1, g1, g2, g3⟩ := hstart
  obtain ⟨c2, k1, k2, k3, k4⟩ := hstop
  refine ⟨⟨.valueError msg, out, c1, c2⟩, last, ?_, rfl, ?_, ?_, k4, h1, h3⟩
  · unfold valueError
    simp only [hbase, hm, Option.isSome_none, Bool.false_eq_true, if_false, if_neg ht, h2, g1, k1, bind, Except.bind]
  · intro v hv
    obtain ⟨p, hp, e, e'⟩ := g2 v hv
    exact ⟨p, hp, e, e', fun h => k2 h p hp⟩
  · intro hv
    obtain ⟨p, hp, e⟩ := g3 hv
    exact ⟨p, hp, e, fun h => k3 h hv⟩

example : ∃ ctx b, load (chars!"l:\n> c\n> d\n- x\n- y") = .ok ctx ∧ FirstLine ctx.heap (.item 1 0) b ∧ ctx.heap.mirror? (.item 1 0) = none ∧
    ctx.heap.type (.item 1 0) ≠ .mlBegin ∧ ctx.heap.type (.item 1 0) ≠ .section := by
  obtain ⟨ctx, b, _, h, hb, _, _, _, ht, hm, _⟩ := item_sample
  exact ⟨ctx, b, h, hb, hm, by rw [ht]; decide, by rw [ht]; decide⟩

/-- In particular it selects exactly the value that is on one line. -/
theorem C60_value_text {v : Str} (hl : load input = .ok ctx) (hr : FirstLine ctx.heap r b) (ho : o.reporter ≠ .terminal) (hm : ctx.heap.mirror? r = none)
    (hv : lineValue ctx.heap r = some v) (hc : lineConts ctx.heap r = []) :
    ∃ e, valueError o ctx msg r = .ok e ∧ slice input e.selection.start.index e.selection.stop.index = v := by
  have hty : ctx.heap.type r ≠ .mlBegin ∧ ctx.heap.type r ≠ .section := by
    cases hr with
    | @elem i h0 hi =>
      have := value_type hl hi (by rw [show (ctx.heap.at i).value = some v from hv]; rfl)
      constructor <;> (simp only [Heap.type]; rw [this]; decide)
    | item => exact ⟨by simp [Heap.type], by simp [Heap.type]⟩
    | entry => exact ⟨by simp [Heap.type], by simp [Heap.type]⟩
  obtain ⟨e, last, h1, _, h2, _⟩ := C60_value (msg := msg) hl hr ho hm hty.1 hty.2
  obtain ⟨p, _, h3, h4, h5⟩ := h2 v hv
  refine ⟨e, h1, ?_⟩
  rw [h4, h5 hc]
  exact h3

example : ∃ ctx b, load (chars!"a:\n`b` : 1") = .ok ctx ∧ FirstLine ctx.heap (.elem 2) b ∧ ctx.heap.mirror? (.elem 2) = none ∧ lineValue ctx.heap (.elem 2) = some (chars!"1") ∧
    lineConts ctx.heap (.elem 2) = [] := by
  obtain ⟨ctx, h, h1, h2⟩ : ∃ c, load (chars!"a:\n`b` : 1") = .ok c ∧ 2 < c.heap.length ∧ c.heap.mirror? (.elem 2) = none ∧ lineValue c.heap (.elem 2) = some (chars!"1") ∧
      lineConts c.heap (.elem 2) = [] := by
    refine ⟨_, rfl, ?_⟩; decide +kernel
  exact ⟨ctx, _, h, .elem (by omega) h1, h2⟩

/-- The hypotheses are met: a field with comment, value and continuation, an entry, an item, a multiline field, copies. -/
example : ∃ ctx, load (chars!"> c\n`a` : 1\n| 2\ne:\nf = 3\ng:\n- 4\n-- h\n5\n-- h\ni < a\nj < g\n- 6\nk:") = .ok ctx ∧
    (ctx.heap.tail.map fun e => (e.type, e.mirror.isSome)) = [(.field, false), (.fieldset, false), (.list, false), (.mlBegin, false), (.field, true), (.list, false), (.empty, false)] ∧
    ((keyError {} ctx [] (.elem 1)).toOption.map (·.selection)) = some ⟨⟨1, 5, 1⟩, ⟨2, 6, 1⟩⟩ ∧
    ((valueError {} ctx [] (.elem 1)).toOption.map (·.selection)) = some ⟨⟨6, 10, 1⟩, ⟨3, 15, 2⟩⟩ ∧
    ((valueError {} ctx [] (.entry 2 0)).toOption.map (·.selection)) = some ⟨⟨4, 23, 4⟩, ⟨5, 24, 4⟩⟩ ∧
    ((valueError {} ctx [] (.elem 4)).toOption.map (·.selection)) = some ⟨⟨0, 37, 8⟩, ⟨1, 38, 8⟩⟩ ∧
    ((valueError {} ctx [] (.elem 5)).toOption.map (·.selection)) = some ⟨⟨0, 44, 10⟩, ⟨1, 45, 10⟩⟩ ∧
    ((commentError {} ctx [] (.elem 5)).toOption.map (·.selection)) = some ⟨⟨2, 2, 0⟩, ⟨3, 3, 0⟩⟩ ∧
    ((missingValue {} ctx (.elem 7)).toOption.map fun e => (e.text, e.selection)) = some (.missingFieldValue (chars!"k"), ⟨⟨2, 62, 13⟩, ⟨2, 62, 13⟩⟩) := by
  refine ⟨_, rfl, ?_, ?_, ?_, ?_, ?_, ?_, ?_, ?_⟩ <;> decide +kernel

end Eno
