import Verif.Proofs.WrittenDocument
import Verif.Proofs.WrittenForms
import Verif.Props.ContextProps

/-!
# C02, C05, C68: whole documents

`D.Text input` (`Spec/Document.lean`) says that `input` is a way of writing the document `D`, and `D.raw` is what `raw` has to show of it.
-/

namespace Eno

open Spec

variable {input : Str} {D D' : Document}

/-! ## C68: documents round-trip -/

/-- However a document without copies is written, it is accepted, and in any session `raw` shows exactly what was written. -/
theorem C68_round_trip (h : D.Text input) : ∃ ctx, load input = .ok ctx ∧
    ∃ N, ∀ fuel, N ≤ fuel → ∀ c, Session input ctx.heap fuel (Harmless ctx.heap) c → ((Query.raw (.elem 0)).run input ctx.heap fuel c).1 = .ok (.raw D.raw) := by
  obtain ⟨ctx, H⟩ := written_document h
  have hq : Sensible ctx.heap (.raw (.elem 0)) :=
    ⟨(loaded H.analyzed H.loaded).non.ok.pos, H.fine.readable, .inr H.fine.straight⟩
  obtain ⟨N, hN⟩ := C21_answers H.analyzed H.loaded
  refine ⟨ctx, H.loaded, N, fun fuel hf c hc => ?_⟩
  obtain ⟨a, h1, h2⟩ := hN fuel hf c hc _ hq
  rw [h2, C21_unique H.analyzed H.loaded hq h1 (.raw H.raw)]

/-- A text is a way of writing at most one document, up to what can be seen of it. -/
theorem C68_unambiguous (h : D.Text input) (h' : D'.Text input) : D.raw = D'.raw := by
  obtain ⟨ctx, hl, N, hN⟩ := C68_round_trip h
  obtain ⟨ctx', hl', N', hN'⟩ := C68_round_trip h'
  obtain rfl : ctx = ctx' := by rw [hl] at hl'; injection hl'
  have h1 := hN (N + N') (by omega) _ .start
  have h2 := hN' (N + N') (by omega) _ .start
  rw [h1] at h2
  injection h2 with h2
  injection h2

/-- Every document with trimmed keys and texts can be written, whatever characters it contains. -/
theorem C68_expressible (h : D.Valid) : ∃ input, D.Text input := document_of h

/-- A document (to show that the statements above are about something). -/
def writtenSample : Document where
  elements := [⟨[(2, some (chars!"note"))], chars!"color", .parts ⟨some (chars!"red"), [(true, some (chars!"dark"))]⟩⟩, ⟨[], chars!"m", .verbatim [chars!" # x "]⟩]
  sections := [.mk [] (chars!"s") [⟨[], chars!"list", .items ⟨[], ⟨some (chars!"a"), []⟩⟩ [⟨[], ⟨none, []⟩⟩]⟩] [.mk [] (chars!"t") [] []]]

theorem trimmed_of {v : Str} (h : decide ('\n' ∉ v) && (v.head?.any fun c => !isHs c) && (v.getLast?.any fun c => !isHs c)) : Trimmed v := by
  simp only [Bool.and_eq_true, decide_eq_true_eq] at h
  obtain ⟨⟨h1, h2⟩, h3⟩ := h
  refine ⟨h1, ?_, ?_⟩
  · cases v with
    | nil => simp at h2
    | cons c t => exact ⟨c, t, rfl, by simpa using h2⟩
  · rcases List.eq_nil_or_concat v with rfl | ⟨t, c, rfl⟩
    · simp at h3
    · rw [List.concat_eq_append] at h3 ⊢
      exact ⟨t, c, rfl, by simpa using h3⟩

theorem plainKey_of {k : Str} (ht : Trimmed k) (h1 : k.head?.all fun c => decide (c ∉ ['>', '#', '-', '`', '\\', '|'])) (h2 : ∀ c ∈ k, c ≠ ':' ∧ c ≠ '=' ∧ c ≠ '<') :
    PlainKey k where
  toTrimmed := ht
  start := by rintro c t rfl; simpa using h1
  noOp := h2

theorem opening_plain {l : Line} {t : Str} (h : Writes l t) : Opening [] l [t] := .mk (g := []) (cs := []) ⟨by simp [Filler], by simp⟩ .nil (by simp) h

-- it can be written in some way
example : writtenSample.Valid := by
  have ht : ∀ v ∈ [chars!"note", chars!"color", chars!"red", chars!"dark", chars!"m", chars!"s", chars!"list", chars!"a", chars!"t"], Trimmed v :=
    fun v hv => trimmed_of (by revert v; decide)
  simp only [List.mem_cons, List.not_mem_nil, or_false, forall_eq_or_imp, forall_eq] at ht
  obtain ⟨t1, t2, t3, t4, t5, t6, t7, t8, t9⟩ := ht
  simp [writtenSample, Document.Valid, Element.Valid, Content.Valid, Parts.Valid, Item.Valid, Remark.Valid, Sec.Valid, SecsValid, t1, t2, t3, t4, t5, t6, t7, t8, t9]

-- and in this one
theorem writtenSample_text : writtenSample.Text (chars!"> note\ncolor: red\n\n\\ dark\n--  m\n # x \n --m\n# s\nlist:\n- a\n-\n## `t`\n> end") := by
  refine ⟨_, .mk (a := [chars!"> note", chars!"color: red", chars!"", chars!"\\ dark", chars!"--  m", chars!" # x ", chars!" --m"])
    (b := [chars!"# s", chars!"list:", chars!"- a", chars!"-", chars!"## `t`"]) (f := [chars!"> end"]) ?_ ?_ ?_, rfl⟩
  · refine .cons (ls := [chars!"> note", chars!"color: red", chars!"", chars!"\\ dark"])
      (.parts (o := [chars!"> note", chars!"color: red"]) (c := [chars!"", chars!"\\ dark"]) ?_ ?_)
      (.cons (ls := [chars!"--  m", chars!" # x ", chars!" --m"]) (.verbatim (n := 2) (o := [chars!"--  m"]) (t := chars!" --m") ?_ ?_ ?_ ?_) .nil)
    · exact .mk (g := []) (cs := [chars!"> note"]) ⟨by simp [Filler], by simp⟩
        (.cons (ls := [chars!"> note"]) ⟨_, .some (p0 := []) (p1 := [' ']) (p2 := []) (v := chars!"note") blank_nil blank_one (trimmed_of (by decide)) blank_nil, rfl⟩ .nil) (by simp)
        (.element (p0 := []) (p1 := []) blank_nil (.plain (plainKey_of (trimmed_of (by decide)) (by decide) (by decide))) blank_nil
          (.some (p1 := [' ']) (p2 := []) blank_one (trimmed_of (by decide)) blank_nil))
    · exact .cons (ls := [chars!"", chars!"\\ dark"]) (.mk (f := [chars!""]) (by intro l hl; simp at hl; subst hl; exact .inl blank_nil)
        (.spaced (p0 := []) blank_nil (.some (p1 := [' ']) (p2 := []) blank_one (trimmed_of (by decide)) blank_nil))) .nil
    · exact opening_plain (.multiline (p0 := []) (x := chars!"  m") blank_nil (by omega) (.some (p1 := chars!"  ") (p2 := []) (by decide) (trimmed_of (by decide)) blank_nil) (by simp))
    · intro l hl
      simp at hl
      subst hl
      refine ⟨by decide, ?_⟩
      rintro ⟨p0, p1, p2, _, _, _, h, _⟩
      have : '-' ∈ (chars!" # x ") := by rw [h]; simp [rep]
      exact absurd this (by decide)
    · decide
    · exact ⟨[' '], [], [], blank_one, blank_nil, blank_nil, rfl, by decide⟩
  · refine .cons (b := []) (.mk (o := [chars!"# s"]) (a := [chars!"list:", chars!"- a", chars!"-"]) (b := [chars!"## `t`"]) ?_ ?_ ?_) .nil
    · exact opening_plain (.heading (p0 := []) (p1 := []) (n := 1) (w := chars!" s") blank_nil (by omega)
        (.plain (p := [' ']) blank_one ⟨trimmed_of (by decide), by simp, by decide⟩ (by simp)) blank_nil)
    · refine .cons (ls := [chars!"list:", chars!"- a", chars!"-"]) (.items (o := [chars!"list:"]) (ls := [chars!"- a", chars!"-"]) ?_ ?_) .nil
      · exact opening_plain (.element (p0 := []) (p1 := []) blank_nil (.plain (plainKey_of (trimmed_of (by decide)) (by decide) (by decide))) blank_nil (.none blank_nil))
      · refine .cons (ls := [chars!"- a"]) (.mk (o := [chars!"- a"]) (c := []) (opening_plain (.item (p0 := []) (x := chars!" a") blank_nil (.some (v := ['a']) (p1 := [' ']) (p2 := []) blank_one (trimmed_of (by decide)) blank_nil) (by simp))) .nil)
          (.cons (ls := [chars!"-"]) (.mk (o := [chars!"-"]) (c := []) (opening_plain (.item (p0 := []) (x := []) blank_nil (.none blank_nil) (by simp))) .nil) .nil)
    · refine .cons (a := [chars!"## `t`"]) (b := []) (.mk (o := [chars!"## `t`"]) (a := []) (b := []) ?_ .nil .nil) .nil
      exact opening_plain (.heading (p0 := []) (p1 := []) (n := 2) (w := chars!" `t`") blank_nil (by omega)
        (.escaped (n := 1) (p := [' ']) (p1 := []) (p2 := []) blank_one (trimmed_of (by decide)) (by omega) (by decide) blank_nil blank_nil (.inr (by simp))
          (.inr (by intro u h; have := congrArg List.getLast? h; simp at this))) blank_nil)
  · intro l hl
    simp at hl
    subst hl
    exact .inr ⟨_, .some (p0 := []) (p1 := [' ']) (p2 := []) (v := chars!"end") blank_nil blank_one (trimmed_of (by decide)) blank_nil⟩

-- and this is what is to be shown of it
example : writtenSample.raw = .node .document none none [
    .leaf .field (some (some (chars!"note"))) (some (chars!"color")) (some (some (chars!"red dark"))),
    .leaf .mlBegin none (some (chars!"m")) (some (some (chars!" # x "))),
    .node .section none (some (chars!"s")) [
      .node .list none (some (chars!"list")) [.leaf .listItem none none (some (some (chars!"a"))), .leaf .listItem none none (some none)],
      .node .section none (some (chars!"t")) []]] := by rfl

/-! ## One element -/

theorem one_element {e : Element} {ls : List Str} (h : e.Written ls) (hs : input = ['\n'].intercalate ls) : ∃ ctx i, load input = .ok ctx ∧
    (ctx.heap.at 0).elements = [i] ∧ i < ctx.heap.length ∧ ElemIs input e (ctx.heap.at i) ∧
    ∀ v, ValueOf input ctx.heap i v → (ctx.heap.at i).type ≠ .section → ∀ fuel, ctx.heap.length ≤ fuel → answer input ctx.heap fuel (.value (.elem i)) = .ok (.text v) := by
  have ht : Document.Text ⟨[e], []⟩ input := by
    refine ⟨_, .mk (f := []) (.cons h .nil) .nil (by simp [Filler]), ?_⟩
    simpa using hs
  obtain ⟨ctx, H⟩ := written_document ht
  obtain ⟨a, b, h1, h2, h3⟩ := H.tree
  cases h3
  cases h2 with
  | cons g1 g2 g3 g4 =>
    cases g4
    refine ⟨ctx, _, H.loaded, by simpa using h1, g2, g3, fun v hv hs fuel hf => ?_⟩
    exact answer_of (q := .value (.elem _)) (returns_map Answer.text ((loaded H.analyzed H.loaded).value (input := input) g2 hs hv hf))

/-! ## C02: fields round-trip -/

/-- A field, written with any white space and with or without backticks around its key, is the only element of the document and has that key and that value. -/
theorem C02_field {k w v p0 p1 p2 p3 : Str} (hk : KeyForm k w) (hv : Trimmed v) (h0 : Blank p0) (h1 : Blank p1) (h2 : Blank p2) (h3 : Blank p3)
    (hi : input = p0 ++ (w ++ (p1 ++ ':' :: (p2 ++ (v ++ p3))))) :
    ∃ ctx i, load input = .ok ctx ∧ (ctx.heap.at 0).elements = [i] ∧ (ctx.heap.at i).type = .field ∧ (ctx.heap.at i).key = k ∧
      ∀ fuel, ctx.heap.length ≤ fuel → answer input ctx.heap fuel (.value (.elem i)) = .ok (.text (some v)) := by
  have ho : Opening [] (.element k (some v)) [input] :=
    .mk (g := []) (cs := []) ⟨by simp [Filler], by simp⟩ .nil (by simp) (by rw [hi]; exact .element h0 hk h1 (.some h2 hv h3))
  obtain ⟨ctx, i, g1, g2, g3, g4, g5⟩ := one_element (input := input) (Element.Written.parts (p := ⟨some v, []⟩) ho .nil) (by simp)
  have hty : (ctx.heap.at i).type = .field := by have := g4.content.1; simpa using this
  have hval : ownValue input (ctx.heap.at i) = some v := by
    unfold ownValue
    rw [if_neg (by rw [hty]; simp)]
    have h1 := g4.content.2.1
    have h2 := g4.content.2.2.1
    unfold contParts at h2
    simp only at h1 h2
    simp [valueParts, h1, h2, joined, tailText]
  exact ⟨ctx, i, g1, g2, hty, g4.key, g5 _ (hval ▸ ValueOf.own g4.copy) (by rw [hty]; decide)⟩

-- every text on one line can be the key and the value
example : ∃ w, KeyForm (chars!"a `:` - # b") w := keyForm_of
  ⟨by decide, ⟨'a', chars!" `:` - # b", rfl, by decide⟩, ⟨chars!"a `:` - # ", 'b', rfl, by decide⟩⟩

/-! ## C05: multiline fields round-trip -/

/-- Whatever the lines between opening line and terminator are, as long as none of them is a terminator, they are the value of the field. -/
theorem C05_multiline {k p0 x t : Str} {n : Nat} {body : List Str} (h0 : Blank p0) (hn : 2 ≤ n) (hk : ValueForm (some k) x) (hx : ∀ u, x ≠ '-' :: u)
    (hb : ∀ l ∈ body, '\n' ∉ l ∧ ¬ IsTerminator (rep n '-') k l) (ht : '\n' ∉ t ∧ IsTerminator (rep n '-') k t)
    (hi : input = ['\n'].intercalate ((p0 ++ (rep n '-' ++ x)) :: (body ++ [t]))) :
    ∃ ctx i, load input = .ok ctx ∧ (ctx.heap.at 0).elements = [i] ∧ (ctx.heap.at i).type = .mlBegin ∧ (ctx.heap.at i).key = k ∧
      ∀ fuel, ctx.heap.length ≤ fuel → answer input ctx.heap fuel (.value (.elem i)) = .ok (.text (if body = [] then none else some (['\n'].intercalate body))) := by
  have ho : Opening [] (.multiline n k) [p0 ++ (rep n '-' ++ x)] :=
    .mk (g := []) (cs := []) ⟨by simp [Filler], by simp⟩ .nil (by simp) (.multiline h0 hn hk hx)
  obtain ⟨ctx, i, g1, g2, g3, g4, g5⟩ := one_element (Element.Written.verbatim ho hb ht.1 ht.2) hi
  have hty : (ctx.heap.at i).type = .mlBegin := g4.content.1
  have hval := g4.content.2.1
  exact ⟨ctx, i, g1, g2, hty, g4.key, g5 _ (hval ▸ ValueOf.own g4.copy) (by rw [hty]; decide)⟩

-- any lines can be between them if there are enough dashes
example : ∃ n, 2 ≤ n ∧ ∀ l ∈ [chars!"-- a", chars!"# b", chars!"a: 1"], ¬ IsTerminator (rep n '-') (chars!"a") l := enough_dashes _ _


end Eno
