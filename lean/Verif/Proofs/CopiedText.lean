import Verif.Proofs.CopiedParts
import Verif.Proofs.TreeAccepted
import Verif.Proofs.WrittenForms

/-! # Writing documents with copies, and what they say -/

namespace Eno

open Spec

variable {i : Str} {T : Doc}

/-! ## Documents that say trimmed texts -/

theorem thing_valid {t : Thing} (ho : t.Ok) (hs : t.Shown) (ht : ∀ e ∈ t.said, e.Trim) : t.Valid := by
  cases t with
  | plain e => exact element_valid ho hs ht
  | copy r k t inner =>
    simp only [Thing.said] at ht
    have := ht (.line (.copy k t)) (by simp)
    refine ⟨remark_valid ho.1 hs.1 fun e he => ht e (by simp [he]), this.1, this.2, ?_⟩
    cases inner with
    | nothing => trivial
    | items y ys =>
      exact fun z hz => item_valid (ho.2 z hz) (hs.2 z hz) fun e he => ht e (by
        simp only [Inner.said, List.mem_append, List.mem_cons, List.mem_flatMap] at hz ⊢
        exact .inr (.inr ⟨z, hz, he⟩))
    | entries y ys =>
      exact fun z hz => entry_valid (ho.2 z hz) (hs.2 z hz) fun e he => ht e (by
        simp only [Inner.said, List.mem_append, List.mem_cons, List.mem_flatMap] at hz ⊢
        exact .inr (.inr ⟨z, hz, he⟩))

theorem things_valid {ts : List Thing} (ho : ∀ t ∈ ts, t.Ok) (hs : ∀ t ∈ ts, t.Shown) (ht : ∀ e ∈ ts.flatMap Thing.said, e.Trim) : ∀ t ∈ ts, t.Valid :=
  fun t h => thing_valid (ho t h) (hs t h) fun e he => ht e (List.mem_flatMap.2 ⟨t, h, he⟩)

mutual

theorem part_valid {d : Nat} : ∀ {p : Part}, p.Ok → p.Shown → (∀ e ∈ p.said d, e.Trim) → p.Valid
  | .mk r k c ts ps, ho, hs, ht => by
    rw [Part.Ok] at ho
    rw [Part.Shown] at hs
    rw [Part.said] at ht
    have := ht (.line (.heading d k c)) (by simp)
    rw [Part.Valid]
    exact ⟨remark_valid ho.1 hs.1 fun e he => ht e (by simp [he]), this.2.1, this.2.2, things_valid ho.2.1 hs.2.1 (fun e he => ht e (by
      simp only [List.mem_append, List.mem_cons]; exact .inr (.inr (.inl he)))), parts_valid (d := d + 1) ho.2.2 hs.2.2 fun e he => ht e (by simp [he])⟩

theorem parts_valid {d : Nat} : ∀ {ps : List Part}, PartsOk ps → PartsShown ps → (∀ e ∈ partsSaid d ps, e.Trim) → PartsValid ps
  | [], _, _, _ => by rw [PartsValid]; trivial
  | p :: ps, ho, hs, ht => by
    rw [PartsOk] at ho
    rw [PartsShown] at hs
    rw [partsSaid] at ht
    rw [PartsValid]
    exact ⟨part_valid (d := d) ho.1 hs.1 fun e he => ht e (by simp [he]), parts_valid (d := d) ho.2 hs.2 fun e he => ht e (by simp [he])⟩

end

theorem doc_valid (ho : T.Ok) (hs : T.Shown) (ht : ∀ e ∈ T.said, e.Trim) : T.Valid :=
  ⟨things_valid ho.1 hs.1 fun e he => ht e (by unfold Doc.said; exact List.mem_append.2 (.inl he)), parts_valid (d := 1) ho.2 hs.2 fun e he => ht e (by unfold Doc.said; exact List.mem_append.2 (.inr he))⟩

/-! ## Valid documents can be written -/

theorem thing_of {t : Thing} (h : t.Valid) : ∃ ls, t.Written ls := by
  cases t with
  | plain e => obtain ⟨ls, hl⟩ := element_of h; exact ⟨_, .plain hl⟩
  | copy r k t inner =>
    obtain ⟨h1, h2, h3, h4⟩ := h
    obtain ⟨w, hw⟩ := keyForm_of h2
    obtain ⟨o, ho⟩ := opening_of h1 (Writes.copy blank_nil hw blank_nil blank_nil h3 blank_nil)
    have : ∃ ls, inner.Written ls := by
      cases inner with
      | nothing => exact ⟨_, .nothing⟩
      | items x xs => obtain ⟨ls, hl⟩ := each_of fun y hy => item_of (h4 y hy); exact ⟨_, .items hl⟩
      | entries x xs => obtain ⟨ls, hl⟩ := each_of fun y hy => entry_of (h4 y hy); exact ⟨_, .entries hl⟩
    obtain ⟨ls, hl⟩ := this
    exact ⟨_, .copy ho hl⟩

mutual

theorem part_of (d : Nat) (hd : 0 < d) : (p : Part) → p.Valid → ∃ ls, Part.Written d p ls
  | .mk r k c ts ps, h => by
    rw [Part.Valid] at h
    obtain ⟨h1, h2, h3, h4, h5⟩ := h
    obtain ⟨w, hw⟩ := headingKeyForm_of h2
    have : ∃ o, Opening r (.heading d k c) o := by
      cases c with
      | none => exact opening_of h1 (Writes.heading (n := d) blank_nil hd hw blank_nil)
      | some x => exact opening_of h1 (Writes.headingCopy (n := d) blank_nil hd hw blank_nil blank_one (h3 x rfl) blank_nil (.inl (by simp)))
    obtain ⟨o, ho⟩ := this
    obtain ⟨a, ha⟩ := each_of fun e he => thing_of (h4 e he)
    obtain ⟨b, hb⟩ := parts_of (d + 1) (by omega) ps h5
    exact ⟨_, .mk ho ha hb⟩

theorem parts_of (d : Nat) (hd : 0 < d) : (ps : List Part) → PartsValid ps → ∃ ls, PartsWritten d ps ls
  | [], _ => ⟨_, .nil⟩
  | p :: ps, h => by
    rw [PartsValid] at h
    obtain ⟨a, ha⟩ := part_of d hd p h.1
    obtain ⟨b, hb⟩ := parts_of d hd ps h.2
    exact ⟨_, .cons ha hb⟩

end

theorem doc_of (h : T.Valid) : ∃ input, T.Text input := by
  obtain ⟨a, ha⟩ := each_of fun e he => thing_of (h.1 e he)
  obtain ⟨b, hb⟩ := parts_of 1 (by omega) _ h.2
  exact ⟨_, _, .mk (f := []) ha hb (by simp [Filler]), rfl⟩

/-! ## What they say -/

theorem tells_thing {t : Thing} {ls : List Str} (h : t.Written ls) : Tells ls t.said := by
  cases h with
  | plain h => exact tells_element h
  | copy h1 h2 =>
    have h3 := tells_opening h1 (by simp) (by simp) (by simp)
    cases h2 with
    | nothing => simpa [Thing.said, Inner.said] using h3.append .nil
    | items h2 => simpa [Thing.said, Inner.said] using h3.append (Tells.each (fun _ _ h => tells_item h) h2)
    | entries h2 => simpa [Thing.said, Inner.said] using h3.append (Tells.each (fun _ _ h => tells_entry h) h2)

mutual

theorem tells_part {d : Nat} : ∀ {p : Part} {ls : List Str}, p.Written d ls → Tells ls (p.said d)
  | .mk q k c ts ps, _, .mk h1 h2 h3 => by
    have := (tells_opening h1 (by simp) (by simp) (by simp)).append ((Tells.each (fun _ _ h => tells_thing h) h2).append (tells_parts h3))
    simpa [Part.said] using this

theorem tells_parts {d : Nat} : ∀ {ps : List Part} {ls : List Str}, PartsWritten d ps ls → Tells ls (partsSaid d ps)
  | [], _, .nil => by simpa [partsSaid] using Tells.nil
  | p :: ps, _, .cons h1 h2 => by
    rw [partsSaid]
    exact (tells_part h1).append (tells_parts h2)

end

/-- A written document says what the document says. -/
theorem doc_says {input : Str} (h : T.Text input) : ∃ es, Says input es .finished ∧ told es = T.said := by
  obtain ⟨ls, hl, rfl⟩ := h
  obtain ⟨h1, h2, h3⟩ := hl
  obtain ⟨fs, f1, f2⟩ := says_tail h3
  obtain ⟨es, e1, e2⟩ := (Tells.each (fun _ _ h => tells_thing h) h1).append (tells_parts h2) _ _ _ f2
  rw [lined_eq]
  refine ⟨es, by simpa using e1, ?_⟩
  rw [e2, told_tail f1, List.append_nil]
  rfl

/-- The heap of another text that says the same. -/
theorem same_shallow {i i' : Str} {h h' : Heap} (H : SameHeap i i' h h') (hs : AllShallow h) : AllShallow h' := by
  intro k
  rw [(H.at k).deepCopy, (H.at k).type, (H.at k).copy, (H.at k).elements]
  exact hs k

/-! ## One meaning -/

theorem thing_det {ns : List Node} : ∀ {t : Thing} {m m' : Meant}, t.Means ns m → t.Means ns m' → m = m'
  | _, _, _, .plain, .plain => rfl
  | _, _, _, .copy h0 h1 h2, .copy h0' h1' h2' => by
    rw [h0] at h0'
    injection h0' with h0' _
    injection h0' with h0'
    subst h0'
    cases thing_det h1 h1'
    rw [h2] at h2'
    injection h2' with h2'
    rw [h2']

theorem things_det {ns : List Node} : ∀ {ts : List Thing} {ms ms' : List Meant}, ThingsMean ns ts ms → ThingsMean ns ts ms' → ms = ms'
  | _, _, _, .nil, .nil => rfl
  | _, _, _, .cons h1 h2, .cons h1' h2' => by rw [thing_det h1 h1', things_det h2 h2']

mutual

theorem part_det {ns : List Node} : ∀ {p : Part} {r r' : Remark} {xs xs' : List Raw}, p.Means ns r xs → p.Means ns r' xs' → r = r' ∧ xs = xs'
  | _, _, _, _, _, .own h1 h2, .own h1' h2' => by rw [things_det h1 h1', parts_det h2 h2']; exact ⟨rfl, rfl⟩
  | _, _, _, _, _, .copy h0 h1 h2 h3, .copy h0' h1' h2' h3' => by
    rw [h0] at h0'
    injection h0' with h0' _
    injection h0' with h0'
    subst h0'
    obtain ⟨rfl, rfl⟩ := part_det h1 h1'
    rw [things_det h2 h2', parts_det h3 h3']
    exact ⟨rfl, rfl⟩

theorem parts_det {ns : List Node} : ∀ {ps : List Part} {xs xs' : List Raw}, PartsMean ns ps xs → PartsMean ns ps xs' → xs = xs'
  | _, _, _, .nil, .nil => rfl
  | _, _, _, .cons h1 h2, .cons h1' h2' => by
    obtain ⟨rfl, rfl⟩ := part_det h1 h1'
    rw [parts_det h2 h2']

end

/-! ## Without copies -/

theorem meant_plain (e : Element) : Meant.raw ⟨e.remark, e.key, e.content.held⟩ = e.raw := by
  obtain ⟨r, k, c⟩ := e
  unfold Meant.raw Element.raw
  cases c with
  | parts p =>
    obtain ⟨f, m⟩ := p
    cases f <;> cases m <;> rfl
  | items => rfl
  | entries => rfl
  | verbatim => rfl

theorem things_plain_mean (ns : List Node) : ∀ es : List Element, ThingsMean ns (es.map .plain) (es.map fun e => ⟨e.remark, e.key, e.content.held⟩)
  | [] => .nil
  | _ :: es => .cons .plain (things_plain_mean ns es)

theorem things_plain_raw (es : List Element) : (es.map fun e => (⟨e.remark, e.key, e.content.held⟩ : Meant)).map Meant.raw = es.map Element.raw := by
  rw [List.map_map]
  exact List.map_congr_left fun e _ => meant_plain e

mutual

theorem sec_means (ns : List Node) : ∀ s : Sec, ∃ r xs, s.part.Means ns r xs ∧ s.raw = .node .section (Remark.raw r) (some s.part.key) xs
  | .mk r k es ss => by
    rw [Sec.part, Sec.raw, ← things_plain_raw]
    exact ⟨_, _, .own (things_plain_mean ns es) (secs_mean ns ss), rfl⟩

theorem secs_mean (ns : List Node) : ∀ ss : List Sec, PartsMean ns (secParts ss) (secsRaw ss)
  | [] => by rw [secParts, secsRaw]; exact .nil
  | s :: ss => by
    obtain ⟨r, xs, h1, h2⟩ := sec_means ns s
    rw [secParts, secsRaw, h2]
    exact .cons h1 (secs_mean ns ss)

end

theorem document_means (D : Document) : D.doc.Means D.raw := by
  have := Doc.Means.mk (T := D.doc) (things_plain_mean D.doc.nodes D.elements) (secs_mean D.doc.nodes D.sections)
  rw [things_plain_raw] at this
  exact this

end Eno
