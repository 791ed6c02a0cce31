import Verif.Proofs.WrittenSections
import Verif.Spec.Answers

/-! # Reading written documents -/

namespace Eno

open Spec

variable {input : Str} {h : Heap}

theorem Remarked.raw {r : Remark} {c : Option (List Comment)} (hr : Remarked r c) : c.map (fun _ => commentOf c) = Remark.raw r := by
  obtain ⟨⟨h1, h2⟩, _⟩ := hr
  unfold Remark.raw
  cases c with
  | none => simp [commentLines] at h2; subst h2; simp
  | some cs =>
    simp at h2; subst h2
    rw [if_neg (by simpa [commentLines] using h1)]
    simp [commentOf]

theorem raws_items {E : List Sub} {i : Nat} (hE : (h.at i).items = some E) (hf : ∀ y ∈ E, y.Fine) : RawsOf input h (itemsAt h i) (E.map fun y => y.toItem.raw) := by
  unfold itemsAt
  rw [hE, Option.getD_some]
  have : ∀ k, k ≤ E.length → RawsOf input h ((List.range' k (E.length - k)).map (.item i)) ((E.drop k).map fun y => y.toItem.raw) := by
    intro k hk
    induction hn : E.length - k generalizing k with
    | zero => rw [List.drop_eq_nil_of_le (by omega)]; exact .nil
    | succ n ih =>
      have hlt : k < E.length := by omega
      rw [List.drop_eq_getElem_cons hlt]
      refine .cons ?_ (ih (k + 1) hlt (by omega))
      have hs : h.sub? (.item i k) = some E[k] := by simp [Heap.sub?, hE, hlt]
      have := RawOf.item (input := input) hs
      have h2 := (hf _ (List.getElem_mem hlt)).raw
      simp only [Item.raw, Sub.toItem, Parts.text]
      rw [← h2]; exact this
  have := this 0 (by omega)
  simpa [List.range_eq_range'] using this

theorem raws_entries {E : List Sub} {i : Nat} (hE : (h.at i).entries = some E) (hf : ∀ y ∈ E, y.Fine ∧ y.key.isSome) :
    RawsOf input h (entriesAt h i) (E.map fun y => y.toEntry.raw) := by
  unfold entriesAt
  rw [hE, Option.getD_some]
  have : ∀ k, k ≤ E.length → RawsOf input h ((List.range' k (E.length - k)).map (.entry i)) ((E.drop k).map fun y => y.toEntry.raw) := by
    intro k hk
    induction hn : E.length - k generalizing k with
    | zero => rw [List.drop_eq_nil_of_le (by omega)]; exact .nil
    | succ n ih =>
      have hlt : k < E.length := by omega
      rw [List.drop_eq_getElem_cons hlt]
      refine .cons ?_ (ih (k + 1) hlt (by omega))
      have hs : h.sub? (.entry i k) = some E[k] := by simp [Heap.sub?, hE, hlt]
      have := RawOf.entry (input := input) hs
      obtain ⟨h1, h3⟩ := hf _ (List.getElem_mem hlt)
      have h2 := h1.raw
      obtain ⟨key, hkey⟩ := Option.isSome_iff_exists.1 h3
      simp only [Entry.raw, Sub.toEntry, Parts.text]
      rw [← h2, hkey]; rw [hkey] at this; exact this
  have := this 0 (by omega)
  simpa [List.range_eq_range'] using this

theorem ElemIs.rawOf {e : Element} {i : Nat} (hi : i < h.length) (H : ElemIs input e (h.at i)) : RawOf input h (.elem i) e.raw := by
  obtain ⟨r, k, c⟩ := e
  have hk := H.key
  have hr := H.remark.raw
  have hc := H.content
  have hcp := H.copy
  simp only at hk hr hc
  cases c with
  | parts p =>
    obtain ⟨first, more⟩ := p
    obtain ⟨h1, h2, h3, _, _⟩ := hc
    simp only at h1 h2 h3
    by_cases he : first = none ∧ more = []
    · obtain ⟨rfl, rfl⟩ := he
      simp at h1
      have := RawOf.empty (input := input) hi (CommentsOf.own hcp) (by rw [← h1]; exact KindOf.own hcp)
      rw [hr, hk] at this; exact this
    · rw [if_neg he] at h1
      have := RawOf.field (input := input) hi (CommentsOf.own hcp) (KindOf.own hcp) (.inl h1) (ValueOf.own hcp)
      rw [hr, hk, h1] at this
      have hv : ownValue input (h.at i) = Parts.text ⟨first, more⟩ := by
        unfold ownValue
        rw [if_neg (by rw [h1]; simp)]
        show joined (valueParts _ _) = joined _
        unfold valueParts
        rw [h2, ← h3]; rfl
      rw [hv] at this
      have hw : (Element.raw ⟨r, k, .parts ⟨first, more⟩⟩) = .leaf .field (Remark.raw r) (some k) (some (Parts.text ⟨first, more⟩)) := by
        unfold Element.raw
        cases first <;> cases more <;> simp_all
      rw [hw]; exact this
  | items x xs =>
    obtain ⟨h1, _, ys, h2, h3, h4⟩ := hc
    have := RawOf.list (input := input) hi (CommentsOf.own hcp) (by rw [← h1]; exact KindOf.own hcp) (ItemsOf.own hcp) (raws_items h2 h4)
    rw [hr, hk] at this
    have hm : ys.map (fun y => y.toItem.raw) = (x :: xs).map Item.raw := by rw [← h3]; simp
    rw [hm] at this; exact this
  | entries x xs =>
    obtain ⟨h1, _, ys, h2, h3, h4⟩ := hc
    have := RawOf.fieldset (input := input) hi (CommentsOf.own hcp) (by rw [← h1]; exact KindOf.own hcp) (EntriesOf.own hcp) (raws_entries h2 h4)
    rw [hr, hk] at this
    have hm : ys.map (fun y => y.toEntry.raw) = (x :: xs).map Entry.raw := by rw [← h3]; simp
    rw [hm] at this; exact this
  | verbatim l =>
    obtain ⟨h1, h2, _⟩ := hc
    have := RawOf.field (input := input) hi (CommentsOf.own hcp) (KindOf.own hcp) (.inr h1) (ValueOf.own hcp)
    rw [hr, hk, h1, h2] at this; exact this

theorem raws_append {a b : List Ref} {x y : List Raw} (h1 : RawsOf input h a x) (h2 : RawsOf input h b y) : RawsOf input h (a ++ b) (x ++ y) := by
  induction a generalizing x with
  | nil => cases h1; exact h2
  | cons r a ih => cases h1 with | cons g1 g2 => exact .cons g1 (ih g2)

theorem ElemsAt.rawsOf {lo : Nat} {is : List Nat} {es : List Element} (H : ElemsAt input h lo is es) : RawsOf input h (is.map .elem) (es.map Element.raw) := by
  induction H with
  | nil => exact .nil
  | cons _ h2 h3 _ ih => exact .cons (h3.rawOf h2) ih

mutual

theorem SecAt.rawOf {lo : Nat} {i : Nat} {x : Sec} : SecAt input h lo i x → RawOf input h (.elem i) x.raw
  | .mk (a := a) (b := b) _ h2 h3 h4 h5 h6 h7 h8 h9 => by
    have := RawOf.section (input := input) h2 (CommentsOf.own h6) h3 (CopiedFirst.own h6)
      (by rw [h7, List.map_append]; exact raws_append h8.rawsOf (SecsAt.rawsOf h9))
    rw [h5.raw, h4] at this
    rw [Sec.raw]; exact this

theorem SecsAt.rawsOf {lo : Nat} {is : List Nat} {xs : List Sec} : SecsAt input h lo is xs → RawsOf input h (is.map .elem) (secsRaw xs)
  | .nil => .nil
  | .cons h1 h2 => .cons (SecAt.rawOf h1) (SecsAt.rawsOf h2)

end

/-- What is known of a document after it was read. -/
structure DocAt (input : Str) (D : Document) (ctx : Ctx) : Prop where
  analyzed : analyze input = .ok ctx
  loaded : load input = .ok ctx
  fine : AllFine ctx.heap
  raw : RawOf input ctx.heap (.elem 0) D.raw
  plain : ctx.copySections = [] ∧ ctx.copyNonSections = []
  tree : ∃ a b, (ctx.heap.at 0).elements = a ++ b ∧ ElemsAt input ctx.heap 1 a D.elements ∧ SecsAt input ctx.heap 1 b D.sections

theorem allFine_init : AllFine AS.init.heap := by
  intro i hi
  have : i = 0 := by simp [AS.init] at hi; exact hi
  subst this
  have h1 : (AS.init.heap.at 0).comments = none := rfl
  have h2 : (AS.init.heap.at 0).items = none := rfl
  have h3 : (AS.init.heap.at 0).entries = none := rfl
  exact ⟨rfl, rfl, by rw [h1]; simp, by rw [h2]; simp, by rw [h3]; simp⟩

theorem written_document {D : Document} (ht : D.Text input) : ∃ ctx, DocAt input D ctx := by
  obtain ⟨ls, ⟨ha, hb, hf⟩, rfl⟩ := ht
  rename_i a b f
  have h0 : Here AS.init [0] := ⟨by simp [Chain, AS.init], rfl, rfl⟩
  have R := Run.trans (Run.elements (input := ['\n'].intercalate (a ++ (b ++ f))) (rest := b ++ f) ha h0 rfl)
    (Q := fun s' => ∃ is js, Ext AS.init.heap s'.heap 0 (is ++ js) ∧ ElemsAt (['\n'].intercalate (a ++ (b ++ f))) s'.heap 1 is D.elements ∧
      SecsAt (['\n'].intercalate (a ++ (b ++ f))) s'.heap 1 js D.sections ∧ Keep AS.init s') (rest := f) (by
    rintro s1 ⟨is, e1, g1, g2, k1⟩
    refine Run.mono (Run.secs hb ⟨[], g2⟩ rfl k1.comments) ?_
    rintro s2 ⟨js, e2, g3, _, k2⟩
    have hl : AS.init.heap.length = 1 := rfl
    have := e1.le
    refine ⟨is, js, e1.trans e2, g1.mono e2.le (by omega) (fun j h1 h2 => e2.others j h2 (by omega)), g3.mono (Nat.le_refl _) (by omega) (fun _ _ _ => rfl), k1.trans k2⟩)
  obtain ⟨i', n', es, s', h1, h2, h3, is, js, e, g1, g2, k⟩ := R 0 0 (at_start _)
  obtain ⟨es', s'', n'', h4, h5, m, c, rfl⟩ := Run.finish (n := n') (r := []) hf (by rw [k.comments]; exact ⟨by simp, rfl⟩) h1
  have tr := h3 _ _ h4
  have hrun : runEvents AS.init (es ++ es') = .ok { s' with metas := m, comments := c } := by rw [runEvents_then h2]; exact h5
  have han := analyze_eq tr
  rw [hrun] at han
  simp only [finish] at han
  have hfine : AllFine s'.heap := k.fine allFine_init
  have h00 : s'.heap.at 0 = { AS.init.heap.at 0 with elements := is ++ js } := by rw [e.parent]; rfl
  refine ⟨_, han, ?_, hfine, ?_, ⟨k.cs, k.cn⟩, is, js, by simp [ctxOf, h00], g1, g2⟩
  · unfold load
    rw [han]
    simp only [ctxOf, k.cs, k.cn]
    simp [AS.init]
  · show RawOf _ s'.heap _ _
    refine RawOf.document (xs := is ++ js) ?_ ?_
    · have := CopiedFirst.own (h := s'.heap) (s := 0) (by rw [h00]; rfl)
      rw [h00] at this; exact this
    · rw [List.map_append]; exact raws_append g1.rawsOf g2.rawsOf

/-! ## Sensible questions -/

theorem heap_outside {i : Nat} (hi : ¬ i < h.length) : h.at i = Elem.document := by
  simp [Heap.at, List.getElem?_eq_none (by omega : h.length ≤ i)]

theorem AllFine.straight (hf : AllFine h) : AllStraight h := by
  have hno : ∀ i, (h.at i).copy = none ∧ (h.at i).deepCopy = false := by
    intro i
    by_cases hi : i < h.length
    · exact ⟨(hf i hi).1, (hf i hi).2.1⟩
    · rw [heap_outside hi]; exact ⟨rfl, rfl⟩
  intro s _ _
  refine ⟨⟨fun a _ => (hno a).2, fun _ _ a _ => (hno a).2⟩, ?_, ?_⟩
  · rw [(hno s).1]; simp
  · intro t _; rw [(hno t).1]; simp

theorem AllFine.readable (hf : AllFine h) : CommentsReadable h := by
  intro r cs hr c hc
  subst hc
  cases r with
  | elem i =>
    by_cases hi : i < h.length
    · exact (hf i hi).2.2.1 c hr
    · simp [Heap.comments, heap_outside hi, Elem.document] at hr
  | item i k =>
    by_cases hi : i < h.length
    · simp only [Heap.comments, Heap.sub?, Option.bind_eq_some_iff] at hr
      obtain ⟨y, h1, h2⟩ := hr
      exact remarked_single ((hf i hi).2.2.2.1 y (List.mem_of_getElem? h1)) c h2
    · simp [Heap.comments, Heap.sub?, heap_outside hi, Elem.document] at hr
  | entry i k =>
    by_cases hi : i < h.length
    · simp only [Heap.comments, Heap.sub?, Option.bind_eq_some_iff] at hr
      obtain ⟨y, h1, h2⟩ := hr
      exact remarked_single ((hf i hi).2.2.2.2 y (List.mem_of_getElem? h1)) c h2
    · simp [Heap.comments, Heap.sub?, heap_outside hi, Elem.document] at hr

end Eno
