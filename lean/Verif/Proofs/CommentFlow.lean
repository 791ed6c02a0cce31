import Verif.Proofs.CommentLemmas
import Verif.Proofs.ReadSections

/-! # Where comments come from -/

namespace Eno

open Spec

variable {S : Option (List Comment) → Prop} {h h' h0 : Heap} {i j n t s : Nat} {d : Copies} {input : Str} {ctx ctx' : Ctx}

/-- The comments of all elements have a property. -/
def AllComments (S : Option (List Comment) → Prop) (h : Heap) : Prop := ∀ j, S (h.at j).comments

theorem foldlM_ok {α β ε} {P : β → Prop} {f : β → α → Except ε β} (hf : ∀ b a b', P b → f b a = .ok b' → P b') :
    ∀ (l : List α) (b b' : β), P b → l.foldlM f b = .ok b' → P b' := by
  intro l
  induction l with
  | nil => intro b b' hb e; simp [pure, Except.pure] at e; subst e; exact hb
  | cons a l ih =>
    intro b b' hb e
    rw [List.foldlM_cons] at e
    cases hq : f b a with
    | error x => rw [hq] at e; simp [bind, Except.bind] at e
    | ok c => rw [hq] at e; exact ih c b' (hf b a c hb hq) e

theorem AllComments.modify {f : Elem → Elem} (a : AllComments S h) (hf : ∀ e, S e.comments → S (f e).comments) : AllComments S (h.modify i f) := by
  intro j
  by_cases hj : i = j
  · subst hj
    by_cases hl : i < h.length
    · rw [Heap.at_modify_self hl]; exact hf _ (a i)
    · rw [Heap.at_ge (by simp; omega)]; have := a i; rwa [Heap.at_ge (by omega)] at this
  · rw [Heap.at_modify_ne (Ne.symm hj)]; exact a j

theorem AllComments.inherit (a : AllComments S h) : AllComments S (inheritComments h i t) := by
  unfold inheritComments
  split
  · exact a.modify fun _ _ => a t
  · exact a

theorem AllComments.mirrorTo (a : AllComments S h) : AllComments S (mirrorTo h i t) := by
  unfold Eno.mirrorTo
  split <;> exact a.modify fun e he => he

theorem AllComments.setType (a : AllComments S h) {ty : Ty} : AllComments S (setType h i ty) := a.modify fun e he => he

theorem AllComments.nonSection (a : AllComments S h) (hh : consolidateNonSection h i t = .ok h') : AllComments S h' := by
  have b : AllComments S (inheritComments h i t) := a.inherit
  unfold consolidateNonSection at hh
  generalize inheritComments h i t = g at b hh
  simp only at hh
  repeat' split at hh
  all_goals first
    | (simp at hh; done)
    | (simp only [Except.ok.injEq] at hh; subst hh; first | exact b | exact b.setType.mirrorTo | exact b.modify fun _ he => he)

theorem AllComments.sections : ∀ (n : Nat) (h h' : Heap) (s t : Nat) (deep : Bool), AllComments S h → consolidateSections n h s t deep = .ok h' → AllComments S h' := by
  intro n
  induction n with
  | zero => intro h h' s t deep a hh; simp [consolidateSections] at hh
  | succ n ih =>
    intro h h' s t deep a hh
    have b : AllComments S (inheritComments h s t) := a.inherit
    simp only [consolidateSections] at hh
    generalize inheritComments h s t = g at b hh
    split at hh
    · simp at hh; subst hh; exact b.mirrorTo
    · split at hh
      · simp at hh; subst hh; exact b.modify fun e he => he
      · have b' : AllComments S (g.modify s fun e => { e with extend := some t }) := b.modify fun e he => he
        refine foldlM_ok (P := AllComments S) ?_ _ _ _ b' hh
        intro h1 kv h2 a1 e
        split at e
        · exact ih _ _ _ _ _ a1 e
        · simp at e; subst e; exact a1

theorem AllComments.resolveN : ∀ (n : Nat) (h h' : Heap) (i : Nat) (prev : List Nat), AllComments S h → resolveNonSection d n h i prev = .ok h' → AllComments S h' := by
  intro n
  induction n with
  | zero => intro h h' i prev a hh; simp [resolveNonSection] at hh
  | succ n ih =>
    intro h h' i prev a hh
    simp only [resolveNonSection] at hh
    split at hh
    · simp at hh
    · split at hh
      · simp at hh
      · rename_i t ht
        split at hh
        · simp at hh
        · rename_i h1 e1
          have a1 : AllComments S h1 := by
            split at e1
            · exact ih _ _ _ _ a e1
            · simp at e1; subst e1; exact a
          split at hh
          · simp at hh
          · rename_i h2 e2
            simp at hh; subst hh
            exact (a1.nonSection e2).modify fun e he => he

theorem AllComments.resolveS : ∀ (n : Nat) (h h' : Heap) (i : Nat) (prev : List Nat), AllComments S h → resolveSection d n h i prev = .ok h' → AllComments S h' := by
  intro n
  induction n with
  | zero => intro h h' i prev a hh; simp [resolveSection] at hh
  | succ n ih =>
    intro h h' i prev a hh
    simp only [resolveSection] at hh
    split at hh
    · simp at hh
    · split at hh
      · simp at hh
      · rename_i h1 e1
        have a1 : AllComments S h1 := by
          split at e1
          · split at e1
            · simp at e1
            · rename_i h2 e2
              simp at e1; subst e1
              refine AllComments.modify ?_ fun e he => he
              refine foldlM_ok (P := AllComments S) ?_ _ _ _ a e2
              intro g c g' ag eg
              split at eg
              · exact ih _ _ _ _ ag eg
              · simp at eg; subst eg; exact ag
          · simp at e1; subst e1; exact a
        split at hh
        · split at hh
          · simp at hh
          · rename_i t ht
            split at hh
            · simp at hh
            · rename_i h2 e2
              have a2 : AllComments S h2 := by
                split at e2
                · exact ih _ _ _ _ a1 e2
                · simp at e2; subst e2; exact a1
              split at hh
              · simp at hh
              · rename_i h3 e3
                simp at hh; subst hh
                exact (AllComments.sections _ _ _ _ _ _ a2 e3).modify fun e he => he
        · simp at hh; subst hh; exact a1

theorem AllComments.all {nf : Nat → RFail} {one : Heap → Nat → Except RExc Heap} (ho : ∀ h i h', AllComments S h → one h i = .ok h' → AllComments S h')
    (a : AllComments S h) (hh : resolveAll nf one d h = .ok h') : AllComments S h' := by
  unfold resolveAll at hh
  refine foldlM_ok (P := AllComments S) ?_ _ _ _ a hh
  intro g kc g' ag eg
  split at eg
  · split at eg <;> simp at eg
  · refine foldlM_ok (P := AllComments S) ?_ _ _ _ ag eg
    intro g1 i g2 ag1 eg1
    split at eg1
    · exact ho _ _ _ ag1 eg1
    · simp at eg1; subst eg1; exact ag1

theorem AllComments.load (ha : analyze input = .ok ctx) (hl : load input = .ok ctx') (a : AllComments S ctx.heap) : AllComments S ctx'.heap := by
  unfold Eno.load at hl
  rw [ha] at hl
  simp only at hl
  split at hl
  · split at hl
    · simp at hl
    · rename_i c hr
      simp at hl; subst hl
      unfold resolve at hr
      split at hr
      · simp at hr
      · split at hr
        · simp at hr
        · rename_i h1 e1
          split at hr
          · simp at hr
          · rename_i h2 e2
            simp at hr; subst hr
            refine AllComments.all (fun h i h' a e => AllComments.resolveS _ _ _ _ _ a e) ?_ e2
            exact AllComments.all (fun h i h' a e => AllComments.resolveN _ _ _ _ _ a e) a e1
  · simp at hl; subst hl; exact a

/-- The comments that elements of a loaded document show were written before some element. -/
theorem comments_written (ha : analyze input = .ok ctx) (hl : load input = .ok ctx') (j : Nat) : ∃ i, (ctx'.heap.at j).comments = (ctx.heap.at i).comments :=
  AllComments.load (S := fun c => ∃ i, c = (ctx.heap.at i).comments) ha hl (fun j => ⟨j, rfl⟩) j

theorem lookup_mem {α β} [BEq α] [LawfulBEq α] {a : α} {b : β} {l : List (α × β)} (h : List.lookup a l = some b) : (a, b) ∈ l := by
  induction l with
  | nil => simp at h
  | cons x l ih =>
    obtain ⟨k, v⟩ := x
    rw [List.lookup_cons] at h
    split at h
    · rename_i q; simp at q h; subst h; subst q; simp
    · simp [ih h]

theorem comment_ok {c : Comment} (h1 : RangesOk input c.toBase) (h2 : TextAt input c.toBase .comment c.comment) : c.Ok := by
  intro hc
  obtain ⟨x, hx⟩ := Option.isSome_iff_exists.1 hc
  obtain ⟨r, hr, _⟩ := h2 x hx
  unfold Comment.indent Comment.column
  rw [h1.line, hr]
  have := lookup_mem hr
  have := (h1.within _ _ this).1
  simp only [Option.getD_some]
  congr 1
  omega

/-- Every comment line that can be shown has what reading it needs. -/
theorem loaded_comments_ok (ha : analyze input = .ok ctx) (hl : load input = .ok ctx') (r : Ref) (cs : List Comment) (hc : ctx'.heap.comments r = some cs) :
    ∀ c ∈ cs, c.Ok := by
  have F := final_of_load ha hl
  obtain ⟨es, n, s, ht, hL, inv, lay, rfl⟩ := analyze_facts ha
  have mem : ∀ i, ¬ (s.heap.at i ∈ s.heap.tail) → i = 0 ∨ s.heap.length ≤ i := by
    intro i hn
    refine Classical.byContradiction fun hi => hn ?_
    obtain ⟨k, rfl⟩ : ∃ k, i = k + 1 := ⟨i - 1, by omega⟩
    unfold Heap.at
    rw [List.getD_eq_getElem?_getD, List.getElem?_eq_getElem (by omega), Option.getD_some, ← List.getElem_tail (by simp; omega)]
    exact List.getElem_mem _
  have nothing : ∀ i, ¬ (s.heap.at i ∈ s.heap.tail) → (s.heap.at i).comments = none ∧ (s.heap.at i).items = none ∧ (s.heap.at i).entries = none := by
    intro i hn
    rcases mem i hn with rfl | hi
    · have ok := inv.heap.elem 0 inv.heap.pos
      have d := inv.heap.doc
      refine ⟨d.2.2, ?_, ?_⟩
      · cases q : (s.heap.at 0).items with
        | none => rfl
        | some xs => have := (ok.items xs q).1; rw [d.1] at this; simp at this
      · cases q : (s.heap.at 0).entries with
        | none => rfl
        | some xs => have := (ok.entries xs q).1; rw [d.1] at this; simp at this
    · rw [Heap.at_ge hi]; simp [Elem.document]
  have owns : ∀ i o, o ∈ (s.heap.at i).owners → ∀ c ∈ o.1, c.Ok := by
    intro i o ho c hcm
    by_cases hm : s.heap.at i ∈ s.heap.tail
    · have := owner_comments_faithful ht lay (List.mem_flatMap.2 ⟨_, hm, ho⟩) c hcm
      exact comment_ok this.1 this.2
    · obtain ⟨q1, q2, q3⟩ := nothing i hm
      simp [Elem.owners, q1, q2, q3] at ho
      subst ho; simp at hcm
  have sub : ∀ r x, s.heap.sub? r = some x → ∀ c ∈ x.comments.getD [], c.Ok := by
    intro r x hx
    cases r with
    | elem j => simp [Heap.sub?] at hx
    | item i k => exact owns i (x.comments.getD [], x.piece) (by
        simp only [Elem.owners, List.mem_cons, List.mem_append, List.mem_map]
        exact .inl (.inr ⟨x, List.mem_of_getElem? hx, rfl⟩))
    | entry i k => exact owns i (x.comments.getD [], x.piece) (by
        simp only [Elem.owners, List.mem_cons, List.mem_append, List.mem_map]
        exact .inr ⟨x, List.mem_of_getElem? hx, rfl⟩)
  cases r with
  | elem j =>
    obtain ⟨i, hi⟩ := comments_written ha hl j
    simp only [Heap.comments] at hc
    rw [hi] at hc
    have hc' : (s.heap.at i).comments = some cs := hc
    exact owns i (cs, (s.heap.at i).piece) (by simp [Elem.owners, hc'])
  | item i k =>
    simp only [Heap.comments, F.sub_eq, Option.bind_eq_some_iff] at hc
    obtain ⟨x, hx, hc⟩ := hc
    intro c hcm
    exact sub _ x hx c (by simp [hc, hcm])
  | entry i k =>
    simp only [Heap.comments, F.sub_eq, Option.bind_eq_some_iff] at hc
    obtain ⟨x, hx, hc⟩ := hc
    intro c hcm
    exact sub _ x hx c (by simp [hc, hcm])

theorem Spec.CommentsOf.det {c c' : Option (List Comment)} (h1 : CommentsOf h i c) (h2 : CommentsOf h i c') : c = c' := by
  induction h1 generalizing c' with
  | own hc =>
    cases h2 with
    | own => rfl
    | written ht => exact (copy_none_not hc ht).elim
    | inherited ht => exact (copy_none_not hc ht).elim
  | written ht hs =>
    cases h2 with
    | own hc => rfl
    | written => rfl
    | inherited _ hn => rw [hn] at hs; simp at hs
  | inherited ht hn _ ih =>
    cases h2 with
    | own hc => exact (copy_none_not hc ht).elim
    | written _ hs => rw [hn] at hs; simp at hs
    | inherited ht' _ h' => have := ht.det ht'; subst this; exact ih h'

theorem Spec.Grounded.comments (g : Grounded h i) : ∃ c, CommentsOf h i c := by
  induction g with
  | own hc => exact ⟨_, .own hc⟩
  | @copy i t ht _ ih =>
    obtain ⟨c, hc⟩ := ih
    cases hs : (h.at i).comments with
    | none => exact ⟨c, .inherited ht hs hc⟩
    | some x => exact ⟨_, .written ht (by rw [hs]; rfl)⟩

/-- Comments of elements other than sections. -/
theorem Final.comments (F : Final h0 h) {c : Option (List Comment)} (hc : CommentsOf h0 i c) (hi : i < h0.length) (hs : (h0.at i).type ≠ .section) :
    (h.at i).comments = c := by
  induction hc with
  | own hc => rw [F.plain _ hi hs hc]
  | written ht hsm => rw [consN_comments (F.copied _ _ hs ht), inheritC_comments, if_pos hsm]
  | inherited ht hn _ ih =>
    rw [consN_comments (F.copied _ _ hs ht), inheritC_comments, if_neg (by rw [hn]; simp)]
    exact ih (F.nonsec hs ht).1 (F.nonsec hs ht).2

/-- Comments of sections and the document. -/
theorem SFinal.comments_of (F : SFinal h0 h) {c : Option (List Comment)} (hc : CommentsOf h0 i c) (hi : i < h0.length)
    (hs : (h0.at i).type = .section ∨ i = 0) (u : Undisturbed h0 i) : (h.at i).comments = c := by
  induction hc with
  | own hc => exact (F.plain _ hi hs hc u.1).2.2
  | written ht hsm => rw [F.comments _ _ (F.holder _ _ hs ht).1 ht u.1 (u.template ht).1, if_pos hsm]
  | inherited ht hn _ ih =>
    obtain ⟨q1, q2, q3⟩ := F.holder _ _ hs ht
    rw [F.comments _ _ q1 ht u.1 (u.template ht).1, if_neg (by rw [hn]; simp)]
    exact ih q2 (.inl q3) (u.template ht)

end Eno
