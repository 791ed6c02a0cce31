import Verif.Proofs.ReadTyped

/-! # The typed and untyped readers of sections -/

namespace Eno

open Spec

variable {h h' h0 h1 : Heap} {i j n p t t' s m : Nat} {k : Str} {ctx ctx' : Ctx} {input : Str} {xs ys : List Nat}

theorem Spec.ElementsOf.det (h1 : ElementsOf h i xs) (h2 : ElementsOf h i ys) : xs = ys := by
  induction h1 generalizing ys with
  | own hc =>
    cases h2 with
    | own => rfl
    | copy ht _ => exact (copy_none_not hc ht).elim
  | copy ht _ ih =>
    cases h2 with
    | own hc => exact (copy_none_not hc ht).elim
    | copy ht' h' => have := ht.det ht'; subst this; rw [ih h']

theorem Spec.Grounded.elements (g : Grounded h i) : ∃ xs, ElementsOf h i xs := by
  induction g with
  | own hc => exact ⟨_, .own hc⟩
  | copy ht _ ih => obtain ⟨v, hv⟩ := ih; exact ⟨_, .copy ht hv⟩

theorem Spec.Undisturbed.template (u : Undisturbed h s) (ht : TemplateIs h s t) : Undisturbed h t :=
  ⟨u.2 t (.one ht), fun j l => u.2 j (.step ht l)⟩

theorem Spec.Undisturbed.leads (u : Undisturbed h s) (l : Leads h s t) : Undisturbed h t :=
  ⟨u.2 t l, fun j l' => u.2 j (l.trans l')⟩

theorem Spec.Resolvable.grounded (r : Resolvable h s) (hs : (h.at s).type = .section) : Grounded h s := by
  induction r with
  | @mk s h1 _ ih =>
    cases hc : (h.at s).copy with
    | none => exact .own hc
    | some k =>
      obtain ⟨t, ht⟩ := h1 (by rw [hc]; rfl)
      have hts : (h.at t).type = .section := ht.cand.2.2.2.2.2 hs
      refine .copy ht ?_
      cases hct : (h.at t).copy with
      | none => exact .own hct
      | some k' => exact ih t ⟨hts, .inl (by rw [hct]; rfl), .inr ht⟩ hts

theorem inheritC_comments (e t : Elem) : (inheritC e t).comments = if e.comments.isSome then e.comments else t.comments := by
  unfold inheritC
  cases q : e.comments <;> cases q' : t.comments <;> simp [q]

theorem consS_comments (e t : Elem) : (consS e t n).comments = (inheritC e t).comments := by
  unfold consS; simp only; split <;> rfl

theorem consN_comments {e t e' : Elem} (hh : consN e t n = .ok e') : e'.comments = (inheritC e t).comments := by
  unfold consN at hh
  simp only at hh
  repeat' split at hh
  all_goals first | (simp at hh; done) | (simp at hh; subst hh; rfl)

/-- How sections are linked in a loaded document. -/
structure SFinal (h0 h : Heap) : Prop where
  plain : ∀ s, s < h0.length → (h0.at s).type = .section ∨ s = 0 → (h0.at s).copy = none → Shielded h0 s →
    (h.at s).mirror = none ∧ (h.at s).extend = none ∧ (h.at s).comments = (h0.at s).comments
  copied : ∀ s t, (h0.at s).type = .section → TemplateIs h0 s t → Shielded h0 s → Shielded h0 t →
    ((h0.at s).elements = [] → (h.at s).mirror = some ((h.at t).mirror.getD t)) ∧
    ((h0.at s).elements ≠ [] → (h.at s).mirror = none ∧ (h.at s).extend = some t)
  comments : ∀ s t, (h0.at s).type = .section → TemplateIs h0 s t → Shielded h0 s → Shielded h0 t →
    (h.at s).comments = if (h0.at s).comments.isSome then (h0.at s).comments else (h.at t).comments
  grounded : ∀ s, s < h0.length → (h0.at s).type = .section ∨ s = 0 → Grounded h0 s
  holder : ∀ s t, (h0.at s).type = .section ∨ s = 0 → TemplateIs h0 s t → (h0.at s).type = .section ∧ t < h0.length ∧ (h0.at t).type = .section

theorem sfinal_of_load (ha : analyze input = .ok ctx) (hl : load input = .ok ctx') : SFinal ctx.heap ctx'.heap := by
  have F := final_of_load ha hl
  have a := analyze_analysed ha
  obtain ⟨c, hc', r, _, hlen⟩ := load_ok_analyze hl
  rw [ha] at hc'; injection hc' with hc'; subst hc'
  have hcp := r.copies
  have hsecs := r.secs
  obtain ⟨h1, n1, n2, s1⟩ := r.mid
  have doc : (ctx.heap.at 0).type = .document := a.heap.doc.1
  have docc : (ctx.heap.at 0).copy = none := by
    cases hq : (ctx.heap.at 0).copy with
    | none => rfl
    | some k =>
      have ok := a.heap.elem 0 a.heap.pos
      have := ok.template (by rw [← ok.copy, hq]; rfl)
      rw [doc] at this; simp at this
  refine ⟨?_, ?_, ?_, ?_, ?_⟩
  · rintro s hs (hty | rfl) hc hsh
    · have := s1.same s hty hsh ((hcp s hs).trans hc.symm)
      rw [this]
      exact ⟨(a.heap.elem s hs).mirror, (a.heap.elem s hs).extend, rfl⟩
    · rw [F.plain 0 hs (by rw [doc]; decide) hc]
      exact ⟨(a.heap.elem 0 hs).mirror, (a.heap.elem 0 hs).extend, rfl⟩
  · intro s t hty ht h2 h3
    obtain ⟨t', ht', _, e⟩ := s1.done s hty (by rw [ht.cand.2.2.1]; rfl) (hcp s ht.1)
    have := ht.det ht'; subst this
    have e := e h2 h3
    have ok := a.heap.elem s ht.1
    have hel : (inheritC (ctx.heap.at s) (ctx'.heap.at t)).elements = (ctx.heap.at s).elements := by unfold inheritC; split <;> rfl
    have hmi : (inheritC (ctx.heap.at s) (ctx'.heap.at t)).mirror = none := by have := ok.mirror; unfold inheritC; split <;> exact this
    constructor
    · intro hne
      rw [e]; unfold consS; simp only [hel, hne, if_true]
    · intro hne
      rw [e]; unfold consS; simp [hel, hne, hmi]
  · intro s t hty ht h2 h3
    obtain ⟨t', ht', _, e⟩ := s1.done s hty (by rw [ht.cand.2.2.1]; rfl) (hcp s ht.1)
    have := ht.det ht'; subst this
    rw [e h2 h3, consS_comments, inheritC_comments]
  · rintro s hs (hty | rfl)
    · cases hc : (ctx.heap.at s).copy with
      | none => exact .own hc
      | some k => exact (hsecs s hs hty (by rw [hc]; rfl)).2.grounded hty
    · exact .own docc
  · rintro s t (hty | rfl) ht
    · exact ⟨hty, ht.cand.1, ht.cand.2.2.2.2.2 hty⟩
    · exact (copy_none_not docc ht).elim

/-- What is known about the target of a mirrored section. -/
structure SRoot (h0 h : Heap) (i n m : Nat) : Prop where
  lt : m < h0.length
  sec : (h0.at m).type = .section
  mirror : (h.at m).mirror = none
  depth : ∃ k, k < n ∧ GroundedIn h0 k m
  leads : Leads h0 i m
  elements : ∀ xs, ElementsOf h0 i xs → ElementsOf h0 m xs

theorem notOverridden_nil (he : (h.at s).elements = []) : notOverridden h s xs = xs := by
  unfold notOverridden; rw [he]; simp

theorem SFinal.root (F : SFinal h0 h) (g : GroundedIn h0 n i) (hi : i < h0.length) (hs : (h0.at i).type = .section ∨ i = 0) (u : Undisturbed h0 i)
    (hm : (h.at i).mirror = some m) : SRoot h0 h i n m := by
  induction g with
  | own hc => rw [(F.plain _ hi hs hc u.1).1] at hm; simp at hm
  | @copy i t n ht g ih =>
    obtain ⟨h0s, h1, h2⟩ := F.holder i t hs ht
    obtain ⟨l1, l2⟩ := F.copied i t h0s ht u.1 (u.template ht).1
    by_cases hne : (h0.at i).elements = []
    · rw [l1 hne] at hm; injection hm with hm
      have te : ∀ xs, ElementsOf h0 i xs → ElementsOf h0 t xs := by
        intro xs hv
        cases hv with
        | own hc => exact (copy_none_not hc ht).elim
        | copy ht' h' => have := ht.det ht'; subst this; rw [hne, notOverridden_nil hne]; simpa using h'
      cases htm : (h.at t).mirror with
      | none =>
        rw [htm] at hm; simp at hm; subst hm
        exact ⟨h1, h2, htm, ⟨n, by omega, g⟩, .one ht, te⟩
      | some mm =>
        rw [htm] at hm; simp at hm; subst hm
        have r := ih h1 (.inl h2) (u.template ht) htm
        obtain ⟨k, hk, gk⟩ := r.depth
        exact ⟨r.lt, r.sec, r.mirror, ⟨k, by omega, gk⟩, .step ht r.leads, fun xs hx => r.elements xs (te xs hx)⟩
    · rw [(l2 hne).1] at hm; simp at hm

/-- What is left of `xs` if the keys of `acc` are taken. -/
def leftOver (h : Heap) (acc xs : List Nat) : List Nat := xs.filter fun i => !(acc.map fun j => (h.at j).key).contains (h.at i).key

theorem leftOver_append (h : Heap) (map a b : List Nat) : leftOver h map (a ++ b) = leftOver h map a ++ leftOver h map b := by
  simp [leftOver]

theorem leftOver_step (h : Heap) (s : Nat) (acc xs : List Nat) :
    leftOver h (acc ++ leftOver h acc (h.at s).elements) xs = leftOver h acc (notOverridden h s xs) := by
  unfold leftOver notOverridden
  rw [List.filter_filter]
  apply List.filter_congr
  intro r hr
  rw [Bool.eq_iff_iff]
  simp only [Bool.and_eq_true, Bool.not_eq_true', decide_eq_true_eq]
  rw [← Bool.not_eq_true, ← Bool.not_eq_true, List.contains_iff_mem, List.contains_iff_mem]
  simp only [List.mem_map, List.mem_append, not_exists, not_and]
  constructor
  · intro hh
    refine ⟨fun o ho => hh o (.inl ho), fun o ho e => ?_⟩
    by_cases hq : ∃ q ∈ acc, (h.at q).key = (h.at o).key
    · obtain ⟨q, q1, q2⟩ := hq
      exact hh q (.inl q1) (q2.trans e)
    · refine hh o (.inr ?_) e
      rw [List.mem_filter]
      refine ⟨ho, ?_⟩
      simp only [not_exists, not_and] at hq
      simp only [Bool.not_eq_true']
      rw [← Bool.not_eq_true, List.contains_iff_mem, List.mem_map]
      rintro ⟨q, q1, q2⟩
      exact hq q q1 q2
  · rintro ⟨a, b⟩ o (ho | ho) e
    · exact a o ho e
    · exact b o (List.mem_filter.1 ho).1 e

/-- A typed section holds its elements. -/
theorem instElements_spec (N : Final h0 h) (F : SFinal h0 h) : ∀ (n s fuel : Nat), GroundedIn h0 n s → n < fuel → s < h0.length →
    (h0.at s).type = .section ∨ s = 0 → Undisturbed h0 s → ∀ xs, ElementsOf h0 s xs → ∀ acc, instElements h fuel s acc = .ok (acc ++ leftOver h0 acc xs) := by
  intro n
  induction n using Nat.strongRecOn with
  | ind n ih =>
    intro s fuel g hf hi hs u xs hx acc
    obtain ⟨fuel, rfl⟩ : ∃ f, fuel = f + 1 := ⟨fuel - 1, by omega⟩
    simp only [instElements]
    cases hm : (h.at s).mirror with
    | some m =>
      have r := F.root g hi hs u hm
      obtain ⟨k, hk, gk⟩ := r.depth
      exact ih k hk m fuel gk (by omega) r.lt (.inl r.sec) (u.leads r.leads) xs (r.elements xs hx) acc
    | none =>
      simp only
      have hk : ∀ j, (h.at j).key = (h0.at j).key := fun j => (N.items_all j).2.2.2
      have hfil : ((h.at s).elements.filter fun i => !(acc.map fun j => (h.at j).key).contains (h.at i).key) = leftOver h0 acc (h0.at s).elements := by
        unfold leftOver; rw [(N.items_all s).2.2.1]; simp only [hk]
      rw [hfil]
      cases g with
      | own hcn =>
        rw [(F.plain s hi hs hcn u.1).2.1, hx.det (.own hcn)]
      | @copy _ t n ht gt =>
        obtain ⟨h0s, h1, h2⟩ := F.holder s t hs ht
        obtain ⟨ys, hy⟩ := gt.grounded.elements
        obtain ⟨l1, l2⟩ := F.copied s t h0s ht u.1 (u.template ht).1
        by_cases hne : (h0.at s).elements = []
        · rw [l1 hne] at hm; simp at hm
        · rw [(l2 hne).2]
          simp only
          rw [ih n (by omega) t fuel gt (by omega) h1 (.inl h2) (u.template ht) ys hy, hx.det (.copy ht hy), leftOver_step, leftOver_append]
          simp

end Eno

namespace Eno

open Spec

variable {h h' h0 h1 : Heap} {i j n p t t' s m : Nat} {k : Str} {ctx ctx' : Ctx} {input : Str} {xs ys : List Nat}

theorem Spec.Straight.template (u : Straight h s) (ht : TemplateIs h s t) : Straight h t :=
  ⟨u.1.template ht, u.2.2 t (.one ht), fun j l => u.2.2 j (.step ht l)⟩

theorem Spec.CopiedFirst.det (h1 : CopiedFirst h i xs) (h2 : CopiedFirst h i ys) : xs = ys := by
  induction h1 generalizing ys with
  | own hc =>
    cases h2 with
    | own => rfl
    | copy ht _ => exact (copy_none_not hc ht).elim
  | copy ht _ ih =>
    cases h2 with
    | own hc => exact (copy_none_not hc ht).elim
    | copy ht' h' => have := ht.det ht'; subst this; rw [ih h']

theorem Spec.Grounded.copied (g : Grounded h i) : ∃ xs, CopiedFirst h i xs := by
  induction g with
  | own hc => exact ⟨_, .own hc⟩
  | copy ht _ ih => obtain ⟨v, hv⟩ := ih; exact ⟨_, .copy ht hv⟩

/-- Both orders list the same elements. -/
theorem Spec.ElementsOf.perm (h1 : ElementsOf h s xs) (h2 : CopiedFirst h s ys) : List.Perm xs ys := by
  induction h1 generalizing ys with
  | own hc => rw [h2.det (.own hc)]
  | copy ht _ ih =>
    cases h2 with
    | own hc => exact (copy_none_not hc ht).elim
    | copy ht' h' =>
      have := ht.det ht'; subst this
      exact List.perm_append_comm.trans (List.Perm.append_right _ ((ih h').filter _))

theorem SFinal.straight (F : SFinal h0 h) (hi : s < h0.length) (hs : (h0.at s).type = .section ∨ s = 0) (u : Straight h0 s) : (h.at s).mirror = none := by
  cases hc : (h0.at s).copy with
  | none => exact (F.plain s hi hs hc u.1.1).1
  | some k =>
    have g := F.grounded s hi hs
    cases g with
    | own h' => rw [hc] at h'; simp at h'
    | copy ht _ =>
      have := F.holder _ _ hs ht
      exact ((F.copied _ _ this.1 ht u.1.1 (u.template ht).1.1).2 (u.2.1 (by rw [hc]; rfl))).1

theorem readElements_spec (N : Final h0 h) (F : SFinal h0 h) : ∀ (n s fuel : Nat), GroundedIn h0 n s → n < fuel → s < h0.length →
    (h0.at s).type = .section ∨ s = 0 → Straight h0 s →
    ∀ xs, CopiedFirst h0 s xs → ∀ (X : Nat → Prop), (∀ x, X x → x ≠ s ∧ ¬ Leads h0 s x) → ∀ c : Cache, ElementsOk h0 X c.elements →
    ∃ E, readElements h fuel s c = (.ok (some xs), { c with elements := E }) ∧ ElementsOk h0 X E := by
  intro n
  induction n using Nat.strongRecOn with
  | ind n ih =>
    intro s fuel g hf hi hs u xs hx X hX c co
    obtain ⟨fuel, rfl⟩ : ∃ f, fuel = f + 1 := ⟨fuel - 1, by omega⟩
    simp only [readElements, F.straight hi hs u]
    have hk : ∀ j, (h.at j).key = (h0.at j).key := fun j => (N.items_all j).2.2.2
    have hel : (h.at s).elements = (h0.at s).elements := (N.items_all s).2.2.1
    cases hc : c.elements s with
    | some ws =>
      have : ¬ X s := fun q => (hX s q).1 rfl
      exact ⟨c.elements, by simp only; rw [(co s ws hi hs u this hc).det hx], co⟩
    | none =>
      simp only
      have done : ∀ (E : Nat → Option (List Nat)), ElementsOk h0 (fun x => X x ∨ x = s) E → ElementsOk h0 X (upd E s xs) := by
        intro E hE j ws hj hsj uj hX' hw
        simp only [upd] at hw
        split at hw
        · rename_i e; subst e; injection hw with hw; subst hw; exact hx
        · rename_i e; exact hE j ws hj hsj uj (by simp only [not_or]; exact ⟨hX', e⟩) hw
      have tmp : ∀ ys, ElementsOk h0 (fun x => X x ∨ x = s) (upd c.elements s ys) := by
        intro ys j ws hj hsj uj hX' hw
        simp only [not_or] at hX'
        simp only [upd] at hw
        rw [if_neg hX'.2] at hw
        exact co j ws hj hsj uj hX'.1 hw
      cases g with
      | own hcn =>
        have hx' := hx.det (.own hcn)
        rw [(F.plain s hi hs hcn u.1.1).2.1]
        refine ⟨upd c.elements s xs, by simp only [hx', hel], done _ ?_⟩
        intro j ws hj hsj uj hX' hw
        simp only [not_or] at hX'
        exact co j ws hj hsj uj hX'.1 hw
      | @copy _ t n ht gt =>
        obtain ⟨h0s, h1, h2⟩ := F.holder s t hs ht
        obtain ⟨ys, hy⟩ := gt.grounded.copied
        have hx' := hx.det (.copy ht hy)
        obtain ⟨l1, l2⟩ := (F.copied s t h0s ht u.1.1 (u.template ht).1.1).2 (u.2.1 (by rw [ht.cand.2.2.1]; rfl))
        simp only [l2]
        obtain ⟨E, r1, r2⟩ := ih n (by omega) t fuel gt (by omega) h1 (.inl h2) (u.template ht) ys hy (fun x => X x ∨ x = s) (by
          rintro x (hx | rfl)
          · exact ⟨fun e => by subst e; exact (hX _ hx).2 (.one ht), fun l => (hX x hx).2 (.step ht l)⟩
          · have nc := (GroundedIn.copy ht gt).grounded.not_cycle
            exact ⟨fun e => by subst e; exact nc (.one ht), fun l => nc (.step ht l)⟩) { c with elements := upd c.elements s (h.at s).elements } (tmp _)
        rw [r1]
        simp only
        have hno : (ys.filter fun i => !((h.at s).elements.map fun j => (h.at j).key).contains (h.at i).key) = notOverridden h0 s ys := by
          unfold notOverridden
          rw [hel]
          apply List.filter_congr
          intro r _
          simp only [hk]
          rw [Bool.eq_iff_iff]
          simp
        refine ⟨upd E s xs, by rw [hno, hel, ← hx'], done _ r2⟩

end Eno
