import Verif.Proofs.Merge
import Verif.Proofs.CopyDicts

/-! # The links of sections while they are resolved -/

namespace Eno

open Spec

variable {h h' h0 h1 : Heap} {a b i j m n p q t s x y z : Nat} {deep : Bool}

/-- The copied section `a` has been resolved, and with it `x` was merged with `y`. -/
def DoneSrc (h0 h : Heap) (a x y : Nat) : Prop := (h.at a).copy = none ∧ Merges h0 a x y

/-- What a section was last merged with. -/
def LastSrc (h0 h : Heap) (x y : Nat) : Prop := ∃ a, DoneSrc h0 h a x y ∧ ∀ b z, DoneSrc h0 h b x z → ¬ Above h0 b a

/-- Following sources from an empty section through empty sections. -/
inductive Via (h : Heap) : Nat → Nat → Prop where
  | one {y z : Nat} : (h.at y).elements = [] → Source h y z → Via h y z
  | step {y z m : Nat} : (h.at y).elements = [] → Source h y z → Via h z m → Via h y m

/-- The links of sections while they are resolved. -/
structure Links (h0 h : Heap) : Prop where
  /-- nothing is to be resolved in sections that are not marked -/
  inside : ∀ j x, (h0.at j).type = .section → (h.at j).deepResolve = false → Above h0 j x → (h0.at x).type = .section → (h.at x).pending = false
  /-- copies are resolved last -/
  whole : ∀ a, (h0.at a).type = .section → (h0.at a).copy.isSome → (h.at a).copy = none → (h.at a).pending = false
  bare : ∀ j, (h0.at j).type = .section → (∀ a y, ¬ DoneSrc h0 h a j y) → (h.at j).mirror = none ∧ (h.at j).extend = none
  full : ∀ j y, (h0.at j).type = .section → (h0.at j).elements ≠ [] → LastSrc h0 h j y → (h.at j).extend = some y
  fullm : ∀ j, (h0.at j).type = .section → (h0.at j).elements ≠ [] → (h.at j).mirror = none
  emptye : ∀ j, (h0.at j).type = .section → (h0.at j).elements = [] → (h.at j).extend = none
  empty : ∀ j y, (h0.at j).type = .section → (h0.at j).elements = [] → LastSrc h0 h j y →
    ∃ m, (h.at j).mirror = some m ∧ (m = y ∨ (MergedOnce h0 y → Steady h0 y → Via h0 y m))
  reach : ∀ j m, (h0.at j).type = .section → (h.at j).mirror = some m → MergePath h0 j m

theorem Spec.Merges.copy (M : Merges h a x y) : (h.at a).copy.isSome := by
  obtain ⟨_, t, ⟨_, k, hk, _⟩, _⟩ := M
  simp [hk]

theorem Spec.Pairs.sections (P : Pairs h deep s t x y) (hs : (h.at s).type = .section) (ht : (h.at t).type = .section) :
    (h.at x).type = .section ∧ (h.at y).type = .section := by
  cases P with
  | top => exact ⟨hs, ht⟩
  | sub _ _ o1 o2 _ => exact ⟨o1.1, o2.1⟩

theorem Spec.Merges.sections (M : Merges h a x y) : (h.at x).type = .section ∧ (h.at y).type = .section := by
  obtain ⟨ha, t, ht, P⟩ := M
  exact P.sections ha (ht.cand.2.2.2.2.2 ha)

theorem Spec.Merges.within (ok : TreeOk h) (M : Merges h a x y) : InSubtree h a x := M.2.choose_spec.2.within ok

theorem Spec.Merges.det (ok : TreeOk h) (M : Merges h a x y) (N : Merges h a x z) : y = z := by
  obtain ⟨_, t, ht, P⟩ := M
  obtain ⟨_, t', ht', Q⟩ := N
  have e := ht.det ht'
  subst e
  exact P.det ok Q

/-- Below a section that is not marked nothing is to be resolved. -/
theorem below_unmarked (ok : HeapOk h) (dp : DeepOk h) (hj : (h.at j).type = .section) (hd : (h.at j).deepResolve = false) (ha : Above h j x) (hx : (h.at x).type = .section) :
    (h.at x).pending = false := by
  have hj0 : j ≠ 0 := by rintro rfl; rw [ok.doc.1] at hj; cases hj
  have lt : ∀ i, (h.at i).type = .section → i < h.length := by
    intro i hi
    apply Classical.byContradiction
    intro hn
    rw [Heap.at_ge (by omega)] at hi
    cases hi
  have sec : ∀ i p, (h.at i).parent = some p → (h.at i).type = .section → p ≠ 0 → (h.at p).type = .section := by
    intro i p hp hi hp0
    have hi0 : 0 < i := by
      apply Nat.pos_of_ne_zero
      rintro rfl; rw [ok.doc.1] at hi; cases hi
    obtain ⟨_, q, hq, hqi, hc⟩ := ok.par i hi0 (lt i hi)
    rw [hp] at hq; injection hq with hq; subst hq
    have := (ok.par p (by omega) (by have := lt i hi; omega)).1
    rcases hc with e | e
    · exact absurd e this
    · exact e
  cases hp : (h.at x).pending with
  | false => rfl
  | true =>
    exfalso
    induction ha with
    | parent e =>
      have := dp _ _ (lt _ hx) hx hp e hj0
      rw [hd] at this; cases this
    | @step x q a e hab ih =>
      have hq0 : q ≠ 0 := by
        rintro rfl
        cases hab with
        | parent e' => rw [ok.doc.2.1] at e'; cases e'
        | step e' _ => rw [ok.doc.2.1] at e'; cases e'
      have := dp _ _ (lt _ hx) hx hp e hq0
      exact ih hj hd (sec _ _ e hx hq0) hj0 (by simp [Elem.pending, this])

theorem Links.init (ok : HeapOk h0) (dp : DeepOk h0) (hs : ∀ j, (h0.at j).type = .section → h.at j = h0.at j) : Links h0 h := by
  have lt : ∀ i, (h0.at i).type = .section → i < h0.length := by
    intro i hi
    apply Classical.byContradiction
    intro hn
    rw [Heap.at_ge (by omega)] at hi
    cases hi
  have no : ∀ a j y, ¬ DoneSrc h0 h a j y := by
    rintro a j y ⟨h1, h2⟩
    have := h2.copy
    rw [hs a h2.1] at h1
    rw [h1] at this; cases this
  have bare : ∀ j, (h0.at j).type = .section → (h.at j).mirror = none ∧ (h.at j).extend = none := by
    intro j hj
    rw [hs j hj]
    have := ok.elem j (lt j hj)
    exact ⟨this.mirror, this.extend⟩
  refine ⟨?_, ?_, fun j hj _ => bare j hj, ?_, fun j hj _ => (bare j hj).1, fun j hj _ => (bare j hj).2, ?_, fun j m hj hm => by rw [(bare j hj).1] at hm; cases hm⟩
  · intro j x hj hd ha hx
    rw [hs j hj] at hd
    rw [hs x hx]
    exact below_unmarked ok dp hj hd ha hx
  · intro a ha hc hn
    rw [hs a ha] at hn
    rw [hn] at hc; cases hc
  · rintro j y _ _ ⟨a, hd, _⟩; exact absurd hd (no a j y)
  · rintro j y _ _ ⟨a, hd, _⟩; exact absurd hd (no a j y)

theorem Links.congr (L : Links h0 h) (hc : ∀ j, (h'.at j).copy = (h.at j).copy) (hm : ∀ j, (h'.at j).mirror = (h.at j).mirror) (he : ∀ j, (h'.at j).extend = (h.at j).extend)
    (hd : ∀ j, (h.at j).pending = false → (h'.at j).pending = false)
    (hi : ∀ j x, (h0.at j).type = .section → (h'.at j).deepResolve = false → Above h0 j x → (h0.at x).type = .section → (h'.at x).pending = false) : Links h0 h' := by
  have e1 : ∀ a x y, DoneSrc h0 h' a x y ↔ DoneSrc h0 h a x y := by intro a x y; unfold DoneSrc; rw [hc]
  have e2 : ∀ x y, LastSrc h0 h' x y ↔ LastSrc h0 h x y := by intro x y; unfold LastSrc; simp only [e1]
  refine ⟨hi, ?_, ?_, ?_, ?_, ?_, ?_, fun j m hj h => L.reach j m hj (by rw [← hm]; exact h)⟩
  · intro a ha h1 h2; rw [hc] at h2; exact hd a (L.whole a ha h1 h2)
  · intro j hj hn; rw [hm, he]; exact L.bare j hj (fun a y h => hn a y ((e1 a j y).2 h))
  · intro j y hj hn hl; rw [he]; exact L.full j y hj hn ((e2 j y).1 hl)
  · intro j hj hn; rw [hm]; exact L.fullm j hj hn
  · intro j hj hn; rw [he]; exact L.emptye j hj hn
  · intro j y hj hn hl
    obtain ⟨m, m1, m2⟩ := L.empty j y hj hn ((e2 j y).1 hl)
    exact ⟨m, by rw [hm]; exact m1, m2⟩

theorem Links.consolidate (ok : TreeOk h0) (L : Links h0 h) {hC : Heap} (S : SameShape h0 h) (hty : (h0.at s).type = .section) (ht : TemplateIs h0 s t)
    (hdc : (h.at s).deepCopy = (h0.at s).deepCopy) (hcs : (h.at s).copy.isSome) (hdr : (h.at s).deepResolve = false) (M : Merged h hC (h.at s).deepCopy s t)
    (hov : ∀ j y z, Pairs h0 (h0.at s).deepCopy s t j y → ¬ Pairs h0 (h0.at s).deepCopy s t y z) (hself : (h'.at s).copy = none) (hc : ∀ j, j ≠ s → (h'.at j).copy = (h.at j).copy) (hd : ∀ j, (h'.at j).deepResolve = (h.at j).deepResolve)
    (hm : ∀ j, (h'.at j).mirror = (hC.at j).mirror) (he : ∀ j, (h'.at j).extend = (hC.at j).extend) : Links h0 h' := by
  have hpend : (h.at s).pending = true := by unfold Elem.pending; simp [hcs]
  have mono : ∀ j, (h.at j).pending = false → (h'.at j).pending = false := by
    intro j hj
    have : j ≠ s := by rintro rfl; rw [hpend] at hj; cases hj
    unfold Elem.pending at hj ⊢
    rw [hc j this, hd j]; exact hj
  -- what is merged now
  have now : ∀ j y, Merges h0 s j y ↔ Pairs h (h.at s).deepCopy s t j y := by
    intro j y
    rw [hdc]
    constructor
    · rintro ⟨_, t', ht', P⟩
      have e := ht'.det ht; subst e
      exact P.congr S
    · intro P; exact ⟨hty, t, ht, P.congr S.symm⟩
  have done : ∀ a j y, DoneSrc h0 h' a j y ↔ DoneSrc h0 h a j y ∨ (a = s ∧ Merges h0 s j y) := by
    intro a j y
    unfold DoneSrc
    by_cases e : a = s
    · subst e
      constructor
      · rintro ⟨_, h2⟩; exact .inr ⟨rfl, h2⟩
      · rintro (⟨h1, _⟩ | ⟨_, h2⟩)
        · rw [h1] at hcs; cases hcs
        · exact ⟨hself, h2⟩
    · rw [hc a e]
      constructor
      · exact .inl
      · rintro (h1 | ⟨h1, _⟩)
        · exact h1
        · exact absurd h1 e
  -- it is merged last
  have outer : ∀ a j y, DoneSrc h0 h a j y → ¬ Above h0 a s := by
    rintro a j y ⟨h1, h2⟩ hab
    have hp := L.whole a h2.1 h2.copy h1
    have hdf : (h.at a).deepResolve = false := by
      unfold Elem.pending at hp
      simp only [Bool.or_eq_false_iff] at hp
      exact hp.2
    have := L.inside a s h2.1 hdf hab hty
    rw [hpend] at this; cases this
  have last1 : ∀ j y, LastSrc h0 h' j y → (∃ z, Merges h0 s j z) → Merges h0 s j y := by
    rintro j y ⟨a, hda, hmax⟩ ⟨z, hz⟩
    rcases (done a j y).1 hda with h1 | ⟨rfl, h1⟩
    · exfalso
      have hn := hmax s z ((done s j z).2 (.inr ⟨rfl, hz⟩))
      have ho := outer a j y h1
      have hne : a ≠ s := by
        rintro rfl
        rw [h1.1] at hcs; cases hcs
      rcases h1.2.within ok with e1 | e1
      · rcases hz.within ok with e2 | e2
        · exact hne (e1.symm.trans e2)
        · subst e1; exact hn e2
      · rcases hz.within ok with e2 | e2
        · subst e2; exact ho e1
        · rcases e1.comparable e2 with e | e | e
          · exact hne e
          · exact ho e
          · exact hn e
    · exact h1
  have last2 : ∀ j y, LastSrc h0 h' j y → (∀ z, ¬ Merges h0 s j z) → LastSrc h0 h j y := by
    rintro j y ⟨a, hda, hmax⟩ hno
    rcases (done a j y).1 hda with h1 | ⟨rfl, h1⟩
    · exact ⟨a, h1, fun b z hb => hmax b z ((done b j z).2 (.inl hb))⟩
    · exact absurd h1 (hno y)
  -- the others stay as they are
  have rest : ∀ j, (∀ z, ¬ Merges h0 s j z) → hC.at j = h.at j := fun j hno => M.only j (fun y P => hno y ((now j y).2 P))
  -- so do the templates
  have new : ∀ j y, Merges h0 s j y → hC.at y = h.at y := by
    intro j y hj
    apply rest
    rintro z ⟨_, t', ht', P⟩
    obtain ⟨_, t'', ht'', Q⟩ := hj
    have e := ht'.det ht; subst e
    have e := ht''.det ht'; subst e
    exact hov j y z Q P
  -- where mirrors come from
  have via : ∀ y m, (h0.at y).type = .section → MergedOnce h0 y → Steady h0 y → (h.at y).mirror = some m → Via h0 y m := by
    intro y m hyt hy hst hym
    have hem : (h0.at y).elements = [] := by
      apply Classical.byContradiction
      intro hne
      rw [L.fullm y hyt hne] at hym; cases hym
    have : ∃ b w, DoneSrc h0 h b y w := by
      apply Classical.byContradiction
      intro hno
      have := (L.bare y hyt (fun a w h => hno ⟨a, w, h⟩)).1
      rw [this] at hym; cases hym
    obtain ⟨b, w, hb⟩ := this
    have irr : ∀ c, ¬ Above h0 c c := fun c hc => by have := ok.above_lt hc; omega
    have hlast : LastSrc h0 h y w := ⟨b, hb, fun c z hc => by rw [hy hem c b z w hc.2 hb.2]; exact irr b⟩
    have hsrc : Source h0 y w := ⟨b, hb.2, fun c z hc => by rw [hy hem c b z w hc hb.2]; exact irr b⟩
    obtain ⟨m', m1, m2⟩ := L.empty y w hyt hem hlast
    rw [hym] at m1; injection m1 with m1; subst m1
    rcases m2 with m2 | m2
    · subst m2; exact .one hem hsrc
    · exact .step hem hsrc (m2 (hst w (.one hsrc)) (fun u hu => hst u (.step hsrc hu)))
  have els : ∀ j, (h.at j).elements = (h0.at j).elements := fun j => (S j).2.1
  -- the new links
  have new : ∀ j y, Merges h0 s j y → hC.at j = linkS (h.at j) (h.at y) y := by
    intro j y hj
    obtain ⟨e, e1, e2⟩ := M.done j y ((now j y).1 hj)
    rcases e1 with rfl | rfl
    · exact e2
    · rw [e2, new j y hj]
  have linkE : ∀ (a b : Elem) (n : Nat), a.elements = [] → (linkS a b n).mirror = some (b.mirror.getD n) ∧ (linkS a b n).extend = a.extend := by
    intro a b n hn
    unfold linkS inheritC
    simp only
    split <;> split <;> simp_all
  have linkF : ∀ (a b : Elem) (n : Nat), a.elements ≠ [] → (linkS a b n).mirror = a.mirror ∧ (linkS a b n).extend = some n := by
    intro a b n hn
    unfold linkS inheritC
    simp only
    split <;> split <;> simp_all
  refine ⟨?_, ?_, ?_, ?_, ?_, ?_, ?_, ?_⟩
  · intro j x hj hdj ha hx
    rw [hd] at hdj
    exact mono x (L.inside j x hj hdj ha hx)
  · intro a ha h1 h2
    by_cases e : a = s
    · subst e; unfold Elem.pending; rw [hself, hd, hdr]; rfl
    · rw [hc a e] at h2; exact mono a (L.whole a ha h1 h2)
  · intro j hj hn
    rw [hm, he, rest j (fun z hz => hn s z ((done s j z).2 (.inr ⟨rfl, hz⟩)))]
    exact L.bare j hj (fun a y hd => hn a y ((done a j y).2 (.inl hd)))
  · intro j y hj hne hl
    rw [he]
    by_cases hz : ∃ z, Merges h0 s j z
    · rw [new j y (last1 j y hl hz)]; exact (linkF _ _ _ (by rw [els]; exact hne)).2
    · have hz' : ∀ z, ¬ Merges h0 s j z := fun z h => hz ⟨z, h⟩
      rw [rest j hz']; exact L.full j y hj hne (last2 j y hl hz')
  · intro j hj hne
    rw [hm]
    by_cases hz : ∃ z, Merges h0 s j z
    · obtain ⟨z, hz⟩ := hz
      rw [new j z hz, (linkF _ _ _ (by rw [els]; exact hne)).1]; exact L.fullm j hj hne
    · rw [rest j (fun z h => hz ⟨z, h⟩)]; exact L.fullm j hj hne
  · intro j hj hne
    rw [he]
    by_cases hz : ∃ z, Merges h0 s j z
    · obtain ⟨z, hz⟩ := hz
      rw [new j z hz, (linkE _ _ _ (by rw [els]; exact hne)).2]; exact L.emptye j hj hne
    · rw [rest j (fun z h => hz ⟨z, h⟩)]; exact L.emptye j hj hne
  · intro j y hj hne hl
    rw [hm]
    by_cases hz : ∃ z, Merges h0 s j z
    · have hjy := last1 j y hl hz
      rw [new j y hjy, (linkE _ _ _ (by rw [els]; exact hne)).1]
      refine ⟨_, rfl, ?_⟩
      cases hem : (h.at y).mirror with
      | none => exact .inl rfl
      | some m => exact .inr (fun hy hst => via y m hjy.sections.2 hy hst hem)
    · have hz' : ∀ z, ¬ Merges h0 s j z := fun z h => hz ⟨z, h⟩
      rw [rest j hz']
      exact L.empty j y hj hne (last2 j y hl hz')
  · intro j m hj hjm
    rw [hm] at hjm
    by_cases hz : ∃ z, Merges h0 s j z
    · obtain ⟨y, hy⟩ := hz
      rw [new j y hy] at hjm
      by_cases hne : (h0.at j).elements = []
      · rw [(linkE _ _ _ (by rw [els]; exact hne)).1] at hjm
        injection hjm with hjm
        cases hem : (h.at y).mirror with
        | none => rw [hem] at hjm; subst hjm; exact .one hy
        | some m' => rw [hem] at hjm; subst hjm; exact .step hy (L.reach y m' hy.sections.2 hem)
      · rw [(linkF _ _ _ (by rw [els]; exact hne)).1, L.fullm j hj hne] at hjm; cases hjm
    · rw [rest j (fun z h => hz ⟨z, h⟩)] at hjm; exact L.reach j m hj hjm

end Eno
