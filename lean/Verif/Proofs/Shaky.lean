import Verif.Proofs.AnySession

/-! # Sections that extend a copy without own elements -/

namespace Eno

open Spec

variable {input : Str} {h0 h : Heap} {c c' : Cache}

/-- Nothing that is stored is removed. -/
theorem readElements_keeps : ∀ (n s : Nat) (c : Cache) (u : Nat), (c.elements u).isSome → ((readElements h n s c).2.elements u).isSome
  | 0, _, _, _, hu => hu
  | n + 1, s, c, u, hu => by
    cases hm : (h.at s).mirror with
    | some m => rw [(readElements_mirror hm c).1]; exact readElements_keeps n m c u hu
    | none =>
      have up : ∀ {c : Cache} {xs : List Nat}, (c.elements u).isSome → (upd c.elements s xs u).isSome := by
        intro c xs q; unfold upd; split
        · rfl
        · exact q
      unfold readElements
      rw [hm]
      dsimp only
      split
      · exact hu
      · split
        · exact up hu
        · rename_i t _
          have I := readElements_keeps n t { c with elements := upd c.elements s (h.at s).elements } u (up hu)
          generalize readElements h n t { c with elements := upd c.elements s (h.at s).elements } = q at I
          obtain ⟨p1, p2⟩ := q
          cases p1 with
          | error => exact I
          | ok xs =>
            cases xs with
            | none => exact I
            | some => exact up I

/-- Reading a section that is not a mirror stores something for it. -/
theorem readElements_stores {n s : Nat} (hm : (h.at s).mirror = none) (c : Cache) : ((readElements h (n + 1) s c).2.elements s).isSome := by
  unfold readElements
  rw [hm]
  dsimp only
  have up : ∀ {c : Cache} {xs : List Nat}, (upd c.elements s xs s).isSome := by intro c xs; simp [upd]
  split
  · rename_i q; rw [q]; rfl
  · split
    · exact up
    · rename_i t _
      have I := readElements_keeps (h := h) n t { c with elements := upd c.elements s (h.at s).elements } s up
      generalize readElements h n t { c with elements := upd c.elements s (h.at s).elements } = q at I
      obtain ⟨p1, p2⟩ := q
      cases p1 with
      | error => exact I
      | ok xs =>
        cases xs with
        | none => exact I
        | some => exact up

/-- What is stored is returned. -/
theorem readElements_stored {n s : Nat} (hm : (h.at s).mirror = none) (hs : (c.elements s).isSome) : ∃ xs, (readElements h (n + 1) s c).1 = .ok (some xs) := by
  obtain ⟨xs, e⟩ := Option.isSome_iff_exists.1 hs
  refine ⟨xs, ?_⟩
  unfold readElements
  rw [hm]
  dsimp only
  rw [e]

section

variable (L : Loaded h0 h) (nd : ∀ a, (h0.at a).deepCopy = false)
include L nd

theorem Loaded.mirror_iff {s : Nat} (hi : s < h0.length) (hs : (h0.at s).type = .section ∨ s = 0) : (h.at s).mirror = none ↔ ¬ HollowCopy h0 s := by
  have sh : ∀ j, Shielded h0 j := fun j a _ => nd a
  cases L.sec.grounded s hi hs with
  | own hc => exact ⟨fun _ b => (by have := b.2.1; rw [hc] at this; cases this), fun _ => (L.sec.plain s hi hs hc (sh s)).1⟩
  | @copy _ t ht g =>
    obtain ⟨q1, _, _⟩ := L.sec.holder s t hs ht
    have M := L.sec.copied s t q1 ht (sh s) (sh t)
    constructor
    · intro hm b
      rw [M.1 b.2.2] at hm
      cases hm
    · intro hb
      by_cases hel : (h0.at s).elements = []
      · obtain ⟨_, k, hk, _⟩ := ht
        exact absurd ⟨q1, by rw [hk]; rfl, hel⟩ hb
      · exact (M.2 hel).1

/-- A first read of a section that extends, in the end, a copy without own elements fails. -/
theorem Loaded.shaky_first {s : Nat} (hi : s < h0.length) (hs : (h0.at s).type = .section ∨ s = 0) (hb : ¬ HollowCopy h0 s) (hl : ∃ b, Leads h0 s b ∧ HollowCopy h0 b) :
    ∃ N, ∀ n, N ≤ n → ∀ c : Cache, c.elements s = none → (∀ u, Leads h0 s u → c.elements u = none) → (readElements h n s c).1 = .error .typeError := by
  have sh : ∀ j, Shielded h0 j := fun j a _ => nd a
  have g := L.sec.grounded s hi hs
  induction g with
  | @own s hc =>
    obtain ⟨b, hl, _⟩ := hl
    cases hl with
    | one q => obtain ⟨_, k, q, _⟩ := q; rw [hc] at q; cases q
    | step q => obtain ⟨_, k, q, _⟩ := q; rw [hc] at q; cases q
  | @copy s t ht g ih =>
    obtain ⟨q1, q2, q3⟩ := L.sec.holder s t hs ht
    have M := L.sec.copied s t q1 ht (sh s) (sh t)
    have hel : (h0.at s).elements ≠ [] := fun q => by
      obtain ⟨_, k, hk, _⟩ := ht
      exact hb ⟨q1, by rw [hk]; rfl, q⟩
    obtain ⟨m1, m2⟩ := M.2 hel
    have step : ∀ n c, c.elements s = none → ((readElements h n t { c with elements := upd c.elements s (h.at s).elements }).1 = .error .typeError ∨
        ∀ xs, (readElements h n t { c with elements := upd c.elements s (h.at s).elements }).1 ≠ .ok (some xs) ∧
          ∀ e, (readElements h n t { c with elements := upd c.elements s (h.at s).elements }).1 = .error e → e = .typeError) → (readElements h (n + 1) s c).1 = .error .typeError := by
      intro n c hc H
      unfold readElements
      rw [m1]
      dsimp only
      rw [hc, m2]
      dsimp only
      generalize readElements h n t { c with elements := upd c.elements s (h.at s).elements } = q at H
      obtain ⟨p1, p2⟩ := q
      cases p1 with
      | error e =>
        rcases H with H | H
        · exact H
        · rw [(H []).2 e rfl]
      | ok xs =>
        cases xs with
        | none => rfl
        | some xs =>
          rcases H with H | H
          · cases H
          · exact absurd rfl (H xs).1
    by_cases hbt : HollowCopy h0 t
    · obtain ⟨N, hN⟩ := L.elements_fail nd q2 (.inl q3)
      refine ⟨N + 2, fun n hn c h1 h2 => ?_⟩
      obtain ⟨n, rfl⟩ : ∃ k, n = k + 1 + 1 := ⟨n - 2, by omega⟩
      refine step (n + 1) c h1 (.inr fun xs => ⟨?_, fun e he => (hN (n + 1) (by omega) _ e he).1⟩)
      cases hm : (h.at t).mirror with
      | none => exact absurd hbt ((L.mirror_iff nd q2 (.inl q3)).1 hm)
      | some m => exact (readElements_mirror hm _).2.2 xs
    · have hl' : ∃ b, Leads h0 t b ∧ HollowCopy h0 b := by
        obtain ⟨b, hl, hbb⟩ := hl
        cases hl with
        | one q => rw [q.det ht] at hbb; exact absurd hbb hbt
        | step q hl => rw [q.det ht] at hl; exact ⟨b, hl, hbb⟩
      obtain ⟨N, hN⟩ := ih q2 (.inl q3) hbt hl'
      refine ⟨N + 1, fun n hn c h1 h2 => ?_⟩
      obtain ⟨n, rfl⟩ : ∃ k, n = k + 1 := ⟨n - 1, by omega⟩
      have apart := (Grounded.copy ht g).not_cycle
      refine step n c h1 (.inl (hN n (by omega) _ ?_ fun u hu => ?_))
      · have : t ≠ s := fun e => apart (e ▸ .one (e ▸ ht))
        simp only [upd, if_neg this]
        exact h2 t (.one ht)
      · have : u ≠ s := fun e => apart (.step ht (e ▸ hu))
        simp only [upd, if_neg this]
        exact h2 u (.step ht hu)

/-- What `s` reveals and how its reads follow from it. -/
theorem Loaded.reveals {s m : Nat} (hi : s < h0.length) (hs : (h0.at s).type = .section ∨ s = 0) (R : Reveals h0 s m) :
    m < h0.length ∧ ((h0.at m).type = .section ∨ m = 0) ∧ ¬ HollowCopy h0 m ∧ ((s = m ∧ (h.at s).mirror = none) ∨ (HollowCopy h0 s ∧ (h.at s).mirror = some m)) := by
  have sh : ∀ j, Shielded h0 j := fun j a _ => nd a
  induction R with
  | @self s hb => exact ⟨hi, hs, hb, .inl ⟨rfl, (L.mirror_iff nd hi hs).2 hb⟩⟩
  | @copy s t m hb ht R ih =>
    obtain ⟨q1, q2, q3⟩ := L.sec.holder s t hs ht
    obtain ⟨h1, h2, h3, h4⟩ := ih q2 (.inl q3)
    have m' := (L.sec.copied s t q1 ht (sh s) (sh t)).1 hb.2.2
    refine ⟨h1, h2, h3, .inr ⟨hb, ?_⟩⟩
    rcases h4 with ⟨rfl, h4⟩ | ⟨_, h4⟩
    · rw [m', h4]; rfl
    · rw [m', h4]; rfl

end

end Eno
