import Verif.Proofs.ReadRaw

/-! # Reading sections that are merged -/

namespace Eno

open Spec

variable {h h' h0 h1 : Heap} {a b i j m n p q t s u x y z fuel : Nat} {ctx ctx' : Ctx} {input : Str} {xs ys acc : List Nat}

/-! ## Sources -/

theorem Spec.Merges.path (M : Merges h a x y) : MergePath h x y := .one M

theorem Spec.MergePath.trans (P : MergePath h x y) (Q : MergePath h y z) : MergePath h x z := by
  induction P with
  | one M => exact .step M Q
  | step M _ ih => exact .step M (ih Q)

theorem Spec.MergePath.sections (P : MergePath h x y) : (h.at x).type = .section ∧ (h.at y).type = .section := by
  induction P with
  | one M => exact M.sections
  | step M _ ih => exact ⟨M.sections.1, ih.2⟩

theorem Spec.Source.merges (S : Source h x y) : ∃ a, Merges h a x y := ⟨S.choose, S.choose_spec.1⟩

theorem Spec.Source.path (S : Source h x y) : MergePath h x y := by
  obtain ⟨a, M⟩ := S.merges
  exact .one M

theorem Spec.Follows.path (F : Follows h x y) : MergePath h x y := by
  induction F with
  | one S => exact S.path
  | step S _ ih => exact S.path.trans ih

theorem Spec.Follows.trans (P : Follows h x y) (Q : Follows h y z) : Follows h x z := by
  induction P with
  | one M => exact .step M Q
  | step M _ ih => exact .step M (ih Q)

theorem Spec.Source.sections (S : Source h x y) : (h.at x).type = .section ∧ (h.at y).type = .section := by
  obtain ⟨a, M⟩ := S.merges
  exact M.sections

/-- Among the sections because of which a section is merged one is outermost. -/
theorem source_exists (ok : TreeOk h) : ∀ {a x y : Nat}, Merges h a x y → ∃ z, Source h x z := by
  intro a
  induction a using Nat.strongRecOn with
  | ind a ih =>
    intro x y M
    by_cases hb : ∃ b z, Merges h b x z ∧ Above h b a
    · obtain ⟨b, z, hb, hab⟩ := hb
      exact ih b (ok.above_lt hab) hb
    · exact ⟨y, a, M, fun b z hb' hab => hb ⟨b, z, hb', hab⟩⟩

theorem Spec.Source.det (ok : TreeOk h) (S : Source h x y) (T : Source h x z) : y = z := by
  obtain ⟨a, M, hm⟩ := S
  obtain ⟨b, N, hn⟩ := T
  have e : a = b := by
    have h1 := hn a y M
    have h2 := hm b z N
    rcases M.within ok with e1 | e1
    · rcases N.within ok with e2 | e2
      · rw [← e1, ← e2]
      · subst e1; exact absurd e2 h2
    · rcases N.within ok with e2 | e2
      · subst e2; exact absurd e1 h1
      · rcases e1.comparable e2 with e | e | e
        · exact e
        · exact absurd e h1
        · exact absurd e h2
  subst e
  exact M.det ok N

/-! ## What a section gathers -/

theorem Spec.Gathers.det (ok : TreeOk h) (G : Gathers h s xs) : ∀ {ys}, Gathers h s ys → xs = ys := by
  induction G with
  | own hn =>
    intro ys G'
    cases G' with
    | own => rfl
    | merged S _ => exact absurd S (hn _)
  | merged S _ ih =>
    intro ys G'
    cases G' with
    | own hn => exact absurd S (hn _)
    | merged S' G' => have e := S.det ok S'; subst e; rw [ih G']

/-- What is gathered after a number of steps. -/
inductive GathersIn (h : Heap) : Nat → Nat → List Nat → Prop where
  | own {s : Nat} : (∀ t, ¬ Source h s t) → GathersIn h 0 s (h.at s).elements
  | merged {n s t : Nat} {xs : List Nat} : Source h s t → GathersIn h n t xs → GathersIn h (n + 1) s ((h.at s).elements ++ notOverridden h s xs)

theorem GathersIn.gathers (G : GathersIn h n s xs) : Gathers h s xs := by
  induction G with
  | own hn => exact .own hn
  | merged S _ ih => exact .merged S ih

/-- Gathering does not go round in circles. -/
theorem Spec.Gathers.not_cycle (ok : TreeOk h) (G : Gathers h s xs) : ¬ Follows h s s := by
  induction G with
  | own hn =>
    intro F
    cases F with
    | one S => exact hn _ S
    | step S _ => exact hn _ S
  | merged S G ih =>
    intro F
    cases F with
    | one S' => have e := S.det ok S'; subst e; exact ih (.one S)
    | step S' F => have e := S.det ok S'; subst e; exact ih (F.trans (.one S))

theorem Spec.Gathers.follows (ok : TreeOk h) (G : Gathers h s xs) (F : Follows h s t) : ∃ ys, Gathers h t ys := by
  induction F generalizing xs with
  | one S =>
    cases G with
    | own hn => exact absurd S (hn _)
    | merged S' G => have e := S.det ok S'; subst e; exact ⟨_, G⟩
  | step S _ ih =>
    cases G with
    | own hn => exact absurd S (hn _)
    | merged S' G => have e := S.det ok S'; subst e; exact ih G

theorem GathersIn.chain (ok : TreeOk h) (G : GathersIn h n s xs) : ∃ l : List Nat, l.length = n ∧ l.Nodup ∧ (∀ x ∈ l, x < h.length ∧ Follows h s x) := by
  induction G with
  | own _ => exact ⟨[], rfl, by simp, by simp⟩
  | @merged n s t xs S G ih =>
    obtain ⟨l, h1, h2, h3⟩ := ih
    refine ⟨t :: l, by simp [h1], ?_, ?_⟩
    · exact .cons (fun x hx e => by subst e; exact G.gathers.not_cycle ok (h3 _ hx).2) h2
    · intro x hx
      simp at hx
      rcases hx with rfl | hx
      · exact ⟨lt_of_section S.sections.2, .one S⟩
      · exact ⟨(h3 x hx).1, .step S (h3 x hx).2⟩

theorem Spec.Gathers.bounded (ok : TreeOk h) (G : Gathers h s xs) (hs : s < h.length) : ∃ n, n < h.length ∧ GathersIn h n s xs := by
  have hex : ∃ n, GathersIn h n s xs := by
    clear hs
    induction G with
    | own hc => exact ⟨0, .own hc⟩
    | merged S _ ih => obtain ⟨n, hn⟩ := ih; exact ⟨n + 1, .merged S hn⟩
  obtain ⟨n, hn⟩ := hex
  refine ⟨n, ?_, hn⟩
  obtain ⟨l, h1, h2, h3⟩ := hn.chain ok
  have := nodup_bound h.length (s :: l)
    (.cons (fun x hx e => by subst e; exact G.not_cycle ok (h3 _ hx).2) h2)
    (by intro x hx; simp at hx; rcases hx with rfl | hx; exact hs; exact (h3 x hx).1)
  simp at this
  omega

/-- A section gathers elements unless following sources from it ends in a circle. -/
theorem gathers_of_no_cycle (hn : ∀ t, Follows h s t → ¬ Follows h t t) : ∃ xs, Gathers h s xs := by
  have key : ∀ (k : Nat) (seen : List Nat) (r : Nat), seen.Nodup → (∀ x ∈ seen, x < h.length ∧ Follows h x r) → r < h.length → (r = s ∨ Follows h s r) → ¬ Follows h r r →
      h.length ≤ k + seen.length → ∃ xs, Gathers h r xs := by
    intro k
    induction k with
    | zero =>
      intro seen r h1 h2 hr _ hc hl
      have := nodup_bound h.length (r :: seen) (.cons (fun x hx e => by subst e; exact hc (h2 _ hx).2) h1)
        (by intro x hx; simp at hx; rcases hx with rfl | hx; exact hr; exact (h2 x hx).1)
      simp at this
      omega
    | succ k ih =>
      intro seen r h1 h2 hr hsr hc hl
      by_cases hS : ∃ t, Source h r t
      · obtain ⟨t, S⟩ := hS
        have hst : Follows h s t := by
          rcases hsr with rfl | hsr
          · exact .one S
          · exact hsr.trans (.one S)
        obtain ⟨xs, G⟩ := ih (r :: seen) t (.cons (fun x hx e => by subst e; exact hc (h2 _ hx).2) h1)
          (by
            intro x hx
            simp at hx
            rcases hx with rfl | hx
            · exact ⟨hr, .one S⟩
            · exact ⟨(h2 x hx).1, (h2 x hx).2.trans (.one S)⟩) (lt_of_section S.sections.2) (.inr hst) (hn t hst) (by simp; omega)
        exact ⟨_, .merged S G⟩
      · exact ⟨_, .own (fun t S => hS ⟨t, S⟩)⟩
  by_cases hS : ∃ t, Source h s t
  · obtain ⟨t, S⟩ := hS
    by_cases hc : Follows h s s
    · exact absurd hc (hn s hc)
    · exact key h.length [] s (by simp) (by simp) (lt_of_section S.sections.1) (.inl rfl) hc (by simp)
  · exact ⟨_, .own (fun t S => hS ⟨t, S⟩)⟩

theorem gathers_iff (ok : TreeOk h) : (∃ xs, Gathers h s xs) ↔ ∀ t, Follows h s t → ¬ Follows h t t := by
  constructor
  · rintro ⟨xs, G⟩ t F
    obtain ⟨ys, G'⟩ := G.follows ok F
    exact G'.not_cycle ok
  · exact gathers_of_no_cycle

/-! ## Mirrors -/

theorem Via.down (ok : TreeOk h) (V : Via h y m) : ∀ {n xs}, GathersIn h n y xs → ∃ k, k < n ∧ GathersIn h k m xs := by
  induction V with
  | one he S =>
    intro n xs G
    cases G with
    | own hn => exact absurd S (hn _)
    | @merged k _ _ ys S' G => have e := S.det ok S'; subst e; rw [he, notOverridden_nil he]; exact ⟨k, by omega, by simpa using G⟩
  | step he S _ ih =>
    intro n xs G
    cases G with
    | own hn => exact absurd S (hn _)
    | @merged k _ _ ys S' G =>
      have e := S.det ok S'; subst e
      rw [he, notOverridden_nil he]
      obtain ⟨l, hl, G'⟩ := ih G
      exact ⟨l, by omega, by simpa using G'⟩

theorem Via.up (V : Via h y m) (G : Gathers h m xs) : Gathers h y xs := by
  induction V with
  | one he S => have := Gathers.merged S G; rw [he, notOverridden_nil he] at this; simpa using this
  | step he S _ ih => have := Gathers.merged S (ih G); rw [he, notOverridden_nil he] at this; simpa using this

theorem Via.follows (V : Via h y m) : Follows h y m := by
  induction V with
  | one _ S => exact .one S
  | step _ S _ ih => exact .step S ih

/-! ## Loaded documents -/

/-- How sections are linked in a loaded document, deep copies included. -/
structure MFinal (h0 h : Heap) : Prop where
  bare : ∀ s, (h0.at s).type = .section ∨ s = 0 → (∀ t, ¬ Source h0 s t) → (h.at s).mirror = none ∧ (h.at s).extend = none
  full : ∀ s t, Source h0 s t → (h0.at s).elements ≠ [] → (h.at s).mirror = none ∧ (h.at s).extend = some t
  empty : ∀ s t, Source h0 s t → (h0.at s).elements = [] →
    (h.at s).extend = none ∧ ∃ m, (h.at s).mirror = some m ∧ MergePath h0 s m ∧ (m = t ∨ (MergedOnce h0 t → Steady h0 t → Via h0 t m))

theorem mfinal_of_load (ha : analyze input = .ok ctx) (hl : load input = .ok ctx') : MFinal ctx.heap ctx'.heap := by
  have L := loaded ha hl
  have a := analyze_analysed ha
  have tr := a.heap.tree
  obtain ⟨c, hc', r, _, hlen⟩ := load_ok_analyze hl
  rw [ha] at hc'; injection hc' with hc'; subst hc'
  have hcp := r.copies
  obtain ⟨h1, n1, n2, s1⟩ := r.mid
  have K := s1.links a.heap a.deep
  have done : ∀ {a x y}, DoneSrc ctx.heap ctx'.heap a x y ↔ Merges ctx.heap a x y := by
    intro a x y
    refine ⟨fun d => d.2, fun M => ⟨hcp a (lt_of_section M.1), M⟩⟩
  have last : ∀ {x y}, LastSrc ctx.heap ctx'.heap x y ↔ Source ctx.heap x y := by
    intro x y
    unfold LastSrc Source MergedBy
    simp only [done]
  refine ⟨?_, ?_, ?_⟩
  · rintro s (hs | rfl) hn
    · apply K.bare s hs
      intro b y d
      obtain ⟨z, hz⟩ := source_exists tr (done.1 d)
      exact hn z hz
    · have p := L.sec.plain 0 a.heap.pos (.inr rfl) ?_ ?_
      · exact ⟨p.1, p.2.1⟩
      · cases hq : (ctx.heap.at 0).copy with
        | none => rfl
        | some k =>
          have ok := a.heap.elem 0 a.heap.pos
          have := ok.template (by rw [← ok.copy, hq]; rfl)
          rw [a.heap.doc.1] at this; simp at this
      · intro b hb
        cases hb with
        | parent e' => rw [a.heap.doc.2.1] at e'; cases e'
        | step e' _ => rw [a.heap.doc.2.1] at e'; cases e'
  · intro s t S hne
    exact ⟨K.fullm s S.sections.1 hne, K.full s t S.sections.1 hne (last.2 S)⟩
  · intro s t S hne
    obtain ⟨m, m1, m2⟩ := K.empty s t S.sections.1 hne (last.2 S)
    exact ⟨K.emptye s S.sections.1 hne, m, m1, K.reach s m S.sections.1 m1, m2⟩

/-- One step of looking for elements. -/
theorem instElements_step (N : Final h0 h) : instElements h (fuel + 1) s acc = (match (h.at s).mirror with
    | some m => instElements h fuel m acc
    | none => match (h.at s).extend with
      | none => .ok (acc ++ leftOver h0 acc (h0.at s).elements)
      | some e => instElements h fuel e (acc ++ leftOver h0 acc (h0.at s).elements)) := by
  have hk : ∀ j, (h.at j).key = (h0.at j).key := fun j => (N.items_all j).2.2.2
  have hfil : ((h.at s).elements.filter fun i => !(acc.map fun j => (h.at j).key).contains (h.at i).key) = leftOver h0 acc (h0.at s).elements := by
    unfold leftOver; rw [(N.items_all s).2.2.1]; simp only [hk]
  simp only [instElements]
  cases (h.at s).mirror with
  | some m => rfl
  | none => simp only [hfil]; rfl

/-- A typed section holds what it gathers. -/
theorem instElements_gathers (ok : TreeOk h0) (N : Final h0 h) (F : MFinal h0 h) : ∀ (n s fuel : Nat) (xs : List Nat), GathersIn h0 n s xs → n < fuel →
    (h0.at s).type = .section ∨ s = 0 → Steady h0 s → ∀ acc, instElements h fuel s acc = .ok (acc ++ leftOver h0 acc xs) := by
  intro n
  induction n using Nat.strongRecOn with
  | ind n ih =>
    intro s fuel xs G hf hs hst acc
    obtain ⟨fuel, rfl⟩ : ∃ f, fuel = f + 1 := ⟨fuel - 1, by omega⟩
    rw [instElements_step N]
    cases G with
    | own hn =>
      obtain ⟨b1, b2⟩ := F.bare s hs hn
      rw [b1, b2]
    | @merged k _ t ys S G =>
      have hst' : Steady h0 t := fun u hu => hst u (.step S hu)
      by_cases hne : (h0.at s).elements = []
      · obtain ⟨_, m, m1, _, m2⟩ := F.empty s t S hne
        rw [m1, hne, notOverridden_nil hne]
        simp only [List.nil_append]
        rcases m2 with rfl | m2
        · exact ih k (by omega) m fuel ys G (by omega) (.inl S.sections.2) hst' acc
        · have V := m2 (hst t (.one S)) hst'
          obtain ⟨l, hl, G'⟩ := V.down ok G
          have hm := V.follows.path.sections.2
          exact ih l (by omega) m fuel ys G' (by omega) (.inl hm) (fun u hu => hst u (.step S (V.follows.trans hu))) acc
      · obtain ⟨f1, f2⟩ := F.full s t S hne
        rw [f1, f2]
        simp only
        rw [ih k (by omega) t fuel ys G (by omega) (.inl S.sections.2) hst', leftOver_step, leftOver_append]
        simp

/-- What can be read is gathered. -/
theorem gathers_of_instElements (N : Final h0 h) (F : MFinal h0 h) : ∀ (fuel s : Nat) (acc ys : List Nat), (h0.at s).type = .section ∨ s = 0 → Steady h0 s →
    instElements h fuel s acc = .ok ys → ∃ xs, Gathers h0 s xs := by
  intro fuel
  induction fuel with
  | zero => intro s acc ys _ _ he; simp [instElements] at he
  | succ fuel ih =>
    intro s acc ys hs hst he
    by_cases hS : ∃ t, Source h0 s t
    · obtain ⟨t, S⟩ := hS
      rw [instElements_step N] at he
      have hst' : Steady h0 t := fun u hu => hst u (.step S hu)
      by_cases hne : (h0.at s).elements = []
      · obtain ⟨_, m, m1, _, m2⟩ := F.empty s t S hne
        rw [m1] at he
        simp only at he
        rcases m2 with rfl | m2
        · obtain ⟨xs, G⟩ := ih m acc ys (.inl S.sections.2) hst' he
          exact ⟨_, .merged S G⟩
        · have V := m2 (hst t (.one S)) hst'
          have hm := V.follows.path.sections.2
          obtain ⟨xs, G⟩ := ih m acc ys (.inl hm) (fun u hu => hst u (.step S (V.follows.trans hu))) he
          exact ⟨_, .merged S (V.up G)⟩
      · obtain ⟨f1, f2⟩ := F.full s t S hne
        rw [f1, f2] at he
        obtain ⟨xs, G⟩ := ih t _ ys (.inl S.sections.2) hst' he
        exact ⟨_, .merged S G⟩
    · exact ⟨_, .own (fun t S => hS ⟨t, S⟩)⟩

/-- Without circles of merges, whatever they are due to, every section can be read. -/
theorem instElements_ends (N : Final h0 h) (F : MFinal h0 h) (hc : ∀ x, ¬ MergePath h0 x x) : ∀ (fuel : Nat) (seen : List Nat) (s : Nat) (acc : List Nat),
    seen.Nodup → (∀ x ∈ seen, x < h0.length ∧ MergePath h0 x s) → s < h0.length → (h0.at s).type = .section ∨ s = 0 → h0.length ≤ fuel + seen.length →
    ∃ ys, instElements h fuel s acc = .ok ys := by
  intro fuel
  induction fuel with
  | zero =>
    intro seen r acc h1 h2 hr _ hl
    have := nodup_bound h0.length (r :: seen) (.cons (fun x hx e => by subst e; exact hc _ (h2 _ hx).2) h1)
      (by intro x hx; simp at hx; rcases hx with rfl | hx; exact hr; exact (h2 x hx).1)
    simp at this
    omega
  | succ fuel ih =>
    intro seen r acc h1 h2 hr hs hl
    rw [instElements_step N]
    have next : ∀ t, MergePath h0 r t → ∀ acc, ∃ ys, instElements h fuel t acc = .ok ys := by
      intro t P acc
      refine ih (r :: seen) t acc (.cons (fun x hx e => by subst e; exact hc _ (h2 _ hx).2) h1) ?_ (lt_of_section P.sections.2) (.inl P.sections.2) (by simp; omega)
      intro x hx
      simp at hx
      rcases hx with rfl | hx
      · exact ⟨hr, P⟩
      · exact ⟨(h2 x hx).1, (h2 x hx).2.trans P⟩
    by_cases hS : ∃ t, Source h0 r t
    · obtain ⟨t, S⟩ := hS
      by_cases hne : (h0.at r).elements = []
      · obtain ⟨_, m, m1, P, _⟩ := F.empty r t S hne
        rw [m1]; exact next m P _
      · obtain ⟨f1, f2⟩ := F.full r t S hne
        rw [f1, f2]; exact next t S.path _
    · obtain ⟨b1, b2⟩ := F.bare r hs (fun t S => hS ⟨t, S⟩)
      rw [b1, b2]; exact ⟨_, rfl⟩

end Eno
