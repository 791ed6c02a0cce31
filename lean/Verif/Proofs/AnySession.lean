import Verif.Props.BlankCommentProps
import Verif.Spec.AnyQuestion

/-! # What any session does to the caches, in documents without deep copies -/

namespace Eno

open Spec

variable {input : Str} {h0 h : Heap} {c c' : Cache}

/-- What is cached for a section is part of its contents. -/
def WithinOf (h0 : Heap) (c : Cache) : Prop :=
  ∀ s xs, s < h0.length → (h0.at s).type = .section ∨ s = 0 → c.elements s = some xs → ∀ ys, CopiedFirst h0 s ys → ∀ x ∈ xs, x ∈ ys

/-- All that is kept whatever is asked. -/
def Sane (input : Str) (h0 h : Heap) (c : Cache) : Prop := Coherent input h0 h c ∧ WithinOf h0 c

theorem sane_empty : Sane input h0 h .empty := ⟨coherent_empty, fun _ _ _ _ e => by cases e⟩

/-- The failures that are known, with their reasons. -/
def Excused (h0 : Heap) (e : PyExc) : Prop := (e = .keyError ∧ ¬ CommentsReadable h0) ∨ (e = .typeError ∧ BareCopy h0)

/-- A reader that keeps the caches sane and fails only as is known. -/
def Tame (input : Str) (h0 h : Heap) {α} (f : Read α) : Prop :=
  ∀ c, Sane input h0 h c → Sane input h0 h (f c).2 ∧ ∀ e, (f c).1 = .error e → Excused h0 e

theorem tame_returns {α} {f : Read α} {res : Except PyExc α} (R : Returns input h0 h f res) (he : ∀ e, res = .error e → Excused h0 e)
    (hk : ∀ c, (f c).2.elements = c.elements) : Tame input h0 h f := by
  intro c S
  obtain ⟨c', h1, h2⟩ := R c S.1
  have hk := hk c
  rw [h1] at hk ⊢
  exact ⟨⟨h2, fun s xs hs hty e => S.2 s xs hs hty (by rw [← hk]; exact e)⟩, he⟩

theorem Tame.map {α β} {f : Read α} (g : α → β) (T : Tame input h0 h f) : Tame input h0 h (Read.map g f) := by
  intro c S
  have := T c S
  unfold Read.map
  generalize f c = q at this
  obtain ⟨q1, q2⟩ := q
  cases q1 with
  | ok v => exact ⟨this.1, fun e q => by cases q⟩
  | error e => exact ⟨this.1, fun e' q => by cases q; exact this.2 _ rfl⟩

/-! ## Readers that do not touch the cached elements -/

theorem readComment_elements {r : Ref} (c : Cache) : (readComment h r c).2.elements = c.elements := by
  unfold readComment
  split
  · rfl
  · split <;> rfl

theorem readCommentKey_elements {r : Ref} (c : Cache) : (readCommentKey h r c).2.elements = c.elements := by
  unfold readCommentKey
  split
  · have := readComment_elements (h := h) (r := r) c
    generalize readComment h r c = q at this
    obtain ⟨q1, q2⟩ := q
    cases q1 <;> exact this
  · rfl

theorem readValue_elements : ∀ (n : Nat) {r : Ref} (c : Cache), (readValue input h n r c).2.elements = c.elements
  | 0, _, _ => rfl
  | n + 1, r, c => by
    unfold readValue
    split
    · rfl
    · split
      · exact readValue_elements n c
      · split <;> rfl

theorem readItems_elements : ∀ (n : Nat) {i : Nat} (c : Cache), (readItems h n i c).2.elements = c.elements
  | 0, _, _ => rfl
  | n + 1, i, c => by
    unfold readItems
    split
    · exact readItems_elements n c
    · split
      · rename_i t _
        split
        · rfl
        · have := readItems_elements n (i := t) c
          generalize readItems h n t c = q at this
          obtain ⟨q1, q2⟩ := q
          cases q1 with
          | error => exact this
          | ok xs =>
            dsimp only
            split <;> exact this
      · rfl

theorem readEntries_elements : ∀ (n : Nat) {i : Nat} (c : Cache), (readEntries h n i c).2.elements = c.elements
  | 0, _, _ => rfl
  | n + 1, i, c => by
    unfold readEntries
    split
    · exact readEntries_elements n c
    · split
      · rfl
      · split
        · rfl
        · rename_i own _
          dsimp only
          split
          · rfl
          · rename_i t _
            have := readEntries_elements n (i := t) { c with entries := upd c.entries i own }
            generalize readEntries h n t { c with entries := upd c.entries i own } = q at this
            obtain ⟨q1, q2⟩ := q
            cases q1 <;> exact this

theorem Loaded.tame_comment (L : Loaded h0 h) (r : Ref) : Tame input h0 h (readComment h r) := by
  refine tame_returns (readComment_spec r) (fun e he => ?_) readComment_elements
  by_cases hb : Readable (h.comments r)
  · cases hc : h.comments r with
    | none => rw [hc] at he; cases he
    | some cs =>
      rw [hc, computeComment_eq (L.readable r cs hc) fun x hx => hb x (by rw [hc, hx])] at he
      cases he
  · rw [compute_blank ((C22_left_out _).1 hb)] at he
    injection he with he
    exact .inl ⟨he.symm, fun cr => hb fun x hx => L.shown cr r [x] hx x rfl⟩

theorem Loaded.tame_commentKey (L : Loaded h0 h) (r : Ref) : Tame input h0 h (readCommentKey h r) := by
  intro c S
  unfold readCommentKey
  split
  · have := L.tame_comment (input := input) r c S
    generalize readComment h r c = q at this
    obtain ⟨q1, q2⟩ := q
    cases q1 with
    | error => exact ⟨this.1, fun e q => by cases q; exact this.2 _ rfl⟩
    | ok => exact ⟨this.1, fun e q => by cases q⟩
  · exact ⟨S, fun e q => by cases q⟩

/-! ## Elements -/

theorem coherent_beside {s : Nat} {xs : List Nat} (C : Coherent input h0 h c) (hs : ¬ Straight h0 s) : Coherent input h0 h { c with elements := upd c.elements s xs } := by
  refine ⟨C.comment, C.value, C.subs, C.items, C.entries, fun s' ys h1 h2 h3 h4 e => ?_⟩
  simp only [upd] at e
  split at e
  · rename_i q; exact absurd (q ▸ h3) hs
  · exact C.elements s' ys h1 h2 h3 h4 e

theorem within_more {s : Nat} {xs : List Nat} (W : WithinOf h0 c) (hx : ∀ ys, CopiedFirst h0 s ys → ∀ x ∈ xs, x ∈ ys) : WithinOf h0 { c with elements := upd c.elements s xs } := by
  intro s' zs h1 h2 e
  simp only [upd] at e
  split at e
  · rename_i q; injection e with e; subst q; subst e; exact hx
  · exact W s' zs h1 h2 e

theorem own_within {s : Nat} {ys : List Nat} (H : CopiedFirst h0 s ys) : ∀ x ∈ (h0.at s).elements, x ∈ ys := by
  cases H with
  | own => exact fun _ h => h
  | copy => exact fun _ h => List.mem_append_right _ h

theorem readElements_same {n s t k : Nat} (h1 : (h.at s).mirror = some k) (h2 : (h.at t).mirror = some k) : readElements h n s = readElements h n t := by
  cases n with
  | zero => rfl
  | succ n => funext c; unfold readElements; rw [h1, h2]

/-- Reading a section that mirrors another. -/
theorem readElements_mirror {n s m : Nat} (h1 : (h.at s).mirror = some m) (c : Cache) :
    (readElements h (n + 1) s c).2 = (readElements h n m c).2 ∧ (∀ e, (readElements h (n + 1) s c).1 = .error e → (readElements h n m c).1 = .error e) ∧
      ∀ xs, (readElements h (n + 1) s c).1 ≠ .ok (some xs) := by
  rw [show readElements h (n + 1) s c = (match readElements h n m c with
    | (.error e, c) => (.error e, c)
    | (.ok _, c) => (.ok none, c)) by simp only [readElements, h1]; rfl]
  generalize readElements h n m c = q
  obtain ⟨p1, p2⟩ := q
  cases p1 with
  | error => exact ⟨rfl, fun e q => q, fun xs q => by cases q⟩
  | ok => exact ⟨rfl, fun e q => (by cases q), fun xs q => (by cases q)⟩

theorem extend_within {s t : Nat} {own xs ws : List Nat} (ht : TemplateIs h0 s t) (L : Loaded h0 h) (ho : own = (h0.at s).elements) (hw : CopiedFirst h0 t ws)
    (hx : ∀ x ∈ xs, x ∈ ws) : ∀ ys, CopiedFirst h0 s ys → ∀ x ∈ (xs.filter fun i => !(own.map fun j => (h.at j).key).contains (h.at i).key) ++ own, x ∈ ys := by
  intro ys hy x hm
  rw [hy.det (.copy ht hw)]
  subst ho
  rcases List.mem_append.1 hm with hm | hm
  · refine List.mem_append_left _ ?_
    simp only [(L.non.items_all _).2.2.2, List.mem_filter] at hm
    simp only [notOverridden, List.mem_filter]
    exact ⟨hx x hm.1, by simpa using hm.2⟩
  · exact List.mem_append_right _ hm

/-- What `readElements` returns or stores is part of the contents. -/
theorem Loaded.elements_within (L : Loaded h0 h) (nd : ∀ a, (h0.at a).deepCopy = false) {s : Nat} (hi : s < h0.length) (hs : (h0.at s).type = .section ∨ s = 0) :
    ∀ n c, WithinOf h0 c → WithinOf h0 (readElements h n s c).2 ∧ ∀ xs, (readElements h n s c).1 = .ok (some xs) → ∀ ys, CopiedFirst h0 s ys → ∀ x ∈ xs, x ∈ ys := by
  have sh : ∀ j, Shielded h0 j := fun j a _ => nd a
  have g := L.sec.grounded s hi hs
  induction g with
  | @own s hc =>
    obtain ⟨m1, m2, _⟩ := L.sec.plain s hi hs hc (sh s)
    have he : (h.at s).elements = (h0.at s).elements := (L.non.items_all s).2.2.1
    intro n c W
    cases n with
    | zero => exact ⟨W, fun xs q => by cases q⟩
    | succ n =>
      unfold readElements
      rw [m1]
      dsimp only
      cases hq : c.elements s with
      | some xs => exact ⟨W, fun ys q => by cases q; exact W s xs hi hs hq⟩
      | none =>
        dsimp only
        rw [m2, he]
        exact ⟨within_more W fun ys => own_within, fun ys q => by cases q; exact fun _ => own_within⟩
  | @copy s t ht g ih =>
    obtain ⟨q1, q2, q3⟩ := L.sec.holder s t hs ht
    have ih := ih q2 (.inl q3)
    have M := L.sec.copied s t q1 ht (sh s) (sh t)
    have he : (h.at s).elements = (h0.at s).elements := (L.non.items_all s).2.2.1
    intro n c W
    by_cases hel : (h0.at s).elements = []
    · have m := M.1 hel
      cases hm : (h.at t).mirror with
      | some k =>
        rw [hm] at m
        have E := readElements_same (n := n) m hm
        refine ⟨by rw [E]; exact (ih n c W).1, fun xs e => ?_⟩
        cases n with
        | zero => cases e
        | succ n => exact absurd e ((readElements_mirror m c).2.2 xs)
      | none =>
        rw [hm] at m
        cases n with
        | zero => exact ⟨W, fun xs q => by cases q⟩
        | succ n =>
          have E := readElements_mirror (n := n) m c
          exact ⟨by rw [E.1]; exact (ih n c W).1, fun xs e => absurd e (E.2.2 xs)⟩
    · obtain ⟨m1, m2⟩ := M.2 hel
      cases n with
      | zero => exact ⟨W, fun xs q => by cases q⟩
      | succ n =>
        unfold readElements
        rw [m1]
        dsimp only
        cases hq : c.elements s with
        | some xs => exact ⟨W, fun ys q => by cases q; exact W s xs hi hs hq⟩
        | none =>
          dsimp only
          rw [m2, he]
          dsimp only
          have W1 : WithinOf h0 { c with elements := upd c.elements s (h0.at s).elements } := within_more W fun ys => own_within
          have I := ih n _ W1
          generalize readElements h n t { c with elements := upd c.elements s (h0.at s).elements } = q at I
          obtain ⟨p1, p2⟩ := q
          cases p1 with
          | error => exact ⟨I.1, fun ys q => by cases q⟩
          | ok xs =>
            cases xs with
            | none => exact ⟨I.1, fun ys q => by cases q⟩
            | some xs =>
              obtain ⟨ws, hw⟩ := g.copied
              have X := extend_within ht L rfl hw (I.2 xs rfl ws hw)
              exact ⟨within_more I.1 X, fun ys q => by cases q; exact X⟩

/-- `None` is returned only for a copy without own elements. -/
theorem Loaded.elements_none (L : Loaded h0 h) (nd : ∀ a, (h0.at a).deepCopy = false) {s : Nat} (hi : s < h0.length) (hs : (h0.at s).type = .section ∨ s = 0) {n : Nat} {c : Cache}
    (e : (readElements h n s c).1 = .ok none) : BareCopy h0 := by
  have sh : ∀ j, Shielded h0 j := fun j a _ => nd a
  cases n with
  | zero => cases e
  | succ n =>
    cases hm : (h.at s).mirror with
    | none =>
      unfold readElements at e
      rw [hm] at e
      dsimp only at e
      split at e
      · cases e
      · split at e
        · cases e
        · rename_i t _
          generalize readElements h n t _ = q at e
          obtain ⟨p1, p2⟩ := q
          cases p1 with
          | error => cases e
          | ok xs => cases xs <;> cases e
    | some m =>
      cases L.sec.grounded s hi hs with
      | own hc => rw [(L.sec.plain s hi hs hc (sh s)).1] at hm; cases hm
      | @copy _ t ht g =>
        obtain ⟨q1, _, _⟩ := L.sec.holder s t hs ht
        by_cases hel : (h0.at s).elements = []
        · obtain ⟨_, k, hk, _⟩ := ht
          exact ⟨s, hi, q1, by rw [hk]; rfl, hel⟩
        · rw [((L.sec.copied s t q1 ht (sh s) (sh t)).2 hel).1] at hm; cases hm

/-- The only failure is that of a section that extends a mirrored one. -/
theorem Loaded.elements_fail (L : Loaded h0 h) (nd : ∀ a, (h0.at a).deepCopy = false) {s : Nat} (hi : s < h0.length) (hs : (h0.at s).type = .section ∨ s = 0) :
    ∃ N, ∀ n, N ≤ n → ∀ c e, (readElements h n s c).1 = .error e → e = .typeError ∧ BareCopy h0 := by
  have sh : ∀ j, Shielded h0 j := fun j a _ => nd a
  have g := L.sec.grounded s hi hs
  induction g with
  | @own s hc =>
    obtain ⟨m1, m2, _⟩ := L.sec.plain s hi hs hc (sh s)
    refine ⟨1, fun n hn c e he => ?_⟩
    obtain ⟨n, rfl⟩ : ∃ k, n = k + 1 := ⟨n - 1, by omega⟩
    unfold readElements at he
    rw [m1] at he
    dsimp only at he
    cases hq : c.elements s with
    | some xs => rw [hq] at he; cases he
    | none => rw [hq, m2] at he; cases he
  | @copy s t ht g ih =>
    obtain ⟨q1, q2, q3⟩ := L.sec.holder s t hs ht
    obtain ⟨N, hN⟩ := ih q2 (.inl q3)
    have M := L.sec.copied s t q1 ht (sh s) (sh t)
    refine ⟨N + 1, fun n hn c e he => ?_⟩
    obtain ⟨n, rfl⟩ : ∃ k, n = k + 1 := ⟨n - 1, by omega⟩
    by_cases hel : (h0.at s).elements = []
    · have m := M.1 hel
      cases hm : (h.at t).mirror with
      | some k =>
        rw [hm] at m
        rw [readElements_same m hm] at he
        exact hN (n + 1) (by omega) c e he
      | none =>
        rw [hm] at m
        exact hN n (by omega) c e ((readElements_mirror m c).2.1 e he)
    · obtain ⟨m1, m2⟩ := M.2 hel
      unfold readElements at he
      rw [m1] at he
      dsimp only at he
      cases hq : c.elements s with
      | some xs => rw [hq] at he; cases he
      | none =>
        rw [hq, m2] at he
        dsimp only at he
        have I := hN n (by omega) { c with elements := upd c.elements s (h.at s).elements }
        have B := L.elements_none nd q2 (.inl q3) (n := n) (c := { c with elements := upd c.elements s (h.at s).elements })
        generalize readElements h n t { c with elements := upd c.elements s (h.at s).elements } = q at I B he
        obtain ⟨p1, p2⟩ := q
        cases p1 with
        | error => cases he; exact I _ rfl
        | ok xs =>
          cases xs with
          | none => cases he; exact ⟨rfl, B rfl⟩
          | some => cases he

/-- Reading any section leaves what is cached for straight sections right. -/
theorem Loaded.elements_coherent (L : Loaded h0 h) (nd : ∀ a, (h0.at a).deepCopy = false) {s : Nat} (hi : s < h0.length) (hs : (h0.at s).type = .section ∨ s = 0) :
    ∃ N, ∀ n, N ≤ n → ∀ c, Coherent input h0 h c → Coherent input h0 h (readElements h n s c).2 := by
  have sh : ∀ j, Shielded h0 j := fun j a _ => nd a
  have g := L.sec.grounded s hi hs
  induction g with
  | @own s hc =>
    have st : Straight h0 s := ⟨⟨sh s, fun _ _ => sh _⟩, by rw [hc]; simp, by
      intro t hl
      cases hl with
      | one q => obtain ⟨_, k, q, _⟩ := q; rw [hc] at q; cases q
      | step q => obtain ⟨_, k, q, _⟩ := q; rw [hc] at q; cases q⟩
    refine ⟨h0.length, fun n hn c C => ?_⟩
    obtain ⟨c', e, C'⟩ := L.elements (input := input) (fuel := n) hi hs st (.own hc) hn c C
    rw [e]; exact C'
  | @copy s t ht g ih =>
    obtain ⟨q1, q2, q3⟩ := L.sec.holder s t hs ht
    obtain ⟨N, hN⟩ := ih q2 (.inl q3)
    have M := L.sec.copied s t q1 ht (sh s) (sh t)
    refine ⟨max N h0.length + 1, fun n hn c C => ?_⟩
    obtain ⟨n, rfl⟩ : ∃ k, n = k + 1 := ⟨n - 1, by omega⟩
    by_cases st : Straight h0 s
    · obtain ⟨zs, hz⟩ := (Grounded.copy ht g).copied
      obtain ⟨c', e, C'⟩ := L.elements (input := input) (fuel := n + 1) hi hs st hz (by omega) c C
      rw [e]; exact C'
    · by_cases hel : (h0.at s).elements = []
      · have m := M.1 hel
        cases hm : (h.at t).mirror with
        | some k =>
          rw [hm] at m
          rw [readElements_same m hm]
          exact hN (n + 1) (by omega) c C
        | none =>
          rw [hm] at m
          rw [(readElements_mirror m c).1]
          exact hN n (by omega) c C
      · obtain ⟨m1, m2⟩ := M.2 hel
        unfold readElements
        rw [m1]
        dsimp only
        cases hq : c.elements s with
        | some xs => exact C
        | none =>
          dsimp only
          rw [m2]
          dsimp only
          have I := hN n (by omega) _ (coherent_beside (xs := (h.at s).elements) C st)
          generalize readElements h n t { c with elements := upd c.elements s (h.at s).elements } = q at I
          obtain ⟨p1, p2⟩ := q
          cases p1 with
          | error => exact I
          | ok xs =>
            cases xs with
            | none => exact I
            | some xs => exact coherent_beside I st

theorem Loaded.elements_tame (L : Loaded h0 h) (nd : ∀ a, (h0.at a).deepCopy = false) {s : Nat} (hi : s < h0.length) (hs : (h0.at s).type = .section ∨ s = 0) :
    ∃ N, ∀ n, N ≤ n → Tame input h0 h (readElements h n s) := by
  obtain ⟨N, hN⟩ := L.elements_fail nd hi hs
  obtain ⟨N', hN'⟩ := L.elements_coherent (input := input) nd hi hs
  exact ⟨max N N', fun n hn c S => ⟨⟨hN' n (by omega) c S.1, (L.elements_within nd hi hs n c S.2).1⟩, fun e he => .inr (hN n (by omega) c e he)⟩⟩

/-! ## `raw` -/

theorem tame_all {f : Ref → Read Raw} : ∀ {rs : List Ref}, (∀ r ∈ rs, Tame input h0 h (f r)) → Tame input h0 h (readAll f rs)
  | [], _, c, S => ⟨S, fun e q => by cases q⟩
  | r :: rs, H, c, S => by
    have h1 := H r (by simp) c S
    unfold readAll
    generalize f r c = q at h1
    obtain ⟨q1, q2⟩ := q
    cases q1 with
    | error => exact ⟨h1.1, fun e q => by cases q; exact h1.2 _ rfl⟩
    | ok v =>
      dsimp only
      have h2 := tame_all (fun r' hr' => H r' (List.mem_cons_of_mem _ hr')) q2 h1.1
      generalize readAll f rs q2 = p at h2
      obtain ⟨p1, p2⟩ := p
      cases p1 with
      | error => exact ⟨h2.1, fun e q => by cases q; exact h2.2 _ rfl⟩
      | ok => exact ⟨h2.1, fun e q => by cases q⟩

theorem Loaded.item_tame (L : Loaded h0 h) {r : Ref} (hr : ∀ i, r ≠ .elem i) {fuel : Nat} (hf : 2 ≤ fuel) : Tame input h0 h (readRaw input h fuel r) := by
  obtain ⟨fuel, rfl⟩ : ∃ f, fuel = f + 1 + 1 := ⟨fuel - 2, by omega⟩
  have V := readValue_sub (input := input) L.non r hr fuel
  have T : Tame input h0 h (readValue input h (fuel + 1) r) := tame_returns V (fun _ q => by cases q) (readValue_elements _)
  cases r with
  | elem i => exact absurd rfl (hr i)
  | item i k =>
    intro c S
    have K := L.tame_commentKey (input := input) (.item i k) c S
    unfold readRaw
    generalize readCommentKey h (.item i k) c = q at K
    obtain ⟨q1, c1⟩ := q
    cases q1 with
    | error => exact ⟨K.1, fun e q => by cases q; exact K.2 _ rfl⟩
    | ok comment =>
      dsimp only
      have V := T c1 K.1
      generalize readValue input h (fuel + 1) (.item i k) c1 = p at V
      obtain ⟨p1, c2⟩ := p
      cases p1 with
      | error => exact ⟨V.1, fun e q => by cases q; exact V.2 _ rfl⟩
      | ok v => exact ⟨V.1, fun e q => by cases q⟩
  | entry i k =>
    intro c S
    have K := L.tame_commentKey (input := input) (.entry i k) c S
    unfold readRaw
    generalize readCommentKey h (.entry i k) c = q at K
    obtain ⟨q1, c1⟩ := q
    cases q1 with
    | error => exact ⟨K.1, fun e q => by cases q; exact K.2 _ rfl⟩
    | ok comment =>
      dsimp only
      have V := T c1 K.1
      generalize readValue input h (fuel + 1) (.entry i k) c1 = p at V
      obtain ⟨p1, c2⟩ := p
      cases p1 with
      | error => exact ⟨V.1, fun e q => by cases q; exact V.2 _ rfl⟩
      | ok v => exact ⟨V.1, fun e q => by cases q⟩

mutual

/-- In a document without deep copies, `raw` of anything keeps the caches sane and fails only as the known defects do. -/
theorem Loaded.raw_tame (L : Loaded h0 h) (nd : ∀ a, (h0.at a).deepCopy = false) {r : Ref} {x : Raw} :
    RawOf input h0 r x → ∃ N, ∀ fuel, N ≤ fuel → Tame input h0 h (readRaw input h fuel r)
  | .empty hi hc hk => by
    rename_i i cm
    refine ⟨1, fun fuel hf => ?_⟩
    obtain ⟨fuel, rfl⟩ : ∃ f, fuel = f + 1 := ⟨fuel - 1, by omega⟩
    have hty : (h.at i).type = .empty := (L.kind i hi (hk.nonsec (by decide))).det hk
    intro c S
    have K := L.tame_commentKey (input := input) (.elem i) c S
    unfold readRaw
    generalize readCommentKey h (.elem i) c = q at K
    obtain ⟨q1, c1⟩ := q
    cases q1 with
    | error => exact ⟨K.1, fun e q => by cases q; exact K.2 _ rfl⟩
    | ok comment =>
      dsimp only
      simp only [hty]
      exact ⟨K.1, fun e q => by cases q⟩
  | .field hi hc hk hty hv => by
    rename_i i cm k v
    refine ⟨h0.length + 1, fun fuel hf => ?_⟩
    obtain ⟨fuel, rfl⟩ : ∃ f, fuel = f + 1 := ⟨fuel - 1, by omega⟩
    have hns := hk.nonsec (by rcases hty with rfl | rfl <;> decide)
    have hty' : (h.at i).type = k := (L.kind i hi hns).det hk
    have T : Tame input h0 h (readValue input h fuel (.elem i)) := tame_returns (L.value hi hns hv (by omega)) (fun _ q => by cases q) (readValue_elements _)
    rcases hty with rfl | rfl <;>
    · intro c S
      have K := L.tame_commentKey (input := input) (.elem i) c S
      unfold readRaw
      generalize readCommentKey h (.elem i) c = q at K
      obtain ⟨q1, c1⟩ := q
      cases q1 with
      | error => exact ⟨K.1, fun e q => by cases q; exact K.2 _ rfl⟩
      | ok comment =>
        dsimp only
        simp only [hty']
        have V := T c1 K.1
        generalize readValue input h fuel (.elem i) c1 = p at V
        obtain ⟨p1, c2⟩ := p
        cases p1 with
        | error => exact ⟨V.1, fun e q => by cases q; exact V.2 _ rfl⟩
        | ok v => exact ⟨V.1, fun e q => by cases q⟩
  | .list hi hc hk hx hr => by
    rename_i i cm xs rs
    refine ⟨h0.length + 3, fun fuel hf => ?_⟩
    obtain ⟨fuel, rfl⟩ : ∃ f, fuel = f + 1 := ⟨fuel - 1, by omega⟩
    have hns := hk.nonsec (by decide)
    have hty' : (h.at i).type = .list := (L.kind i hi hns).det hk
    have R := L.items (input := input) (fuel := fuel) hi hns hty' hx (by omega)
    have T := tame_returns R (fun _ q => by cases q) (readItems_elements _)
    intro c S
    have K := L.tame_commentKey (input := input) (.elem i) c S
    unfold readRaw
    generalize readCommentKey h (.elem i) c = q at K
    obtain ⟨q1, c1⟩ := q
    cases q1 with
    | error => exact ⟨K.1, fun e q => by cases q; exact K.2 _ rfl⟩
    | ok comment =>
      dsimp only
      simp only [hty']
      have V := T c1 K.1
      obtain ⟨c2, e2, _⟩ := R c1 K.1.1
      rw [e2] at V ⊢
      dsimp only
      have R2 := tame_all (input := input) (h0 := h0) (f := readRaw input h fuel) (fun r (hr : r ∈ xs) => L.item_tame (by obtain ⟨a, b, rfl⟩ := hx.refs r hr; simp) (by omega)) c2 V.1
      generalize readAll (readRaw input h fuel) xs c2 = p at R2
      obtain ⟨p1, c3⟩ := p
      cases p1 with
      | error => exact ⟨R2.1, fun e q => by cases q; exact R2.2 _ rfl⟩
      | ok l => exact ⟨R2.1, fun e q => by cases q⟩
  | .fieldset hi hc hk hx hr => by
    rename_i i cm xs rs
    refine ⟨h0.length + 3, fun fuel hf => ?_⟩
    obtain ⟨fuel, rfl⟩ : ∃ f, fuel = f + 1 := ⟨fuel - 1, by omega⟩
    have hns := hk.nonsec (by decide)
    have hty' : (h.at i).type = .fieldset := (L.kind i hi hns).det hk
    have R := L.entries (input := input) (fuel := fuel) hi hns hty' hx (by omega)
    have T := tame_returns R (fun _ q => by cases q) (readEntries_elements _)
    intro c S
    have K := L.tame_commentKey (input := input) (.elem i) c S
    unfold readRaw
    generalize readCommentKey h (.elem i) c = q at K
    obtain ⟨q1, c1⟩ := q
    cases q1 with
    | error => exact ⟨K.1, fun e q => by cases q; exact K.2 _ rfl⟩
    | ok comment =>
      dsimp only
      simp only [hty']
      have V := T c1 K.1
      obtain ⟨c2, e2, _⟩ := R c1 K.1.1
      rw [e2] at V ⊢
      dsimp only
      have R2 := tame_all (input := input) (h0 := h0) (f := readRaw input h fuel) (fun r (hr : r ∈ xs) => L.item_tame (by obtain ⟨a, b, rfl⟩ := hx.refs r hr; simp) (by omega)) c2 V.1
      generalize readAll (readRaw input h fuel) xs c2 = p at R2
      obtain ⟨p1, c3⟩ := p
      cases p1 with
      | error => exact ⟨R2.1, fun e q => by cases q; exact R2.2 _ rfl⟩
      | ok l => exact ⟨R2.1, fun e q => by cases q⟩
  | .section hi hc hs hx hr => by
    rename_i i cm xs rs
    obtain ⟨N, hN⟩ := Loaded.raws_tame L nd hr
    obtain ⟨M, hM⟩ := L.elements_tame (input := input) nd hi (.inl hs)
    refine ⟨max N M + 1, fun fuel hf => ?_⟩
    obtain ⟨fuel, rfl⟩ : ∃ f, fuel = f + 1 := ⟨fuel - 1, by omega⟩
    have hty' : (h.at i).type = .section := L.secType i hi hs
    intro c S
    have K := L.tame_commentKey (input := input) (.elem i) c S
    unfold readRaw
    generalize readCommentKey h (.elem i) c = q at K
    obtain ⟨q1, c1⟩ := q
    cases q1 with
    | error => exact ⟨K.1, fun e q => by cases q; exact K.2 _ rfl⟩
    | ok comment =>
      dsimp only
      simp only [hty']
      have V := hM fuel (by omega) c1 K.1
      have W := (L.elements_within nd hi (.inl hs) fuel c1 K.1.2).2
      have B := L.elements_none nd hi (.inl hs) (n := fuel) (c := c1)
      generalize readElements h fuel i c1 = p at V W B
      obtain ⟨p1, c2⟩ := p
      cases p1 with
      | error => exact ⟨V.1, fun e q => by cases q; exact V.2 _ rfl⟩
      | ok zs =>
        cases zs with
        | none => exact ⟨V.1, fun e q => by cases q; exact .inr ⟨rfl, B rfl⟩⟩
        | some zs =>
          dsimp only
          have R2 := tame_all (input := input) (h0 := h0) (f := readRaw input h fuel) (fun r hr => by
            obtain ⟨z, hz, rfl⟩ := List.mem_map.1 (show r ∈ zs.map Ref.elem from hr)
            exact hN _ (List.mem_map.2 ⟨z, W zs rfl _ hx z hz, rfl⟩) fuel (by omega)) c2 V.1
          generalize readAll (readRaw input h fuel) (zs.map .elem) c2 = p at R2
          obtain ⟨p1, c3⟩ := p
          cases p1 with
          | error => exact ⟨R2.1, fun e q => by cases q; exact R2.2 _ rfl⟩
          | ok l => exact ⟨R2.1, fun e q => by cases q⟩
  | .document hx hr => by
    rename_i xs rs
    obtain ⟨N, hN⟩ := Loaded.raws_tame L nd hr
    obtain ⟨M, hM⟩ := L.elements_tame (input := input) nd L.non.ok.pos (.inr rfl)
    refine ⟨max N M + 1, fun fuel hf => ?_⟩
    obtain ⟨fuel, rfl⟩ : ∃ f, fuel = f + 1 := ⟨fuel - 1, by omega⟩
    intro c S
    have K := L.tame_commentKey (input := input) (.elem 0) c S
    unfold readRaw
    generalize readCommentKey h (.elem 0) c = q at K
    obtain ⟨q1, c1⟩ := q
    cases q1 with
    | error => exact ⟨K.1, fun e q => by cases q; exact K.2 _ rfl⟩
    | ok comment =>
      dsimp only
      simp only [L.docType]
      have V := hM fuel (by omega) c1 K.1
      have W := (L.elements_within nd L.non.ok.pos (.inr rfl) fuel c1 K.1.2).2
      have B := L.elements_none nd L.non.ok.pos (.inr rfl) (n := fuel) (c := c1)
      generalize readElements h fuel 0 c1 = p at V W B
      obtain ⟨p1, c2⟩ := p
      cases p1 with
      | error => exact ⟨V.1, fun e q => by cases q; exact V.2 _ rfl⟩
      | ok zs =>
        cases zs with
        | none => exact ⟨V.1, fun e q => by cases q; exact .inr ⟨rfl, B rfl⟩⟩
        | some zs =>
          dsimp only
          have R2 := tame_all (input := input) (h0 := h0) (f := readRaw input h fuel) (fun r hr => by
            obtain ⟨z, hz, rfl⟩ := List.mem_map.1 (show r ∈ zs.map Ref.elem from hr)
            exact hN _ (List.mem_map.2 ⟨z, W zs rfl _ hx z hz, rfl⟩) fuel (by omega)) c2 V.1
          generalize readAll (readRaw input h fuel) (zs.map .elem) c2 = p at R2
          obtain ⟨p1, c3⟩ := p
          cases p1 with
          | error => exact ⟨R2.1, fun e q => by cases q; exact R2.2 _ rfl⟩
          | ok l => exact ⟨R2.1, fun e q => by cases q⟩
  | .item hx => ⟨2, fun fuel hf => L.item_tame (by simp) hf⟩
  | .entry hx => ⟨2, fun fuel hf => L.item_tame (by simp) hf⟩

theorem Loaded.raws_tame (L : Loaded h0 h) (nd : ∀ a, (h0.at a).deepCopy = false) {rs : List Ref} {xs : List Raw} :
    RawsOf input h0 rs xs → ∃ N, ∀ r ∈ rs, ∀ fuel, N ≤ fuel → Tame input h0 h (readRaw input h fuel r)
  | .nil => ⟨0, by simp⟩
  | .cons a as => by
    obtain ⟨N, hN⟩ := Loaded.raw_tame L nd a
    obtain ⟨M, hM⟩ := Loaded.raws_tame L nd as
    refine ⟨max N M, fun r hr fuel hf => ?_⟩
    rcases List.mem_cons.1 hr with rfl | hr
    · exact hN fuel (by omega)
    · exact hM r hr fuel (by omega)

end

end Eno
