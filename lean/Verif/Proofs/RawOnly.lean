import Verif.Props.BlankCommentProps
import Verif.Proofs.CopiedParts

/-! # What must hold if `raw` succeeds: it visits everything -/

namespace Eno

open Spec

variable {input : Str} {h : Heap} {c c' : Cache} {ctx ctx' : Ctx}

/-- What is stored is right for comments and includes one's own items, entries and elements. -/
structure Whole (h : Heap) (c : Cache) : Prop where
  comment : ∀ r v, c.comment r = some v → computeComment (h.comments r) = .ok v
  items : ∀ i xs, c.items i = some xs → ∀ own, h.ownItems i = some own → ∀ r ∈ own, r ∈ xs
  entries : ∀ i xs, c.entries i = some xs → ∀ own, h.ownEntries i = some own → ∀ r ∈ own, r ∈ xs
  elements : ∀ s xs, c.elements s = some xs → ∀ x ∈ (h.at s).elements, x ∈ xs

theorem whole_empty : Whole h .empty := ⟨fun _ _ e => (by cases e), fun _ _ e => (by cases e), fun _ _ e => (by cases e), fun _ _ e => (by cases e)⟩

theorem upd_some {α β} [DecidableEq α] {f : α → Option β} {k x : α} {v w : β} (e : upd f k v x = some w) : (x = k ∧ v = w) ∨ f x = some w := by
  unfold upd at e
  split at e
  · injection e with e; exact .inl ⟨‹_›, e⟩
  · exact .inr e

theorem whole_comment (W : Whole h c) {r : Ref} {v : Option Str} (e : readComment h r c = (.ok v, c')) : Whole h c' ∧ computeComment (h.comments r) = .ok v := by
  unfold readComment at e
  split at e
  · rename_i w hw
    cases e
    exact ⟨W, W.comment _ _ hw⟩
  · split at e
    · cases e
    · rename_i w hw
      cases e
      refine ⟨⟨fun r' v' q => ?_, W.items, W.entries, W.elements⟩, hw⟩
      rcases upd_some q with ⟨rfl, rfl⟩ | q
      · exact hw
      · exact W.comment _ _ q

theorem whole_commentKey (W : Whole h c) {r : Ref} {v : Option (Option Str)} (e : readCommentKey h r c = (.ok v, c')) :
    Whole h c' ∧ ∃ w, computeComment (h.comments r) = .ok w := by
  unfold readCommentKey at e
  split at e
  · generalize hq : readComment h r c = q at e
    obtain ⟨q1, q2⟩ := q
    cases q1 with
    | error => cases e
    | ok w => cases e; have := whole_comment W hq; exact ⟨this.1, _, this.2⟩
  · rename_i hn
    cases e
    refine ⟨W, none, ?_⟩
    cases hc : h.comments r with
    | none => rfl
    | some => rw [hc] at hn; simp at hn

theorem whole_value : ∀ {n : Nat} {r : Ref} {c c' : Cache} {v : Option Str}, Whole h c → readValue input h n r c = (.ok v, c') → Whole h c'
  | 0, _, _, _, _, _, e => by cases e
  | n + 1, r, c, c', v, W, e => by
    unfold readValue at e
    split at e
    · cases e; exact W
    · split at e
      · exact whole_value W e
      · split at e
        · cases e
        · cases e; exact ⟨W.comment, W.items, W.entries, W.elements⟩

theorem whole_items : ∀ {n i : Nat} {c c' : Cache} {xs : List Ref}, Whole h c → readItems h n i c = (.ok xs, c') →
    Whole h c' ∧ ((h.at i).mirror = none → ∀ own, h.ownItems i = some own → ∀ r ∈ own, r ∈ xs)
  | 0, _, _, _, _, _, e => by cases e
  | n + 1, i, c, c', xs, W, e => by
    unfold readItems at e
    split at e
    · rename_i m hm
      exact ⟨(whole_items W e).1, fun q => by rw [hm] at q; cases q⟩
    · split at e
      · rename_i t _
        split at e
        · rename_i hx
          cases e
          exact ⟨W, fun _ => W.items _ _ hx⟩
        · generalize hq : readItems h n t c = q at e
          obtain ⟨q1, q2⟩ := q
          cases q1 with
          | error => cases e
          | ok ys =>
            have W2 := (whole_items W hq).1
            dsimp only at e
            split at e
            · cases e
            · rename_i own ho
              cases e
              refine ⟨⟨W2.comment, fun j zs q => ?_, W2.entries, W2.elements⟩, fun _ own' ho' r hr => ?_⟩
              · rcases upd_some q with ⟨rfl, rfl⟩ | q
                · intro own' ho' r hr
                  rw [ho] at ho'; cases ho'
                  exact List.mem_append_right _ hr
                · exact W2.items _ _ q
              · rw [ho] at ho'; cases ho'
                exact List.mem_append_right _ hr
      · cases e
        refine ⟨W, fun _ own ho r hr => ?_⟩
        rw [ho]; exact hr

theorem whole_entries : ∀ {n i : Nat} {c c' : Cache} {xs : List Ref}, Whole h c → readEntries h n i c = (.ok xs, c') →
    Whole h c' ∧ ((h.at i).mirror = none → ∀ own, h.ownEntries i = some own → ∀ r ∈ own, r ∈ xs)
  | 0, _, _, _, _, _, e => by cases e
  | n + 1, i, c, c', xs, W, e => by
    unfold readEntries at e
    split at e
    · rename_i m hm
      exact ⟨(whole_entries W e).1, fun q => by rw [hm] at q; cases q⟩
    · split at e
      · rename_i hx
        cases e
        exact ⟨W, fun _ => W.entries _ _ hx⟩
      · split at e
        · cases e
        · rename_i own ho
          have W1 : Whole h { c with entries := upd c.entries i own } := by
            refine ⟨W.comment, W.items, fun j zs q => ?_, W.elements⟩
            rcases upd_some q with ⟨rfl, rfl⟩ | q
            · intro own' ho' r hr
              rw [ho] at ho'; cases ho'
              exact hr
            · exact W.entries _ _ q
          dsimp only at e
          split at e
          · cases e
            refine ⟨W1, fun _ own' ho' r hr => ?_⟩
            rw [ho] at ho'; cases ho'
            exact hr
          · rename_i t _
            generalize hq : readEntries h n t { c with entries := upd c.entries i own } = q at e
            obtain ⟨q1, q2⟩ := q
            cases q1 with
            | error => cases e
            | ok ys =>
              have W2 := (whole_entries W1 hq).1
              cases e
              refine ⟨⟨W2.comment, W2.items, fun j zs q => ?_, W2.elements⟩, fun _ own' ho' r hr => ?_⟩
              · rcases upd_some q with ⟨rfl, rfl⟩ | q
                · intro own' ho' r hr
                  rw [ho] at ho'; cases ho'
                  exact List.mem_append_right _ hr
                · exact W2.entries _ _ q
              · rw [ho] at ho'; cases ho'
                exact List.mem_append_right _ hr

theorem whole_elements : ∀ {n s : Nat} {c c' : Cache} {xs : Option (List Nat)}, Whole h c → readElements h n s c = (.ok xs, c') →
    Whole h c' ∧ ∀ ys, xs = some ys → (h.at s).mirror = none ∧ ∀ x ∈ (h.at s).elements, x ∈ ys
  | 0, _, _, _, _, _, e => by cases e
  | n + 1, s, c, c', xs, W, e => by
    unfold readElements at e
    split at e
    · rename_i m hm
      generalize hq : readElements h n m c = q at e
      obtain ⟨q1, q2⟩ := q
      cases q1 with
      | error => cases e
      | ok ys => cases e; exact ⟨(whole_elements W hq).1, fun _ q => by cases q⟩
    · rename_i hm
      split at e
      · rename_i ys hx
        cases e
        exact ⟨W, fun _ q => by cases q; exact ⟨hm, W.elements _ _ hx⟩⟩
      · have W1 : Whole h { c with elements := upd c.elements s (h.at s).elements } := by
          refine ⟨W.comment, W.items, W.entries, fun j zs q => ?_⟩
          rcases upd_some q with ⟨rfl, rfl⟩ | q
          · exact fun x hx => hx
          · exact W.elements _ _ q
        dsimp only at e
        split at e
        · cases e
          exact ⟨W1, fun _ q => by cases q; exact ⟨hm, fun x hx => hx⟩⟩
        · rename_i t _
          generalize hq : readElements h n t { c with elements := upd c.elements s (h.at s).elements } = q at e
          obtain ⟨q1, q2⟩ := q
          cases q1 with
          | error => cases e
          | ok ys =>
            have W2 := (whole_elements W1 hq).1
            cases ys with
            | none => cases e
            | some ys =>
              cases e
              refine ⟨⟨W2.comment, W2.items, W2.entries, fun j zs q => ?_⟩, fun _ q => by cases q; exact ⟨hm, fun x hx => List.mem_append_right _ hx⟩⟩
              rcases upd_some q with ⟨rfl, rfl⟩ | q
              · exact fun x hx => List.mem_append_right _ hx
              · exact W2.elements _ _ q

/-! ## What `raw` visits -/

/-- `r'` is one of the own elements, items or entries of `r`. -/
inductive Owns (h : Heap) : Ref → Ref → Prop where
  | element {s x} : (h.at s).type = .section ∨ (h.at s).type = .document → x ∈ (h.at s).elements → Owns h (.elem s) (.elem x)
  | item {i own r} : (h.at i).type = .list → (h.at i).mirror = none → h.ownItems i = some own → r ∈ own → Owns h (.elem i) r
  | entry {i own r} : (h.at i).type = .fieldset → (h.at i).mirror = none → h.ownEntries i = some own → r ∈ own → Owns h (.elem i) r

/-- What `raw` asks of everything that it visits. -/
inductive Smooth (h : Heap) : Ref → Prop where
  | mk {r} : (∃ v, computeComment (h.comments r) = .ok v) → (∀ s, r = .elem s → (h.at s).type = .section ∨ (h.at s).type = .document → (h.at s).mirror = none) →
      (∀ r', Owns h r r' → Smooth h r') → Smooth h r

theorem whole_all {f : Ref → Read Raw} (hf : ∀ {r c c' v}, Whole h c → f r c = (.ok v, c') → Whole h c' ∧ Smooth h r) :
    ∀ {rs : List Ref} {c c' : Cache} {l : List Raw}, Whole h c → readAll f rs c = (.ok l, c') → Whole h c' ∧ ∀ r ∈ rs, Smooth h r
  | [], _, _, _, W, e => by cases e; exact ⟨W, by simp⟩
  | r :: rs, c, c', l, W, e => by
    unfold readAll at e
    generalize hq : f r c = q at e
    obtain ⟨q1, q2⟩ := q
    cases q1 with
    | error => cases e
    | ok v =>
      obtain ⟨W1, s1⟩ := hf W hq
      dsimp only at e
      generalize hp : readAll f rs q2 = p at e
      obtain ⟨p1, p2⟩ := p
      cases p1 with
      | error => cases e
      | ok vs =>
        cases e
        obtain ⟨W2, s2⟩ := whole_all hf W1 hp
        exact ⟨W2, List.forall_mem_cons.2 ⟨s1, s2⟩⟩

theorem whole_raw : ∀ {n : Nat} {r : Ref} {c c' : Cache} {v : Raw}, Whole h c → readRaw input h n r c = (.ok v, c') → Whole h c' ∧ Smooth h r
  | 0, _, _, _, _, _, e => by cases e
  | n + 1, r, c, c', v, W, e => by
    have ih : ∀ {r c c' v}, Whole h c → readRaw input h n r c = (.ok v, c') → Whole h c' ∧ Smooth h r := fun W e => whole_raw W e
    unfold readRaw at e
    generalize hq : readCommentKey h r c = q at e
    obtain ⟨q1, c1⟩ := q
    cases q1 with
    | error => cases e
    | ok comment =>
      obtain ⟨W1, hc⟩ := whole_commentKey W hq
      dsimp only at e
      have children : ∀ {xs : List Ref} {c2 : Cache}, Whole h c2 → (match readAll (readRaw input h n) xs c2 with
          | (.error e, c) => ((.error e : Except PyExc Raw), c)
          | (.ok l, c) => (.ok (.node (h.type r) comment (h.key? r) l), c)) = (.ok v, c') → Whole h c' ∧ ∀ r' ∈ xs, Smooth h r' := by
        intro xs c2 W2 e
        generalize hp : readAll (readRaw input h n) xs c2 = p at e
        obtain ⟨p1, p2⟩ := p
        cases p1 with
        | error => cases e
        | ok l => cases e; exact whole_all ih W2 hp
      have value : ∀ {ty : Ty}, (match readValue input h n r c1 with
          | (.error e, c) => ((.error e : Except PyExc Raw), c)
          | (.ok v, c) => (.ok (.leaf ty comment (h.key? r) (some v)), c)) = (.ok v, c') → Whole h c' := by
        intro ty e
        generalize hp : readValue input h n r c1 = p at e
        obtain ⟨p1, p2⟩ := p
        cases p1 with
        | error => cases e
        | ok l => cases e; exact whole_value W1 hp
      cases r with
      | item => exact ⟨value e, .mk hc (fun _ q => by cases q) fun _ q => by cases q⟩
      | entry => exact ⟨value e, .mk hc (fun _ q => by cases q) fun _ q => by cases q⟩
      | elem i =>
        have leaf : ∀ {ty}, (h.at i).type = ty → ty ≠ .section → ty ≠ .document → ty ≠ .list → ty ≠ .fieldset → Smooth h (.elem i) := by
          intro ty hty n1 n2 n3 n4
          refine .mk hc (fun s q qs => ?_) fun r' q => ?_
          · cases q; rw [hty] at qs; exact absurd qs (by simp [n1, n2])
          · cases q with
            | element q1 => rw [hty] at q1; exact absurd q1 (by simp [n1, n2])
            | item q1 => rw [hty] at q1; exact absurd q1 n3
            | entry q1 => rw [hty] at q1; exact absurd q1 n4
        have container : (h.at i).type = .section ∨ (h.at i).type = .document → (match readElements h n i c1 with
              | (.error e, c) => ((.error e : Except PyExc Raw), c)
              | (.ok none, c) => (.error .typeError, c)
              | (.ok (some xs), c) => match readAll (readRaw input h n) (xs.map .elem) c with
                | (.error e, c) => ((.error e : Except PyExc Raw), c)
                | (.ok l, c) => (.ok (.node (h.type (.elem i)) comment (h.key? (.elem i)) l), c)) = (.ok v, c') → Whole h c' ∧ Smooth h (.elem i) := by
          intro hty e
          generalize hp : readElements h n i c1 = p at e
          obtain ⟨p1, p2⟩ := p
          cases p1 with
          | error => cases e
          | ok xs =>
            obtain ⟨W2, h2⟩ := whole_elements W1 hp
            cases xs with
            | none => cases e
            | some xs =>
              obtain ⟨W3, h3⟩ := children W2 e
              obtain ⟨hm, h2⟩ := h2 xs rfl
              refine ⟨W3, .mk hc (fun s q _ => by cases q; exact hm) fun r' q => ?_⟩
              cases q with
              | element _ qx => exact h3 _ (List.mem_map.2 ⟨_, h2 _ qx, rfl⟩)
              | item q1 => rw [q1] at hty; simp at hty
              | entry q1 => rw [q1] at hty; simp at hty
        dsimp only at e
        split at e
        · rename_i hty; cases e; exact ⟨W1, leaf hty (by simp) (by simp) (by simp) (by simp)⟩
        · rename_i hty
          generalize hp : readItems h n i c1 = p at e
          obtain ⟨p1, p2⟩ := p
          cases p1 with
          | error => cases e
          | ok xs =>
            obtain ⟨W2, h2⟩ := whole_items W1 hp
            obtain ⟨W3, h3⟩ := children W2 e
            refine ⟨W3, .mk hc (fun s q qs => by cases q; rw [hty] at qs; simp at qs) fun r' q => ?_⟩
            cases q with
            | element q1 => rw [hty] at q1; simp at q1
            | item _ qm qo qr => exact h3 _ (h2 qm _ qo _ qr)
            | entry q1 => rw [hty] at q1; cases q1
        · rename_i hty
          generalize hp : readEntries h n i c1 = p at e
          obtain ⟨p1, p2⟩ := p
          cases p1 with
          | error => cases e
          | ok xs =>
            obtain ⟨W2, h2⟩ := whole_entries W1 hp
            obtain ⟨W3, h3⟩ := children W2 e
            refine ⟨W3, .mk hc (fun s q qs => by cases q; rw [hty] at qs; simp at qs) fun r' q => ?_⟩
            cases q with
            | element q1 => rw [hty] at q1; simp at q1
            | item q1 => rw [hty] at q1; cases q1
            | entry _ qm qo qr => exact h3 _ (h2 qm _ qo _ qr)
        · rename_i hty; exact container (.inl hty) e
        · rename_i hty; exact container (.inr hty) e
        · rename_i n1 n2 n3 n4 n5
          exact ⟨value e, leaf rfl n4 n5 n2 n3⟩

end Eno
