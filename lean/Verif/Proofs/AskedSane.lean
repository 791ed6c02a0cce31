import Verif.Props.AnySessionProps
import Verif.Proofs.RawOnly

/-! # What programs do to the caches, in documents without deep copies -/

namespace Eno.El

open Spec

variable {α : Type} {input : Str} {h0 h : Heap} {c : Cache} {E : Env}

theorem map_cache {α β} (g : α → β) (f : Read α) (c : Cache) : (Read.map g f c).2 = (f c).2 := by
  unfold Read.map
  generalize f c = q
  obtain ⟨q1 | q1, q2⟩ := q <;> rfl

theorem tame_of_map {α β} {g : α → β} {f : Read α} (T : Tame input h0 h (Read.map g f)) : Tame input h0 h f := by
  intro c S
  have := T c S
  rw [map_cache] at this
  refine ⟨this.1, fun e q => this.2 e ?_⟩
  unfold Read.map
  generalize f c = z at q
  obtain ⟨z1 | z1, z2⟩ := z <;> cases q
  rfl

/-- Reading a value, of whatever and however deep. -/
theorem sane_value {fuel : Nat} (L : Loaded h0 h) (hf : 1 ≤ fuel) (T : ∀ q, Askable h0 q → Tame input h0 h (q.run input h fuel)) :
    ∀ (n : Nat) {r : Ref} {c : Cache}, Sane input h0 h c → Sane input h0 h (readValue input h n r c).2
  | 0, _, _, S => S
  | n + 1, r, c, S => by
    obtain ⟨fuel, rfl⟩ : ∃ f, fuel = f + 1 := ⟨fuel - 1, by omega⟩
    cases hc : c.value r with
    | some v => simp only [readValue, hc]; exact S
    | none =>
      cases hm : h.mirror? r with
      | some m => simp only [readValue, hc, hm]; exact sane_value L hf T n S
      | none =>
        have same : readValue input h (n + 1) r c = readValue input h (fuel + 1) r c := by simp only [readValue, hc, hm]
        have sub : (∀ i, r ≠ .elem i) → Sane input h0 h (readValue input h (fuel + 1) r c).2 := fun hr =>
          (tame_returns (readValue_sub (input := input) L.non r hr fuel) (fun _ q => by cases q) (readValue_elements _) c S).1
        cases r with
        | elem i =>
          by_cases hb : i < h0.length ∧ (h0.at i).type ≠ .section
          · rw [same]
            exact (tame_of_map (T (.value (.elem i)) hb) c S).1
          · have keep : ∀ v, Sane input h0 h { c with value := upd c.value (.elem i) v } := by
              intro v
              refine ⟨⟨S.1.comment, fun j x h1 h2 q => ?_, fun r' x hr q => ?_, S.1.items, S.1.entries, S.1.elements⟩, S.2⟩
              · have hne : j ≠ i := fun e => hb (e ▸ ⟨h1, h2⟩)
                simp [upd, hne] at q
                exact S.1.value j x h1 h2 q
              · simp [upd, hr i] at q
                exact S.1.subs r' x hr q
            simp only [readValue, hc, hm]
            cases computeValue input h (.elem i) with
            | ok v => exact keep v
            | error e => exact keep none
        | item i k => rw [same]; exact sub (by simp)
        | entry i k => rw [same]; exact sub (by simp)

theorem raw_tame_all {fuel : Nat} (L : Loaded h0 h) (hf : 2 ≤ fuel) (hlen : h.length = h0.length) (T : ∀ q, Askable h0 q → Tame input h0 h (q.run input h fuel)) {r : Ref}
    (hr : Actual h r ∨ r = .elem 0) (hp : 0 < h0.length) : Tame input h0 h (readRaw input h fuel r) := by
  cases r with
  | elem i =>
    refine tame_of_map (T (.raw (.elem i)) ?_)
    rcases hr with hr | hr
    · exact Nat.lt_of_lt_of_eq hr.2 hlen
    · cases hr; exact hp
  | item i k => exact L.item_tame (by simp) hf
  | entry i k => exact L.item_tame (by simp) hf

theorem sane_asked {c : Cache} (L : Loaded h0 E.ctx.heap) (hf : 2 ≤ E.depth) (hlen : E.ctx.heap.length = h0.length) (hp : 0 < h0.length)
    (T : ∀ q, Askable h0 q → Tame E.ctx.input h0 E.ctx.heap (q.run E.ctx.input E.ctx.heap E.depth)) (A : Asked E c) : Sane E.ctx.input h0 E.ctx.heap c := by
  induction A with
  | start => exact sane_empty
  | comment r _ ih => exact (L.tame_comment r _ ih).1
  | value r _ ih => exact sane_value L (by omega) T _ ih
  | raw hr _ ih => exact (raw_tame_all L hf hlen T hr hp _ ih).1

/-! ## What is stored is complete, also if reads fail -/

theorem Whole.addItems (W : Whole h c) {i : Nat} {xs : List Ref} (hx : ∀ own, h.ownItems i = some own → ∀ r ∈ own, r ∈ xs) : Whole h { c with items := upd c.items i xs } := by
  refine ⟨W.comment, fun j zs q => ?_, W.entries, W.elements⟩
  rcases upd_some q with ⟨rfl, rfl⟩ | q
  · exact hx
  · exact W.items _ _ q

theorem Whole.addEntries (W : Whole h c) {i : Nat} {xs : List Ref} (hx : ∀ own, h.ownEntries i = some own → ∀ r ∈ own, r ∈ xs) : Whole h { c with entries := upd c.entries i xs } := by
  refine ⟨W.comment, W.items, fun j zs q => ?_, W.elements⟩
  rcases upd_some q with ⟨rfl, rfl⟩ | q
  · exact hx
  · exact W.entries _ _ q

theorem Whole.addElements (W : Whole h c) {i : Nat} {xs : List Nat} (hx : ∀ x ∈ (h.at i).elements, x ∈ xs) : Whole h { c with elements := upd c.elements i xs } := by
  refine ⟨W.comment, W.items, W.entries, fun j zs q => ?_⟩
  rcases upd_some q with ⟨rfl, rfl⟩ | q
  · exact hx
  · exact W.elements _ _ q

theorem stays_comment (W : Whole h c) (r : Ref) : Whole h (readComment h r c).2 := by
  unfold readComment
  split
  · exact W
  · split
    · exact ⟨W.comment, W.items, W.entries, W.elements⟩
    · rename_i w hw
      refine ⟨fun r' v' q => ?_, W.items, W.entries, W.elements⟩
      rcases upd_some q with ⟨rfl, rfl⟩ | q
      · exact hw
      · exact W.comment _ _ q

theorem stays_value : ∀ (n : Nat) {r : Ref} {c : Cache}, Whole h c → Whole h (readValue input h n r c).2
  | 0, _, _, W => W
  | n + 1, r, c, W => by
    unfold readValue
    split
    · exact W
    · split
      · exact stays_value n W
      · split <;> exact ⟨W.comment, W.items, W.entries, W.elements⟩

theorem stays_items : ∀ (n : Nat) {i : Nat} {c : Cache}, Whole h c → Whole h (readItems h n i c).2
  | 0, _, _, W => W
  | n + 1, i, c, W => by
    unfold readItems
    split
    · exact stays_items n W
    · split
      · split
        · exact W
        · rename_i t _ _ _
          have := stays_items n (i := t) W
          split <;> rename_i e <;> rw [e] at this
          · exact this
          · split
            · exact this
            · rename_i own ho
              exact Whole.addItems this fun own' ho' r hr => by rw [ho] at ho'; cases ho'; exact List.mem_append_right _ hr
      · exact W

theorem stays_entries : ∀ (n : Nat) {i : Nat} {c : Cache}, Whole h c → Whole h (readEntries h n i c).2
  | 0, _, _, W => W
  | n + 1, i, c, W => by
    unfold readEntries
    split
    · exact stays_entries n W
    · split
      · exact W
      · split
        · exact W
        · rename_i own ho
          have W1 := Whole.addEntries (i := i) (xs := own) W fun own' ho' r hr => by rw [ho] at ho'; cases ho'; exact hr
          dsimp only
          split
          · exact W1
          · rename_i t _
            have := stays_entries n (i := t) W1
            split <;> rename_i e <;> rw [e] at this
            · exact this
            · exact Whole.addEntries this fun own' ho' r hr => by rw [ho] at ho'; cases ho'; exact List.mem_append_right _ hr

theorem stays_elements : ∀ (n : Nat) {i : Nat} {c : Cache}, Whole h c → Whole h (readElements h n i c).2
  | 0, _, _, W => W
  | n + 1, i, c, W => by
    unfold readElements
    split
    · rename_i m _
      have := stays_elements n (i := m) W
      split <;> rename_i e <;> rw [e] at this <;> exact this
    · split
      · exact W
      · have W1 := Whole.addElements (i := i) (xs := (h.at i).elements) W fun _ hx => hx
        dsimp only
        split
        · exact W1
        · rename_i t _
          have := stays_elements n (i := t) W1
          split <;> rename_i e <;> rw [e] at this
          · exact this
          · exact this
          · exact Whole.addElements this fun _ hx => List.mem_append_right _ hx

theorem stays_all {g : Ref → Read α} (hg : ∀ r c, Whole h c → Whole h (g r c).2) : ∀ (rs : List Ref) {c : Cache}, Whole h c → Whole h (readAll g rs c).2
  | [], _, W => W
  | r :: rs, c, W => by
    have := hg r c W
    unfold readAll
    split <;> rename_i e <;> rw [e] at this
    · exact this
    · have := stays_all hg rs this
      split <;> rename_i e <;> rw [e] at this <;> exact this

theorem stays_raw : ∀ (n : Nat) {r : Ref} {c : Cache}, Whole h c → Whole h (readRaw input h n r c).2
  | 0, _, _, W => W
  | n + 1, r, c, W => by
    have k : Whole h (readCommentKey h r c).2 := by
      unfold readCommentKey
      split
      · have := stays_comment W r
        split <;> rename_i e <;> rw [e] at this <;> exact this
      · exact W
    have kids : ∀ (cm : Option (Option Str)) (xs : List Ref) (c : Cache), Whole h c → Whole h (match readAll (readRaw input h n) xs c with
        | (.error e, c) => ((.error e, c) : Except PyExc Raw × Cache)
        | (.ok l, c) => (.ok (.node (h.type r) cm (h.key? r) l), c)).2 := fun cm xs c W => by
      have := stays_all (fun r c W => stays_raw n (r := r) W) xs W
      split <;> rename_i e <;> rw [e] at this <;> exact this
    unfold readRaw
    split
    · rename_i e; rw [e] at k; exact k
    · rename_i cm c1 e
      rw [e] at k
      dsimp only at k ⊢
      split
      · rename_i i
        split
        · exact k
        · have := stays_items n (i := i) k
          split <;> rename_i e <;> rw [e] at this
          · exact this
          · exact kids _ _ _ this
        · have := stays_entries n (i := i) k
          split <;> rename_i e <;> rw [e] at this
          · exact this
          · exact kids _ _ _ this
        · have := stays_elements n (i := i) k
          split <;> rename_i e <;> rw [e] at this
          · exact this
          · exact this
          · exact kids _ _ _ this
        · have := stays_elements n (i := i) k
          split <;> rename_i e <;> rw [e] at this
          · exact this
          · exact this
          · exact kids _ _ _ this
        · have := stays_value (input := input) n (r := .elem i) k
          split <;> rename_i e <;> rw [e] at this <;> exact this
      · have := stays_value (input := input) n (r := r) k
        split <;> rename_i e <;> rw [e] at this <;> exact this

theorem whole_asked {c : Cache} (A : Asked E c) : Whole E.ctx.heap c := by
  induction A with
  | start => exact whole_empty
  | comment r _ ih => exact stays_comment ih r
  | value r _ ih => exact stays_value _ ih
  | raw _ _ ih => exact stays_raw _ ih

end Eno.El
