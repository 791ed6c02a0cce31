import Verif.Spec.RawShape
import Verif.Proofs.WorldLoad

/-! # The form of what `raw` returns: proofs -/

namespace Eno

open Spec

variable {input : Str} {h : Heap} {c : Cache} {r : Ref} {x : Raw}

/-- What is used of a loaded document. -/
structure Formed (h : Heap) : Prop where
  doc : (h.at 0).type = .document
  docComments : (h.at 0).comments = none
  types : ∀ i, 0 < i → i < h.length → (h.at i).type ∈ [Ty.section, .field, .empty, .list, .fieldset, .mlBegin]
  kids : ∀ s, ∀ j ∈ (h.at s).elements, 0 < j ∧ j < h.length
  items : ∀ i k x, h.sub? (.item i k) = some x → x.key = none
  entries : ∀ i k x, h.sub? (.entry i k) = some x → x.key.isSome

/-- A reference that belongs to the document. -/
def OfDocument (h : Heap) : Ref → Prop
  | .elem i => i < h.length
  | r => (h.sub? r).isSome

theorem orNone_eq (v : Option Str) : Py.ofOption v = orNone v := by cases v <;> rfl

theorem begun_eq {t : Ty} {s : Str} (cm : Option (Option Str)) (hs : t.pretty = some s) (k : Option Str) :
    rawHead t cm k = begun s cm ++ (match k with | none => [] | some k => [(chars!"key", .text k)]) := by
  unfold rawHead begun
  rw [hs]
  cases cm with
  | none => rfl
  | some c => cases c <;> rfl

theorem mem_dicts {y : Py} : ∀ {xs : List Raw}, y ∈ dicts xs → ∃ x ∈ xs, x.dict = y
  | [], hy => by simp [dicts] at hy
  | x :: xs, hy => by
    simp only [dicts, List.mem_cons] at hy
    rcases hy with rfl | hy
    · exact ⟨x, List.mem_cons_self .., rfl⟩
    · obtain ⟨z, hz, e⟩ := mem_dicts hy
      exact ⟨z, List.mem_cons_of_mem _ hz, e⟩

theorem readAll_each {f : Ref → Read Raw} {P : Raw → Prop} {Q : Ref → Prop} {I : Cache → Prop} (hI : ∀ r c, I c → I (f r c).2)
    (hf : ∀ r c, Q r → I c → ∀ x, (f r c).1 = .ok x → P x) : ∀ (rs : List Ref) (c : Cache), (∀ r ∈ rs, Q r) → I c → ∀ xs, (readAll f rs c).1 = .ok xs → ∀ x ∈ xs, P x
  | [], _, _, _, xs, e => by cases e; intro x hx; cases hx
  | r :: rs, c, hq, hc, xs, e => by
    unfold readAll at e
    have h1 := hf r c (hq r (List.mem_cons_self ..)) hc
    have h2 := hI r c hc
    revert e h1 h2
    rcases f r c with ⟨y | y, c1⟩
    · intro e _ _; cases e
    · intro e h1 h2
      dsimp only at e
      have h3 := readAll_each hI hf rs c1 (fun r hr => hq r (List.mem_cons_of_mem _ hr)) h2
      revert e h3
      rcases readAll f rs c1 with ⟨z | z, c2⟩
      · intro e _; cases e
      · intro e h3
        cases e
        intro x hx
        rcases List.mem_cons.1 hx with rfl | hx
        · exact h1 _ rfl
        · exact h3 z rfl x hx

theorem leaf_dict {t : Ty} {s : Str} (cm : Option (Option Str)) (hs : t.pretty = some s) (k v : Option Str) :
    (Raw.leaf t cm k (some v)).dict = .dict (begun s cm ++ ((match k with | none => [] | some k => [(chars!"key", .text k)]) ++ [(chars!"value", orNone v)])) := by
  unfold Raw.dict
  rw [begun_eq cm hs, ← orNone_eq, List.append_assoc]

theorem node_dict {t : Ty} {s : Str} (cm : Option (Option Str)) (hs : t.pretty = some s) (k : Option Str) (xs : List Raw) :
    (Raw.node t cm k xs).dict = .dict (begun s cm ++ ((match k with | none => [] | some k => [(chars!"key", .text k)]) ++ [(childrenKey t, .list (dicts xs))])) := by
  unfold Raw.dict
  rw [begun_eq cm hs, List.append_assoc]

theorem elem_key {i : Nat} (ht : (h.at i).type ≠ .document) : h.key? (.elem i) = some (h.at i).key := by
  simp only [Heap.key?]; rw [if_neg ht]

theorem readRaw_shape (F : Formed h) (hv : ∀ r, ∃ v, computeValue input h r = .ok v) : ∀ (n : Nat) (r : Ref) (c : Cache), OfDocument h r → Honest input h c → ∀ x, (readRaw input h n r c).1 = .ok x →
    ShapeOf r x.dict
  | 0, _, _, _, _, x, e => by cases e
  | n + 1, r, c, hr, hc, x, e => by
    have ih := readRaw_shape F hv n
    have key : Honest input h (readCommentKey h r c).2 ∧ ∀ cm, (readCommentKey h r c).1 = .ok cm → (h.comments r = none → cm = none) := by
      unfold readCommentKey
      split
      · rename_i hs
        have := readComment_fresh (r := r) hc
        refine ⟨?_, fun cm _ hn => by rw [hn] at hs; cases hs⟩
        split <;> rename_i e <;> rw [e] at this <;> exact this
      · exact ⟨hc, fun cm e _ => by cases e; rfl⟩
    unfold readRaw at e
    revert e key
    rcases readCommentKey h r c with ⟨y | cm, c1⟩
    · intro _ e; cases e
    · intro key e
      obtain ⟨f, hcm⟩ := key
      replace hcm := hcm cm rfl
      dsimp only at e f
      have kids : ∀ (P : Py → Prop) (Q : Ref → Prop) (rs : List Ref) (c : Cache), (∀ r, Q r → OfDocument h r) → (∀ r y, Q r → ShapeOf r y → P y) → (∀ r ∈ rs, Q r) → Honest input h c →
          (match readAll (readRaw input h n) rs c with
          | (.error e, c) => ((.error e : Except PyExc Raw), c)
          | (.ok l, c) => (.ok (.node (h.type r) cm (h.key? r) l), c)).1 = .ok x →
          ∃ xs, (∀ y ∈ dicts xs, P y) ∧ x = .node (h.type r) cm (h.key? r) xs := by
        intro P Q rs c hk hp hq hc e
        have := readAll_each (f := readRaw input h n) (P := fun x => P x.dict) (Q := Q) (I := Honest input h) (fun r c f => readRaw_fresh hv n (r := r) f)
          (fun r c hr hc x e => hp r _ hr (ih r c (hk r hr) hc x e)) rs c hq hc
        revert e this
        rcases readAll (readRaw input h n) rs c with ⟨z | z, c2⟩
        · intro e _; cases e
        · intro e k
          cases e
          refine ⟨z, fun y hy => ?_, rfl⟩
          obtain ⟨w, hw, rfl⟩ := mem_dicts hy
          exact k z rfl w hw
      have val : ∀ {ty : Ty}, (match readValue input h n r c1 with
          | (.error e, c) => ((.error e : Except PyExc Raw), c)
          | (.ok v, c) => (.ok (.leaf ty cm (h.key? r) (some v)), c)).1 = .ok x → ∃ v, x = .leaf ty cm (h.key? r) (some v) := by
        intro ty e
        revert e
        rcases readValue input h n r c1 with ⟨z | z, c2⟩
        · intro e; cases e
        · intro e; cases e; exact ⟨z, rfl⟩
      cases r with
      | item i k =>
        obtain ⟨v, rfl⟩ := val e
        obtain ⟨y, hy⟩ := Option.isSome_iff_exists.1 hr
        rw [leaf_dict (s := chars!"list_item") cm rfl]
        have : h.key? (.item i k) = none := by simp only [Heap.key?, hy, Option.bind_some]; exact F.items i k y hy
        rw [this]
        exact .mk cm v
      | entry i k =>
        obtain ⟨v, rfl⟩ := val e
        obtain ⟨y, hy⟩ := Option.isSome_iff_exists.1 hr
        obtain ⟨q, hq⟩ := Option.isSome_iff_exists.1 (F.entries i k y hy)
        rw [leaf_dict (s := chars!"fieldset_entry") cm rfl]
        have : h.key? (.entry i k) = some q := by simp only [Heap.key?, hy, Option.bind_some]; exact hq
        rw [this]
        exact .mk cm q v
      | elem i =>
        dsimp only at e
        have isElem : ∀ r, (∃ j, r = Ref.elem j ∧ 0 < j ∧ j < h.length) → OfDocument h r := by rintro r ⟨j, rfl, _, hj⟩; exact hj
        have sec : (match readElements h n i c1 with
            | (.error e, c) => ((.error e : Except PyExc Raw), c)
            | (.ok none, c) => (.error .typeError, c)
            | (.ok (some xs), c) => (match readAll (readRaw input h n) (xs.map .elem) c with
              | (.error e, c) => ((.error e : Except PyExc Raw), c)
              | (.ok l, c) => (.ok (.node (h.type (.elem i)) cm (h.key? (.elem i)) l), c))).1 = .ok x →
            ∃ xs, (∀ y ∈ dicts xs, ElementShape y) ∧ x = .node (h.type (.elem i)) cm (h.key? (.elem i)) xs := by
          intro e
          have g := readElements_filed n (i := i) f.filed
          have g' := readElements_fresh n (i := i) f
          revert e g g'
          rcases readElements h n i c1 with ⟨z | _ | z, c2⟩
          · intro e _ _; cases e
          · intro e _ _; cases e
          · intro e g g'
            refine kids ElementShape (fun r => ∃ j, r = Ref.elem j ∧ 0 < j ∧ j < h.length) _ _ isElem ?_ ?_ g' e
            · rintro r y ⟨j, rfl, hj, _⟩ hy
              obtain ⟨j, rfl⟩ : ∃ m, j = m + 1 := ⟨j - 1, by omega⟩
              exact hy
            · intro r hr
              obtain ⟨j, hj, rfl⟩ := List.mem_map.1 hr
              obtain ⟨s, hs⟩ := g.2 z rfl j hj
              exact ⟨j, rfl, F.kids s j hs⟩
        have hty : Heap.type h (.elem i) = (h.at i).type := rfl
        rcases Nat.eq_zero_or_pos i with rfl | h0
        · rw [F.doc] at e
          obtain ⟨xs, h1, rfl⟩ := sec e
          rw [hty, F.doc, node_dict (s := chars!"document") cm rfl, hcm (by simp only [Heap.comments]; exact F.docComments)]
          have : h.key? (.elem 0) = none := by simp only [Heap.key?]; rw [if_pos F.doc]
          rw [this]
          exact .mk _ h1
        · have ht := F.types i h0 hr
          have hk := elem_key (h := h) (i := i) (by intro q; rw [q] at ht; simp at ht)
          obtain ⟨i, rfl⟩ : ∃ m, i = m + 1 := ⟨i - 1, by omega⟩
          rw [hty, hk] at sec kids
          rw [hk] at val
          simp only [List.mem_cons, List.not_mem_nil, or_false] at ht
          rcases ht with ht | ht | ht | ht | ht | ht
          · rw [ht] at e sec
            rw [hk, hty, ht] at e
            obtain ⟨xs, h1, rfl⟩ := sec e
            rw [node_dict (s := chars!"section") cm rfl]
            exact .section cm _ _ h1
          · rw [ht] at e
            rw [hk] at e
            obtain ⟨v, rfl⟩ := val e
            rw [leaf_dict (s := chars!"field") cm rfl]
            exact .field cm _ v
          · rw [ht] at e
            rw [hk] at e
            cases e
            unfold Raw.dict
            rw [begun_eq (s := chars!"empty_element") cm rfl, List.append_nil]
            exact .empty cm _
          · rw [ht] at e kids
            rw [hk, hty, ht] at e
            dsimp only at e
            have g := readItems_filed n (i := i + 1) f.filed
            have g' := readItems_fresh n (i := i + 1) f
            revert e g g'
            rcases readItems h n (i + 1) c1 with ⟨z | z, c2⟩
            · intro e _ _; cases e
            · intro e g g'
              obtain ⟨xs, h1, rfl⟩ := kids ItemShape (ItemRef h) _ _ (by rintro r ⟨j, k, y, rfl, hy⟩; simp only [OfDocument, hy, Option.isSome_some]) (by rintro r y ⟨j, k, _, rfl, _⟩ hy; exact hy) (g.2 z rfl) g' e
              rw [node_dict (s := chars!"list") cm rfl]
              exact .list cm _ _ h1
          · rw [ht] at e kids
            rw [hk, hty, ht] at e
            dsimp only at e
            have g := readEntries_filed n (i := i + 1) f.filed
            have g' := readEntries_fresh n (i := i + 1) f
            revert e g g'
            rcases readEntries h n (i + 1) c1 with ⟨z | z, c2⟩
            · intro e _ _; cases e
            · intro e g g'
              obtain ⟨xs, h1, rfl⟩ := kids EntryShape (EntryRef h) _ _ (by rintro r ⟨j, k, y, rfl, hy⟩; simp only [OfDocument, hy, Option.isSome_some]) (by rintro r y ⟨j, k, _, rfl, _⟩ hy; exact hy) (g.2 z rfl) g' e
              rw [node_dict (s := chars!"fieldset") cm rfl]
              exact .fieldset cm _ _ h1
          · rw [ht] at e
            rw [hk] at e
            obtain ⟨v, rfl⟩ := val e
            rw [leaf_dict (s := chars!"field") cm rfl]
            exact .field cm _ v

theorem formed_load {ctx : Ctx} (hl : load input = .ok ctx) : Formed ctx.heap := by
  obtain ⟨C, _, S⟩ := loaded_all hl
  obtain ⟨ctx0, ha, _⟩ := load_ok_analyze hl
  have L := loaded ha hl
  have g := C.grown
  have ok := L.non.ok
  have V := El.envOk_load (E := ⟨{}, ctx, 0⟩) hl
  refine ⟨g.doc, ?_, S.types, fun s j hj => ?_, fun i k x hx => ?_, V.keys⟩
  · have docc : (ctx0.heap.at 0).copy = none := by
      cases hq : (ctx0.heap.at 0).copy with
      | none => rfl
      | some k =>
        have oe := ok.elem 0 ok.pos
        have := oe.template (by rw [← oe.copy, hq]; rfl)
        rw [ok.doc.1] at this; simp at this
    have sh : Shielded ctx0.heap 0 := by
      intro a ha
      cases ha with
      | parent h1 => rw [ok.doc.2.1] at h1; cases h1
      | step h1 _ => rw [ok.doc.2.1] at h1; cases h1
    rw [(L.sec.plain 0 ok.pos (.inr rfl) docc sh).2.2]
    exact ok.doc.2.2
  · have := g.down s j hj
    exact ⟨by omega, this.2⟩
  · obtain ⟨h0, ok, Sh⟩ := C.toReportable.heap
    simp only [Heap.sub?] at hx
    have e : (ctx.heap.at i).items = (h0.at i).items := (still_elements (Sh.own i)).2.1
    rw [e] at hx
    cases hq : (h0.at i).items with
    | none => rw [hq] at hx; simp at hx
    | some xs =>
      rw [hq] at hx
      have hi : i < h0.length := by
        apply Classical.byContradiction
        intro hn
        have : (h0.at i).items = none := by simp [Heap.at, List.getElem?_eq_none (Nat.le_of_not_lt hn)]; rfl
        rw [this] at hq; cases hq
      have := (((ok.elem i hi).items xs hq).2.2 x (List.mem_of_getElem? hx)).key
      cases hk : x.key with
      | none => rfl
      | some s => rw [hk] at this; cases this

end Eno
