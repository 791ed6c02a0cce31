import Verif.Proofs.LookupRange

/-! # Lookup behind the first line of the last item or entry -/

namespace Eno

open Spec

namespace Spec

/-- The instruction `b` is a continuation of the last item of the list `i` or of the last entry of the fieldset `i`; what `FurtherLine` leaves out. -/
inductive LastContinued (h : Heap) (i : Nat) : Base → Prop where
  | item {xs x cs c} : i < h.length → (h.at i).items = some xs → xs.getLast? = some x → x.continuations = some cs → c ∈ cs → LastContinued h i c.toBase
  | entry {xs x cs c} : i < h.length → (h.at i).entries = some xs → xs.getLast? = some x → x.continuations = some cs → c ∈ cs → LastContinued h i c.toBase

end Spec

variable {m : Extent} {h : Heap} {n e i : Nat} {b : Base} {ml : Ref → Elem → Nat → Except PyExc (Option Hit)}

/-- The instructions that an element is written with, without comments and without the continuations of items and entries. -/
def Elem.heads (e : Elem) : List Base :=
  e.toBase :: (e.continuations.getD []).map Cont.toBase ++ e.lines.getD [] ++ e.fin.toList ++ (e.items.getD []).map Sub.toBase ++
    (e.entries.getD []).map Sub.toBase

theorem heads_head (e : Elem) : e.toBase ∈ e.heads := by simp [Elem.heads]

theorem lookup_past (T : Tree h) (O : Ordered m h) (K : Kinds h) (M : MlOk m ml h) (L : LastAt m h n e) (he : 0 < e) (hs : (h.at e).type ≠ .section)
    (hb : ∀ b ∈ (h.at e).heads, (m b).2 < n) : ∃ p, (h.at e).parent = some p ∧ gCheck m ml h n (h.length + 1) 0 = .ok ⟨.elem p, none⟩ := by
  rw [gCheck_root T O L]
  obtain ⟨p, hp, eq⟩ := gAt_body (m := m) (ml := ml) (n := n) T he L.lt
  refine ⟨p, hp, ?_⟩
  have h0 := O.le e he L.lt _ (rows_head _)
  have h1 := hb _ (heads_head _)
  rw [eq]
  unfold gBody
  rw [if_neg (by omega)]
  cases hty : (h.at e).type <;> simp only
  case field =>
    rw [gField_beyond h1 (fun c hc => hb _ (by simp [Elem.heads]; exact .inr (.inl ⟨c, hc, rfl⟩))) (fun q => (K.conts e [] L.lt q).2 rfl) h0]; rfl
  case fieldset =>
    rw [gWhole_beyond h0 h1 (fun xs hx => (K.entries e xs L.lt hx).2.1) (fun x hx => hb _ (by
      simp only [Elem.heads, List.mem_append, List.mem_map]; exact .inr ⟨x, hx, rfl⟩))]; rfl
  case list =>
    rw [gWhole_beyond h0 h1 (fun xs hx => (K.items e xs L.lt hx).2.1) (fun x hx => hb _ (by
      simp only [Elem.heads, List.mem_append, List.mem_map]; exact .inl (.inr ⟨x, hx, rfl⟩)))]; rfl
  case mlBegin =>
    obtain ⟨ht, f, hf, hM⟩ := M e L.lt hty
    rw [if_pos ht, (hM n h1).1 (hb f (by simp [Elem.heads, hf]))]; rfl
  case «section» => exact absurd hty hs

/-- The first lines of items are before the continuations of the last one. -/
theorem heads_before (xs : List Sub) {x : Sub} {c : Cont} (O : SubsOrdered m xs) (hx : xs.getLast? = some x) (hc : c ∈ x.continuations.getD []) {y : Sub} (hy : y ∈ xs) :
    (m y.toBase).2 < (m c.toBase).1 := by
  induction xs with
  | nil => cases hy
  | cons z zs ih =>
    cases zs with
    | nil =>
      obtain rfl : z = x := by simpa using hx
      obtain rfl : y = z := by simpa using hy
      have hp := O.order
      rw [List.flatMap_cons] at hp
      have hp := (List.pairwise_append.1 hp).1
      rw [Sub.rows, List.pairwise_cons] at hp
      exact hp.1 _ (List.mem_map_of_mem hc)
    | cons z' zs =>
      rw [List.getLast?_cons_cons] at hx
      rcases List.mem_cons.1 hy with rfl | hy
      · exact O.before (List.mem_of_getLast? hx) (sub_head _) (sub_cont hc)
      · exact ih O.tail hx hy

/-- Lookup on a continuation of the last item or entry. -/
theorem lookup_last (T : Tree h) (O : Ordered m h) (K : Kinds h) (M : MlOk m ml h) (hd : (h.at 0).type = .document) (hf : LastContinued h i b) (hn : On m b n) :
    0 < i ∧ i < h.length ∧ b ∈ (h.at i).rows ∧ ∃ p, (h.at i).parent = some p ∧ gCheck m ml h n (h.length + 1) 0 = .ok ⟨.elem p, none⟩ := by
  cases hf with
  | @item xs x cs c hl hx hk hcs hc =>
    obtain ⟨hty, _, _⟩ := K.items i xs hl hx
    have hi := owner_pos hl (by rw [hty]; decide) hd
    have hc' : c ∈ x.continuations.getD [] := by rw [hcs]; exact hc
    have hmem : c.toBase ∈ (h.at i).rows := by
      simp only [Elem.rows, List.mem_append, List.mem_flatMap, hx]
      exact .inl (.inr ⟨x, List.mem_of_getLast? hk, sub_cont hc'⟩)
    obtain ⟨so, hb⟩ := O.items K hi hl hx
    refine ⟨hi, hl, hmem, lookup_past T O K M (last_of_row O hi hl hmem hn) hi (by rw [hty]; decide) fun a ha => ?_⟩
    have h1 : (h.at i).continuations = none := by
      cases q : (h.at i).continuations with
      | none => rfl
      | some cs => rw [(K.conts i cs hl q).1] at hty; cases hty
    have h2 : (h.at i).entries = none := by
      cases q : (h.at i).entries with
      | none => rfl
      | some cs => rw [(K.entries i cs hl q).1] at hty; cases hty
    have h3 : (h.at i).lines = none ∧ (h.at i).fin = none := by
      constructor
      · cases q : (h.at i).lines with
        | none => rfl
        | some cs => rw [K.lines i hl (.inl (by rw [q]; simp))] at hty; cases hty
      · cases q : (h.at i).fin with
        | none => rfl
        | some cs => rw [K.lines i hl (.inr (by rw [q]; simp))] at hty; cases hty
    have hn1 := hn.1
    simp only [Elem.heads, h1, h2, h3.1, h3.2, hx, Option.getD_some, Option.getD_none, List.map_nil, Option.toList_none, List.append_nil, List.mem_append,
      List.mem_cons, List.not_mem_nil, or_false, List.mem_map] at ha
    rcases ha with rfl | ⟨y, hy, rfl⟩
    · have := hb x (List.mem_of_getLast? hk) _ (sub_cont hc'); omega
    · have := heads_before xs so hk hc' hy; omega
  | @entry xs x cs c hl hx hk hcs hc =>
    obtain ⟨hty, _, _⟩ := K.entries i xs hl hx
    have hi := owner_pos hl (by rw [hty]; decide) hd
    have hc' : c ∈ x.continuations.getD [] := by rw [hcs]; exact hc
    have hmem : c.toBase ∈ (h.at i).rows := by
      simp only [Elem.rows, List.mem_append, List.mem_flatMap, hx]
      exact .inr ⟨x, List.mem_of_getLast? hk, sub_cont hc'⟩
    obtain ⟨so, hb⟩ := O.entries K hi hl hx
    refine ⟨hi, hl, hmem, lookup_past T O K M (last_of_row O hi hl hmem hn) hi (by rw [hty]; decide) fun a ha => ?_⟩
    have h1 : (h.at i).continuations = none := by
      cases q : (h.at i).continuations with
      | none => rfl
      | some cs => rw [(K.conts i cs hl q).1] at hty; cases hty
    have h2 : (h.at i).items = none := by
      cases q : (h.at i).items with
      | none => rfl
      | some cs => rw [(K.items i cs hl q).1] at hty; cases hty
    have h3 : (h.at i).lines = none ∧ (h.at i).fin = none := by
      constructor
      · cases q : (h.at i).lines with
        | none => rfl
        | some cs => rw [K.lines i hl (.inl (by rw [q]; simp))] at hty; cases hty
      · cases q : (h.at i).fin with
        | none => rfl
        | some cs => rw [K.lines i hl (.inr (by rw [q]; simp))] at hty; cases hty
    have hn1 := hn.1
    simp only [Elem.heads, h1, h2, h3.1, h3.2, hx, Option.getD_some, Option.getD_none, List.map_nil, Option.toList_none, List.append_nil, List.mem_append,
      List.mem_cons, List.not_mem_nil, or_false, List.mem_map] at ha
    rcases ha with rfl | ⟨y, hy, rfl⟩
    · have := hb x (List.mem_of_getLast? hk) _ (sub_cont hc'); omega
    · have := heads_before xs so hk hc' hy; omega

end Eno
