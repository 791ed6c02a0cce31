import Verif.Proofs.AnalyzerInv

/-! # The invariant is preserved by every event -/

namespace Eno

open Spec

variable {h h' : Heap} {s s' : AS} {i j n p : Nat} {e : Elem} {f : Elem → Elem}

/-- What is known about the operators of an event. -/
def Spec.Event.Shaped : Event → Prop
  | .line _ _ t => ShapeOk t.body ∧ oneLine t
  | .multi .. => True

theorem inv_init : Inv AS.init := by
  have hat : ∀ i, AS.init.heap.at i = Elem.document := by
    intro i
    cases i with
    | zero => rfl
    | succ i => exact Heap.at_ge (by simp [AS.init])
  have hl : AS.init.heap.length = 1 := rfl
  refine ⟨⟨by simp [hl], ⟨by rw [hat]; rfl, by rw [hat]; rfl, by rw [hat]; rfl⟩, ?_, ?_, ?_⟩, ⟨?_, ?_, ?_, ?_, ?_⟩,
    ⟨by decide, Or.inl (by rw [hat]; rfl), ?_, rfl, rfl, ?_, ?_, ?_, ?_⟩, by simp [AS.init]⟩
  · intro i h1 h2; rw [hl] at h2; omega
  · intro p hp; rw [hl] at hp; have : p = 0 := by omega
    subst this; rfl
  · intro i _; rw [hat]; exact elemOk_document
  · intro n h; simp [AS.init] at h
  · intro _; rw [hat]; simp [Elem.document]
  · intro n h; simp [AS.init] at h
  · intro n h; simp [AS.init] at h
  · intro _; rw [hat]; simp [Elem.document]
  · intro j _ _; rw [hat]; simp [Elem.document]
  · intro i p _ h; rw [hat] at h; simp [Elem.document] at h
  · intro i p j _ h; rw [hat] at h; simp [Elem.document] at h
  · intro i p j _ _ h; rw [hat] at h; simp [Elem.document] at h
  · intro k a _ j _ _ h; rw [hat] at h; simp [Elem.document] at h

/-! ## New elements -/

/-- Appending a non-section element keeps the heap and the sections in order. -/
theorem Inv.appendElem (inv : Inv s) (he : e.parent = some s.lastSection) (hel : e.elements = []) (ht : ¬ e.isContainer) (heo : ElemOk e) :
    HeapOk (s.append s.lastSection e) :=
  inv.heap.append inv.sec.lt inv.sec.con he hel (fun h => ht (Or.inl h)) heo

theorem inv_stepElement (inv : Inv s) (line index fin : Nat) (k : KeyTok) (op : Cap) (v : Option Cap) :
    Inv (stepElement s line index fin k op v) := by
  unfold stepElement
  simp only
  have hT : ∀ {a : Ty}, (if v.isSome = true then Ty.field else Ty.empty) = a → a = .field ∨ a = .empty := by
    intro a h; split at h <;> simp [← h]
  refine ⟨?_, ⟨?_, ?_, ?_, ?_, ?_⟩, ?_, by simp⟩
  · refine inv.appendElem rfl rfl ?_ ?_
    · intro hc; rcases hc with hc | hc <;> (have := hT hc; simp at this)
    · cases v with
      | none => exact ⟨by simp, by simp, by simp, by simp, by simp, by simp, by simp, by simp, by simp, by simp, inv.comments, by simp, rfl, by simp, rfl, rfl, by cases k <;> rfl⟩
      | some v => exact ⟨by simp, by simp, by simp, by simp, by simp, by simp, by simp, by simp, by simp, by simp, inv.comments, by simp, rfl, by simp, rfl, rfl, by cases k <;> rfl⟩
  · intro n hn
    simp at hn; subst hn
    refine ⟨by rw [append_length], ?_⟩
    rw [at_AS_append_last]; cases v <;> simp
  · intro h; simp at h
  · intro i hi
    simp at hi; subst hi
    refine ⟨by rw [append_length], ?_⟩
    rw [at_AS_append_last]; cases v <;> simp
  · intro i hi; simp at hi
  · intro h; simp at h
  · exact inv.sec.append inv.heap (by rfl) (by intro hc; have := hT hc; simp at this) rfl rfl rfl

theorem inv_stepCopy (inv : Inv s) (line index fin : Nat) (k : KeyTok) (op t : Cap) :
    Inv (stepCopy s line index fin k op t) := by
  unfold stepCopy
  simp only
  refine ⟨?_, ⟨?_, ?_, ?_, ?_, ?_⟩, ?_, by simp⟩
  · refine inv.appendElem rfl rfl (by simp [Elem.isContainer]) ?_
    exact ⟨by simp, by simp, by simp, by simp, by simp, by simp, by simp, by simp, by simp, by simp, inv.comments, by simp, rfl, by simp, rfl, rfl, by first | rfl | (cases k <;> rfl)⟩
  · intro n hn
    simp at hn; subst hn
    refine ⟨by rw [append_length], ?_⟩
    rw [at_AS_append_last]; simp
  · intro h; simp at h
  · intro i hi; simp at hi
  · intro i hi; simp at hi
  · intro _; right
    rw [append_length, Nat.add_sub_cancel, at_AS_append_last]; simp
  · exact inv.sec.append inv.heap (by rfl) (by simp) rfl rfl rfl

theorem SecOk.modify (ok : HeapOk s.heap) (sec : SecOk s) (hn : n < s.heap.length) (hpar : (f (s.heap.at n)).parent = (s.heap.at n).parent)
    (hb : (f (s.heap.at n)).toBase = (s.heap.at n).toBase)
    (htn : ¬ (s.heap.at n).isContainer) (hto : ¬ (f (s.heap.at n)).isContainer) (hh : s'.heap = s.heap.modify n f)
    (hs : s'.lastSection = s.lastSection) (hd : s'.depth = s.depth) : SecOk s' := by
  refine sec.congr ok (by rw [hh]; simp) hs hd ?_
  intro i
  rw [hh, Heap.at_modify]
  split
  · rename_i hi
    obtain ⟨rfl, _⟩ := hi
    refine ⟨⟨fun h => absurd (Or.inr h) hto, fun h => absurd (Or.inr h) htn⟩, ⟨fun h => absurd h hto, fun h => absurd h htn⟩, hpar, ?_⟩
    unfold Elem.depth; rw [hb]
  · exact ⟨Iff.rfl, Iff.rfl, rfl, rfl⟩

theorem inv_multi (inv : Inv s) (line index fin : Nat) (op key : Cap) (ls : Option (List Base)) (hls : ∀ l, ls = some l → l ≠ [] ∧ ∀ x ∈ l, x.ranges.map Prod.fst = [.line, .value]) (b : Base) :
    Inv (closeMultiline (openMultiline s line index fin op key) ls b) := by
  have hOpen : HeapOk (openMultiline s line index fin op key).heap := by
    refine inv.appendElem rfl rfl (by simp [Elem.isContainer]) ?_
    exact ⟨by simp, by simp, by simp, by simp, by simp, by simp, by simp, by simp, by simp, by simp, inv.comments, by simp, rfl, by simp, rfl, rfl, by first | rfl | (cases k <;> rfl)⟩
  have hSec : SecOk (openMultiline s line index fin op key) :=
    inv.sec.append inv.heap (by rfl) (by simp) rfl rfl rfl
  have hlen : (openMultiline s line index fin op key).heap.length = s.heap.length + 1 := append_length _ _ _
  have hat : (openMultiline s line index fin op key).heap.at s.heap.length = 
    ({ line := line, ranges := [(.line, (index, fin)), (.multilineFieldOperator, op.span), (.key, key.span)]
       comments := s.comments, key := key.text, parent := some s.lastSection, type := .mlBegin } : Elem) := at_AS_append_last _ _ _
  have hidx : (openMultiline s line index fin op key).heap.length - 1 = s.heap.length := by omega
  have hlc : (openMultiline s line index fin op key).lastCont = none := rfl
  have hcm : (openMultiline s line index fin op key).comments = none := rfl
  generalize openMultiline s line index fin op key = o at *
  have hlt : s.heap.length < o.heap.length := by omega
  unfold closeMultiline
  rw [hidx]
  have htm : (Heap.at (o.heap.modify s.heap.length fun e => { e with lines := ls, fin := some b }) s.heap.length).type = .mlBegin := by
    rw [Heap.at_modify_self hlt, hat]
  refine ⟨?_, ⟨?_, ?_, ?_, ?_, ?_⟩, ?_, ?_⟩
  · refine hOpen.modify hlt rfl rfl (by rw [hat]; simp [Elem.isContainer]) (by rw [hat]; simp [Elem.isContainer]) ?_
    rw [hat]
    exact ⟨by simp, by simp, by simp, by simp, by simp, by simp, by simp, by simp, by
      intro l hl; exact ⟨rfl, hls l hl⟩, by simp, inv.comments, by simp, rfl, by simp, rfl, rfl, by first | rfl | (cases k <;> rfl)⟩
  · intro n hn; simp at hn
  · intro _; simp only [List.length_modify, hidx]; rw [htm]; simp
  · intro i hi; simp [hlc] at hi
  · intro i hi; simp [hlc] at hi
  · intro _; simp only [List.length_modify, hidx]; rw [htm]; simp
  · exact hSec.modify hOpen hlt rfl rfl (by rw [hat]; simp [Elem.isContainer]) (by rw [hat]; simp [Elem.isContainer]) rfl rfl rfl
  · simp [hcm]

/-! ## Items, entries and continuations -/

theorem not_container_of_mem {l : List Ty} (he : e.type ∈ l) (h1 : Ty.document ∉ l) (h2 : Ty.section ∉ l) : ¬ e.isContainer := by
  intro hc
  rcases hc with hc | hc
  · rw [hc] at he; exact h1 he
  · rw [hc] at he; exact h2 he

/-- Changing the last element (not a section before or after) in a way that keeps its type right for the cursors. -/
theorem Inv.modifyElem (inv : Inv s) (hn : n + 1 = s.heap.length) (htn : ¬ (s.heap.at n).isContainer)
    (hpar : (f (s.heap.at n)).parent = (s.heap.at n).parent) (hb : (f (s.heap.at n)).toBase = (s.heap.at n).toBase)
    (hel : (f (s.heap.at n)).elements = (s.heap.at n).elements)
    (hto : ¬ (f (s.heap.at n)).isContainer) (heo : ElemOk (f (s.heap.at n))) (hh : s'.heap = s.heap.modify n f)
    (hs : s'.lastSection = s.lastSection) (hd : s'.depth = s.depth) (hc : s'.comments ≠ some [])
    (hcur : CursorOk s') : Inv s' := by
  refine ⟨?_, hcur, ?_, hc⟩
  · rw [hh]; exact inv.heap.modify (by omega) hpar hel htn hto heo
  · exact inv.sec.modify inv.heap (by omega) hpar hb htn hto hh hs hd

theorem CursorOk.ofSub (hl : s.heap.length = n + 1) (ht : (s.heap.at n).type = .list ∨ (s.heap.at n).type = .fieldset)
    (hn : s.lastNonSection = some n) (hc : s.lastCont = some (.sub n)) : CursorOk s := by
  refine ⟨?_, ?_, ?_, ?_, ?_⟩
  · intro m hm; rw [hn] at hm; injection hm with hm; subst hm
    exact ⟨hl.symm, by rcases ht with h | h <;> simp [h]⟩
  · intro h; rw [hn] at h; cases h
  · intro i hi; rw [hc] at hi; simp at hi
  · intro m hm; rw [hc] at hm; simp at hm; subst hm
    exact ⟨hl.symm, by rcases ht with h | h <;> simp [h]⟩
  · intro h; rw [hc] at h; cases h

theorem inv_stepListItem (inv : Inv s) {line index fin : Nat} {op : Cap} {v : Option Cap}
    (hs : stepListItem s line index fin op v = .ok s') : Inv s' := by
  unfold stepListItem at hs
  simp only at hs
  split at hs
  · simp at hs
  · rename_i n hn
    obtain ⟨hnl, hnt⟩ := inv.cur.non_some n hn
    have hnc := not_container_of_mem hnt (by simp) (by simp)
    have eok := inv.heap.elem n (by omega)
    split at hs
    · rename_i hty
      split at hs
      · simp at hs
      · rename_i items hit
        simp at hs; subst hs
        refine inv.modifyElem hnl hnc ?_ ?_ ?_ ?_ ?_ rfl rfl rfl (by simp) (CursorOk.ofSub (n := n) (by simp; omega) ?_ hn rfl)
        · rfl
        · rfl
        · rfl
        · exact hnc
        · refine ⟨eok.types, ?_, eok.entries, by simp, eok.fieldset, eok.conts, eok.value, eok.field, eok.lines, eok.fin, eok.comments, eok.template, eok.copy, eok.deep, eok.mirror, eok.extend, eok.deepOp⟩
          intro xs hxs; simp at hxs; subst hxs
          obtain ⟨h1, h2, h3⟩ := eok.items items hit
          refine ⟨h1, by simp, ?_⟩
          intro x hx
          simp at hx
          rcases hx with hx | hx
          · exact h3 x hx
          · subst hx; exact ⟨rfl, rfl, inv.comments, by simp⟩
        · left; simp only []; rw [Heap.at_modify_self (by omega)]; exact hty
    · split at hs
      · rename_i hty
        simp at hs; subst hs
        refine inv.modifyElem hnl hnc ?_ ?_ ?_ ?_ ?_ rfl rfl rfl (by simp) (CursorOk.ofSub (n := n) (by simp; omega) ?_ hn rfl)
        · rfl
        · rfl
        · rfl
        · simp [Elem.isContainer]
        · refine ⟨by simp, ?_, ?_, by simp, by simp, ?_, ?_, by simp, ?_, ?_, eok.comments, by simp, eok.copy, ?_, eok.mirror, eok.extend, eok.deepOp⟩
          · intro xs hxs; simp at hxs; subst hxs
            refine ⟨rfl, by simp, ?_⟩
            intro x hx; simp at hx; subst hx
            exact ⟨rfl, rfl, inv.comments, by simp⟩
          · intro xs hxs; have := (eok.entries xs hxs).1; rw [hty] at this; cases this
          · intro xs hxs; have := (eok.conts xs hxs).1; rw [hty] at this; cases this
          · intro hx; have := eok.value hx; rw [hty] at this; cases this
          · intro xs hxs; have := (eok.lines xs hxs).1; rw [hty] at this; cases this
          · intro hx; have := eok.fin hx; rw [hty] at this; cases this
          · intro hx; have := (eok.deep hx).1; rw [hty] at this; cases this
        · left; simp only []; rw [Heap.at_modify_self (by omega)]
      · simp at hs

theorem inv_stepEntry (inv : Inv s) {line index fin : Nat} {k : KeyTok} {op : Cap} {v : Option Cap}
    (hs : stepEntry s line index fin k op v = .ok s') : Inv s' := by
  unfold stepEntry at hs
  simp only at hs
  split at hs
  · simp at hs
  · rename_i n hn
    obtain ⟨hnl, hnt⟩ := inv.cur.non_some n hn
    have hnc := not_container_of_mem hnt (by simp) (by simp)
    have eok := inv.heap.elem n (by omega)
    split at hs
    · rename_i hty
      split at hs
      · simp at hs
      · rename_i items hit
        simp at hs; subst hs
        refine inv.modifyElem hnl hnc ?_ ?_ ?_ ?_ ?_ rfl rfl rfl (by simp) (CursorOk.ofSub (n := n) (by simp; omega) ?_ hn rfl)
        · rfl
        · rfl
        · rfl
        · exact hnc
        · refine ⟨eok.types, eok.items, ?_, eok.list, by simp, eok.conts, eok.value, eok.field, eok.lines, eok.fin, eok.comments, eok.template, eok.copy, eok.deep, eok.mirror, eok.extend, eok.deepOp⟩
          intro xs hxs; simp at hxs; subst hxs
          obtain ⟨h1, h2, h3⟩ := eok.entries items hit
          refine ⟨h1, by simp, ?_⟩
          intro x hx
          simp at hx
          rcases hx with hx | hx
          · exact h3 x hx
          · subst hx; exact ⟨rfl, rfl, inv.comments, by simp⟩
        · right; simp only []; rw [Heap.at_modify_self (by omega)]; exact hty
    · split at hs
      · rename_i hty
        simp at hs; subst hs
        refine inv.modifyElem hnl hnc ?_ ?_ ?_ ?_ ?_ rfl rfl rfl (by simp) (CursorOk.ofSub (n := n) (by simp; omega) ?_ hn rfl)
        · rfl
        · rfl
        · rfl
        · simp [Elem.isContainer]
        · refine ⟨by simp, ?_, ?_, by simp, by simp, ?_, ?_, by simp, ?_, ?_, eok.comments, by simp, eok.copy, ?_, eok.mirror, eok.extend, eok.deepOp⟩
          · intro xs hxs; have := (eok.items xs hxs).1; rw [hty] at this; cases this
          · intro xs hxs; simp at hxs; subst hxs
            refine ⟨rfl, by simp, ?_⟩
            intro x hx; simp at hx; subst hx
            exact ⟨rfl, rfl, inv.comments, by simp⟩
          · intro xs hxs; have := (eok.conts xs hxs).1; rw [hty] at this; cases this
          · intro hx; have := eok.value hx; rw [hty] at this; cases this
          · intro xs hxs; have := (eok.lines xs hxs).1; rw [hty] at this; cases this
          · intro hx; have := eok.fin hx; rw [hty] at this; cases this
          · intro hx; have := (eok.deep hx).1; rw [hty] at this; cases this
        · right; simp only []; rw [Heap.at_modify_self (by omega)]
      · simp at hs

theorem modifyLast_snoc {α} (g : α → α) (xs : List α) (x : α) : modifyLast g (xs ++ [x]) = xs ++ [g x] := by
  induction xs with
  | nil => rfl
  | cons a t ih =>
    cases t with
    | nil => rfl
    | cons b u => simp only [List.cons_append, modifyLast] at ih ⊢; rw [ih]

theorem modifyLast_ok {entry : Bool} {c : Cont} {xs : List Sub} (h : xs ≠ [] ∧ ∀ x ∈ xs, SubOk entry x) :
    modifyLast (Sub.addCont c) xs ≠ [] ∧ ∀ x ∈ modifyLast (Sub.addCont c) xs, SubOk entry x := by
  obtain ⟨hne, hall⟩ := h
  obtain ⟨ys, y, rfl⟩ : ∃ ys y, xs = ys ++ [y] := ⟨xs.dropLast, xs.getLast hne, (List.dropLast_concat_getLast hne).symm⟩
  rw [modifyLast_snoc]
  refine ⟨by simp, ?_⟩
  intro x hx
  simp at hx
  rcases hx with hx | hx
  · exact hall x (by simp [hx])
  · have hy := hall y (by simp)
    subst hx
    exact ⟨hy.isEntry, hy.key, hy.comments, by simp [Sub.addCont]⟩

theorem CursorOk.congr (cur : CursorOk s) (hl : s'.heap.length = s.heap.length) (h1 : s'.lastNonSection = s.lastNonSection)
    (h2 : s'.lastCont = s.lastCont)
    (hf : ∀ i, (s'.heap.at i).template = (s.heap.at i).template ∧ ((s'.heap.at i).type = (s.heap.at i).type ∨
      ((s.heap.at i).type = .empty ∧ (s'.heap.at i).type = .field ∧ (s.heap.at i).template = none))) : CursorOk s' := by
  have mono : ∀ i (l : List Ty), (Ty.empty ∈ l → Ty.field ∈ l) → (s.heap.at i).type ∈ l → (s'.heap.at i).type ∈ l := by
    intro i l hl hi
    rcases (hf i).2 with h | ⟨h, h', _⟩
    · rw [h]; exact hi
    · rw [h']; rw [h] at hi; exact hl hi
  refine ⟨?_, ?_, ?_, ?_, ?_⟩
  · intro n hn; rw [h1] at hn; obtain ⟨a, b⟩ := cur.non_some n hn
    exact ⟨by rw [hl]; exact a, mono _ _ (by simp) b⟩
  · intro hn; rw [h1] at hn; rw [hl]; exact mono _ _ (by simp) (cur.non_none hn)
  · intro n hn; rw [h2] at hn; obtain ⟨a, b, c⟩ := cur.elem n hn
    exact ⟨by rw [hl]; exact a, mono _ _ (by simp) b, by rw [(hf n).1]; exact c⟩
  · intro n hn; rw [h2] at hn; obtain ⟨a, b⟩ := cur.sub n hn
    exact ⟨by rw [hl]; exact a, mono _ _ (by simp) b⟩
  · intro hn; rw [h2] at hn; rw [hl]
    rcases cur.cont_none hn with h | ⟨h, ht⟩
    · left; exact mono _ _ (by simp) h
    · right
      rcases (hf (s.heap.length - 1)).2 with h' | ⟨_, _, h'⟩
      · rw [h', (hf _).1]; exact ⟨h, ht⟩
      · rw [h'] at ht; simp at ht

theorem inv_stepContinuation (inv : Inv s) {line index fin : Nat} {sp : Bool} {op : Cap} {v : Option Cap}
    (hs : stepContinuation s line index fin sp op v = .ok s') : Inv s' := by
  unfold stepContinuation at hs
  simp only at hs
  generalize ({ line := line, ranges := _, spaced := sp, value := _ } : Cont) = c at hs
  split at hs
  · simp at hs
  · rename_i n hn
    obtain ⟨hnl, hnt, htm⟩ := inv.cur.elem n hn
    have hnc := not_container_of_mem hnt (by simp) (by simp)
    have eok := inv.heap.elem n (by omega)
    simp at hs; subst hs
    have hft : (Elem.addCont c (s.heap.at n)).type = .field := by
      unfold Elem.addCont
      simp at hnt
      split
      · rename_i cs hcs
        exact (eok.conts cs hcs).1
      · rcases hnt with h | h <;> simp [h]
    have hfp : (Elem.addCont c (s.heap.at n)).parent = (s.heap.at n).parent := by unfold Elem.addCont; split <;> rfl
    have hfb : (Elem.addCont c (s.heap.at n)).toBase = (s.heap.at n).toBase := by unfold Elem.addCont; split <;> rfl
    have hfe : (Elem.addCont c (s.heap.at n)).elements = (s.heap.at n).elements := by unfold Elem.addCont; split <;> rfl
    have hftm : (Elem.addCont c (s.heap.at n)).template = (s.heap.at n).template := by unfold Elem.addCont; split <;> rfl
    refine inv.modifyElem hnl hnc hfp hfb hfe (not_container_of_mem (l := [.field]) (by rw [hft]; simp) (by simp) (by simp)) ?_ rfl rfl rfl
      (by simp) (inv.cur.congr (by simp) rfl rfl ?_)
    · have hi : ∀ xs, (s.heap.at n).items ≠ some xs := by
        intro xs hx; have := (eok.items xs hx).1; rw [this] at hnt; simp at hnt
      have hen : ∀ xs, (s.heap.at n).entries ≠ some xs := by
        intro xs hx; have := (eok.entries xs hx).1; rw [this] at hnt; simp at hnt
      have hli : ∀ xs, (s.heap.at n).lines ≠ some xs := by
        intro xs hx; have := (eok.lines xs hx).1; rw [this] at hnt; simp at hnt
      have hfi : ¬ (s.heap.at n).fin.isSome := by
        intro hx; have := eok.fin hx; rw [this] at hnt; simp at hnt
      have hdp : ¬ (s.heap.at n).deepCopy = true := by
        intro hx; have := (eok.deep hx).1; rw [this] at hnt; simp at hnt
      have hgi : (Elem.addCont c (s.heap.at n)).items = (s.heap.at n).items := by unfold Elem.addCont; split <;> rfl
      have hge : (Elem.addCont c (s.heap.at n)).entries = (s.heap.at n).entries := by unfold Elem.addCont; split <;> rfl
      have hgl : (Elem.addCont c (s.heap.at n)).lines = (s.heap.at n).lines := by unfold Elem.addCont; split <;> rfl
      have hgf : (Elem.addCont c (s.heap.at n)).fin = (s.heap.at n).fin := by unfold Elem.addCont; split <;> rfl
      have hgd : (Elem.addCont c (s.heap.at n)).deepCopy = (s.heap.at n).deepCopy := by unfold Elem.addCont; split <;> rfl
      have hgb : (Elem.addCont c (s.heap.at n)).toBase = (s.heap.at n).toBase := by unfold Elem.addCont; split <;> rfl
      have hgc : (Elem.addCont c (s.heap.at n)).copy = (s.heap.at n).copy := by unfold Elem.addCont; split <;> rfl
      have hgm : (Elem.addCont c (s.heap.at n)).mirror = (s.heap.at n).mirror := by unfold Elem.addCont; split <;> rfl
      have hgx : (Elem.addCont c (s.heap.at n)).extend = (s.heap.at n).extend := by unfold Elem.addCont; split <;> rfl
      have hgk : (Elem.addCont c (s.heap.at n)).comments = (s.heap.at n).comments := by unfold Elem.addCont; split <;> rfl
      have hgs : ∃ cs, (Elem.addCont c (s.heap.at n)).continuations = some cs ∧ cs ≠ [] := by
        unfold Elem.addCont; split
        · exact ⟨_, rfl, by simp⟩
        · exact ⟨_, rfl, by simp⟩
      obtain ⟨cs, hcs, hcsne⟩ := hgs
      refine ⟨by rw [hft]; simp, ?_, ?_, by rw [hft]; simp, by rw [hft]; simp, ?_, ?_, ?_, ?_, ?_, by rw [hgk]; exact eok.comments, ?_, by rw [hgc, hftm]; exact eok.copy, ?_, by rw [hgm]; exact eok.mirror, by rw [hgx]; exact eok.extend, by rw [hgd, hgb]; exact eok.deepOp⟩
      · intro xs hx; rw [hgi] at hx; exact absurd hx (hi xs)
      · intro xs hx; rw [hge] at hx; exact absurd hx (hen xs)
      · intro xs hx; rw [hcs] at hx; injection hx with hx; subst hx; exact ⟨hft, hcsne⟩
      · intro _; exact hft
      · intro _; right; rw [hcs]; rfl
      · intro xs hx; rw [hgl] at hx; exact absurd hx (hli xs)
      · intro hx; rw [hgf] at hx; exact absurd hx hfi
      · intro hx; rw [hftm, htm] at hx; simp at hx
      · intro hx; rw [hgd] at hx; exact absurd hx hdp
    · intro i
      simp only []
      rw [Heap.at_modify]
      split
      · rename_i hi; obtain ⟨rfl, _⟩ := hi
        refine ⟨hftm, ?_⟩
        simp at hnt
        rcases hnt with h | h
        · left; rw [hft, h]
        · right; exact ⟨h, hft, htm⟩
      · exact ⟨rfl, Or.inl rfl⟩
  · rename_i n hn
    obtain ⟨hnl, hnt⟩ := inv.cur.sub n hn
    have hnc := not_container_of_mem hnt (by simp) (by simp)
    have eok := inv.heap.elem n (by omega)
    simp at hs; subst hs
    refine inv.modifyElem hnl hnc rfl rfl rfl hnc ?_ rfl rfl rfl
      (by simp) (inv.cur.congr (by simp) rfl rfl ?_)
    · refine ⟨eok.types, ?_, ?_, ?_, ?_, eok.conts, eok.value, eok.field, eok.lines, eok.fin, eok.comments, eok.template, eok.copy, eok.deep, eok.mirror, eok.extend, eok.deepOp⟩
      · intro xs hxs
        simp only [Elem.addContLast, Option.map_eq_some_iff] at hxs
        obtain ⟨ys, hys, rfl⟩ := hxs
        obtain ⟨h1, h2⟩ := eok.items ys hys
        exact ⟨h1, modifyLast_ok h2⟩
      · intro xs hxs
        simp only [Elem.addContLast, Option.map_eq_some_iff] at hxs
        obtain ⟨ys, hys, rfl⟩ := hxs
        obtain ⟨h1, h2⟩ := eok.entries ys hys
        exact ⟨h1, modifyLast_ok h2⟩
      · intro h; simp [Elem.addContLast]; exact eok.list h
      · intro h; simp [Elem.addContLast]; exact eok.fieldset h
    · intro i
      simp only []
      rw [Heap.at_modify]
      split
      · rename_i hi; obtain ⟨rfl, _⟩ := hi
        exact ⟨rfl, Or.inl rfl⟩
      · exact ⟨rfl, Or.inl rfl⟩

/-! ## Sections -/

theorem markDeep_total (ok : HeapOk h) : ∀ (fuel : Nat) (h' : Heap) (i : Nat), i < h.length → (h.at i).isContainer → i < fuel →
    (∀ j, (h'.at j).type = (h.at j).type ∧ (h'.at j).parent = (h.at j).parent) → ∃ h'', markDeep fuel h' i = some h'' := by
  intro fuel
  induction fuel with
  | zero => intro h' i _ _ hf; omega
  | succ fuel ih =>
    intro h' i hi hc hf hj
    unfold markDeep
    split
    · exact ⟨_, rfl⟩
    · rename_i hd
      rw [(hj i).1] at hd
      have hi0 : i ≠ 0 := by intro h0; subst h0; exact hd ok.doc.1
      obtain ⟨_, p, hp, hpi, hpc⟩ := ok.par i (by omega) hi
      rw [(hj i).2, hp]
      refine ih _ p (by omega) hpc (by omega) ?_
      intro j
      rw [Heap.at_modify]
      split
      · rename_i h; rw [h.1]; exact hj i
      · exact hj j

theorem markDeep_inv_fields {fuel : Nat} (hm : markDeep fuel h i = some h') :
    h'.length = h.length ∧ ∀ j, (h'.at j).type = (h.at j).type ∧ (h'.at j).parent = (h.at j).parent ∧ (h'.at j).depth = (h.at j).depth ∧
      (h'.at j).template = (h.at j).template ∧ (h'.at j).copy = (h.at j).copy ∧ (h'.at j).key = (h.at j).key := by
  refine ⟨(markDeep_core _ _ _ _ hm).2, ?_⟩
  intro j
  have := markDeep_at _ _ _ _ hm j
  refine ⟨?_, ?_, ?_, ?_, ?_, ?_⟩
  · have := congrArg Elem.type this; exact this
  · have := congrArg Elem.parent this; exact this
  · have := congrArg Elem.toBase this
    unfold Elem.depth
    have e : (h'.at j).toBase = (h.at j).toBase := this
    rw [e]
  · have := congrArg Elem.template this; exact this
  · have := congrArg Elem.copy this; exact this
  · have := congrArg Elem.key this; exact this

theorem deep_heading (line index fin : Nat) (op : Cap) (k : KeyTok) (c : Option (Cap × Cap)) :
    (match c with | some (c, _) => decide (c.e - c.b = 2) | none => false) =
    ((⟨line, [(.line, (index, fin)), (.sectionOperator, op.span)] ++ escapeRanges k ++ [(.key, k.span)] ++ (match c with
      | none => []
      | some (c, t) => [(.template, t.span), (if c.e - c.b = 2 then .deepCopyOperator else .copyOperator, c.span)])⟩ : Base).range? .deepCopyOperator).isSome := by
  cases c with
  | none => cases k <;> rfl
  | some ct =>
    obtain ⟨c, t⟩ := ct
    by_cases h : c.e - c.b = 2
    · simp only [h, decide_true, if_true]; cases k <;> rfl
    · simp only [h, decide_false, if_false]; cases k <;> rfl

/-- Everything about a heading: either it is accepted with the invariant kept, or it skips a level. -/
theorem stepHeading_cases (inv : Inv s) {line index fin : Nat} {op : Cap} {k : KeyTok} {c : Option (Cap × Cap)}
    (hop : op.b < op.e) :
    (op.e - op.b ≤ s.depth + 1 ∧ ∃ s', stepHeading s line index fin op k c = .ok s' ∧ Inv s') ∨
    (s.depth + 1 < op.e - op.b ∧ stepHeading s line index fin op k c = .error (.layerSkip s.lastSection)) := by
  rcases headingParent_eq inv.heap inv.sec (d := op.e - op.b) (by omega) with ⟨hd, p, hp, hanc⟩ | ⟨hd, hp⟩
  · left
    refine ⟨hd, ?_⟩
    unfold stepHeading
    simp only [hp]
    obtain ⟨hpl, hpc⟩ := ancestor_spec inv.heap _ _ p inv.sec.lt inv.sec.con hanc
    have hpd := ancestor_depth inv.heap inv.sec _ _ p inv.sec.lt inv.sec.con hanc
    have hlt := inv.sec.lt
    have hdep := inv.sec.depth
    generalize hE : ({ line := line, ranges := _, comments := s.comments, key := k.text, type := Ty.section, parent := some p, template := _, deepCopy := _, copy := _ } : Elem) = e
    have e1 : e.parent = some p := by rw [← hE]
    have e2 : e.elements = [] := by rw [← hE]
    have e3 : e.type = .section := by rw [← hE]
    have e4 : e.depth = op.e - op.b := by
      rw [← hE]; rfl
    have e5 : ElemOk e := by
      rw [← hE]
      refine ⟨by simp, by simp, by simp, by simp, by simp, by simp, by simp, by simp, by simp, by simp, inv.comments, by simp, rfl, ?_, rfl, rfl, deep_heading line index fin op k c⟩
      intro h
      cases c with
      | none => simp at h
      | some c => exact ⟨rfl, rfl⟩
    have hOk : HeapOk (s.append p e) := inv.heap.append (by omega) hpc e1 e2 (by rw [e3]; simp) e5
    have hSec : SecOk { s with heap := s.append p e, comments := none, depth := op.e - op.b, lastSection := s.heap.length, lastCont := none, lastNonSection := none } :=
      inv.sec.appendSection inv.heap hanc e1 e3 (by rw [e4]; omega) rfl rfl (by rw [e4])
    have hCur : CursorOk { s with heap := s.append p e, comments := none, depth := op.e - op.b, lastSection := s.heap.length, lastCont := none, lastNonSection := none } := by
      refine ⟨by simp, ?_, by simp, by simp, ?_⟩
      · intro _; simp only [append_length, Nat.add_sub_cancel, at_AS_append_last, e3]; simp
      · intro _; simp only [append_length, Nat.add_sub_cancel, at_AS_append_last, e3]; simp
    cases c with
    | none => exact ⟨_, rfl, hOk, hCur, hSec, by simp⟩
    | some ct =>
      obtain ⟨c, t⟩ := ct
      simp only
      have hpl' : p < s.heap.length := by omega
      obtain ⟨h'', hm⟩ := markDeep_total hOk ((s.append p e).length + 1) (s.append p e) p
        (by rw [append_length]; omega)
        (by rw [Elem.not_container_of_type (append_at_fields s p e hpl').1]; exact hpc)
        (by rw [append_length]; omega) (fun _ => ⟨rfl, rfl⟩)
      rw [hm]
      obtain ⟨hml, hmf⟩ := markDeep_inv_fields hm
      refine ⟨_, rfl, ?_, ?_, ?_, by simp⟩
      · exact hOk.deep hml (markDeep_at _ _ _ _ hm)
      · exact hCur.congr hml rfl rfl (fun i => ⟨(hmf i).2.2.2.1, Or.inl (hmf i).1⟩)
      · exact hSec.congr hOk hml rfl rfl (fun i => ⟨by rw [(hmf i).1], Elem.not_container_of_type (hmf i).1, (hmf i).2.1, (hmf i).2.2.1⟩)
  · right
    refine ⟨hd, ?_⟩
    unfold stepHeading
    simp only [hp]

/-! ## All events -/

theorem bodyLines_ok (b : List (Nat × Nat × Nat)) : ∀ l, bodyLines b = some l → l ≠ [] ∧ ∀ x ∈ l, x.ranges.map Prod.fst = [.line, .value] := by
  intro l hl
  unfold bodyLines at hl
  split at hl
  · simp at hl
  · rename_i h
    simp only [Option.some.injEq] at hl; subst hl
    refine ⟨by simpa using h, ?_⟩
    intro x hx
    simp only [List.mem_map] at hx
    obtain ⟨a, _, rfl⟩ := hx
    rfl

theorem inv_applyEvent {ev : Event} (inv : Inv s) (hev : ev.Shaped) (h : applyEvent s ev = .ok s') : Inv s' := by
  cases ev with
  | multi n b fin op key body T => 
    simp only [applyEvent] at h; injection h with h; subst h
    exact inv_multi inv _ _ _ _ _ _ (bodyLines_ok _) _
  | line n b t =>
    obtain ⟨hs, ho⟩ := hev
    simp only [applyEvent] at h
    unfold step at h
    cases hb : t.body with
    | empty =>
      rw [hb] at h; simp at h; subst h
      exact ⟨inv.heap, inv.cur.congr rfl rfl rfl (fun i => ⟨rfl, Or.inl rfl⟩), inv.sec.congr inv.heap rfl rfl rfl (fun i => ⟨Iff.rfl, Iff.rfl, rfl, rfl⟩), by simp⟩
    | element k op v => rw [hb] at h; simp at h; subst h; exact inv_stepElement inv _ _ _ _ _ _
    | listItem op v => rw [hb] at h; exact inv_stepListItem inv h
    | entry k op v => rw [hb] at h; exact inv_stepEntry inv h
    | continuation sp op v => rw [hb] at h; exact inv_stepContinuation inv h
    | heading op k c =>
      rw [hb] at h hs
      obtain ⟨h1, h2, _⟩ := hs
      rcases stepHeading_cases (line := n) (index := b) (fin := t.fin) (k := k) (c := c) inv (by omega : op.b < op.e) with ⟨_, s'', h', i⟩ | ⟨_, h'⟩
      · simp only [h'] at h; injection h with h; subst h; exact i
      · simp [h'] at h
    | multiline op key => exact absurd hb (ho op key)
    | comment op v =>
      rw [hb] at h; simp at h; subst h
      exact ⟨inv.heap, inv.cur.congr rfl rfl rfl (fun i => ⟨rfl, Or.inl rfl⟩), inv.sec.congr inv.heap rfl rfl rfl (fun i => ⟨Iff.rfl, Iff.rfl, rfl, rfl⟩), by simp [stepComment]⟩
    | copy k op tm => rw [hb] at h; simp at h; subst h; exact inv_stepCopy inv _ _ _ _ _ _

theorem inv_runEvents {es : List Event} : ∀ {s s' : AS}, Inv s → (∀ ev ∈ es, ev.Shaped) → runEvents s es = .ok s' → Inv s' := by
  induction es with
  | nil => intro s s' inv _ h; simp [runEvents] at h; subst h; exact inv
  | cons e es ih =>
    intro s s' inv hev h
    unfold runEvents at h
    split at h
    · rename_i s1 h1
      exact ih (inv_applyEvent inv (hev e (by simp)) h1) (fun x hx => hev x (by simp [hx])) h
    · simp at h

theorem trace_shaped {input : Str} {i n : Nat} {es : List Event} {r : Ending} (h : Trace input i n es r) : ∀ ev ∈ es, ev.Shaped := by
  induction h with
  | done => simp
  | bad => simp
  | line hi hs ho _ ih =>
    intro ev hev; simp at hev
    rcases hev with rfl | hev
    · exact ⟨scan_shape hs, ho⟩
    · exact ih ev hev
  | multi hi hs ht _ ih =>
    intro ev hev; simp at hev
    rcases hev with rfl | hev
    · trivial
    · exact ih ev hev
  | unterminated => simp

/-- Lines are only rejected for the documented reasons. -/
theorem applyEvent_error {ev : Event} (inv : Inv s) (hev : ev.Shaped) {f : LineFail} (h : applyEvent s ev = .error f) :
    f ≠ .keyError ∧ f ≠ .outOfFuel := by
  cases ev with
  | multi n b fin op key body T => simp [applyEvent] at h
  | line n b t =>
    obtain ⟨hs, ho⟩ := hev
    simp only [applyEvent] at h
    unfold step at h
    cases hb : t.body with
    | empty => rw [hb] at h; simp at h
    | element k op v => rw [hb] at h; simp at h
    | listItem op v =>
      rw [hb] at h; simp only at h
      unfold stepListItem at h
      simp only at h
      split at h
      · simp at h; subst h; simp
      · rename_i m hm
        obtain ⟨hl, _⟩ := inv.cur.non_some m hm
        have eok := inv.heap.elem m (by omega)
        split at h
        · rename_i hty
          have := eok.list hty
          split at h
          · rename_i hn; rw [hn] at this; simp at this
          · simp at h
        · split at h
          · simp at h
          · simp at h; subst h; simp
    | entry k op v =>
      rw [hb] at h; simp only at h
      unfold stepEntry at h
      simp only at h
      split at h
      · simp at h; subst h; simp
      · rename_i m hm
        obtain ⟨hl, _⟩ := inv.cur.non_some m hm
        have eok := inv.heap.elem m (by omega)
        split at h
        · rename_i hty
          have := eok.fieldset hty
          split at h
          · rename_i hn; rw [hn] at this; simp at this
          · simp at h
        · split at h
          · simp at h
          · simp at h; subst h; simp
    | continuation sp op v =>
      rw [hb] at h; simp only at h
      unfold stepContinuation at h
      simp only at h
      split at h
      · simp at h; subst h; simp
      · simp at h
      · simp at h
    | heading op k c =>
      rw [hb] at h hs
      obtain ⟨h1, h2, _⟩ := hs
      rcases stepHeading_cases (line := n) (index := b) (fin := t.fin) (k := k) (c := c) inv (by omega : op.b < op.e) with ⟨_, s'', h', i⟩ | ⟨_, h'⟩
      · simp [h'] at h
      · simp [h'] at h; subst h; simp
    | multiline op key => exact absurd hb (ho op key)
    | comment op v => rw [hb] at h; simp at h
    | copy k op tm => rw [hb] at h; simp at h

/-- An error of `runEvents` splits the events. -/
theorem runEvents_error {es : List Event} : ∀ {s s' : AS} {e : Event} {f : LineFail}, runEvents s es = .error (s', e, f) →
    ∃ pre post, es = pre ++ e :: post ∧ runEvents s pre = .ok s' ∧ applyEvent s' e = .error f := by
  induction es with
  | nil => intro s s' e f h; simp [runEvents] at h
  | cons a es ih =>
    intro s s' e f h
    unfold runEvents at h
    split at h
    · rename_i s1 h1
      obtain ⟨pre, post, rfl, h2, h3⟩ := ih h
      exact ⟨a :: pre, post, rfl, by simp [runEvents, h1, h2], h3⟩
    · rename_i f' h1
      simp at h; obtain ⟨rfl, rfl, rfl⟩ := h
      exact ⟨[], es, rfl, rfl, h1⟩

theorem runEvents_append (es es' : List Event) : ∀ (s : AS), runEvents s (es ++ es') =
    match runEvents s es with
    | .ok s' => runEvents s' es'
    | .error x => .error x := by
  induction es with
  | nil => intro s; rfl
  | cons e es ih =>
    intro s
    simp only [List.cons_append, runEvents]
    cases applyEvent s e with
    | ok s' => exact ih s'
    | error f => rfl

/-- The state after the events of an input satisfies the invariant. -/
theorem inv_trace {input : Str} {es : List Event} {r : Ending} (ht : Trace input 0 0 es r) (h : runEvents AS.init es = .ok s) : Inv s :=
  inv_runEvents inv_init (trace_shaped ht) h

end Eno
