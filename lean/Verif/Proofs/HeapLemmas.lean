import Verif.Analyzer

/-! # Heap access lemmas -/

namespace Eno

variable {h : Heap} {e : Elem} {i n : Nat} {f : Elem → Elem}

theorem Heap.at_eq_getElem (hi : i < h.length) : h.at i = h[i] := by simp [Heap.at, List.getD, hi]

theorem Heap.at_append_lt (hi : i < h.length) : Heap.at (h ++ [e]) i = h.at i := by
  simp [Heap.at, List.getD, List.getElem?_append, hi]

theorem Heap.at_append_last : Heap.at (h ++ [e]) h.length = e := by
  simp [Heap.at, List.getD]

theorem Heap.at_ge (hi : h.length ≤ i) : h.at i = Elem.document := by
  simp [Heap.at, List.getD, List.getElem?_eq_none hi]

theorem Heap.at_modify : Heap.at (h.modify n f) i = if i = n ∧ n < h.length then f (h.at n) else h.at i := by
  simp only [Heap.at, List.getD, List.getElem?_modify]
  by_cases hin : n = i
  · subst hin
    by_cases hl : n < h.length
    · simp [hl]
    · simp [hl]
  · have : ¬ i = n := fun e => hin e.symm
    simp [hin, this]

theorem Heap.at_modify_self (hn : n < h.length) : Heap.at (h.modify n f) n = f (h.at n) := by simp [Heap.at_modify, hn]
theorem Heap.at_modify_ne (hn : i ≠ n) : Heap.at (h.modify n f) i = h.at i := by simp [Heap.at_modify, hn]

theorem append_length (s : AS) (p : Nat) (e : Elem) : (s.append p e).length = s.heap.length + 1 := by simp [AS.append]

theorem at_AS_append_last (s : AS) (p : Nat) (e : Elem) : (s.append p e).at s.heap.length = e := by
  have := Heap.at_append_last (h := s.heap.modify p fun q => { q with elements := q.elements ++ [s.heap.length] }) (e := e)
  simpa [AS.append] using this

theorem at_AS_append_lt (s : AS) (p : Nat) (e : Elem) (hi : i < s.heap.length) :
    (s.append p e).at i = if i = p then { s.heap.at i with elements := (s.heap.at i).elements ++ [s.heap.length] } else s.heap.at i := by
  unfold AS.append
  rw [Heap.at_append_lt (by simpa using hi), Heap.at_modify]
  by_cases hip : i = p
  · subst hip; simp [hi]
  · simp [hip]

/-- Everything except the two fields that are changed on elements other than the last one (`elements`, `deepResolve`). -/
def Elem.core (e : Elem) : Elem := { e with elements := [], deepResolve := false }

/-- The heap without `elements` and `deepResolve`. -/
def Heap.core (h : Heap) : Heap := h.map Elem.core

theorem Heap.core_length : h.core.length = h.length := by simp [Heap.core]

theorem Heap.at_core (hi : i < h.length) : h.core.at i = (h.at i).core := by
  simp [Heap.core, Heap.at, List.getD, hi]

theorem map_modify_core (hf : ∀ e, (f e).core = e.core) : Heap.core (h.modify n f) = h.core := by
  unfold Heap.core
  apply List.ext_getElem
  · simp
  · intro i h1 h2
    simp only [List.getElem_map, List.getElem_modify]
    split
    · rw [hf]
    · rfl

theorem core_append (s : AS) (p : Nat) (e : Elem) : Heap.core (s.append p e) = s.heap.core ++ [e.core] := by
  unfold AS.append
  show List.map Elem.core _ = _
  rw [List.map_append]
  have : List.map Elem.core (s.heap.modify p fun q => { q with elements := q.elements ++ [s.heap.length] }) = s.heap.core :=
    map_modify_core (by intro e; rfl)
  rw [this]; rfl

theorem markDeep_core : ∀ (n : Nat) (h : Heap) (i : Nat) (h' : Heap), markDeep n h i = some h' → h'.core = h.core ∧ h'.length = h.length := by
  intro n
  induction n with
  | zero => intro h i h' e; simp [markDeep] at e
  | succ n ih =>
    intro h i h' e
    unfold markDeep at e
    split at e
    · simp at e; subst e; exact ⟨rfl, rfl⟩
    · split at e
      · simp at e
      · have := ih _ _ _ e
        rw [map_modify_core (by intro e; rfl)] at this
        simpa using this

/-- Everything except the deep mark. -/
def Elem.undeep (e : Elem) : Elem := { e with deepResolve := false }

/-- Deep marks leave everything but `deepResolve` alone. -/
theorem markDeep_at : ∀ (n : Nat) (h : Heap) (i : Nat) (h' : Heap), markDeep n h i = some h' →
    ∀ j, (h'.at j).undeep = (h.at j).undeep := by
  intro n
  induction n with
  | zero => intro h i h' e; simp [markDeep] at e
  | succ n ih =>
    intro h i h' e j
    unfold markDeep at e
    split at e
    · simp at e; subst e; rfl
    · split at e
      · simp at e
      · rw [ih _ _ _ e j, Heap.at_modify]
        split
        · rename_i hh; rw [hh.1]; rfl
        · rfl

theorem modify_last {α} (l : List α) (a : α) (f : α → α) : (l ++ [a]).modify l.length f = l ++ [f a] := by
  induction l with
  | nil => rfl
  | cons b t ih => simp [List.modify_succ_cons, ih]

theorem heap_snoc (hl : 0 < h.length) : h = h.take (h.length - 1) ++ [h.at (h.length - 1)] := by
  have h1 : h.length - 1 < h.length := by omega
  rw [Heap.at_eq_getElem h1]
  have := List.take_append_getElem (l := h) (i := h.length - 1) h1
  rw [this, Nat.sub_add_cancel hl, List.take_length]

end Eno
