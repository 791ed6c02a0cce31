import Verif.Proofs.ReadFresh
import Verif.Proofs.Worlds
import Verif.Lookup

/-! # Objects: an invariant of the object graph -/

namespace Eno.El

variable {α β : Type} {w w' w'' : World} {o y : Nat} {E : Env}

/-- An instruction that objects can be made of. -/
def Actual (h : Heap) : Ref → Prop
  | .elem i => 0 < i ∧ i < h.length
  | r => (h.sub? r).isSome

/-- What is used of a loaded document. -/
structure EnvOk (E : Env) : Prop where
  doc : (E.ctx.heap.at 0).type = .document
  types : ∀ i, 0 < i → i < E.ctx.heap.length → (E.ctx.heap.at i).type ≠ .document
  kids : ∀ s, ∀ j ∈ (E.ctx.heap.at s).elements, 0 < j ∧ j < E.ctx.heap.length
  present : 0 < E.ctx.heap.length
  keys : ∀ i k x, E.ctx.heap.sub? (.entry i k) = some x → x.key.isSome
  values : ∀ r, ∃ v, computeValue E.ctx.input E.ctx.heap r = .ok v
  parents : ∀ i, 0 < i → i < E.ctx.heap.length → ∃ p, (E.ctx.heap.at i).parent = some p ∧ p < E.ctx.heap.length ∧ (0 < p → (E.ctx.heap.at p).type = .section)
  found : ∀ l c i r, lookup E.ctx.input l c i = .ok r → Actual E.ctx.heap r.element ∨ r.element = .elem 0

/-- The class of the parent of an object. -/
def parentCls : Cls → Cls
  | .entry => .of .fieldset
  | .item => .of .list
  | _ => .of .section

/-- The class of the children of an object. -/
def childCls : Cls → Cls
  | .of .fieldset => .entry
  | .of .list => .item
  | _ => .sectionElement

/-- The instruction goes with the class. -/
def RefOk (h : Heap) : Cls → Ref → Prop
  | .of k, .elem i => i < h.length ∧ (i = 0 → k = .section) ∧ (0 < i → k.fits (h.at i).type = true)
  | .sectionElement, .elem i => 0 < i ∧ i < h.length
  | .element, r => Actual h r ∨ (r = .elem 0 ∧ (h.at 0).type = .document)
  | .entry, .entry i k => (h.sub? (.entry i k)).isSome
  | .item, .item i k => (h.sub? (.item i k)).isSome
  | _, _ => False

/-- The key under which an object is found. -/
def keyText (h : Heap) : Ref → Str
  | .elem i => (h.at i).key
  | r => (h.key? r).getD []

/-- The key under which an object is found. -/
def keyAt (E : Env) (w : World) (o : Nat) : Str := keyText E.ctx.heap (w.at o).ref

/-- The instructions of the children. -/
def ChildRefs (E : Env) (x : Obj) (rs : List Ref) : Prop :=
  match x.cls with
  | .of .section => rs = (madeElements E.ctx.heap E.depth x.ref.idx []).2.map .elem
  | .of .list => instItems E.ctx.heap E.depth x.ref.idx = .ok rs
  | .of .fieldset => ∃ is, instEntries E.ctx.heap E.depth x.ref.idx [] = .ok (is, rs)
  | _ => False

/-- The children of an object. -/
structure KidsOk (E : Env) (w : World) (o : Nat) (ys : List Nat) : Prop where
  members : ∀ y ∈ ys, o < y ∧ y < w.objs.length ∧ (w.at y).cls = childCls (w.at o).cls ∧ (w.at y).parent = some o
  refs : ChildRefs E (w.at o) (ys.map fun y => (w.at y).ref)
  distinct : ys.Nodup
  index : (w.at o).cls ≠ .of .list → ∃ zs : List Nat, (w.at o).index = indexOf (zs.map fun z => (keyAt E w z, z)) ∧
    (∀ k, zs.filter (fun z => keyAt E w z = k) = ys.filter (fun z => keyAt E w z = k))

/-- What an object was yielded as. -/
structure MadeOk (E : Env) (w : World) (o : Nat) (k : Kind) (y : Nat) : Prop where
  lt : o < y
  known : y < w.objs.length
  cls : (w.at y).cls = .of k
  ref : (w.at y).ref = (w.at o).ref
  parent : (w.at y).parent = (w.at o).parent
  fits : k.fits (E.ctx.heap.type (w.at o).ref) = true

/-- The first object is the document that `parse` returned. -/
def Parsed (w : World) : Prop := (w.at 0).cls = .of .section

/-- An object. -/
structure ObjOk (E : Env) (w : World) (o : Nat) : Prop where
  parent : ∀ p, (w.at o).parent = some p → p < o ∧ (w.at p).cls = parentCls (w.at o).cls
  orphan : (w.at o).parent = none → ((w.at o).cls = .element ∨ ∃ k, (w.at o).cls = .of k) ∧ (Parsed w → o = 0)
  top : (w.at o).ref = .elem 0 → (w.at o).parent = none
  ref : RefOk E.ctx.heap (w.at o).cls (w.at o).ref
  kids : ∀ ys, (w.at o).children = some ys → KidsOk E w o ys
  made : ∀ k y, (w.at o).made k = some y → ((w.at o).cls = .sectionElement ∨ (w.at o).cls = .element) ∧ MadeOk E w o k y
  yielded : ∀ k, (w.at o).yielded = some k ↔ ((w.at o).made k).isSome

/-- What is cached was read: comments and values of anything, `raw` of what is in the document. -/
inductive Asked (E : Env) : Cache → Prop where
  | start : Asked E .empty
  | comment {c : Cache} (r : Ref) : Asked E c → Asked E (readComment E.ctx.heap r c).2
  | value {c : Cache} (r : Ref) : Asked E c → Asked E (readValue E.ctx.input E.ctx.heap E.depth r c).2
  | raw {c : Cache} {r : Ref} : Actual E.ctx.heap r ∨ r = .elem 0 → Asked E c → Asked E (readRaw E.ctx.input E.ctx.heap E.depth r c).2

/-- All objects. -/
structure Inv (E : Env) (w : World) : Prop where
  present : 0 < w.objs.length
  objs : ∀ o, o < w.objs.length → ObjOk E w o
  cache : Honest E.ctx.input E.ctx.heap w.cache
  asked : Asked E w.cache

/-! ## Dictionaries -/

theorem lookup_addTo (m : List (Str × List Nat)) (k k' : Str) (o : Nat) :
    (addTo m k o).lookup k' = if k' = k then some ((m.lookup k).getD [] ++ [o]) else m.lookup k' := by
  have key : ∀ m : List (Str × List Nat), (m.map fun p => if p.1 = k then (p.1, p.2 ++ [o]) else p).lookup k' =
      if k' = k then (m.lookup k).map (· ++ [o]) else m.lookup k' := by
    intro m
    induction m with
    | nil => simp
    | cons p m ih =>
      obtain ⟨a, b⟩ := p
      simp only [List.map_cons]
      by_cases h1 : a = k
      · subst h1
        simp only [if_true, List.lookup_cons]
        by_cases h2 : k' = a
        · subst h2; simp
        · simp only [beq_false_of_ne h2]; rw [ih]; simp [h2]
      · simp only [if_neg h1, List.lookup_cons]
        by_cases h2 : k' = a
        · subst h2; simp [h1]
        · simp only [beq_false_of_ne h2]; rw [ih]
          by_cases h3 : k' = k
          · subst h3; simp [beq_false_of_ne h2]
          · simp [h3]
  unfold addTo
  split
  · rename_i h
    rw [key]
    obtain ⟨b, hb⟩ := Option.isSome_iff_exists.1 h
    simp [hb]
  · rename_i h
    have hn : m.lookup k = none := Option.not_isSome_iff_eq_none.1 h
    rw [List.lookup_append]
    by_cases h2 : k' = k
    · subst h2; simp [hn]
    · simp only [List.lookup_cons, beq_false_of_ne h2, List.lookup_nil, Option.or_none, if_neg h2]

theorem indexOf_snoc (kos : List (Str × Nat)) (k : Str) (o : Nat) : indexOf (kos ++ [(k, o)]) = addTo (indexOf kos) k o := by
  simp [indexOf]

theorem lookup_indexOf (kos : List (Str × Nat)) (k : Str) : ((indexOf kos).lookup k).getD [] = (kos.filter fun p => p.1 = k).map (·.2) := by
  suffices h : ∀ kos : List (Str × Nat), ((indexOf kos.reverse).lookup k).getD [] = (kos.reverse.filter fun p => p.1 = k).map (·.2) by
    simpa using h kos.reverse
  intro kos
  induction kos with
  | nil => simp [indexOf]
  | cons p kos ih =>
    obtain ⟨a, b⟩ := p
    rw [List.reverse_cons, indexOf_snoc, lookup_addTo, List.filter_append, List.map_append, ← ih]
    by_cases h : k = a
    · subst h; simp
    · rw [if_neg h]
      have : ¬ a = k := fun e => h e.symm
      simp [this]

theorem mem_addTo {m : List (Str × List Nat)} {k : Str} {o x : Nat} : x ∈ (addTo m k o).flatMap (·.2) ↔ x ∈ m.flatMap (·.2) ∨ x = o := by
  unfold addTo
  split
  · rename_i h
    have key : ∀ m : List (Str × List Nat), (m.lookup k).isSome → (x ∈ (m.map fun p => if p.1 = k then (p.1, p.2 ++ [o]) else p).flatMap (·.2) ↔
        x ∈ m.flatMap (·.2) ∨ x = o) := by
      intro m hm
      constructor
      · intro hx
        simp only [List.mem_flatMap, List.mem_map] at hx
        obtain ⟨q, ⟨p, hp, hq⟩, hx⟩ := hx
        split at hq
        · subst hq
          simp only [List.mem_append, List.mem_singleton] at hx
          rcases hx with hx | hx
          · exact .inl (List.mem_flatMap.2 ⟨p, hp, hx⟩)
          · exact .inr hx
        · subst hq
          exact .inl (List.mem_flatMap.2 ⟨p, hp, hx⟩)
      · rintro (hx | rfl)
        · obtain ⟨p, hp, hx⟩ := List.mem_flatMap.1 hx
          refine List.mem_flatMap.2 ⟨_, List.mem_map.2 ⟨p, hp, rfl⟩, ?_⟩
          split
          · exact List.mem_append_left _ hx
          · exact hx
        · obtain ⟨b, hb⟩ := Option.isSome_iff_exists.1 hm
          have hp : (k, b) ∈ m := by
            clear hm h
            induction m with
            | nil => cases hb
            | cons p m ih =>
              obtain ⟨c, d⟩ := p
              rw [List.lookup_cons] at hb
              by_cases e : k = c
              · subst e; simp at hb; subst hb; simp
              · simp only [beq_false_of_ne e] at hb; exact List.mem_cons_of_mem _ (ih hb)
          exact List.mem_flatMap.2 ⟨_, List.mem_map.2 ⟨_, hp, rfl⟩, by simp⟩
    exact key m h
  · simp

theorem mem_indexOf {kos : List (Str × Nat)} {x : Nat} : x ∈ (indexOf kos).flatMap (·.2) ↔ x ∈ kos.map (·.2) := by
  suffices h : ∀ kos : List (Str × Nat), x ∈ (indexOf kos.reverse).flatMap (·.2) ↔ x ∈ kos.reverse.map (·.2) by simpa using h kos.reverse
  intro kos
  induction kos with
  | nil => simp [indexOf]
  | cons p kos ih =>
    obtain ⟨a, b⟩ := p
    rw [List.reverse_cons, indexOf_snoc, mem_addTo, ih]
    simp

/-! ## Which instructions children have -/

theorem madeElements_actual (V : EnvOk E) : ∀ (n s : Nat) (acc : List Nat), (∀ j ∈ acc, 0 < j ∧ j < E.ctx.heap.length) →
    ∀ j ∈ (madeElements E.ctx.heap n s acc).2, 0 < j ∧ j < E.ctx.heap.length
  | 0, _, _, ha => ha
  | n + 1, s, acc, ha => by
    unfold madeElements
    split
    · rename_i m hm
      exact madeElements_actual V n m acc ha
    · have hacc : ∀ j ∈ acc ++ (E.ctx.heap.at s).elements.filter (fun i => !(acc.map fun j => (E.ctx.heap.at j).key).contains (E.ctx.heap.at i).key),
          0 < j ∧ j < E.ctx.heap.length := by
        intro j hj
        rcases List.mem_append.1 hj with hj | hj
        · exact ha j hj
        · exact V.kids s j (List.mem_filter.1 hj).1
      dsimp only
      split
      · exact hacc
      · rename_i t ht
        exact madeElements_actual V n t _ hacc

theorem ownItems_actual {h : Heap} {i : Nat} {rs : List Ref} (e : h.ownItems i = some rs) : ∀ r ∈ rs, ∃ j k, r = .item j k ∧ (h.sub? r).isSome := by
  unfold Heap.ownItems at e
  cases hi : (h.at i).items with
  | none => rw [hi] at e; cases e
  | some xs =>
    rw [hi] at e
    simp only [Option.map_some, Option.some.injEq] at e
    subst e
    intro r hr
    obtain ⟨k, hk, rfl⟩ := List.mem_map.1 hr
    refine ⟨i, k, rfl, ?_⟩
    simp [Heap.sub?, hi, List.mem_range.1 hk]

theorem ownEntries_actual {h : Heap} {i : Nat} {rs : List Ref} (e : h.ownEntries i = some rs) : ∀ r ∈ rs, ∃ j k, r = .entry j k ∧ (h.sub? r).isSome := by
  unfold Heap.ownEntries at e
  cases hi : (h.at i).entries with
  | none => rw [hi] at e; cases e
  | some xs =>
    rw [hi] at e
    simp only [Option.map_some, Option.some.injEq] at e
    subst e
    intro r hr
    obtain ⟨k, hk, rfl⟩ := List.mem_map.1 hr
    refine ⟨i, k, rfl, ?_⟩
    simp [Heap.sub?, hi, List.mem_range.1 hk]

theorem instItems_actual {h : Heap} : ∀ (n i : Nat) (rs : List Ref), instItems h n i = .ok rs → ∀ r ∈ rs, ∃ j k, r = .item j k ∧ (h.sub? r).isSome
  | 0, _, _, e => by cases e
  | n + 1, i, rs, e => by
    unfold instItems at e
    split at e
    · exact instItems_actual n _ rs e
    · split at e
      · rename_i t ht
        cases hr : instItems h n t with
        | error x => rw [hr] at e; cases e
        | ok xs =>
          rw [hr] at e
          dsimp only at e
          cases ho : h.ownItems i with
          | none => rw [ho] at e; cases e
          | some own =>
            rw [ho] at e
            simp only [Except.ok.injEq] at e
            subst e
            intro r hr'
            rcases List.mem_append.1 hr' with hr' | hr'
            · exact instItems_actual n t xs hr r hr'
            · exact ownItems_actual ho r hr'
      · simp only [Except.ok.injEq] at e
        subst e
        intro r hr
        cases ho : h.ownItems i with
        | none => rw [ho] at hr; cases hr
        | some own => rw [ho] at hr; exact ownItems_actual ho r hr

/-- Entries are made in another order than they are listed, but not those with the same key. -/
structure EntriesMade (h : Heap) (map made listed : List Ref) : Prop where
  actual : ∀ r ∈ made, ∃ j k, r = .entry j k ∧ (h.sub? r).isSome
  fresh : ∀ r ∈ made, h.key? r ∉ map.map h.key?
  same : ∀ k, made.filter (fun r => h.key? r = k) = listed.filter (fun r => h.key? r = k)
  distinct : made.Nodup

theorem EntriesMade.mem {h : Heap} {map made listed : List Ref} (M : EntriesMade h map made listed) (r : Ref) : r ∈ made ↔ r ∈ listed := by
  have h1 : r ∈ made.filter (fun x => h.key? x = h.key? r) ↔ r ∈ listed.filter (fun x => h.key? x = h.key? r) := by rw [M.same]
  simpa using h1

theorem ownEntries_nodup {h : Heap} {i : Nat} {rs : List Ref} (e : h.ownEntries i = some rs) : rs.Nodup := by
  unfold Heap.ownEntries at e
  cases hi : (h.at i).entries with
  | none => rw [hi] at e; cases e
  | some xs =>
    rw [hi] at e
    simp only [Option.map_some, Option.some.injEq] at e
    subst e
    unfold List.Nodup
    rw [List.pairwise_map]
    exact List.nodup_range.imp fun hab e => hab (by simpa using e)

theorem instEntries_made {h : Heap} : ∀ (n i : Nat) (map map' listed : List Ref), instEntries h n i map = .ok (map', listed) →
    ∃ made, map' = map ++ made ∧ EntriesMade h map made listed
  | 0, _, _, _, _, e => by cases e
  | n + 1, i, map, map', listed, e => by
    unfold instEntries at e
    split at e
    · exact instEntries_made n _ map map' listed e
    · split at e
      · simp only [Except.ok.injEq, Prod.mk.injEq] at e
        obtain ⟨rfl, rfl⟩ := e
        exact ⟨[], by simp, by simp, by simp, by simp, by simp⟩
      · rename_i own ho
        dsimp only at e
        have hfresh : ∀ r ∈ own.filter (fun r => !(map.map h.key?).contains (h.key? r)), h.key? r ∉ map.map h.key? := by
          intro r hr
          have := (List.mem_filter.1 hr).2
          simpa using this
        have hact : ∀ r ∈ own.filter (fun r => !(map.map h.key?).contains (h.key? r)), ∃ j k, r = .entry j k ∧ (h.sub? r).isSome :=
          fun r hr => ownEntries_actual ho r (List.mem_filter.1 hr).1
        have hnd := (ownEntries_nodup ho).filter (fun r => !(map.map h.key?).contains (h.key? r))
        generalize own.filter (fun r => !(map.map h.key?).contains (h.key? r)) = native at e hfresh hact hnd
        split at e
        · simp only [Except.ok.injEq, Prod.mk.injEq] at e
          obtain ⟨rfl, rfl⟩ := e
          exact ⟨native, rfl, hact, hfresh, fun _ => rfl, hnd⟩
        · rename_i t ht
          split at e
          · cases e
          · rename_i map1 xs hr
            simp only [Except.ok.injEq, Prod.mk.injEq] at e
            obtain ⟨rfl, rfl⟩ := e
            obtain ⟨made, rfl, M⟩ := instEntries_made n t _ _ _ hr
            have hsplit : ∀ r ∈ made, h.key? r ∉ native.map h.key? := fun r hr hm => M.fresh r hr (by rw [List.map_append]; exact List.mem_append_right _ hm)
            refine ⟨native ++ made, by simp, ?_, ?_, ?_, ?_⟩
            · intro r hr
              rcases List.mem_append.1 hr with hr | hr
              · exact hact r hr
              · exact M.actual r hr
            · intro r hr
              rcases List.mem_append.1 hr with hr | hr
              · exact hfresh r hr
              · exact fun hm => M.fresh r hr (by rw [List.map_append]; exact List.mem_append_left _ hm)
            · intro k
              rw [List.filter_append, List.filter_append, M.same]
              by_cases hk : k ∈ native.map h.key?
              · have : xs.filter (fun r => h.key? r = k) = [] := by
                  rw [← M.same, List.filter_eq_nil_iff]
                  intro r hr he
                  simp only [decide_eq_true_eq] at he
                  exact hsplit r hr (by rw [he]; exact hk)
                rw [this]; simp
              · have : native.filter (fun r => h.key? r = k) = [] := by
                  rw [List.filter_eq_nil_iff]
                  intro r hr he
                  simp only [decide_eq_true_eq] at he
                  exact hk (by rw [← he]; exact List.mem_map_of_mem hr)
                rw [this]; simp
            · rw [List.nodup_append]
              exact ⟨hnd, M.distinct, fun a ha b hb e => hsplit b hb (by rw [← e]; exact List.mem_map_of_mem ha)⟩

end Eno.El
