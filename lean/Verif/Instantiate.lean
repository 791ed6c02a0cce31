import Verif.Context

/-!
# Typed access: which items, entries and elements the typed elements hold

`List._instantiate_items`, `Fieldset._instantiate_entries`, `Section._instantiate_elements`. The Python methods wrap each instruction in
an object; here they return the references.
-/

namespace Eno

/-- `/repo/python/enolib/elements/list.py:10-18`; the first number is fuel. -/
def instItems (h : Heap) : Nat → Nat → Except PyExc (List Ref)
  | 0, _ => .error .recursionError
  | n + 1, i =>
    match (h.at i).mirror with
    | some m => instItems h n m
    | none =>
      match (h.at i).extend with
      | some t =>
        match instItems h n t with
        | .error e => .error e
        | .ok xs =>
          match h.ownItems i with
          | none => .error .keyError
          | some own => .ok (xs ++ own)
      | none => .ok ((h.ownItems i).getD [])

/-- `/repo/python/enolib/elements/fieldset.py:52-72`; the first number is fuel, `map` are the entries in the order in which they were added to
`_instantiated_entries_map`, the result is that map afterwards and what is added to `_instantiated_entries`. -/
def instEntries (h : Heap) : Nat → Nat → List Ref → Except PyExc (List Ref × List Ref)
  | 0, _, _ => .error .recursionError
  | n + 1, i, map =>
    match (h.at i).mirror with
    | some m => instEntries h n m map                                                   -- :53-54
    | none =>
      match h.ownEntries i with
      | none => .ok (map, [])                                                           -- :55
      | some own =>
        let native := own.filter fun r => !(map.map h.key?).contains (h.key? r)           -- :66
        let map := map ++ native                                                        -- :67
        match (h.at i).extend with
        | none => .ok (map, native)
        | some t =>                                                                     -- :69-72
          match instEntries h n t map with
          | .error e => .error e
          | .ok (map, xs) => .ok (map, xs ++ native)

/-- `/repo/python/enolib/elements/section.py:157-175`; the first number is fuel, `acc` is `_instantiated_elements` so far, which has the elements of
`_instantiated_elements_map` in the order in which they were added. -/
def instElements (h : Heap) : Nat → Nat → List Nat → Except PyExc (List Nat)
  | 0, _, _ => .error .recursionError
  | n + 1, s, acc =>
    match (h.at s).mirror with
    | some m => instElements h n m acc                                                  -- :158-159
    | none =>
      let acc := acc ++ (h.at s).elements.filter fun i => !(acc.map fun j => (h.at j).key).contains (h.at i).key   -- :171-172
      match (h.at s).extend with
      | none => .ok acc
      | some t => instElements h n t acc                                                -- :174-175

end Eno
