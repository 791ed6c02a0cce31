import Verif.Spec.Copies

/-!
# Specification: what a document says

Values, items, entries and elements, read off an analysed document before anything is resolved; copies refer to their templates as said in
`Spec/Copies.lean`.
-/

namespace Eno

/-- The column at which a comment line has its text. -/
def Comment.column (c : Comment) : Nat := ((c.range? .comment).getD (0, 0)).1 - c.span.1

namespace Spec

/-! ## Values -/

/-- What follows a text: a blank goes before the next text if `b` or if one of the parts up to that text is spaced. -/
def tailText : Bool → List (Bool × Option Str) → Str
  | _, [] => []
  | b, (s, none) :: t => tailText (b || s) t
  | b, (s, some x) :: t => (if b || s then [' '] else []) ++ x ++ tailText false t

/-- The text of a sequence of parts, each of which may be spaced and may have a text. -/
def joined : List (Bool × Option Str) → Option Str
  | [] => none
  | (_, none) :: t => joined t
  | (_, some x) :: t => some (x ++ tailText false t)

/-- The parts of a value with continuations. -/
def valueParts (value : Option Str) (conts : Option (List Cont)) : List (Bool × Option Str) :=
  (false, value) :: (conts.getD []).map fun c => (c.spaced, c.value)

/-- The value of an element that is not a copy: all text from the first to the last line of a multiline field, else the joined parts. -/
def ownValue (input : Str) (e : Elem) : Option Str :=
  if e.type = .mlBegin then e.lines.bind fun ls => ls.head?.bind fun a => ls.getLast?.map fun b => (input.take b.span.2).drop a.span.1
  else joined (valueParts e.value e.continuations)

/-- The value of a non-section element. -/
inductive ValueOf (input : Str) (h : Heap) : Nat → Option Str → Prop where
  | own {i} : (h.at i).copy = none → ValueOf input h i (ownValue input (h.at i))
  | copy {i t v} : TemplateIs h i t → ValueOf input h t v → ValueOf input h i v

/-- The value of an item or entry. -/
def subValue (h : Heap) (r : Ref) : Option Str := (h.sub? r).bind fun x => joined (valueParts x.value x.continuations)

/-! ## Items and entries -/

/-- Own items. -/
def itemsAt (h : Heap) (i : Nat) : List Ref := (List.range ((h.at i).items.getD []).length).map (.item i)

/-- Own entries. -/
def entriesAt (h : Heap) (i : Nat) : List Ref := (List.range ((h.at i).entries.getD []).length).map (.entry i)

/-- The items of a non-section element: those of the template, then its own. -/
inductive ItemsOf (h : Heap) : Nat → List Ref → Prop where
  | own {i} : (h.at i).copy = none → ItemsOf h i (itemsAt h i)
  | copy {i t xs} : TemplateIs h i t → ItemsOf h t xs → ItemsOf h i (xs ++ itemsAt h i)

/-- The key of an entry. -/
def entryKey (h : Heap) (r : Ref) : Option Str := (h.sub? r).bind (·.key)

/-- Those of `xs` whose key no own entry of `i` has. -/
def notRedefined (h : Heap) (i : Nat) (xs : List Ref) : List Ref := xs.filter fun r => decide (∀ o ∈ entriesAt h i, entryKey h o ≠ entryKey h r)

/-- The entries of a non-section element: those of the template that are not redefined, then its own. -/
inductive EntriesOf (h : Heap) : Nat → List Ref → Prop where
  | own {i} : (h.at i).copy = none → EntriesOf h i (entriesAt h i)
  | copy {i t xs} : TemplateIs h i t → EntriesOf h t xs → EntriesOf h i (notRedefined h i xs ++ entriesAt h i)

/-! ## Elements of sections, without deep copies -/

/-- Those of `xs` whose key no own element of section `s` has. -/
def notOverridden (h : Heap) (s : Nat) (xs : List Nat) : List Nat :=
  xs.filter fun i => decide (∀ o ∈ (h.at s).elements, (h.at o).key ≠ (h.at i).key)

/-- The elements of a section (or the document): its own, then those of the template that are not overridden. -/
inductive ElementsOf (h : Heap) : Nat → List Nat → Prop where
  | own {s} : (h.at s).copy = none → ElementsOf h s (h.at s).elements
  | copy {s t xs} : TemplateIs h s t → ElementsOf h t xs → ElementsOf h s ((h.at s).elements ++ notOverridden h s xs)

/-- The same elements in the order of untyped access: those of the template that are not overridden, then the own ones. -/
inductive CopiedFirst (h : Heap) : Nat → List Nat → Prop where
  | own {s} : (h.at s).copy = none → CopiedFirst h s (h.at s).elements
  | copy {s t xs} : TemplateIs h s t → CopiedFirst h t xs → CopiedFirst h s (notOverridden h s xs ++ (h.at s).elements)

/-- Neither a section nor what it is copied from is a copy without own elements or can be touched by a deep merge. -/
def Straight (h : Heap) (s : Nat) : Prop :=
  Undisturbed h s ∧ ((h.at s).copy.isSome → (h.at s).elements ≠ []) ∧ ∀ t, Leads h s t → (h.at t).copy.isSome → (h.at t).elements ≠ []

/-! ## Comments -/

/-- The comment lines that belong to an element: its own, or those of the template if it has none. -/
inductive CommentsOf (h : Heap) : Nat → Option (List Comment) → Prop where
  | own {i} : (h.at i).copy = none → CommentsOf h i (h.at i).comments
  | written {i t} : TemplateIs h i t → (h.at i).comments.isSome → CommentsOf h i (h.at i).comments
  | inherited {i t c} : TemplateIs h i t → (h.at i).comments = none → CommentsOf h t c → CommentsOf h i c

/-- Drop empty lines at both ends. -/
def trimBlank (cs : List (Nat × Option Str)) : List (Nat × Option Str) :=
  ((cs.dropWhile fun c => c.2.isNone).reverse.dropWhile fun c => c.2.isNone).reverse

/-- The smallest column of a non-empty line. -/
def commonIndent (cs : List (Nat × Option Str)) : Nat := ((cs.filter fun c => c.2.isSome).map (·.1)).min?.getD 0

/-- A comment block: lines with their columns. -/
def commentText (cs : List (Nat × Option Str)) : Option Str :=
  if cs.all fun c => c.2.isNone then none
  else some (['\n'].intercalate ((trimBlank cs).map fun c => match c.2 with
    | none => []
    | some s => List.replicate (c.1 - commonIndent cs) ' ' ++ s))

/-- The lines of a comment with their columns. -/
def commentLines (cs : List Comment) : List (Nat × Option Str) := cs.map fun c => (c.column, c.comment)

/-- The comment of an element with these comment lines; `none` without lines. -/
def commentOf (c : Option (List Comment)) : Option Str := c.bind fun cs => commentText (commentLines cs)

/-! ## The untyped representation of a document -/

mutual

/-- What `raw` shows. There is a `comment` if there are comment lines; it is `None` if all are empty. -/
inductive RawOf (input : Str) (h : Heap) : Ref → Raw → Prop where
  | empty {i c} : i < h.length → CommentsOf h i c → KindOf h i .empty →
      RawOf input h (.elem i) (.leaf .empty (c.map fun _ => commentOf c) (some (h.at i).key) none)
  | field {i c k v} : i < h.length → CommentsOf h i c → KindOf h i k → k = .field ∨ k = .mlBegin → ValueOf input h i v →
      RawOf input h (.elem i) (.leaf k (c.map fun _ => commentOf c) (some (h.at i).key) (some v))
  | list {i c xs rs} : i < h.length → CommentsOf h i c → KindOf h i .list → ItemsOf h i xs → RawsOf input h xs rs →
      RawOf input h (.elem i) (.node .list (c.map fun _ => commentOf c) (some (h.at i).key) rs)
  | fieldset {i c xs rs} : i < h.length → CommentsOf h i c → KindOf h i .fieldset → EntriesOf h i xs → RawsOf input h xs rs →
      RawOf input h (.elem i) (.node .fieldset (c.map fun _ => commentOf c) (some (h.at i).key) rs)
  | section {i c xs rs} : i < h.length → CommentsOf h i c → (h.at i).type = .section → CopiedFirst h i xs → RawsOf input h (xs.map .elem) rs →
      RawOf input h (.elem i) (.node .section (c.map fun _ => commentOf c) (some (h.at i).key) rs)
  | document {xs rs} : CopiedFirst h 0 xs → RawsOf input h (xs.map .elem) rs → RawOf input h (.elem 0) (.node .document none none rs)
  | item {i k x} : h.sub? (.item i k) = some x → RawOf input h (.item i k)
      (.leaf .listItem (x.comments.map fun _ => commentOf x.comments) none (some (joined (valueParts x.value x.continuations))))
  | entry {i k x} : h.sub? (.entry i k) = some x → RawOf input h (.entry i k)
      (.leaf .fieldsetEntry (x.comments.map fun _ => commentOf x.comments) x.key (some (joined (valueParts x.value x.continuations))))

/-- The same for a list. -/
inductive RawsOf (input : Str) (h : Heap) : List Ref → List Raw → Prop where
  | nil : RawsOf input h [] []
  | cons {r rs x xs} : RawOf input h r x → RawsOf input h rs xs → RawsOf input h (r :: rs) (x :: xs)

end

end Spec

end Eno
