import Verif.Spec.Tree

/-!
# Specification: what documents with copies mean

Documents with copies as trees (`Spec/Tree.lean`): how they can be written down, and what is shown of them once the copies are resolved. A copy has exactly one template in the
whole document and takes over what it does not say itself. All of this is said about trees; nothing here refers to the analyzer or the resolver.
-/

namespace Eno.Spec

/-! ## How they are written -/

/-- What is under a copy. -/
inductive Inner.Written : Inner → List Str → Prop where
  | nothing : Inner.Written .nothing []
  | items {x xs ls} : Each Item.Written (x :: xs) ls → Inner.Written (.items x xs) ls
  | entries {x xs ls} : Each Entry.Written (x :: xs) ls → Inner.Written (.entries x xs) ls

/-- An element or a copy. -/
inductive Thing.Written : Thing → List Str → Prop where
  | plain {e ls} : e.Written ls → Thing.Written (.plain e) ls
  | copy {r k t inner o ls} : Opening r (.copy k t) o → inner.Written ls → Thing.Written (.copy r k t inner) (o ++ ls)

mutual

/-- A section whose heading has `d` hash signs. -/
inductive Part.Written : Nat → Part → List Str → Prop where
  | mk {d r k c ts ps o a b} : Opening r (.heading d k c) o → Each Thing.Written ts a → PartsWritten (d + 1) ps b →
      Part.Written d (.mk r k c ts ps) (o ++ (a ++ b))

/-- Sections of the same depth. -/
inductive PartsWritten : Nat → List Part → List Str → Prop where
  | nil {d} : PartsWritten d [] []
  | cons {d p ps a b} : Part.Written d p a → PartsWritten d ps b → PartsWritten d (p :: ps) (a ++ b)

end

/-- The lines of a document. -/
inductive Doc.Lines (T : Doc) : List Str → Prop where
  | mk {a b f} : Each Thing.Written T.things a → PartsWritten 1 T.parts b → Filler f → Doc.Lines T (a ++ (b ++ f))

/-- A way of writing a document. -/
def Doc.Text (T : Doc) (input : Str) : Prop := ∃ ls, T.Lines ls ∧ input = ['\n'].intercalate ls

/-! ## Which can be written -/

def Inner.Valid : Inner → Prop
  | .nothing => True
  | .items x xs => ∀ y ∈ x :: xs, y.Valid
  | .entries x xs => ∀ y ∈ x :: xs, y.Valid

def Thing.Valid : Thing → Prop
  | .plain e => e.Valid
  | .copy r k t inner => Remark.Valid r ∧ Trimmed k ∧ Trimmed t ∧ inner.Valid

mutual

def Part.Valid : Part → Prop
  | .mk r k c ts ps => Remark.Valid r ∧ Trimmed k ∧ (∀ x, c = some x → Trimmed x.2) ∧ (∀ t ∈ ts, t.Valid) ∧ PartsValid ps

def PartsValid : List Part → Prop
  | [] => True
  | p :: ps => p.Valid ∧ PartsValid ps

end

/-- Keys, texts and names of templates are trimmed, comments have columns. -/
def Doc.Valid (T : Doc) : Prop := (∀ t ∈ T.things, t.Valid) ∧ PartsValid T.parts

/-! ## Whose comments can be read -/

def Inner.Shown : Inner → Prop
  | .nothing => True
  | .items x xs => ∀ y ∈ x :: xs, Remark.Shown y.remark
  | .entries x xs => ∀ y ∈ x :: xs, Remark.Shown y.remark

def Thing.Shown : Thing → Prop
  | .plain e => e.Shown
  | .copy r _ _ inner => Remark.Shown r ∧ inner.Shown

mutual

def Part.Shown : Part → Prop
  | .mk r _ _ ts ps => Remark.Shown r ∧ (∀ t ∈ ts, t.Shown) ∧ PartsShown ps

def PartsShown : List Part → Prop
  | [] => True
  | p :: ps => p.Shown ∧ PartsShown ps

end

/-- No comment is a single empty line. -/
def Doc.Shown (T : Doc) : Prop := (∀ t ∈ T.things, t.Shown) ∧ PartsShown T.parts

/-! ## What can be copied -/

/-- An element or a section. -/
inductive Node where
  | thing (t : Thing)
  | part (p : Part)

mutual

/-- A section and everything in it. -/
def Part.nodes : Part → List Node
  | .mk r k c ts ps => .part (.mk r k c ts ps) :: (ts.map .thing ++ partsNodes ps)

/-- The same for several. -/
def partsNodes : List Part → List Node
  | [] => []
  | p :: ps => p.nodes ++ partsNodes ps

end

/-- Everything in a document, in order. -/
def Doc.nodes (T : Doc) : List Node := T.things.map .thing ++ partsNodes T.parts

def Thing.key : Thing → Str
  | .plain e => e.key
  | .copy _ k _ _ => k

/-- The name that is copied. -/
def Thing.template : Thing → Option Str
  | .plain _ => none
  | .copy _ _ t _ => some t

def Part.key : Part → Str
  | .mk _ k _ _ _ => k

/-- The name that is copied. -/
def Part.template : Part → Option Str
  | .mk _ _ c _ _ => c.map (·.2)

/-- What the name `k` may refer to, for sections (`sec`) and for elements: what has this key and is not a copy of the same name. -/
def Node.serves (sec : Bool) (k : Str) : Node → Bool
  | .thing t => !sec && decide (t.key = k) && decide (t.template ≠ some k)
  | .part p => sec && decide (p.key = k) && decide (p.template ≠ some k)

/-! ## What it means -/

/-- What an element contains, once copies are resolved. -/
inductive Held where
  | nothing
  | text (v : Option Str)
  | verbatim (v : Option Str)
  | items (xs : List Item)
  | entries (xs : List Entry)

/-- What an element that is no copy contains. -/
def Content.held : Content → Held
  | .parts ⟨none, []⟩ => .nothing
  | .parts p => .text p.text
  | .items x xs => .items (x :: xs)
  | .entries x xs => .entries (x :: xs)
  | .verbatim ls => .verbatim (if ls = [] then none else some (['\n'].intercalate ls))

/-- What a copy contains: what the template contains; own items go behind its items, own entries behind those of its entries that are not redefined. The copy of a verbatim text is a
plain one. Items do not go with texts or entries, and entries do not go with texts or items. -/
def Held.extend : Held → Inner → Option Held
  | .verbatim v, .nothing => some (.text v)
  | b, .nothing => some b
  | .nothing, .items x xs => some (.items (x :: xs))
  | .items ys, .items x xs => some (.items (ys ++ x :: xs))
  | .nothing, .entries x xs => some (.entries (x :: xs))
  | .entries ys, .entries x xs => some (.entries ((ys.filter fun y => decide (∀ o ∈ x :: xs, o.key ≠ y.key)) ++ x :: xs))
  | _, _ => none

/-- What an element means. -/
structure Meant where
  remark : Remark
  key : Str
  held : Held

/-- What is shown of it. -/
def Meant.raw (m : Meant) : Raw :=
  match m.held with
  | .nothing => .leaf .empty (Remark.raw m.remark) (some m.key) none
  | .text v => .leaf .field (Remark.raw m.remark) (some m.key) (some v)
  | .verbatim v => .leaf .mlBegin (Remark.raw m.remark) (some m.key) (some v)
  | .items xs => .node .list (Remark.raw m.remark) (some m.key) (xs.map Item.raw)
  | .entries xs => .node .fieldset (Remark.raw m.remark) (some m.key) (xs.map Entry.raw)

/-- The meaning of an element among everything in the document: a copy has one template, and takes over its comment if it has none. -/
inductive Thing.Means (ns : List Node) : Thing → Meant → Prop where
  | plain {e} : Thing.Means ns (.plain e) ⟨e.remark, e.key, e.content.held⟩
  | copy {r k t inner x m b} : ns.filter (Node.serves false t) = [.thing x] → Thing.Means ns x m → m.held.extend inner = some b →
      Thing.Means ns (.copy r k t inner) ⟨if r = [] then m.remark else r, k, b⟩

/-- The same for several elements. -/
inductive ThingsMean (ns : List Node) : List Thing → List Meant → Prop where
  | nil : ThingsMean ns [] []
  | cons {t ts m ms} : t.Means ns m → ThingsMean ns ts ms → ThingsMean ns (t :: ts) (m :: ms)

/-- The key that is shown. -/
def rawKey : Raw → Option Str
  | .leaf _ _ k _ => k
  | .node _ _ k _ => k

mutual

/-- The meaning of a section among everything in the document: its comment and what is shown of its contents. A copy has one template, shows what is in it (except for what has the
key of something of its own) before its own contents, and takes over its comment if it has none. -/
inductive Part.Means (ns : List Node) : Part → Remark → List Raw → Prop where
  | own {r k ts ps ms rs} : ThingsMean ns ts ms → PartsMean ns ps rs → Part.Means ns (.mk r k none ts ps) r (ms.map Meant.raw ++ rs)
  | copy {r k d t ts ps ms rs q r' xs} : ns.filter (Node.serves true t) = [.part q] → Part.Means ns q r' xs → ThingsMean ns ts ms → PartsMean ns ps rs →
      Part.Means ns (.mk r k (some (d, t)) ts ps) (if r = [] then r' else r)
        ((xs.filter fun x => decide (∀ o ∈ ms.map Meant.raw ++ rs, rawKey o ≠ rawKey x)) ++ (ms.map Meant.raw ++ rs))

/-- What is shown of several sections. -/
inductive PartsMean (ns : List Node) : List Part → List Raw → Prop where
  | nil : PartsMean ns [] []
  | cons {p ps r xs rs} : Part.Means ns p r xs → PartsMean ns ps rs → PartsMean ns (p :: ps) (.node .section (Remark.raw r) (some p.key) xs :: rs)

end

/-- What is shown of a document. -/
inductive Doc.Means (T : Doc) : Raw → Prop where
  | mk {ms rs} : ThingsMean T.nodes T.things ms → PartsMean T.nodes T.parts rs → Doc.Means T (.node .document none none (ms.map Meant.raw ++ rs))

/-! ## Without the defects of merging sections -/

/-- Not a deep copy, and not a copy without contents. -/
def Node.Shallow : Node → Prop
  | .thing _ => True
  | .part (.mk _ _ none _ _) => True
  | .part (.mk _ _ (some (deep, _)) ts ps) => deep = false ∧ (ts ≠ [] ∨ ps ≠ [])

/-- No section is a deep copy or a copy without contents of its own (see C21). -/
def Doc.Shallow (T : Doc) : Prop := ∀ x ∈ T.nodes, x.Shallow

end Eno.Spec
