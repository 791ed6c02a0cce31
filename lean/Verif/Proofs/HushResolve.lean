import Verif.Proofs.Hush

/-! # Without comments: the resolver -/

namespace Eno

open Spec

variable {h : Heap}

def RFail.hush : RFail → RFail
  | .missingListForListItem x => .missingListForListItem x.hush
  | .missingFieldsetForFieldsetEntry x => .missingFieldsetForFieldsetEntry x.hush
  | k => k

def RExc.hush : RExc → RExc
  | .parse k h => .parse k.hush (Heap.hush h)
  | .py e => .py e

/-- A result without comments. -/
def hushRes : Except RExc Heap → Except RExc Heap
  | .ok h => .ok (Heap.hush h)
  | .error x => .error x.hush

theorem hushRes_bind {x x' : Except RExc Heap} {f f' : Heap → Except RExc Heap} (hx : x' = hushRes x) (hf : ∀ h, f' (Heap.hush h) = hushRes (f h)) :
    (match (generalizing := false) x' with | .error e => .error e | .ok h => f' h) = hushRes (match (generalizing := false) x with | .error e => .error e | .ok h => f h) := by
  subst hx
  cases x with
  | error e => rfl
  | ok h => exact hf h

theorem hushRes_foldlM {α : Type} {f g : Heap → α → Except RExc Heap} (hf : ∀ a h, g (Heap.hush h) a = hushRes (f h a)) :
    ∀ (l : List α) (h : Heap), l.foldlM g (Heap.hush h) = hushRes (l.foldlM f h)
  | [], _ => rfl
  | a :: l, h => by
    simp only [List.foldlM_cons, hf]
    cases f h a with
    | error e => rfl
    | ok k => exact hushRes_foldlM hf l k

theorem modify_hush {f g : Elem → Elem} (k : Nat) (hf : ∀ e, (f e).hush = g e.hush) : (Heap.hush h).modify k g = Heap.hush (h.modify k f) := (hush_modify k hf).symm

theorem hush_type (k : Nat) : ((Heap.hush h).at k).type = (h.at k).type := by rw [hush_at]; rfl
theorem hush_key (k : Nat) : ((Heap.hush h).at k).key = (h.at k).key := by rw [hush_at]; rfl
theorem hush_elements (k : Nat) : ((Heap.hush h).at k).elements = (h.at k).elements := by rw [hush_at]; rfl
theorem hush_template (k : Nat) : ((Heap.hush h).at k).template = (h.at k).template := by rw [hush_at]; rfl
theorem hush_copyKey (k : Nat) : ((Heap.hush h).at k).copy = (h.at k).copy := by rw [hush_at]; rfl
theorem hush_mirror (k : Nat) : ((Heap.hush h).at k).mirror = (h.at k).mirror := by rw [hush_at]; rfl
theorem hush_deepResolve (k : Nat) : ((Heap.hush h).at k).deepResolve = (h.at k).deepResolve := by rw [hush_at]; rfl
theorem hush_deepCopy (k : Nat) : ((Heap.hush h).at k).deepCopy = (h.at k).deepCopy := by rw [hush_at]; rfl
theorem hush_items (k : Nat) : ((Heap.hush h).at k).items = hushSubs (h.at k).items := by rw [hush_at]; rfl
theorem hush_entries (k : Nat) : ((Heap.hush h).at k).entries = hushSubs (h.at k).entries := by rw [hush_at]; rfl
theorem hush_noComments (k : Nat) : ((Heap.hush h).at k).comments = none := by rw [hush_at]; rfl

theorem hush_inherit (a b : Nat) : inheritComments (Heap.hush h) a b = Heap.hush (inheritComments h a b) := by
  unfold inheritComments
  rw [if_neg (by rw [hush_noComments]; simp)]
  split
  · rw [hush_modify (g := fun e => e) a fun e => by rfl]
    apply List.ext_getElem?
    intro n
    rw [List.getElem?_modify]
    by_cases hn : a = n <;> simp [hn]
  · rfl

theorem hush_mirrorTo (a b : Nat) : mirrorTo (Heap.hush h) a b = Heap.hush (mirrorTo h a b) := by
  unfold mirrorTo
  rw [hush_mirror]
  split <;> exact modify_hush _ fun _ => by rfl

theorem hush_setType (a : Nat) (t : Ty) : setType (Heap.hush h) a t = Heap.hush (setType h a t) := by unfold setType; exact modify_hush _ fun _ => by rfl

theorem hush_consolidate (a b : Nat) : consolidateNonSection (Heap.hush h) a b = hushRes (consolidateNonSection h a b) := by
  unfold consolidateNonSection
  simp only [hush_inherit]
  generalize inheritComments h a b = k
  simp only [hush_type, hush_setType, hush_mirrorTo, hush_items, hush_entries]
  have X : (Heap.hush k).modify a (fun e => { e with extend := some b }) = Heap.hush (k.modify a fun e => { e with extend := some b }) := by exact modify_hush _ fun _ => by rfl
  rw [X]
  split
  · repeat' split
    all_goals rfl
  split
  · split
    · rfl
    split
    · rcases (k.at a).entries with _ | _ | ⟨x, l⟩ <;> rfl
    · rfl
  split
  · split
    · rfl
    split
    · rcases (k.at a).items with _ | _ | ⟨x, l⟩ <;> rfl
    · rfl
  · rfl

theorem hush_mergeOwn (l : List Nat) : mergeOwn (Heap.hush h) l = mergeOwn h l := by
  unfold mergeOwn
  simp only [hush_type, hush_key]

theorem hush_mergeTemplate (l : List Nat) (m : List (Str × Merger)) : mergeTemplate (Heap.hush h) l m = mergeTemplate h l m := by
  unfold mergeTemplate
  simp only [hush_type, hush_key]

theorem hush_sections : ∀ (n : Nat) (h : Heap) (a b : Nat) (deep : Bool), consolidateSections n (Heap.hush h) a b deep = (consolidateSections n h a b deep).map Heap.hush
  | 0, _, _, _, _ => rfl
  | n + 1, h, a, b, deep => by
    unfold consolidateSections
    simp only [hush_inherit]
    generalize inheritComments h a b = k
    have X : (Heap.hush k).modify a (fun e => { e with extend := some b }) = Heap.hush (k.modify a fun e => { e with extend := some b }) := by exact modify_hush _ fun _ => by rfl
    simp only [hush_elements, hush_mirrorTo, X, hush_mergeOwn, hush_mergeTemplate]
    split
    · rfl
    split
    · rfl
    · have F : ∀ (l : List (Str × Merger)) (h : Heap),
          l.foldlM (fun h (kv : Str × Merger) => match kv.2 with | .yes s (some t) => consolidateSections n h s t true | _ => .ok h) (Heap.hush h) =
            (l.foldlM (fun h (kv : Str × Merger) => match kv.2 with | .yes s (some t) => consolidateSections n h s t true | _ => .ok h) h).map Heap.hush := by
        intro l
        induction l with
        | nil => intro h; rfl
        | cons kv l ih =>
          intro h
          obtain ⟨key, m⟩ := kv
          simp only [List.foldlM_cons]
          rcases m with _ | ⟨s, _ | t⟩
          · exact ih h
          · exact ih h
          · simp only
            rw [hush_sections n h s t true]
            cases consolidateSections n h s t true with
            | error e => rfl
            | ok k => exact ih k
      exact F _ _

theorem hush_cyclic (e : Nat) (l : List Nat) : cyclicDependency (Heap.hush h) e l = (cyclicDependency h e l).hush := by
  unfold cyclicDependency
  simp only
  split
  · simp only [hush_template]
    split
    · rfl
    split <;> rfl
  · rfl

theorem hush_templateOf (d : Copies) (k : Nat) : templateOf d ((Heap.hush h).at k) = templateOf d (h.at k) := by unfold templateOf; rw [hush_copyKey]

theorem hush_pending (k : Nat) : ((Heap.hush h).at k).pending = (h.at k).pending := by unfold Elem.pending; rw [hush_copyKey, hush_deepResolve]

theorem hush_uncopy (k : Nat) : (Heap.hush h).modify k (fun x => { x with copy := none }) = Heap.hush (h.modify k fun x => { x with copy := none }) := by exact modify_hush _ fun _ => by rfl

theorem hush_resolved (k : Nat) : (Heap.hush h).modify k (fun x => { x with deepResolve := false }) = Heap.hush (h.modify k fun x => { x with deepResolve := false }) := by exact modify_hush _ fun _ => by rfl

theorem hush_nonSection (d : Copies) : ∀ (n : Nat) (h : Heap) (e : Nat) (prev : List Nat), resolveNonSection d n (Heap.hush h) e prev = hushRes (resolveNonSection d n h e prev)
  | 0, _, _, _ => rfl
  | n + 1, h, e, prev => by
    unfold resolveNonSection
    split
    · rw [hush_cyclic]; rfl
    simp only [hush_templateOf]
    cases templateOf d (h.at e) with
    | none => rfl
    | some t =>
      simp only [hush_copyKey]
      have A : (if (h.at t).copy.isSome then resolveNonSection d n (Heap.hush h) t (prev ++ [e]) else .ok (Heap.hush h)) =
          hushRes (if (h.at t).copy.isSome then resolveNonSection d n h t (prev ++ [e]) else .ok h) := by
        split
        · exact hush_nonSection d n h t _
        · rfl
      rw [A]
      cases (if (h.at t).copy.isSome then resolveNonSection d n h t (prev ++ [e]) else .ok h) with
      | error x => rfl
      | ok k =>
        simp only [hushRes, hush_consolidate]
        cases consolidateNonSection k e t with
        | error x => rfl
        | ok k => simp only [hush_uncopy]

theorem hush_section (d : Copies) : ∀ (n : Nat) (h : Heap) (s : Nat) (prev : List Nat), resolveSection d n (Heap.hush h) s prev = hushRes (resolveSection d n h s prev)
  | 0, _, _, _ => rfl
  | n + 1, h, s, prev => by
    unfold resolveSection
    split
    · rw [hush_cyclic]; rfl
    refine hushRes_bind ?_ ?_
    · rw [hush_deepResolve, hush_elements]
      split
      · refine hushRes_bind ?_ fun k => by simp only [hush_resolved]; rfl
        refine hushRes_foldlM ?_ _ _
        intro c k
        simp only [hush_type, hush_pending]
        split
        · exact hush_section d n k c _
        · rfl
      · rfl
    · intro h
      simp only [hush_copyKey, hush_templateOf]
      split
      · cases templateOf d (h.at s) with
        | none => rfl
        | some t =>
          simp only [hush_pending]
          refine hushRes_bind ?_ fun k => ?_
          · split
            · exact hush_section d n h t _
            · rfl
          · simp only [hush_length, hush_deepCopy, hush_sections]
            cases consolidateSections (k.length + 1) k s t (k.at s).deepCopy with
            | error x => rfl
            | ok k => simp only [Except.map, hush_uncopy]; rfl
      · rfl

theorem hush_register (d : Copies) (a : Nat) : register (Heap.hush h) d a = (register h d a).mapError RExc.hush := by
  unfold register
  rw [hush_key, hush_template]
  split
  · rfl
  split
  · rfl
  split
  · split <;> rfl
  · rfl

theorem mapError_foldlM {α β : Type} {f g : β → α → Except RExc β} (hf : ∀ b a, g b a = (f b a).mapError RExc.hush) : ∀ (l : List α) (b : β), l.foldlM g b = (l.foldlM f b).mapError RExc.hush
  | [], _ => rfl
  | a :: l, b => by
    simp only [List.foldlM_cons, hf]
    cases f b a with
    | error e => rfl
    | ok b => exact mapError_foldlM hf l b

theorem hush_index : ∀ (n s : Nat) (d : Copies × Copies), indexSection (Heap.hush h) n s d = (indexSection h n s d).mapError RExc.hush
  | 0, _, _ => rfl
  | n + 1, s, d => by
    unfold indexSection
    rw [hush_elements]
    refine mapError_foldlM ?_ _ _
    intro d a
    simp only [hush_type]
    split
    · rw [hush_index n a d]
      cases indexSection h n a d with
      | error x => rfl
      | ok d =>
        simp only [Except.mapError, hush_register]
        cases register h d.1 a <;> rfl
    · rw [hush_register]
      cases register h d.2 a <;> rfl

theorem hush_resolveAll {notFound : Nat → RFail} {one : Heap → Nat → Except RExc Heap} (hn : ∀ k, (notFound k).hush = notFound k) (ho : ∀ h k, one (Heap.hush h) k = hushRes (one h k)) (d : Copies) :
    resolveAll notFound one d (Heap.hush h) = hushRes (resolveAll notFound one d h) := by
  unfold resolveAll
  refine hushRes_foldlM ?_ _ _
  intro c k
  split
  · split
    · rfl
    · simp only [hushRes, RExc.hush, hn]
  · refine hushRes_foldlM ?_ _ _
    intro c k
    simp only [hush_copyKey]
    split
    · exact ho _ _
    · rfl

theorem hush_resolve (c : Ctx) : resolve c.hush = ((resolve c).map Ctx.hush).mapError RExc.hush := by
  unfold resolve
  simp only [Ctx.hush, hush_length, hush_index]
  cases indexSection c.heap (c.heap.length + 1) 0 (c.copySections, c.copyNonSections) with
  | error x => rfl
  | ok d =>
    obtain ⟨ds, dn⟩ := d
    simp only [Except.mapError]
    rw [hush_resolveAll (h := c.heap) (fun _ => rfl) (fun h k => by rw [hush_length, hush_nonSection]) dn]
    cases resolveAll .nonSectionElementNotFound (fun h i => resolveNonSection dn (h.length + 1) h i []) dn c.heap with
    | error x => rfl
    | ok h =>
      simp only [hushRes]
      rw [hush_resolveAll (h := h) (fun _ => rfl) (fun h k => by rw [hush_length, hush_section]) ds]
      cases resolveAll .sectionNotFound (fun h i => resolveSection ds (h.length + 1) h i []) ds h with
      | error x => rfl
      | ok h => rfl

/-! ## Loading -/

def AExc.hush : AExc → AExc
  | .parse k c b => .parse k c.hush b
  | x => x

def PExc.hush : PExc → PExc
  | .analysis e => .analysis e.hush
  | .resolution e => .resolution e.hush

def hushLoad : Except PExc Ctx → Except PExc Ctx
  | .ok c => .ok c.hush
  | .error e => .error e.hush

theorem hush_load (i : Str) : hushLoad (load i) = match analyze i with
    | .error e => .error (.analysis e.hush)
    | .ok c => if c.hush.copySections ≠ [] ∨ c.hush.copyNonSections ≠ [] then
        match resolve c.hush with
        | .error e => .error (.resolution e)
        | .ok c => .ok c
      else .ok c.hush := by
  unfold load
  cases analyze i with
  | error e => rfl
  | ok c =>
    simp only [hush_resolve, show c.hush.copySections = c.copySections from rfl, show c.hush.copyNonSections = c.copyNonSections from rfl]
    split
    · cases resolve c <;> rfl
    · rfl

end Eno
