import Verif.Proofs.WorldTouch

/-! # A document for examples -/

namespace Eno.El

open Spec

/-- An empty element, two fields with the same key, a list, and a section with a field. -/
def sampleText : Str := chars!"a:\nb: 1\nb: 2\nl:\n- x\n# s\nc: 3\n"

/-- The object that a call returns. -/
def gotObj : Except Exc Val → Option Nat
  | .ok (.obj y) => some y
  | _ => none

theorem gotObj_iff {x : Except Exc Val} {y : Nat} : gotObj x = some y ↔ x = .ok (.obj y) := by
  constructor
  · intro h
    unfold gotObj at h
    split at h <;> cases h
    rfl
  · rintro rfl; rfl

/-- The objects that a call returns. -/
def gotObjs : Except Exc Val → Option (List Nat)
  | .ok (.list xs) => some (xs.filterMap fun | .obj y => some y | _ => none)
  | _ => none

/-- The call raises `TypeError`. -/
def isTypeError {α} : Except Exc α → Bool
  | .error (.py .typeError) => true
  | _ => false

theorem isTypeError_iff {α} {x : Except Exc α} : isTypeError x = true ↔ x = .error (.py .typeError) := by
  constructor
  · intro h
    unfold isTypeError at h
    split at h
    · rfl
    · cases h
  · rintro rfl; rfl

/-- After `elements()`. -/
def sampleOpen (E : Env) : World := (run E 0 (.many .any none) World.start).2

/-- After `list('a')`. -/
def sampleYielded (E : Env) : World := (run E 0 (.one (.kind .list) (some (chars!"a")) none) World.start).2

/-- After `field('a')`. -/
def sampleField (E : Env) : World := (run E 0 (.one (.kind .field) (some (chars!"a")) none) World.start).2

/-- After `list('l')`. -/
def sampleList (E : Env) : World := (run E 0 (.one (.kind .list) (some (chars!"l")) none) World.start).2

/-- What is known about the sample. -/
structure Sample (E : Env) : Prop where
  loaded : load sampleText = .ok E.ctx
  depth : E.ctx.heap.length + 1 ≤ E.depth
  elements : Elements E (World.start.at 0) [1, 2, 3, 4, 5]
  x : withKey E.ctx.heap (some (chars!"x")) [1, 2, 3, 4, 5] = []
  a : withKey E.ctx.heap (some (chars!"a")) [1, 2, 3, 4, 5] = [1]
  b : withKey E.ctx.heap (some (chars!"b")) [1, 2, 3, 4, 5] = [2, 3]
  l : withKey E.ctx.heap (some (chars!"l")) [1, 2, 3, 4, 5] = [4]
  fieldA : Kind.fits .field (E.ctx.heap.at 1).type = true
  fieldB : Kind.fits .field (E.ctx.heap.at 2).type = true ∧ Kind.fits .field (E.ctx.heap.at 3).type = true
  fieldL : Kind.fits .field (E.ctx.heap.at 4).type = false
  listA : Kind.fits .list (E.ctx.heap.at 1).type = true
  opened : ((sampleOpen E).at 0).children = some [1, 2, 3, 4, 5] ∧ ((sampleOpen E).at 1).cls = .sectionElement ∧ ((sampleOpen E).at 1).yielded = none ∧ 1 < (sampleOpen E).objs.length ∧
    gotObjs (run E 0 (.many .any none) World.start).1 = some [1, 2, 3, 4, 5]
  to : gotObj (run E 1 (.to .field) (sampleOpen E)).1 = some 6
  yielded : ((sampleYielded E).at 0).children = some [1, 2, 3, 4, 5] ∧ ((sampleYielded E).at 1).cls = .sectionElement ∧ ((sampleYielded E).at 1).ref = .elem 1 ∧
    ((sampleYielded E).at 1).parent = some 0 ∧ ((sampleYielded E).at 1).yielded = some .list ∧ 1 < (sampleYielded E).objs.length ∧ ((sampleYielded E).at 0).cls = .of .section ∧
    ((sampleYielded E).at 0).ref = .elem 0
  refused : isTypeError (run E 0 (.one (.kind .field) (some (chars!"a")) none) (sampleYielded E)).1 = true
  field : ((sampleField E).at 6).cls = .of .field ∧ 6 < (sampleField E).objs.length
  list : ((sampleList E).at 6).cls = .of .list ∧ 6 < (sampleList E).objs.length ∧ Items E ((sampleList E).at 6) [.item 4 0]
  comments : E.ctx.heap.comments ((sampleField E).at 6).ref = none

theorem sample : ∃ E, Sample E := by
  obtain ⟨ctx, h0, h1, h2, h3, h4, h5, h6, h7, h8, h9, h10, h11, h12, h13, h14, h15, h16, h17⟩ : ∃ ctx, load sampleText = .ok ctx ∧ ctx.heap.length + 1 ≤ 99 ∧
      (instElements ctx.heap 99 0 []).toOption = some [1, 2, 3, 4, 5] ∧
      withKey ctx.heap (some (chars!"x")) [1, 2, 3, 4, 5] = [] ∧
      withKey ctx.heap (some (chars!"a")) [1, 2, 3, 4, 5] = [1] ∧
      withKey ctx.heap (some (chars!"b")) [1, 2, 3, 4, 5] = [2, 3] ∧
      withKey ctx.heap (some (chars!"l")) [1, 2, 3, 4, 5] = [4] ∧
      Kind.fits .field (ctx.heap.at 1).type = true ∧
      (Kind.fits .field (ctx.heap.at 2).type = true ∧ Kind.fits .field (ctx.heap.at 3).type = true) ∧
      Kind.fits .field (ctx.heap.at 4).type = false ∧
      Kind.fits .list (ctx.heap.at 1).type = true ∧
      (((sampleOpen ⟨{}, ctx, 99⟩).at 0).children = some [1, 2, 3, 4, 5] ∧ ((sampleOpen ⟨{}, ctx, 99⟩).at 1).cls = .sectionElement ∧
        ((sampleOpen ⟨{}, ctx, 99⟩).at 1).yielded = none ∧ 1 < (sampleOpen ⟨{}, ctx, 99⟩).objs.length ∧
        gotObjs (run ⟨{}, ctx, 99⟩ 0 (.many .any none) World.start).1 = some [1, 2, 3, 4, 5]) ∧
      gotObj (run ⟨{}, ctx, 99⟩ 1 (.to .field) (sampleOpen ⟨{}, ctx, 99⟩)).1 = some 6 ∧
      (((sampleYielded ⟨{}, ctx, 99⟩).at 0).children = some [1, 2, 3, 4, 5] ∧ ((sampleYielded ⟨{}, ctx, 99⟩).at 1).cls = .sectionElement ∧
        ((sampleYielded ⟨{}, ctx, 99⟩).at 1).ref = .elem 1 ∧ ((sampleYielded ⟨{}, ctx, 99⟩).at 1).parent = some 0 ∧ ((sampleYielded ⟨{}, ctx, 99⟩).at 1).yielded = some .list ∧
        1 < (sampleYielded ⟨{}, ctx, 99⟩).objs.length ∧ ((sampleYielded ⟨{}, ctx, 99⟩).at 0).cls = .of .section ∧ ((sampleYielded ⟨{}, ctx, 99⟩).at 0).ref = .elem 0) ∧
      isTypeError (run ⟨{}, ctx, 99⟩ 0 (.one (.kind .field) (some (chars!"a")) none) (sampleYielded ⟨{}, ctx, 99⟩)).1 = true ∧
      (((sampleField ⟨{}, ctx, 99⟩).at 6).cls = .of .field ∧ 6 < (sampleField ⟨{}, ctx, 99⟩).objs.length) ∧
      (((sampleList ⟨{}, ctx, 99⟩).at 6).cls = .of .list ∧ 6 < (sampleList ⟨{}, ctx, 99⟩).objs.length ∧ (instItems ctx.heap 99 ((sampleList ⟨{}, ctx, 99⟩).at 6).ref.idx).toOption = some [.item 4 0]) ∧
      ctx.heap.comments ((sampleField ⟨{}, ctx, 99⟩).at 6).ref = none := by
    refine ⟨_, rfl, ?_, ?_, ?_, ?_, ?_, ?_, ?_, ?_, ?_, ?_, ?_, ?_, ?_, ?_, ?_, ?_, ?_⟩ <;> decide +kernel
  have ok : ∀ {α} {x : Except PyExc α} {a : α}, x.toOption = some a → x = .ok a := fun {α x a} h => by cases x <;> cases h; rfl
  exact ⟨⟨{}, ctx, 99⟩, h0, h1, ok h2, h3, h4, h5, h6, h7, h8, h9, h10, h11, h12, h13, h14, h15, ⟨h16.1, h16.2.1, ok h16.2.2⟩, h17⟩

/-! ## Parts of examples -/

theorem start_reach {E : Env} : Reach E World.start := ⟨_, .parsed, 0, .done⟩

theorem start_section : IsA World.start 0 (.of .section) := ⟨by decide, rfl⟩

theorem start_free {i : Nat} {k : Kind} : FreeFor World.start 0 i k := by
  intro y k' h
  obtain ⟨ys, h, _⟩ := h.listed
  cases h

theorem noDeep {h : Heap} (h2 : (h.all fun x => !x.deepCopy) = true) : NoDeepCopies h := by
  intro a
  unfold Heap.at
  rw [List.getD_eq_getElem?_getD]
  cases e : h[a]? with
  | none => rfl
  | some x =>
    have := List.all_eq_true.1 h2 x (List.mem_of_getElem? e)
    simpa using this

theorem sample_analyzed : ∃ ctx0, analyze sampleText = .ok ctx0 ∧ NoDeepCopies ctx0.heap := by
  obtain ⟨c, h1, h2⟩ : ∃ c, analyze sampleText = .ok c ∧ (c.heap.all fun x => !x.deepCopy) = true := by
    refine ⟨_, rfl, ?_⟩; decide +kernel
  exact ⟨c, h1, noDeep h2⟩

theorem open_reach {E : Env} : Reach E (sampleOpen E) := (Leads.one (E := E) (by exact trivial) 0).reach
theorem yielded_reach {E : Env} : Reach E (sampleYielded E) := (Leads.one (E := E) (by exact trivial) 0).reach
theorem field_reach {E : Env} : Reach E (sampleField E) := (Leads.one (E := E) (by exact trivial) 0).reach
theorem list_reach {E : Env} : Reach E (sampleList E) := (Leads.one (E := E) (by exact trivial) 0).reach

end Eno.El
