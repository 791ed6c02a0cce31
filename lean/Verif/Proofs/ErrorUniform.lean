import Verif.Errors

/-! # The reporter is only used for the snippet -/

namespace Eno

variable {ctx : Ctx}

/-- With the options only the snippet changes. -/
def Uniform (ctx : Ctx) (f : Options → Except PyExc ErrObj) : Prop :=
  ∀ o e, f o = .ok e → ∃ report, makeSnippet o ctx report = .ok e.snippet ∧ ∀ o', f o' = (makeSnippet o' ctx report).map fun s => { e with snippet := s }

theorem uniform_fail (x : PyExc) : Uniform ctx fun _ => .error x := by intro o e h; cases h

theorem uniform_bind {α : Type} {x : Except PyExc α} {g : α → Options → Except PyExc ErrObj} (h : ∀ a, Uniform ctx (g a)) : Uniform ctx fun o => x >>= fun a => g a o := by
  intro o e he
  cases hx : x with
  | error y => rw [hx] at he; cases he
  | ok a =>
    subst hx
    exact h a o e he

theorem uniform_snippet {α : Type} {report : Snippet → Except PyExc Snippet} {x : Except PyExc α} {text : α → Msg} {sel : α → Selection} :
    Uniform ctx fun o => makeSnippet o ctx report >>= fun s => x >>= fun a => .ok ⟨text a, s, sel a⟩ := by
  intro o e he
  cases hm : makeSnippet o ctx report with
  | error y => simp only [hm] at he; cases he
  | ok s =>
    simp only [hm] at he
    cases hx : x with
    | error y => rw [hx] at he; cases he
    | ok a =>
      rw [hx] at he
      injection he with he
      subst he
      refine ⟨report, hm, fun o' => ?_⟩
      simp only
      cases makeSnippet o' ctx report <;> rfl

theorem uniform_line (b : Base) (text : Msg) : Uniform ctx fun o => lineError o ctx b text := uniform_snippet (x := selectLine b) (text := fun _ => text) (sel := id)

theorem uniform_analysis (b : Base) (k : FailKind) : Uniform ctx fun o => analysisError o ctx b k := by
  cases k with
  | invalidLine =>
    simp only [analysisError, invalidLine]
    cases unterminatedKey (sourceText ctx.input b) with
    | none => exact uniform_line _ _
    | some c => exact uniform_snippet (x := cursor b .line .ending) (text := fun _ => _) (sel := fun stop => ⟨_, stop⟩)
  | missingListForListItem => exact uniform_line _ _
  | missingFieldsetForFieldsetEntry => exact uniform_line _ _
  | missingElementForContinuation => exact uniform_line _ _
  | sectionHierarchyLayerSkip sup => exact uniform_snippet (x := selectLine b) (text := fun _ => _) (sel := id)
  | unterminatedMultilineField f => exact uniform_snippet (x := selectLine _) (text := fun _ => _) (sel := id)

theorem uniform_resolution (k : RFail) : Uniform ctx fun o => resolutionError o ctx k := by
  cases k with
  | cyclicDependency copy chain => exact uniform_bind fun name => uniform_snippet (x := selectTemplate _) (text := fun _ => _) (sel := id)
  | missingListForListItem x => exact uniform_line _ _
  | missingFieldsetForFieldsetEntry x => exact uniform_line _ _
  | nonSectionElementNotFound copy => exact uniform_bind fun name => uniform_line _ _
  | sectionNotFound copy => exact uniform_bind fun name => uniform_line _ _
  | twoOrMoreTemplatesFound copy first second => exact uniform_bind fun name => uniform_snippet (x := selectLine _) (text := fun _ => _) (sel := id)

theorem uniform_comment (message : Str) (r : Ref) : Uniform ctx fun o => commentError o ctx message r :=
  uniform_bind fun b => uniform_snippet (x := selectComments b _) (text := fun _ => _) (sel := id)

theorem uniform_about (text : Msg) (r : Ref) : Uniform ctx fun o => aboutElement o ctx text r := uniform_snippet (x := selectElement _ r) (text := fun _ => _) (sel := id)

theorem uniform_key (message : Str) (r : Ref) : Uniform ctx fun o => keyError o ctx message r :=
  uniform_bind fun b => uniform_snippet (x := selectKey b) (text := fun _ => _) (sel := id)

theorem uniform_missingComment (r : Ref) : Uniform ctx fun o => missingComment o ctx r :=
  uniform_bind fun b => uniform_snippet (x := selection b .line .beginning b .line .beginning) (text := fun _ => _) (sel := id)

theorem uniform_missingElement (key : Option Str) (parent : Nat) (message : MsgName) : Uniform ctx fun o => missingElement o ctx key parent message := by
  by_cases h : (ctx.heap.at parent).type = .document
  · simp only [missingElement, if_pos h]
    exact uniform_snippet (x := .ok DOCUMENT_BEGIN) (text := fun _ => _) (sel := id)
  · simp only [missingElement, if_neg h]
    exact uniform_snippet (x := selection _ .line .ending _ .line .ending) (text := fun _ => _) (sel := id)

theorem uniform_missingValue (r : Ref) : Uniform ctx fun o => missingValue o ctx r :=
  uniform_bind fun _ => uniform_bind fun p => uniform_snippet (text := fun _ => p.1) (sel := fun stop => ⟨p.2, stop⟩)

theorem uniform_multiple (key : Option Str) (rs : List Ref) (message : MsgName) : Uniform ctx fun o => unexpectedMultipleElements o ctx key rs message := by
  cases rs with
  | nil =>
    intro o e h
    simp only [unexpectedMultipleElements] at h
    cases hm : makeSnippet o ctx (reportElements ctx.heap []) <;> rw [hm] at h <;> cases h
  | cons r rs => exact uniform_snippet (x := selectElement _ r) (text := fun _ => _) (sel := id)

theorem uniform_value (message : Str) (r : Ref) : Uniform ctx fun o => valueError o ctx message r := by
  refine uniform_bind fun b => ?_
  by_cases h1 : (ctx.heap.mirror? r).isSome
  · simp only [if_pos h1]
    exact uniform_snippet (x := selectKey b) (text := fun _ => _) (sel := id)
  · simp only [if_neg h1]
    by_cases h2 : ctx.heap.type r = .mlBegin
    · simp only [if_pos h2]
      cases r with
      | item i j => exact uniform_fail _
      | entry i j => exact uniform_fail _
      | elem i =>
        simp only
        cases (ctx.heap.at i).lines with
        | none => exact uniform_snippet (x := selection b .line .ending b .line .ending) (text := fun _ => _) (sel := id)
        | some ls =>
          simp only
          cases ls.head? with
          | none =>
            intro o e h
            simp only at h
            cases hm : makeSnippet o ctx (reportMultilineValue (ctx.heap.at i)) <;> rw [hm] at h <;> cases h
          | some x =>
            cases ls.getLast? with
            | none =>
              intro o e h
              simp only at h
              cases hm : makeSnippet o ctx (reportMultilineValue (ctx.heap.at i)) <;> rw [hm] at h <;> cases h
            | some y => exact uniform_snippet (x := selection x .line .beginning y .line .ending) (text := fun _ => _) (sel := id)
    · simp only [if_neg h2]
      intro o e he
      have : Uniform ctx fun o => makeSnippet o ctx (reportElement ctx.heap r) >>= fun s =>
          (valueStart b (ctx.heap.type r = .listItem) >>= fun start => valueStop b (ctx.heap.continuations r) >>= fun stop => .ok (start, stop)) >>= fun p =>
            .ok ⟨.valueError message, s, p.1, p.2⟩ := uniform_snippet (text := fun _ => .valueError message) (sel := fun p : Cursor × Cursor => ⟨p.1, p.2⟩)
      have eq : (fun o => makeSnippet o ctx (reportElement ctx.heap r) >>= fun s =>
          (valueStart b (ctx.heap.type r = .listItem) >>= fun start => valueStop b (ctx.heap.continuations r) >>= fun stop => .ok (start, stop)) >>= fun p =>
            (.ok ⟨.valueError message, s, p.1, p.2⟩ : Except PyExc ErrObj)) = fun o => (do
        let snippet ← makeSnippet o ctx (reportElement ctx.heap r)
        let start ← valueStart b (ctx.heap.type r = .listItem)
        let stop ← valueStop b (ctx.heap.continuations r)
        .ok ⟨.valueError message, snippet, start, stop⟩) := by
        funext o
        cases makeSnippet o ctx (reportElement ctx.heap r) with
        | error _ => rfl
        | ok s =>
          cases valueStart b (ctx.heap.type r = .listItem) with
          | error _ => rfl
          | ok _ => cases valueStop b (ctx.heap.continuations r) <;> rfl
      rw [eq] at this
      exact this o e he

end Eno
