import Verif.Spec.Programs
import Verif.Props.SeveralProps

/-! # The same complaints are raised whatever the reporter -/

namespace Eno

open Spec

variable {input : Str} {ctx : Ctx} {o o' : Options} {α : Type}

/-- Two ways to make an error: both fail alike or make the same error, apart from the snippet. -/
def Alike2 (x y : Except PyExc ErrObj) : Prop :=
  match x, y with
  | .ok e, .ok e' => e'.text = e.text ∧ e'.selection = e.selection
  | .error a, .error b => a = b
  | _, _ => False

theorem alike2_refl (x : Except PyExc ErrObj) : Alike2 x x := by cases x <;> simp [Alike2]

/-- Snippets are made or not, whatever the reporter. -/
structure Steady2 (ctx : Ctx) (o o' : Options) : Prop where
  complete : Complete ctx
  here : o.reporter ≠ .terminal
  there : o'.reporter ≠ .terminal

theorem alike2_bind {x : Except PyExc α} {g g' : α → Except PyExc ErrObj} (h : ∀ a, Alike2 (g a) (g' a)) : Alike2 (x >>= g) (x >>= g') := by
  cases x with
  | error y => exact alike2_refl _
  | ok a => exact h a

theorem alike2_snippet (S : Steady2 ctx o o') {report : Snippet → Except PyExc Snippet} {x : Except PyExc α} {text : α → Msg} {sel : α → Selection} :
    Alike2 (makeSnippet o ctx report >>= fun s => x >>= fun a => .ok ⟨text a, s, sel a⟩) (makeSnippet o' ctx report >>= fun s => x >>= fun a => .ok ⟨text a, s, sel a⟩) := by
  cases hr : report (List.replicate ctx.lineCount none) with
  | error py => rw [snippet_error S.complete hr o, snippet_error S.complete hr o']; exact alike2_refl _
  | ok s =>
    obtain ⟨a, ha⟩ := makeSnippet_ok S.complete hr S.here
    obtain ⟨b, hb⟩ := makeSnippet_ok S.complete hr S.there
    rw [ha, hb]
    cases x with
    | error y => exact rfl
    | ok x => exact ⟨rfl, rfl⟩

theorem alike2_fails (S : Steady2 ctx o o') {report : Snippet → Except PyExc Snippet} {y : PyExc} :
    Alike2 (makeSnippet o ctx report >>= fun _ => .error y) (makeSnippet o' ctx report >>= fun _ => .error y) := by
  cases hr : report (List.replicate ctx.lineCount none) with
  | error py => rw [snippet_error S.complete hr o, snippet_error S.complete hr o']; exact alike2_refl _
  | ok s =>
    obtain ⟨a, ha⟩ := makeSnippet_ok S.complete hr S.here
    obtain ⟨b, hb⟩ := makeSnippet_ok S.complete hr S.there
    rw [ha, hb]
    exact rfl

theorem alike2_complaint (S : Steady2 ctx o o') (v : Complaint) : Alike2 (v.raise o ctx) (v.raise o' ctx) := by
  have about : ∀ text r, Alike2 (aboutElement o ctx text r) (aboutElement o' ctx text r) := fun text r =>
    alike2_snippet S (x := selectElement _ r) (text := fun _ => text) (sel := id)
  cases v with
  | comment m r => exact alike2_bind fun b => alike2_snippet S (x := selectComments b _) (text := fun _ => _) (sel := id)
  | element m r => exact about _ _
  | key m r => exact alike2_bind fun b => alike2_snippet S (x := selectKey b) (text := fun _ => _) (sel := id)
  | missingComment r => exact alike2_bind fun b => alike2_snippet S (x := selection b .line .beginning b .line .beginning) (text := fun _ => _) (sel := id)
  | missingElement k p n =>
    by_cases h : (ctx.heap.at p).type = .document
    · simp only [Complaint.raise, missingElement, if_pos h]
      exact alike2_snippet S (x := .ok DOCUMENT_BEGIN) (text := fun _ => _) (sel := id)
    · simp only [Complaint.raise, missingElement, if_neg h]
      exact alike2_snippet S (x := selection _ .line .ending _ .line .ending) (text := fun _ => _) (sel := id)
  | missingValue r => exact alike2_bind fun _ => alike2_bind fun p => alike2_snippet S (text := fun _ => p.1) (sel := fun stop => ⟨p.2, stop⟩)
  | unexpected m r => exact about _ _
  | wrongType k r n => exact about _ _
  | several k rs n =>
    cases rs with
    | nil =>
      simp only [Complaint.raise, unexpectedMultipleElements]
      exact alike2_fails S
    | cons r rs => exact alike2_snippet S (x := selectElement _ r) (text := fun _ => _) (sel := id)
  | value m r =>
    refine alike2_bind fun b => ?_
    by_cases h1 : (ctx.heap.mirror? r).isSome
    · simp only [if_pos h1]
      exact alike2_snippet S (x := selectKey b) (text := fun _ => _) (sel := id)
    · simp only [if_neg h1]
      by_cases h2 : ctx.heap.type r = .mlBegin
      · simp only [if_pos h2]
        cases r with
        | item i j => exact alike2_refl _
        | entry i j => exact alike2_refl _
        | elem i =>
          simp only
          cases (ctx.heap.at i).lines with
          | none => exact alike2_snippet S (x := selection b .line .ending b .line .ending) (text := fun _ => _) (sel := id)
          | some ls =>
            simp only
            cases ls.head? with
            | none => exact alike2_fails S
            | some x =>
              cases ls.getLast? with
              | none => exact alike2_fails S
              | some y => exact alike2_snippet S (x := selection x .line .beginning y .line .ending) (text := fun _ => _) (sel := id)
      · simp only [if_neg h2]
        have := alike2_snippet S (report := reportElement ctx.heap r) (text := fun _ => Msg.valueError m) (sel := fun p : Cursor × Cursor => ⟨p.1, p.2⟩)
          (x := valueStart b (ctx.heap.type r = .listItem) >>= fun start => valueStop b (ctx.heap.continuations r) >>= fun stop => .ok (start, stop))
        have eq : ∀ o, (makeSnippet o ctx (reportElement ctx.heap r) >>= fun s =>
          (valueStart b (ctx.heap.type r = .listItem) >>= fun start => valueStop b (ctx.heap.continuations r) >>= fun stop => .ok (start, stop)) >>= fun p =>
            (.ok ⟨.valueError m, s, p.1, p.2⟩ : Except PyExc ErrObj)) = (do
          let snippet ← makeSnippet o ctx (reportElement ctx.heap r)
          let start ← valueStart b (ctx.heap.type r = .listItem)
          let stop ← valueStop b (ctx.heap.continuations r)
          .ok ⟨.valueError m, snippet, start, stop⟩) := by
          intro o
          cases makeSnippet o ctx (reportElement ctx.heap r) with
          | error _ => rfl
          | ok s =>
            cases valueStart b (ctx.heap.type r = .listItem) with
            | error _ => rfl
            | ok _ => cases valueStop b (ctx.heap.continuations r) <;> rfl
        simp only [eq] at this
        exact this

/-! ## Complaints about the document -/

/-- Like `Complaint.Proper`, but possibly about the document itself. -/
def Likely (h : Heap) : Complaint → Prop
  | .comment _ r => r = .elem 0 ∨ ∃ b, FirstLine h r b
  | .element _ r => r = .elem 0 ∨ ∃ b, FirstLine h r b
  | .key _ r => r = .elem 0 ∨ ∃ b, FirstLine h r b
  | .missingComment r => r = .elem 0 ∨ ∃ b, FirstLine h r b
  | .unexpected _ r => r = .elem 0 ∨ ∃ b, FirstLine h r b
  | .wrongType _ r n => (r = .elem 0 ∨ ∃ b, FirstLine h r b) ∧ n ≠ .expectedFieldsetEntry ∧ n ≠ .expectedListItem
  | v => v.Proper h

theorem bind_error' {x : Except PyExc α} {y : PyExc} {g : α → Except PyExc ErrObj} {e : ErrObj} (hx : x = .error y) : x >>= g ≠ .ok e := by subst hx; intro h; cases h

/-- No errors are made about the document itself, but for missing elements in it. -/
theorem likely_proper {v : Complaint} {e : ErrObj} (hd : (ctx.heap.at 0).type = .document) (h : Likely ctx.heap v) (he : v.raise o ctx = .ok e) : v.Proper ctx.heap := by
  have hb : ctx.heap.base? (.elem 0) = .error .keyError := by simp [Heap.base?, hd]
  have hs : selectElement ctx.heap (.elem 0) = .error .keyError := by unfold selectElement; rw [hb]; rfl
  have about : ∀ {text}, aboutElement o ctx text (.elem 0) ≠ .ok e := by
    intro text h
    unfold aboutElement at h
    cases hm : makeSnippet o ctx (reportElement ctx.heap (.elem 0)) with
    | error x => rw [hm] at h; cases h
    | ok s => rw [hm, hs] at h; cases h
  cases v with
  | comment m r => exact h.elim (fun q => by subst q; exact absurd he (bind_error' hb)) id
  | element m r => exact h.elim (fun q => by subst q; exact absurd he about) id
  | key m r => exact h.elim (fun q => by subst q; exact absurd he (bind_error' hb)) id
  | missingComment r => exact h.elim (fun q => by subst q; exact absurd he (bind_error' hb)) id
  | unexpected m r => exact h.elim (fun q => by subst q; exact absurd he about) id
  | value m r => exact h
  | missingValue r => exact h
  | missingElement k p n => exact h
  | several k rs n => exact h
  | wrongType k r n => exact ⟨h.1.elim (fun q => by subst q; exact absurd he about) id, h.2⟩

end Eno
