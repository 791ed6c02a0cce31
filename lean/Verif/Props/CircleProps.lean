import Verif.Props.FoundProps
import Verif.Props.ContextProps

/-!
# Sections that are in the end merged with themselves

C46, C63, C65 and C77 leave out documents in which a section is, in the end, merged with itself. For those they are false of the code: the first call on such a section that
needs its elements raises `RecursionError`, whatever the recursion limit is.
-/

namespace Eno.El

variable {E : Env} {w : World} {o : Nat} {e : PyExc}

/-- The elements of a section are looked for when they are first needed; if they cannot be found, this is raised. -/
theorem elements_fail (hc : (w.at o).children = none) (hf : instElements E.ctx.heap E.depth (w.at o).ref.idx [] = .error e) : (sectionElements E o w).1 = .error (.py e) := by
  rw [madeElements_ok] at hf
  unfold sectionElements
  rw [bind_ok obj_run, hc]
  simp only
  revert hf
  generalize madeElements E.ctx.heap E.depth (w.at o).ref.idx [] = p
  intro hf
  obtain ⟨f, xs⟩ := p
  cases f with
  | none => cases hf
  | some e' => cases hf; rfl

theorem fails_bind {α β : Type} {m : Api α} {f : α → Api β} {x : Exc} (h : (m w).1 = .error x) : ((m >>= f) w).1 = .error x := by
  rw [bind_run]
  revert h
  generalize m w = p
  intro h
  obtain ⟨r, w1⟩ := p
  cases h
  rfl

/-- All calls that need the elements of a section raise if they cannot be found. -/
theorem calls_fail (ho : o < w.objs.length) (hx : (w.at o).cls = .of .section) (hc : (w.at o).children = none) (hf : instElements E.ctx.heap E.depth (w.at o).ref.idx [] = .error e) :
    (run E o .touch w).1 = .error (.py e) ∧ (∀ b, (run E o (.allElementsRequired b) w).1 = .error (.py e)) ∧ (∀ m only skip, (run E o (.assertAllTouched m only skip) w).1 = .error (.py e)) ∧
    ((∃ k, E.ctx.heap.key? (w.at o).ref = some k) → (run E o .repr w).1 = .error (.py e)) := by
  refine ⟨?_, fun b => ?_, fun m only skip => ?_, fun ⟨k, hk⟩ => ?_⟩
  · unfold run
    rw [bind_ok obj_run, hx]
    refine fails_bind ?_
    unfold touch
    simp only
    rw [bind_ok (m := objectCount) (a := w.objs.length) (w' := w) rfl]
    unfold touchSection
    rw [bind_ok (m := setTouched o) (a := ()) (w' := (setTouched o w).2) rfl]
    refine fails_bind (elements_fail ?_ ?_)
    · unfold setTouched; rw [at_assign_self ho]; exact hc
    · unfold setTouched; rw [at_assign_self ho]; exact hf
  · unfold run
    rw [bind_ok obj_run, hx]
    simp only
    rw [bind_ok (m := objectCount) (a := w.objs.length) (w' := w) rfl]
    refine fails_bind ?_
    unfold requireAll
    rw [bind_ok (m := assign o (fun x => { x with required := b })) (a := ()) (w' := (assign o (fun x => { x with required := b }) w).2) rfl]
    refine fails_bind (elements_fail ?_ ?_)
    · rw [at_assign_self ho]; exact hc
    · rw [at_assign_self ho]; exact hf
  · unfold run
    rw [bind_ok obj_run, hx]
    simp only
    refine fails_bind ?_
    unfold assertAllTouched
    exact fails_bind (elements_fail hc hf)
  · unfold run
    rw [bind_ok obj_run, hx]
    simp only
    have : (repr E (.of .section) o w).1 = .error (.py e) := by
      unfold repr
      rw [bind_ok obj_run]
      simp only
      have key : ownKey E o w = (.ok k, w) := by
        unfold ownKey
        rw [bind_ok obj_run, hk]
        rfl
      split
      · exact fails_bind (elements_fail hc hf)
      · rw [bind_ok key]
        exact fails_bind (elements_fail hc hf)
    rw [map_run]
    revert this
    generalize repr E (.of .section) o w = p
    intro h
    obtain ⟨r, w1⟩ := p
    cases h
    rfl

/-- The document of `C32_refuted`. -/
def circleText : Str := chars!"# S << T\n## K\nx: 1\n# T\n## K < K"

/-- What is claimed of `touch()` (C65), `assert_all_touched()` (C46), `all_elements_required()` (C63) and `repr` (C77) is false of the code without the restriction: for this section, whatever
the recursion limit. -/
theorem circle_refuted : ∃ ctx, load circleText = .ok ctx ∧ ∀ depth, ∃ w o, Reach ⟨{}, ctx, depth⟩ w ∧ IsA w o (.of .section) ∧
    (run ⟨{}, ctx, depth⟩ o .touch w).1 = .error (.py .recursionError) ∧ (∀ b, (run ⟨{}, ctx, depth⟩ o (.allElementsRequired b) w).1 = .error (.py .recursionError)) ∧
    (∀ m only skip, (run ⟨{}, ctx, depth⟩ o (.assertAllTouched m only skip) w).1 = .error (.py .recursionError)) ∧ (run ⟨{}, ctx, depth⟩ o .repr w).1 = .error (.py .recursionError) := by
  obtain ⟨ctx, hl, ht, hf⟩ := C32_refuted
  refine ⟨ctx, hl, fun depth => ?_⟩
  have hlen : 2 < ctx.heap.length ∧ ctx.heap.key? (.elem 2) = some (chars!"K") := by
    have h : ∀ c, load circleText = .ok c → 2 < c.heap.length ∧ c.heap.key? (.elem 2) = some (chars!"K") := by
      intro c hc
      have e : (match load circleText with | .ok c => some (decide (2 < c.heap.length), c.heap.key? (.elem 2)) | .error _ => none) = some (true, some (chars!"K")) := by decide +kernel
      rw [hc] at e
      simp only [Option.some.injEq, Prod.mk.injEq, decide_eq_true_eq] at e
      exact e
    exact h ctx hl
  have hfl := Spec.FirstLine.elem (h := ctx.heap) (i := 2) (by omega) hlen.1
  obtain ⟨w1, h1, R, hx, hr⟩ := (C78_to (E := ⟨{}, ctx, depth⟩) (k := .section) hl hfl).1 (fits_iff.2 (by show Kind.fits .section (ctx.heap.at 2).type = true; rw [ht]; rfl))
  have hq : (to ⟨{}, ctx, depth⟩ .section 0 (World.found (.elem 2))) = (.ok 1, yieldedAs .section 0 (World.found (.elem 2))) := by
    rw [to_run]
    show (if Kind.section ≠ Kind.section ∧ _ then _ else _) = _
    rw [if_neg (by simp)]
    rw [if_pos (by show Kind.fits .section (ctx.heap.at 2).type = true; rw [ht]; rfl)]
    rfl
  have hw : w1 = yieldedAs .section 0 (World.found (.elem 2)) := by
    rw [to_call (.inr ⟨Nat.one_pos, rfl⟩), map_run, hq] at h1
    injection h1 with _ h1
    exact h1.symm
  have hc : (w1.at 1).children = none := by rw [hw]; rfl
  have C := calls_fail (E := ⟨{}, ctx, depth⟩) (o := 1) (w := w1) (e := .recursionError) hx.1 hx.2 hc (by rw [hr]; exact hf depth)
  exact ⟨w1, 1, R, hx, C.1, C.2.1, C.2.2.1, C.2.2.2 ⟨_, by rw [hr]; exact hlen.2⟩⟩

end Eno.El
