import Verif.Proofs.TerminalRows
import Verif.Proofs.ErrorUniform
import Verif.Spec.Complaint

/-!
# Properties of the terminal reporter, and of the choice of a reporter

`screen out` is what a terminal shows when `out` is written to it: characters and how they look.
-/

namespace Eno

open Spec

variable {input : Str} {ctx : Ctx} {o : Options}

/-! ## C71 -/

/-- Whatever is reported about a document: the terminal reporter prints something exactly if none of the rows has the operator of a deep copy, and then a terminal shows the rows
that the text reporter prints, with each character in the colour of the range that it is in. (The document and the source must not contain escape characters themselves.) -/
theorem C71_snippet (hl : load input = .ok ctx) {report : Snippet → Except PyExc Snippet} {s : Snippet} (hr : report (List.replicate ctx.lineCount none) = .ok s) : ∃ rows,
    makeSnippet { o with reporter := .text } ctx report = .ok (plainSnippet o (rows.map (TermRow.row input))) ∧ AboutLines ctx rows ∧
    ((∃ out, makeSnippet { o with reporter := .terminal } ctx report = .ok out) ↔ ∀ x ∈ rows, ¬ x.Deep) ∧
    (escape ∉ input → (∀ s, o.source = some s → escape ∉ s) → ∀ out, makeSnippet { o with reporter := .terminal } ctx report = .ok out →
      screen out = sourceShown (max 4 (decimal ctx.lineCount).length) o.source ++ below (rows.map (TermRow.shown input (max 4 (decimal ctx.lineCount).length)))) := by
  obtain ⟨_, R⟩ := reported_load hl
  exact R.terminal hr

/-- For parse errors of the resolver: where the text reporter reports an error, the terminal reporter reports the same error with the same rows, unless a row has the operator of a
deep copy. -/
theorem C71_parse {e : ErrObj} (ha : analyze input = .ok ctx) (h : parse { o with reporter := .text } input = .error (.parseError e)) : ∃ rows : List TermRow,
    e.snippet = plainSnippet o (rows.map (TermRow.row input)) ∧ AboutLines ctx rows ∧
    ((∀ x ∈ rows, ¬ x.Deep) → ∃ out, parse { o with reporter := .terminal } input = .error (.parseError { e with snippet := out }) ∧
      (escape ∉ input → (∀ s, o.source = some s → escape ∉ s) →
        screen out = sourceShown (max 4 (decimal ctx.lineCount).length) o.source ++ below (rows.map (TermRow.shown input (max 4 (decimal ctx.lineCount).length))))) ∧
    ((∃ x ∈ rows, x.Deep) → parse { o with reporter := .terminal } input = .error (.py .keyError)) := by
  obtain ⟨C, ok, hin⟩ := complete_analyze ha
  have hk : ∃ k heap, load input = .error (.resolution (.parse k heap)) ∧ ∀ o, parse o input = .error (raiseParse (resolutionError o { ctx with heap := heap } k)) := by
    unfold parse at h
    rw [ha] at h
    simp only at h
    split at h
    · cases h
    · rename_i k heap hl
      refine ⟨k, heap, hl, fun o => ?_⟩
      unfold parse
      rw [ha]
      simp only [hl]
    · cases h
    · cases h
  obtain ⟨k, heap, hl, hp⟩ := hk
  have S : Shadow ctx.heap heap := by
    obtain ⟨c, hc, hr⟩ := load_error hl
    rw [ha] at hc; injection hc with hc; subst hc
    have S := shadow_resolve ctx
    rw [hr] at S
    exact S
  have R : Reported input ctx { ctx with heap := heap } := ⟨ha, S, hin, rfl, rfl⟩
  rw [hp] at h
  cases hx : resolutionError { o with reporter := .text } { ctx with heap := heap } k with
  | error x => rw [hx] at h; cases h
  | ok e' =>
    rw [hx] at h
    injection h with h
    injection h with h
    subst h
    obtain ⟨report, h1, h2⟩ := uniform_resolution k { o with reporter := .text } e' hx
    have h2 : ∀ o', resolutionError o' { ctx with heap := heap } k = (makeSnippet o' { ctx with heap := heap } report).map fun s => { e' with snippet := s } := h2
    obtain ⟨s, hs⟩ : ∃ s, report (List.replicate ctx.lineCount none) = .ok s := by
      unfold makeSnippet at h1
      cases hi : buildIndex { ctx with heap := heap } with
      | error x => rw [hi] at h1; cases h1
      | ok index =>
        cases hr : report (List.replicate ctx.lineCount none) with
        | error x => simp only [hi, hr] at h1; cases h1
        | ok s => exact ⟨s, rfl⟩
    obtain ⟨rows, r1, r2, r3, r4⟩ := R.terminal (o := o) hs
    rw [r1] at h1
    injection h1 with h1
    have r2' : AboutLines ctx rows := by
      intro m n b hm
      have := r2 m n b hm
      cases b with
      | none => exact fun b hb => this b ((shadow_instructions ok S b).2 hb)
      | some b => exact ⟨(shadow_instructions ok S b).1 this.1, this.2⟩
    refine ⟨rows, h1.symm, r2', ?_, ?_⟩
    · intro hd
      obtain ⟨out, ho⟩ := r3.2 hd
      refine ⟨out, ?_, fun hE hS => r4 hE hS out ho⟩
      rw [hp, h2, ho]
      rfl
    · rintro ⟨x, hx, hd⟩
      rw [hp, h2]
      cases ho : makeSnippet { o with reporter := .terminal } { ctx with heap := heap } report with
      | ok out => exact absurd hd (r3.1 ⟨out, ho⟩ x hx)
      | error x =>
        have : x = .keyError := by
          obtain ⟨index, hi, _⟩ := R.indexed
          unfold makeSnippet at ho
          simp only [hi] at ho
          have hs' : report (List.replicate ({ ctx with heap := heap } : Ctx).lineCount none) = .ok s := hs
          rw [hs'] at ho
          exact print_fails ho
        subst this
        rfl

/-- The template `b` of `a` is missing; the comment and the key look different, the emphasised number is on red. -/
example : ∃ e ctx, analyze (chars!"> c\na < b") = .ok ctx ∧ parse { reporter := .text } (chars!"> c\na < b") = .error (.parseError e) ∧
    escape ∉ (chars!"> c\na < b") := by
  refine ⟨_, _, rfl, rfl, ?_⟩; decide +kernel

example : (match parse { reporter := .terminal } (chars!"> c\na < b") with
    | .error (.parseError e) => screen e.snippet ==
      cells [chars!"40"] (chars!"      1 ") ++ (' ', []) :: cells [chars!"90"] (chars!"> c") ++ ('\n', []) ::
      cells [chars!"30", chars!"101"] (chars!" >    2 ") ++ (' ', []) :: cells [chars!"1", chars!"97"] (chars!"a") ++ (' ', []) :: cells [chars!"37"] (chars!"<") ++
        (' ', []) :: cells [chars!"1", chars!"97"] (chars!"b")
    | _ => false) = true := by decide +kernel

/-! ## C72 -/

theorem snippet_made {report : Snippet → Except PyExc Snippet} {s : Str} {o o' : Options} (h : makeSnippet o ctx report = .ok s) (ho : o'.reporter ≠ .terminal) :
    ∃ s', makeSnippet o' ctx report = .ok s' := by
  unfold makeSnippet at h ⊢
  cases hi : buildIndex ctx with
  | error x => rw [hi] at h; cases h
  | ok index =>
    cases hr : report (List.replicate ctx.lineCount none) with
    | error x => simp only [hi, hr] at h; cases h
    | ok s =>
      simp only
      cases hq : o'.reporter with
      | text => simp only [text_print]; exact ⟨_, rfl⟩
      | html => simp only [html_print]; exact ⟨_, rfl⟩
      | terminal => exact absurd hq ho

theorem uniform_made {f : Options → Except PyExc ErrObj} {e : ErrObj} {o o' : Options} (U : Uniform ctx f) (h : f o = .ok e) (ho : o'.reporter ≠ .terminal) :
    ∃ e', f o' = .ok e' ∧ e'.text = e.text ∧ e'.selection = e.selection := by
  obtain ⟨report, h1, h2⟩ := U o e h
  obtain ⟨s, hs⟩ := snippet_made h1 ho
  exact ⟨{ e with snippet := s }, by rw [h2, hs]; rfl, rfl, rfl⟩

theorem uniform_same {f : Options → Except PyExc ErrObj} {e e' : ErrObj} {o o' : Options} (U : Uniform ctx f) (h : f o = .ok e) (h' : f o' = .ok e') :
    e'.text = e.text ∧ e'.selection = e.selection := by
  obtain ⟨report, h1, h2⟩ := U o e h
  rw [h2] at h'
  cases hm : makeSnippet o' ctx report with
  | error x => rw [hm] at h'; cases h'
  | ok s => rw [hm] at h'; injection h' with h'; subst h'; exact ⟨rfl, rfl⟩

/-- The outcome of parsing does not depend on the reporter, the source or the messages used in snippets: the same documents are accepted with the same result, and other ones are
rejected with the same error, apart from its snippet. (The terminal reporter may fail instead, see `C57_terminal_fails`; if it does not, this holds for it too.) -/
theorem C72_parse {o o' : Options} :
    (∀ c, parse o input = .ok c → parse o' input = .ok c) ∧
    (∀ e, o'.reporter ≠ .terminal → parse o input = .error (.parseError e) → ∃ e', parse o' input = .error (.parseError e') ∧ e'.text = e.text ∧ e'.selection = e.selection) ∧
    (∀ e e', parse o input = .error (.parseError e) → parse o' input = .error (.parseError e') → e'.text = e.text ∧ e'.selection = e.selection) := by
  cases ha : analyze input with
  | error x =>
    cases x with
    | parse k c b =>
      have hp : ∀ o, parse o input = .error (raiseParse (analysisError o c b k)) := fun o => by unfold parse; rw [ha]
      have U := uniform_analysis (ctx := c) b k
      refine ⟨fun c h => (by rw [hp] at h; cases h), ?_, ?_⟩
      · intro e ho h
        rw [hp] at h ⊢
        cases hx : analysisError o c b k with
        | error x => rw [hx] at h; cases h
        | ok e1 =>
          rw [hx] at h; injection h with h; injection h with h; subst h
          obtain ⟨e', h1, h2⟩ := uniform_made U hx ho
          exact ⟨e', by rw [h1]; rfl, h2⟩
      · intro e e' h h'
        rw [hp] at h h'
        cases hx : analysisError o c b k with
        | error x => rw [hx] at h; cases h
        | ok e1 =>
          rw [hx] at h; injection h with h; injection h with h; subst h
          cases hx' : analysisError o' c b k with
          | error x => rw [hx'] at h'; cases h'
          | ok e2 =>
            rw [hx'] at h'; injection h' with h'; injection h' with h'; subst h'
            exact uniform_same U hx hx'
    | keyError =>
      have hp : ∀ o, parse o input = .error (.py .keyError) := fun o => by unfold parse; rw [ha]
      refine ⟨fun c h => (by rw [hp] at h; cases h), fun e _ h => (by rw [hp] at h; cases h), fun e e' h => by rw [hp] at h; cases h⟩
    | outOfFuel =>
      have hp : ∀ o, parse o input = .error (.py .recursionError) := fun o => by unfold parse; rw [ha]
      refine ⟨fun c h => (by rw [hp] at h; cases h), fun e _ h => (by rw [hp] at h; cases h), fun e e' h => by rw [hp] at h; cases h⟩
  | ok c =>
    cases hl : load input with
    | ok c' =>
      have hp : ∀ o, parse o input = .ok c' := fun o => by unfold parse; simp only [ha, hl]
      refine ⟨fun c h => (by rw [hp] at h ⊢; exact h), fun e _ h => (by rw [hp] at h; cases h), fun e e' h => by rw [hp] at h; cases h⟩
    | error x =>
      cases x with
      | analysis y =>
        have hp : ∀ o, parse o input = .error (.py .recursionError) := fun o => by unfold parse; simp only [ha, hl]
        refine ⟨fun c h => (by rw [hp] at h; cases h), fun e _ h => (by rw [hp] at h; cases h), fun e e' h => by rw [hp] at h; cases h⟩
      | resolution y =>
        cases y with
        | py y =>
          have hp : ∀ o, parse o input = .error (.py y) := fun o => by unfold parse; simp only [ha, hl]
          refine ⟨fun c h => (by rw [hp] at h; cases h), fun e _ h => (by rw [hp] at h; cases h), fun e e' h => by rw [hp] at h; cases h⟩
        | parse k heap =>
          have hp : ∀ o, parse o input = .error (raiseParse (resolutionError o { c with heap := heap } k)) := fun o => by unfold parse; simp only [ha, hl]
          have U := uniform_resolution (ctx := { c with heap := heap }) k
          refine ⟨fun c h => (by rw [hp] at h; cases h), ?_, ?_⟩
          · intro e ho h
            rw [hp] at h ⊢
            cases hx : resolutionError o { c with heap := heap } k with
            | error x => rw [hx] at h; cases h
            | ok e1 =>
              rw [hx] at h; injection h with h; injection h with h; subst h
              obtain ⟨e', h1, h2⟩ := uniform_made U hx ho
              exact ⟨e', by rw [h1]; rfl, h2⟩
          · intro e e' h h'
            rw [hp] at h h'
            cases hx : resolutionError o { c with heap := heap } k with
            | error x => rw [hx] at h; cases h
            | ok e1 =>
              rw [hx] at h; injection h with h; injection h with h; subst h
              cases hx' : resolutionError o' { c with heap := heap } k with
              | error x => rw [hx'] at h'; cases h'
              | ok e2 =>
                rw [hx'] at h'; injection h' with h'; injection h' with h'; subst h'
                exact uniform_same U hx hx'

example : ∃ e, parse { reporter := .html, source := some (chars!"a.eno") } (chars!"a: 1\n- 2") = .error (.parseError e) ∧ e.text = .missingListForListItem 2 := by
  refine ⟨_, rfl, ?_⟩; decide +kernel

/-- The same holds for validation errors. -/
theorem C72_validation (v : Complaint) {o o' : Options} {e : ErrObj} (h : v.raise o ctx = .ok e) :
    (o'.reporter ≠ .terminal → ∃ e', v.raise o' ctx = .ok e' ∧ e'.text = e.text ∧ e'.selection = e.selection) ∧
    ∀ e', v.raise o' ctx = .ok e' → e'.text = e.text ∧ e'.selection = e.selection := by
  have U : Uniform ctx (fun o => v.raise o ctx) := by
    cases v with
    | comment m r => exact uniform_comment m r
    | element m r => exact uniform_about _ r
    | key m r => exact uniform_key m r
    | value m r => exact uniform_value m r
    | missingComment r => exact uniform_missingComment r
    | missingValue r => exact uniform_missingValue r
    | missingElement k p n => exact uniform_missingElement k p n
    | unexpected m r => exact uniform_about _ r
    | several k rs n => exact uniform_multiple k rs n
    | wrongType k r n => exact uniform_about _ r
  exact ⟨fun ho => uniform_made U h ho, fun e' h' => uniform_same U h h'⟩

example : ∃ c, load (chars!"a: 1\nb:") = .ok c ∧ ∃ e, (Complaint.missingValue (.elem 2)).raise {} c = .ok e ∧ e.text = .missingFieldValue (chars!"b") := by
  refine ⟨_, rfl, _, rfl, ?_⟩; decide +kernel

end Eno
