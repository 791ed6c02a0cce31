import Verif.Spec.Gist
import Verif.Proofs.AlikeLoad
import Verif.Proofs.GapLemmas
import Verif.Props.ErrorProps

/-!
# C79: only what the lines say matters

Two texts whose lines say the same, apart from blank lines and from comments that belong to no element, are the same document. `Says` (`Spec/Sayings.lean`) knows nothing of offsets
and line numbers, indentation, white space between the parts of a line and escapes.
-/

namespace Eno

open Spec

variable {i i' s : Str} {es es' : List Said} {r : Stop} {o o' : Options}

/-- Each text says one thing. -/
theorem C79_says (s : Str) : ∃ es r, Says s es r ∧ ∀ es' r', Says s es' r' → es' = es ∧ r' = r := by
  obtain ⟨es, r, h⟩ := says_exists s
  exact ⟨es, r, h, fun _ _ h' => says_unique h h'⟩

/-! ## Messages -/

theorem analysis_gist {ctx : Ctx} {b : Base} {k : FailKind} {e : ErrObj} (h : analysisError o ctx b k = .ok e) : gist e.text =
    match k with
    | .invalidLine => .invalidLine 0
    | .missingListForListItem => .missingListForListItem 0
    | .missingFieldsetForFieldsetEntry => .missingFieldsetForFieldsetEntry 0
    | .missingElementForContinuation => .missingElementForContinuation 0
    | .sectionHierarchyLayerSkip _ => .sectionHierarchyLayerSkip 0
    | .unterminatedMultilineField f => .unterminatedMultilineField (ctx.heap.at f).key 0 := by
  have line : ∀ {t : Msg}, lineError o ctx b t = .ok e → e.text = t := by
    intro t h
    simp only [lineError, bind, Except.bind] at h
    repeat' split at h
    all_goals first | (cases h; done) | (injection h with h; subst h; rfl)
  cases k with
  | invalidLine =>
    simp only [analysisError, invalidLine] at h
    split at h
    · simp only [unterminatedEscapedKey, bind, Except.bind] at h
      repeat' split at h
      all_goals first | (cases h; done) | (injection h with h; subst h; rfl)
    · rw [line h]; rfl
  | missingListForListItem => rw [line h]; rfl
  | missingFieldsetForFieldsetEntry => rw [line h]; rfl
  | missingElementForContinuation => rw [line h]; rfl
  | sectionHierarchyLayerSkip n =>
    simp only [analysisError, sectionHierarchyLayerSkip, bind, Except.bind] at h
    repeat' split at h
    all_goals first | (cases h; done) | (injection h with h; subst h; rfl)
  | unterminatedMultilineField f =>
    simp only [analysisError, unterminatedMultilineField, bind, Except.bind] at h
    repeat' split at h
    all_goals first | (cases h; done) | (injection h with h; subst h; rfl)

theorem line_text {ctx : Ctx} {b : Base} {t : Msg} {e : ErrObj} (h : lineError o ctx b t = .ok e) : e.text = t := by
  simp only [lineError, bind, Except.bind] at h
  repeat' split at h
  all_goals first | (cases h; done) | (injection h with h; subst h; rfl)

theorem template_bare {h h' : Heap} (H : SameHeap i i' h h') (k : Nat) : templateName (h'.at k) = templateName (h.at k) := by unfold templateName; rw [(H.at k).template]

/-- What is said about a failure to resolve copies. -/
theorem resolution_gist {ctx : Ctx} {k : RFail} {e : ErrObj} (h : resolutionError o ctx k = .ok e) :
    match k with
    | .cyclicDependency c _ => ∃ name, templateName (ctx.heap.at c) = .ok name ∧ gist e.text = .cyclicDependency 0 name
    | .missingListForListItem _ => gist e.text = .missingListForListItem 0
    | .missingFieldsetForFieldsetEntry _ => gist e.text = .missingFieldsetForFieldsetEntry 0
    | .nonSectionElementNotFound c => ∃ name, templateName (ctx.heap.at c) = .ok name ∧ gist e.text = .nonSectionElementNotFound 0 name
    | .sectionNotFound c => ∃ name, templateName (ctx.heap.at c) = .ok name ∧ gist e.text = .sectionNotFound 0 name
    | .twoOrMoreTemplatesFound c _ _ => ∃ name, templateName (ctx.heap.at c) = .ok name ∧ gist e.text = .twoOrMoreTemplatesFound name := by
  cases k with
  | missingListForListItem x => rw [line_text h]; rfl
  | missingFieldsetForFieldsetEntry x => rw [line_text h]; rfl
  | cyclicDependency c l =>
    simp only [resolutionError, cyclicError, bind, Except.bind] at h
    repeat' split at h
    all_goals first | (cases h; done) | (injection h with h; subst h; exact ⟨_, by assumption, rfl⟩)
  | twoOrMoreTemplatesFound c a b =>
    simp only [resolutionError, twoOrMoreTemplates, bind, Except.bind] at h
    repeat' split at h
    all_goals first | (cases h; done) | (injection h with h; subst h; exact ⟨_, by assumption, rfl⟩)
  | nonSectionElementNotFound c =>
    simp only [resolutionError, notFound, bind, Except.bind] at h
    split at h
    · cases h
    · exact ⟨_, by assumption, by rw [line_text h]; rfl⟩
  | sectionNotFound c =>
    simp only [resolutionError, notFound, bind, Except.bind] at h
    split at h
    · cases h
    · exact ⟨_, by assumption, by rw [line_text h]; rfl⟩

theorem resolution_same {ctx ctx' : Ctx} {k k' : RFail} {e e' : ErrObj} (H : SameHeap i i' ctx.heap ctx'.heap) (hk : k'.bare = k.bare) (h : resolutionError o ctx k = .ok e)
    (h' : resolutionError o' ctx' k' = .ok e') : gist e'.text = gist e.text := by
  have G := resolution_gist h
  have G' := resolution_gist h'
  cases k <;> cases k' <;> simp only [RFail.bare, reduceCtorEq, BareFail.cyclicDependency.injEq, BareFail.nonSectionElementNotFound.injEq, BareFail.sectionNotFound.injEq,
    BareFail.twoOrMoreTemplatesFound.injEq] at hk
  · obtain ⟨rfl, rfl⟩ := hk
    obtain ⟨n, h1, h2⟩ := G
    obtain ⟨n', h1', h2'⟩ := G'
    rw [template_bare H, h1] at h1'
    cases h1'
    rw [h2, h2']
  · exact G'.trans G.symm
  · exact G'.trans G.symm
  · obtain rfl := hk
    obtain ⟨n, h1, h2⟩ := G
    obtain ⟨n', h1', h2'⟩ := G'
    rw [template_bare H, h1] at h1'
    cases h1'
    rw [h2, h2']
  · obtain rfl := hk
    obtain ⟨n, h1, h2⟩ := G
    obtain ⟨n', h1', h2'⟩ := G'
    rw [template_bare H, h1] at h1'
    cases h1'
    rw [h2, h2']
  · obtain ⟨rfl, rfl, rfl⟩ := hk
    obtain ⟨n, h1, h2⟩ := G
    obtain ⟨n', h1', h2'⟩ := G'
    rw [template_bare H, h1] at h1'
    cases h1'
    rw [h2, h2']

/-! ## Documents -/

theorem same_query {h h' : Heap} (H : SameHeap i i' h h') (q : Query) (fuel : Nat) (c : Cache) : Query.run i' h' fuel q c = Query.run i h fuel q c := by
  cases q <;> simp only [Query.run, same_readValue H, same_readComment H, same_readItems H, same_readEntries H, same_readElements H, same_readRaw H]

theorem parse_made {k : FailKind} {c : Ctx} {b : Base} (ho : o.reporter ≠ .terminal) (h : analyze i = .error (.parse k c b)) :
    ∃ e, analysisError o c b k = .ok e ∧ parse o i = .error (.parseError e) := by
  obtain ⟨e, he⟩ := C37_analysis ho h
  have he' := he
  unfold parse at he
  rw [h] at he
  simp only at he
  cases hx : analysisError o c b k with
  | error x => rw [hx] at he; cases he
  | ok e1 =>
    rw [hx] at he
    injection he with he; injection he with he; subst he
    exact ⟨_, rfl, he'⟩

theorem parse_resolved {k : RFail} {c : Ctx} {h : Heap} (ho : o.reporter ≠ .terminal) (ha : analyze i = .ok c) (hl : load i = .error (.resolution (.parse k h))) :
    ∃ e, resolutionError o { c with heap := h } k = .ok e ∧ parse o i = .error (.parseError e) := by
  have hp : parse o i = .error (raiseParse (resolutionError o { c with heap := h } k)) := by unfold parse; simp only [ha, hl]
  rcases C37_parse ho hp with ⟨e, he⟩ | ⟨x, _, h2⟩
  · cases hx : resolutionError o { c with heap := h } k with
    | error x => rw [hx] at he; cases he
    | ok e1 => rw [hx] at he hp; exact ⟨_, rfl, hp⟩
  · rw [hl] at h2; cases h2

/-- Texts whose lines say the same, apart from blank lines and comments that belong to nothing, are parsed alike: either both are documents, with the same number of elements, and
all values, comments, items, entries, elements and raw outputs of elements are the same (whatever has been asked before, and for any recursion limit), or the same error is reported. -/
theorem C79_parse (S : Says i es r) (S' : Says i' es' r) (ht : told es = told es') (ho : o.reporter ≠ .terminal) (ho' : o'.reporter ≠ .terminal) :
    SameParse i i' (parse o i) (parse o' i') := by
  have A := same_analysis S S' ht
  have L := same_load S S' ht
  cases ha : analyze i with
  | error x =>
    cases ha' : analyze i' with
    | ok c => rw [ha, ha'] at A; cases A
    | error x' =>
      rw [ha, ha'] at A
      cases A with
      | error hk =>
        obtain ⟨e, h1, h2⟩ := parse_made ho ha
        obtain ⟨e', h1', h2'⟩ := parse_made ho' ha'
        rw [h2, h2']
        refine .errors ?_
        rw [analysis_gist h1, analysis_gist h1']
        split <;> first | rfl | (rw [hk _ rfl])
  | ok c =>
    cases ha' : analyze i' with
    | error x => rw [ha, ha'] at A; cases A
    | ok c' =>
      cases hl : load i <;> cases hl' : load i' <;> rw [hl, hl'] at L <;> cases L
      · rename_i hk
        exact absurd hl (by unfold load; rw [ha]; simp only; split <;> (try split) <;> simp)
      · rename_i E
        cases E with
        | parse hk H =>
          obtain ⟨e, h1, h2⟩ := parse_resolved ho ha hl
          obtain ⟨e', h1', h2'⟩ := parse_resolved ho' ha' hl'
          rw [h2, h2']
          exact .errors (resolution_same H hk h1 h1')
        | py x =>
          have e1 : parse o i = .error (.py x) := by unfold parse; simp only [ha, hl]
          have e2 : parse o' i' = .error (.py x) := by unfold parse; simp only [ha', hl']
          rw [e1, e2]
          exact .exceptions
      · rename_i d d' D
        have e1 : parse o i = .ok d := by unfold parse; simp only [ha, hl]
        have e2 : parse o' i' = .ok d' := by unfold parse; simp only [ha', hl']
        rw [e1, e2]
        exact .documents D.heap.length fun q fuel cache => same_query D.heap q fuel cache

/-! ## Layout -/

/-- A blank line says nothing. -/
theorem C79_blank_line {w : Str} (hw : Blank w) (S : Says s es r) : Says (w ++ '\n' :: s) (.line .empty :: es) r := by
  have e : readLine (w ++ '\n' :: s) = some (.empty, '\n' :: s) := by
    rw [readLine_indent hw]; rfl
  exact .line (by simp) e (by simp) (by simpa using S)

/-- Indentation of lines that are no comments. -/
theorem C79_indentation {w : Str} (hw : Blank w) (hs : s ≠ []) (hc : ∀ t rest, readLine s ≠ some (.comment t, rest)) (S : Says s es r) : Says (w ++ s) es r := by
  have e := readLine_indent hw s
  have hs' : w ++ s ≠ [] := by simp [hs]
  cases S with
  | done => exact absurd rfl hs
  | bad _ h => exact .bad hs' (e.trans h)
  | @line _ l rest _ _ _ h hm h2 =>
    have : saidOf (w ++ s) l = saidOf s l := by
      cases l <;> first | rfl | exact absurd h (hc _ _)
    rw [← this]
    exact .line hs' (e.trans h) hm h2
  | multi _ h L h1 h2 h3 => exact .multi hs' (e.trans h) L h1 h2 h3
  | unterminated _ h h1 => exact .unterminated hs' (e.trans h) h1

/-- White space, over any number of lines, in front of a line that is no comment. -/
theorem C79_white_says {w : Str} (hw : WhiteLine w) (hc : ∀ t rest, readLine s ≠ some (.comment t, rest)) (S : Says s es r) :
    ∃ n, Says (w ++ s) (List.replicate n (.line .empty) ++ es) r := by
  induction h : w.length using Nat.strongRecOn generalizing w with
  | ind k ih =>
    rcases all_or_stop isHs w with h1 | ⟨x, c, m, rfl, h2, h3⟩
    · by_cases hs : s = []
      · subst hs
        by_cases hz : w = []
        · subst hz; exact ⟨0, S⟩
        · refine ⟨1, ?_⟩
          have e : readLine (w ++ []) = some (.empty, []) := by rw [readLine_indent h1]; rfl
          exact .line (by simp [hz]) e (by simp) (by simpa using S)
      · exact ⟨0, C79_indentation h1 hs hc S⟩
    · have : c = '\n' := by
        have := hw c (by simp)
        simpa [isHs, this] using h3
      subst this
      obtain ⟨n, hn⟩ := ih m.length (by rw [← h]; simp; omega) (fun y hy => hw y (by simp [hy])) rfl
      refine ⟨n + 1, ?_⟩
      rw [List.append_assoc, List.cons_append]
      exact C79_blank_line h2 hn

theorem told_blanks (n : Nat) (es : List Said) : told (List.replicate n (.line .empty) ++ es) = told es := by
  induction n with
  | zero => rfl
  | succ n ih => exact ih

theorem told_append {es es' : List Said} (h : told es = told es') : ∀ {ds : List Said}, (∀ x, ds.getLast? ≠ some (.comment x)) → told (ds ++ es) = told (ds ++ es') := by
  have alone : ∀ {ds : List Said}, ds ≠ [] → (∀ x, ds.getLast? ≠ some (.comment x)) → leftAlone (ds ++ es) = leftAlone (ds ++ es') := by
    intro ds
    induction ds with
    | nil => intro h; exact absurd rfl h
    | cons d ds ih =>
      intro _ hl
      cases d with
      | comment x =>
        cases ds with
        | nil => exact absurd rfl (hl x)
        | cons d' ds => exact ih (by simp) (by simpa using hl)
      | line l => cases l <;> rfl
      | multi k v => rfl
  intro ds
  induction ds with
  | nil => intro _; exact h
  | cons d ds ih =>
    intro hl
    cases ds with
    | nil =>
      cases d with
      | comment x => exact absurd rfl (hl x)
      | line l => cases l <;> simp [told, h]
      | multi k v => simp [told, h]
    | cons d' ds =>
      have ih := ih (by simpa using hl)
      have al := alone (ds := d' :: ds) (by simp) (by simpa using hl)
      cases d with
      | comment x => 
        simp only [List.cons_append] at ih al ⊢
        simp only [told.eq_3, ih, al]
      | line l => cases l <;> simp only [List.cons_append] at ih ⊢ <;> simp [told, ih]
      | multi k v => simp only [List.cons_append] at ih ⊢; simp [told, ih]

/-- White space in front of any line that is no comment and does not follow one - indentation and any number of blank lines - changes nothing. (The lines before it say `es`; it may
be at the very end of the text. White space in multiline fields is not meant, this is text.) -/
theorem C79_white {a b w : Str} (hw : WhiteLine w) (R : Reads b (a ++ '\n' :: b) es) (hl : ∀ x, es.getLast? ≠ some (.comment x)) (hc : ∀ t rest, readLine b ≠ some (.comment t, rest))
    (ho : o.reporter ≠ .terminal) (ho' : o'.reporter ≠ .terminal) :
    SameParse (a ++ '\n' :: b) (a ++ '\n' :: (w ++ b)) (parse o (a ++ '\n' :: b)) (parse o' (a ++ '\n' :: (w ++ b))) := by
  obtain ⟨es', r, S⟩ := says_exists b
  obtain ⟨n, S'⟩ := C79_white_says hw hc S
  have R' := R.gap (b' := w ++ b) (List.dropWhile_append_of_pos hw) a rfl
  exact C79_parse (R.says S) (R'.says S') (told_append (told_blanks n es').symm hl) ho ho'

/-- The same in front of the text. -/
theorem C79_white_first {w : Str} (hw : WhiteLine w) (hc : ∀ t rest, readLine s ≠ some (.comment t, rest)) (ho : o.reporter ≠ .terminal) (ho' : o'.reporter ≠ .terminal) :
    SameParse s (w ++ s) (parse o s) (parse o' (w ++ s)) := by
  obtain ⟨es, r, S⟩ := says_exists s
  obtain ⟨n, S'⟩ := C79_white_says hw hc S
  exact C79_parse S S' (told_blanks n es).symm ho ho'

/-! ## Examples -/

/-- Line by line. -/
example : Says (chars!"a: 1\n-- m\n x\n-- m\nb:") [.line (.element (chars!"a") (some (chars!"1"))), .multi (chars!"m") (some (chars!" x")), .line (.element (chars!"b") none)] .finished := by
  refine .line (l := .element (chars!"a") (some (chars!"1"))) (rest := chars!"\n-- m\n x\n-- m\nb:") (by decide) (by decide +kernel) (by simp) ?_
  refine .multi (d := 2) (rest := chars!"\n x\n-- m\nb:") (body := chars!"\n x") (line := chars!"-- m") (after := chars!"\nb:") (by decide) (by decide +kernel) ⟨rfl, by decide, .inr ⟨_, rfl⟩⟩
    ⟨[], [' '], [], by simp [Blank], by simp [Blank, isHs, isSp], by simp [Blank], rfl, by simp⟩ ?_ ?_
  · rintro p l q ⟨h1, h2, h3⟩ hp ⟨p0, p1, p2, _, _, _, e, _⟩
    subst e
    rcases p with _ | ⟨x, _ | ⟨y, _ | ⟨z, p⟩⟩⟩ <;> simp at h1 hp <;> try omega
    rcases p0 with _ | ⟨c, _ | ⟨d, p0⟩⟩ <;> simp [rep, List.replicate_succ] at h1
    rcases p0 with _ | ⟨f, p0⟩ <;> simp at h1
    simp [← h1.2.2.1] at h2
  · exact .line (l := .element (chars!"b") none) (rest := []) (by decide) (by decide +kernel) (by simp) .done

theorem layout_plain : Says (chars!"a: 1\nb:\n- x") [.line (.element (chars!"a") (some (chars!"1"))), .line (.element (chars!"b") none), .line (.listItem (some (chars!"x")))] .finished := by
  refine .line (l := .element (chars!"a") (some (chars!"1"))) (rest := chars!"\nb:\n- x") (by decide) (by decide +kernel) (by simp) ?_
  refine .line (l := .element (chars!"b") none) (rest := chars!"\n- x") (by decide) (by decide +kernel) (by simp) ?_
  exact .line (l := .listItem (some (chars!"x"))) (rest := []) (by decide) (by decide +kernel) (by simp) .done

theorem layout_loose : Says (chars!"\n  ``a``:1  \n> loose\n\n b :\n\n   -   x") [.line .empty, .line (.element (chars!"a") (some (chars!"1"))), .comment (some (2, chars!"loose")), .line .empty,
    .line (.element (chars!"b") none), .line .empty, .line (.listItem (some (chars!"x")))] .finished := by
  refine .line (l := .empty) (rest := chars!"\n  ``a``:1  \n> loose\n\n b :\n\n   -   x") (by decide) (by decide +kernel) (by simp) ?_
  refine .line (l := .element (chars!"a") (some (chars!"1"))) (rest := chars!"\n> loose\n\n b :\n\n   -   x") (by decide) (by decide +kernel) (by simp) ?_
  refine .line (l := .comment (some (chars!"loose"))) (rest := chars!"\n\n b :\n\n   -   x") (by decide) (by decide +kernel) (by simp) ?_
  refine .line (l := .empty) (rest := chars!"\n b :\n\n   -   x") (by decide) (by decide +kernel) (by simp) ?_
  refine .line (l := .element (chars!"b") none) (rest := chars!"\n\n   -   x") (by decide) (by decide +kernel) (by simp) ?_
  refine .line (l := .empty) (rest := chars!"\n   -   x") (by decide) (by decide +kernel) (by simp) ?_
  exact .line (l := .listItem (some (chars!"x"))) (rest := []) (by decide) (by decide +kernel) (by simp) .done

/-- The same document, written in two ways. -/
example (o : Options) (ho : o.reporter ≠ .terminal) : SameParse (chars!"a: 1\nb:\n- x") (chars!"\n  ``a``:1  \n> loose\n\n b :\n\n   -   x")
    (parse o (chars!"a: 1\nb:\n- x")) (parse o (chars!"\n  ``a``:1  \n> loose\n\n b :\n\n   -   x")) :=
  C79_parse layout_plain layout_loose (by decide) ho ho

/-- Only loose comments do not matter: this one belongs to the list. -/
example : told [.comment (some (2, chars!"mine")), .line (.element (chars!"b") none)] ≠ told [.line (.element (chars!"b") none)] := by decide

/-- White space in the middle. -/
example (o : Options) (ho : o.reporter ≠ .terminal) : SameParse (chars!"a: 1\nb:") (chars!"a: 1\n \n\n  b:") (parse o (chars!"a: 1\nb:")) (parse o (chars!"a: 1\n \n\n  b:")) := by
  refine C79_white (a := chars!"a: 1") (b := chars!"b:") (w := chars!" \n\n  ") (es := [.line (.element (chars!"a") (some (chars!"1")))]) (by unfold WhiteLine; decide) ?_ (by simp) ?_ ho ho
  · exact .line (l := .element (chars!"a") (some (chars!"1"))) (rest := chars!"\nb:") (by decide) (by decide +kernel) (by simp) .here
  · intro t rest h
    have e : readLine (chars!"b:") = some (.element (chars!"b") none, []) := by decide +kernel
    rw [e] at h; cases h

/-- After a key alone on its line white space is not the only thing that is read over: this is one line. -/
example : readLine (chars!"a\n\n: 1") = some (.element (chars!"a") (some (chars!"1")), []) := by decide +kernel

end Eno
