import Verif.Proofs.HushLoad
import Verif.Proofs.Interject
import Verif.Props.LayoutProps

/-!
# C86: comments do not matter

Two texts whose lines say the same apart from comments and blank lines are the same document apart from comments: one is loaded if and only if the other is, with the same error if
not, each question that is not about comments has the same answer, and so do raw outputs apart from comments.
-/

namespace Eno

open Spec

variable {i i' s : Str} {es es' : List Said} {r : Stop} {o o' : Options}

theorem hush_templateName {h h' : Heap} (H : SameHeap i i' (Heap.hush h) (Heap.hush h')) (k : Nat) : templateName (h'.at k) = templateName (h.at k) := by
  have := (H.at k).template
  unfold templateName
  rw [hush_template, hush_template] at this
  rw [this]

theorem resolution_aside {ctx ctx' : Ctx} {k k' : RFail} {e e' : ErrObj} (H : SameHeap i i' (Heap.hush ctx.heap) (Heap.hush ctx'.heap)) (hk : k'.hush.bare = k.hush.bare)
    (h : resolutionError o ctx k = .ok e) (h' : resolutionError o' ctx' k' = .ok e') : gist e'.text = gist e.text := by
  have G := resolution_gist h
  have G' := resolution_gist h'
  cases k <;> cases k' <;> simp only [RFail.hush, RFail.bare, reduceCtorEq, BareFail.cyclicDependency.injEq, BareFail.nonSectionElementNotFound.injEq, BareFail.sectionNotFound.injEq,
    BareFail.twoOrMoreTemplatesFound.injEq] at hk
  · obtain ⟨rfl, rfl⟩ := hk
    obtain ⟨n, h1, h2⟩ := G
    obtain ⟨n', h1', h2'⟩ := G'
    rw [hush_templateName H, h1] at h1'
    cases h1'
    rw [h2, h2']
  · exact G'.trans G.symm
  · exact G'.trans G.symm
  · obtain rfl := hk
    obtain ⟨n, h1, h2⟩ := G
    obtain ⟨n', h1', h2'⟩ := G'
    rw [hush_templateName H, h1] at h1'
    cases h1'
    rw [h2, h2']
  · obtain rfl := hk
    obtain ⟨n, h1, h2⟩ := G
    obtain ⟨n', h1', h2'⟩ := G'
    rw [hush_templateName H, h1] at h1'
    cases h1'
    rw [h2, h2']
  · obtain ⟨rfl, rfl, rfl⟩ := hk
    obtain ⟨n, h1, h2⟩ := G
    obtain ⟨n', h1', h2'⟩ := G'
    rw [hush_templateName H, h1] at h1'
    cases h1'
    rw [h2, h2']

theorem aside_query {h h' : Heap} (H : SameHeap i i' (Heap.hush h) (Heap.hush h')) {q : Query} (hq : aside q = true) (fuel : Nat) (c : Cache) : Query.run i' h' fuel q c = Query.run i h fuel q c := by
  rw [← hush_query hq, ← hush_query (h := h) hq]
  exact same_query H q fuel c

theorem aside_raw {h h' : Heap} (H : SameHeap i i' (Heap.hush h) (Heap.hush h')) {x : Ref} {fuel : Nat} {a a' : Raw} {k k' : Cache} (e : readRaw i h fuel x .empty = (.ok a, k))
    (e' : readRaw i' h' fuel x .empty = (.ok a', k')) : uncommented a' = uncommented a := by
  obtain ⟨d, h1, _⟩ := muted_raw fuel x _ .empty _ _ (by constructor <;> rfl) e
  obtain ⟨d', h1', _⟩ := muted_raw fuel x _ .empty _ _ (by constructor <;> rfl) e'
  rw [same_readRaw H, h1] at h1'
  injection h1' with h _
  injection h with h
  exact h.symm

/-- Texts whose lines say the same, apart from blank lines and comments, are parsed alike, apart from comments. -/
theorem C86_parse (S : Says i es r) (S' : Says i' es' r) (ht : wordless es = wordless es') (ho : o.reporter ≠ .terminal) (ho' : o'.reporter ≠ .terminal) :
    SameAside i i' (parse o i) (parse o' i') := by
  have A := hush_analysis S S' ht
  have L := hushed_load S S' ht
  cases ha : analyze i with
  | error x =>
    cases ha' : analyze i' with
    | ok c => rw [ha, ha'] at A; cases x <;> cases A
    | error x' =>
      rw [ha, ha'] at A
      cases x <;> cases x' <;> try (cases A; done)
      cases A with
      | error hk =>
        obtain ⟨e, h1, h2⟩ := parse_made ho ha
        obtain ⟨e', h1', h2'⟩ := parse_made ho' ha'
        rw [h2, h2']
        refine .errors ?_
        rw [analysis_gist h1, analysis_gist h1']
        simp only [Ctx.hush, hush_key] at hk
        split <;> first | rfl | (rw [hk _ rfl])
  | ok c =>
    cases ha' : analyze i' with
    | error x => rw [ha, ha'] at A; cases x <;> cases A
    | ok c' =>
      have none : ∀ {i c x}, analyze i = .ok c → load i ≠ .error (.analysis x) := by
        intro i c x ha
        unfold load; rw [ha]; simp only; split <;> (try split) <;> simp
      cases hl : load i with
      | error x =>
        cases x with
        | analysis x => exact absurd hl (none ha)
        | resolution x =>
          cases hl' : load i' with
          | ok c => rw [hl, hl'] at L; cases L
          | error x' =>
            cases x' with
            | analysis x' => exact absurd hl' (none ha')
            | resolution x' =>
              rw [hl, hl'] at L
              simp only [hushLoad, PExc.hush] at L
              cases L with
              | resolution E =>
                cases x with
                | py x =>
                  cases x' with
                  | parse k' h' => cases E
                  | py x' =>
                    cases E
                    have e1 : parse o i = .error (.py x) := by unfold parse; simp only [ha, hl]
                    have e2 : parse o' i' = .error (.py x) := by unfold parse; simp only [ha', hl']
                    rw [e1, e2]
                    exact .exceptions
                | parse k h =>
                  cases x' with
                  | py x' => cases E
                  | parse k' h' =>
                    simp only [RExc.hush] at E
                    generalize hu : k.hush = u at E
                    generalize hu' : k'.hush = u' at E
                    cases E with
                    | parse hk H =>
                      obtain ⟨e, h1, h2⟩ := parse_resolved ho ha hl
                      obtain ⟨e', h1', h2'⟩ := parse_resolved ho' ha' hl'
                      rw [h2, h2']
                      exact .errors (resolution_aside H (by rw [hu, hu']; exact hk) h1 h1')
      | ok d =>
        cases hl' : load i' with
        | error x => rw [hl, hl'] at L; cases L
        | ok d' =>
          rw [hl, hl'] at L
          simp only [hushLoad] at L
          cases L with
          | ok D =>
            have H : SameHeap i i' (Heap.hush d.heap) (Heap.hush d'.heap) := D.heap
            have e1 : parse o i = .ok d := by unfold parse; simp only [ha, hl]
            have e2 : parse o' i' = .ok d' := by unfold parse; simp only [ha', hl']
            rw [e1, e2]
            refine .documents ?_ (fun q fuel cache hq => aside_query H hq fuel cache) fun r fuel x x' k k' h h' => aside_raw H h h'
            have := H.length
            rwa [hush_length, hush_length] at this

/-- One is a document if and only if the other is. -/
theorem C86_loads (S : Says i es r) (S' : Says i' es' r) (ht : wordless es = wordless es') : (∃ c, load i = .ok c) ↔ ∃ c, load i' = .ok c := by
  have both : ∀ {x y}, SameLoad i i' x y → ((∃ c, x = .ok c) ↔ ∃ c, y = .ok c) := fun h => by cases h <;> simp
  have h := both (hushed_load S S' ht)
  cases hl : load i <;> cases hl' : load i' <;> rw [hl, hl'] at h <;> simp [hushLoad] at h ⊢

/-! ## One comment more -/

theorem wordless_append (h : wordless es = wordless es') : ∀ ds : List Said, wordless (ds ++ es) = wordless (ds ++ es')
  | [] => h
  | d :: ds => by
    have ih := wordless_append h ds
    cases d with
    | comment x => exact ih
    | multi k v => simp only [List.cons_append, wordless, ih]
    | line l => cases l <;> simp only [List.cons_append, wordless, ih]

/-- A line that begins with `>` is a comment. -/
theorem C86_comment_line {w t : Str} (hw : Blank w) (ht : '\n' ∉ t) (S : Says s es r) : ∃ x, Says (w ++ '>' :: (t ++ '\n' :: s)) (.comment x :: es) r := by
  have e : readLine (w ++ '>' :: (t ++ '\n' :: s)) = some (.comment (valueOf (t ++ '\n' :: s)), '\n' :: s) := by
    rw [readLine_indent hw]
    have : nextOf (t ++ '\n' :: s) = '\n' :: s := by
      unfold nextOf
      rw [List.dropWhile_append_of_pos fun c hc => by simpa using fun e : c = '\n' => ht (e ▸ hc)]
      rfl
    unfold readLine
    simp [isHs, isSp, this]
  exact ⟨_, .line (by simp) e (by simp) (by simpa using S)⟩

/-- A comment in front of any line changes nothing but comments: the lines before that line say `es`, and something follows. (Comments in multiline fields are not meant, this is text.) -/
theorem C86_insert {a b w t : Str} (hw : Blank w) (ht : '\n' ∉ t) (R : Reads b (a ++ '\n' :: b) es) (hb : b.dropWhile isSp ≠ []) (ho : o.reporter ≠ .terminal) (ho' : o'.reporter ≠ .terminal) :
    SameAside (a ++ '\n' :: b) (a ++ '\n' :: (w ++ '>' :: (t ++ '\n' :: b))) (parse o (a ++ '\n' :: b)) (parse o' (a ++ '\n' :: (w ++ '>' :: (t ++ '\n' :: b)))) := by
  obtain ⟨es', r, S⟩ := says_exists b
  obtain ⟨x, S'⟩ := C86_comment_line hw ht S
  have hd : (w ++ '>' :: (t ++ '\n' :: b)).dropWhile isSp = '>' :: (t ++ '\n' :: b) := by
    rw [List.dropWhile_append_of_pos fun c hc => by have := hw c hc; simp [isHs] at this; exact this.1]
    rfl
  have R' := R.interject hd hb a rfl
  exact C86_parse (R.says S) (R'.says S') (wordless_append (by rfl) es) ho ho'

/-- A comment in front of the text. -/
theorem C86_insert_first {w t : Str} (hw : Blank w) (ht : '\n' ∉ t) (ho : o.reporter ≠ .terminal) (ho' : o'.reporter ≠ .terminal) :
    SameAside s (w ++ '>' :: (t ++ '\n' :: s)) (parse o s) (parse o' (w ++ '>' :: (t ++ '\n' :: s))) := by
  obtain ⟨es, r, S⟩ := says_exists s
  obtain ⟨x, S'⟩ := C86_comment_line hw ht S
  exact C86_parse S S' (by rfl) ho ho'

/-! ## Examples -/

theorem commented_plain : Says (chars!"a:\n- 1\nb < a") [.line (.element (chars!"a") none), .line (.listItem (some (chars!"1"))), .line (.copy (chars!"b") (chars!"a"))] .finished := by
  refine .line (l := .element (chars!"a") none) (rest := chars!"\n- 1\nb < a") (by decide) (by decide +kernel) (by simp) ?_
  refine .line (l := .listItem (some (chars!"1"))) (rest := chars!"\nb < a") (by decide) (by decide +kernel) (by simp) ?_
  exact .line (l := .copy (chars!"b") (chars!"a")) (rest := []) (by decide) (by decide +kernel) (by simp) .done

theorem commented_full : Says (chars!"> x\na:\n  > y\n- 1\n>\n\nb < a")
    [.comment (some (2, chars!"x")), .line (.element (chars!"a") none), .comment (some (4, chars!"y")), .line (.listItem (some (chars!"1"))), .comment none, .line .empty,
      .line (.copy (chars!"b") (chars!"a"))] .finished := by
  refine .line (l := .comment (some (chars!"x"))) (rest := chars!"\na:\n  > y\n- 1\n>\n\nb < a") (by decide) (by decide +kernel) (by simp) ?_
  refine .line (l := .element (chars!"a") none) (rest := chars!"\n  > y\n- 1\n>\n\nb < a") (by decide) (by decide +kernel) (by simp) ?_
  refine .line (l := .comment (some (chars!"y"))) (rest := chars!"\n- 1\n>\n\nb < a") (by decide) (by decide +kernel) (by simp) ?_
  refine .line (l := .listItem (some (chars!"1"))) (rest := chars!"\n>\n\nb < a") (by decide) (by decide +kernel) (by simp) ?_
  refine .line (l := .comment none) (rest := chars!"\n\nb < a") (by decide) (by decide +kernel) (by simp) ?_
  refine .line (l := .empty) (rest := chars!"\nb < a") (by decide) (by decide +kernel) (by simp) ?_
  exact .line (l := .copy (chars!"b") (chars!"a")) (rest := []) (by decide) (by decide +kernel) (by simp) .done

/-- The same document, with and without comments. -/
example (o : Options) (ho : o.reporter ≠ .terminal) : SameAside (chars!"a:\n- 1\nb < a") (chars!"> x\na:\n  > y\n- 1\n>\n\nb < a") (parse o (chars!"a:\n- 1\nb < a"))
    (parse o (chars!"> x\na:\n  > y\n- 1\n>\n\nb < a")) :=
  C86_parse commented_plain commented_full (by decide) ho ho

/-- Both are documents; but the comment of the list is a difference. -/
example : ∃ c c', load (chars!"a:\n- 1\nb < a") = .ok c ∧ load (chars!"> x\na:\n  > y\n- 1\n>\n\nb < a") = .ok c' ∧ (readComment c.heap (.elem 1) .empty).1 = .ok none ∧
    (readComment c'.heap (.elem 1) .empty).1 = .ok (some (chars!"x")) := by
  refine ⟨_, _, rfl, rfl, ?_, ?_⟩ <;> rfl

/-- A comment in front of a continuation. -/
example (o : Options) (ho : o.reporter ≠ .terminal) : SameAside (chars!"a: 1\n| 2") (chars!"a: 1\n > note\n| 2") (parse o (chars!"a: 1\n| 2")) (parse o (chars!"a: 1\n > note\n| 2")) := by
  refine C86_insert (a := chars!"a: 1") (b := chars!"| 2") (w := chars!" ") (t := chars!" note") (es := [.line (.element (chars!"a") (some (chars!"1")))]) (by unfold Blank; decide) (by decide) ?_
    (by decide) ho ho
  exact .line (l := .element (chars!"a") (some (chars!"1"))) (rest := chars!"\n| 2") (by decide) (by decide +kernel) (by simp) .here

/-- In a multiline field it is text. -/
example : ∃ c c', load (chars!"-- a\n1\n-- a") = .ok c ∧ load (chars!"-- a\n> x\n1\n-- a") = .ok c' ∧ (readValue (chars!"-- a\n1\n-- a") c.heap 9 (.elem 1) .empty).1 = .ok (some (chars!"1")) ∧
    (readValue (chars!"-- a\n> x\n1\n-- a") c'.heap 9 (.elem 1) .empty).1 = .ok (some (chars!"> x\n1")) := by
  refine ⟨_, _, rfl, rfl, ?_, ?_⟩ <;> rfl

/-- At the end of the text a comment can be the name of a template instead. -/
example : readLine (chars!"a <\n") = none ∧ readLine (chars!"a <\n> x") = some (.copy (chars!"a") (chars!"> x"), []) := by decide +kernel

end Eno
