import Verif.Proofs.SessionLemmas
import Verif.Proofs.MultilineValue
import Verif.Props.AnalyzerProps
import Verif.Proofs.SampleHeaps

/-!
# C05, C20–C22, C27–C29, C31–C33, C35, C54: reading a document

`ctx` is the document as analysed, `ctx'` as loaded (copies resolved). What the answers should be is said by `Spec/Reading.lean` and `Spec/Answers.lean` about
`ctx`; what the code computes from `ctx'` is `Context.lean` (untyped access with its caches) and `Instantiate.lean` (typed access).
-/

namespace Eno
open Spec

variable {input : Str} {ctx ctx' : Ctx} {i j s t fuel : Nat} {k : Str} {q : Query} {a : Answer} {xs : List Ref}

/-- The answer to a first question. -/
def answer (input : Str) (h : Heap) (fuel : Nat) (q : Query) : Except PyExc Answer := (q.run input h fuel .empty).1

theorem answer_of {h0 h : Heap} {res : Except PyExc Answer} (hr : Returns input h0 h (q.run input h fuel) res) : answer input h fuel q = res := by
  obtain ⟨c, h1, _⟩ := hr .empty coherent_empty
  unfold answer; rw [h1]

/-- A text that was returned (to state examples). -/
def textOf : Except PyExc Answer → Option (Option Str)
  | .ok (.text s) => some s
  | _ => none

/-- References that were returned (to state examples). -/
def refsOf : Except PyExc Answer → Option (List Ref)
  | .ok (.refs xs) => some xs
  | _ => none

/-- Elements that were returned (to state examples). -/
def elementsOf : Except PyExc Answer → Option (Option (List Nat))
  | .ok (.elements xs) => some xs
  | _ => none

/-- The exception that was raised (to state examples). -/
def failure {α} : Except PyExc α → Option PyExc
  | .ok _ => none
  | .error e => some e

/-! ## C21: reading is idempotent -/

/-- With enough recursion depth and after any history of harmless reads, every sensible question gets its right answer. -/
theorem C21_answers (ha : analyze input = .ok ctx) (hl : load input = .ok ctx') :
    ∃ N, ∀ fuel, N ≤ fuel → ∀ c, Session input ctx'.heap fuel (Harmless ctx.heap) c → ∀ q, Sensible ctx.heap q →
      ∃ a, AnswerOf input ctx.heap q a ∧ (q.run input ctx'.heap fuel c).1 = .ok a := by
  have L := loaded ha hl
  obtain ⟨N, hN⟩ := L.enough (input := input)
  refine ⟨N, fun fuel hf c hc q hq => ?_⟩
  obtain ⟨a, h1⟩ := L.exists_answer (input := input) hq
  obtain ⟨c', h2, _⟩ := L.answer (hN fuel hf) hq h1 c (L.coherent (hN fuel hf) hc)
  exact ⟨a, h1, by rw [h2]⟩

/-- Partial: questions about elements of sections that are mirrored or extend something mirrored, or that a deep merge may touch, are left out (and
`raw` where it involves these or a single empty comment line). All other questions always get the result of a first read, whether answer or exception. -/
theorem C21_idempotent_partial (ha : analyze input = .ok ctx) (hl : load input = .ok ctx') :
    ∃ N, ∀ fuel, N ≤ fuel → ∀ c, Session input ctx'.heap fuel (Harmless ctx.heap) c → ∀ q, Harmless ctx.heap q →
      (q.run input ctx'.heap fuel c).1 = answer input ctx'.heap fuel q := by
  have L := loaded ha hl
  obtain ⟨N, hN⟩ := L.enough (input := input)
  refine ⟨N, fun fuel hf c hc q hq => ?_⟩
  obtain ⟨res, hr⟩ := L.harmless (hN fuel hf) hq
  obtain ⟨c1, h1, _⟩ := hr c (L.coherent (hN fuel hf) hc)
  obtain ⟨c2, h2, _⟩ := hr .empty coherent_empty
  unfold answer
  rw [h1, h2]

/-- Answers are unique: two right answers to a sensible question are the same. -/
theorem C21_unique (ha : analyze input = .ok ctx) (hl : load input = .ok ctx') (hq : Sensible ctx.heap q) {a b : Answer}
    (h1 : AnswerOf input ctx.heap q a) (h2 : AnswerOf input ctx.heap q b) : a = b := by
  have L := loaded ha hl
  obtain ⟨N, hN⟩ := L.enough (input := input)
  obtain ⟨_, r1, _⟩ := L.answer (hN N (by omega)) hq h1 .empty coherent_empty
  obtain ⟨_, r2, _⟩ := L.answer (hN N (by omega)) hq h2 .empty coherent_empty
  rw [r1] at r2
  injection r2 with r2 _
  injection r2

/-- The claim is false of the code: asking for the elements of a section that extends a mirrored one raises, asking again does not. -/
theorem C21_refuted : ∃ ctx, load (chars!"# A\nx: 1\n# B < A\n# C < B\ny: 2") = .ok ctx ∧
    failure (answer [] ctx.heap 9 (.elements 4)) = some .typeError ∧
    elementsOf ((Query.elements 4).run [] ctx.heap 9 ((Query.elements 4).run [] ctx.heap 9 .empty).2).1 = some (some [5]) := by
  refine ⟨_, rfl, ?_, ?_⟩ <;> decide +kernel


example : ∃ ctx ctx', analyze (chars!"a:\n- 1\nb < a\n- 2") = .ok ctx ∧ load (chars!"a:\n- 1\nb < a\n- 2") = .ok ctx' ∧ Sensible ctx.heap (.items 2) ∧
    refsOf (answer [] ctx'.heap 9 (.items 2)) = some [.item 1 0, .item 2 0] := by
  refine ⟨_, _, rfl, rfl, ⟨by decide +kernel, by decide +kernel, ?_⟩, by decide +kernel⟩
  exact .extended (t := 1) (k := .list) ⟨by decide +kernel, chars!"a", by decide +kernel, by decide +kernel⟩ (.own (by decide +kernel)) (by decide +kernel)
    (by unfold Clash; decide +kernel)

/-! ## C20: continuations -/

/-- The value of a field that is not a copy and not a multiline field is its parts joined; so is that of an item or entry. -/
theorem C20_value (ha : analyze input = .ok ctx) (hl : load input = .ok ctx') (hf : ctx.heap.length + 2 ≤ fuel) :
    (∀ i, i < ctx.heap.length → (ctx.heap.at i).type = .field → answer input ctx'.heap fuel (.value (.elem i)) =
      .ok (.text (joined (valueParts (ctx.heap.at i).value (ctx.heap.at i).continuations)))) ∧
    (∀ r x, ctx.heap.sub? r = some x → answer input ctx'.heap fuel (.value r) = .ok (.text (joined (valueParts x.value x.continuations)))) := by
  have L := loaded ha hl
  constructor
  · intro i hi hty
    have hs : (ctx.heap.at i).type ≠ .section := by rw [hty]; decide
    have hc : (ctx.heap.at i).copy = none := by
      cases hq : (ctx.heap.at i).copy with
      | none => rfl
      | some k =>
        have ok := L.non.ok.elem i hi
        have := ok.template (by rw [← ok.copy, hq]; rfl)
        rw [hty] at this; simp at this
    have h1 := answer_of (q := .value (.elem i)) (returns_map Answer.text (L.value (input := input) hi hs (.own hc) (fuel := fuel) (by omega)))
    rw [h1]
    simp [ownValue, hty]
  · intro r x hx
    obtain ⟨fuel, rfl⟩ : ∃ f, fuel = f + 1 := ⟨fuel - 1, by omega⟩
    have h1 := answer_of (q := .value r) (returns_map Answer.text (readValue_sub (input := input) L.non r (by rintro i rfl; exact not_sub hx) fuel))
    rw [h1]
    simp [subValue, hx]

example : ∃ ctx ctx', analyze (chars!"a:\n\\\n| b\nl:\n-\n\\ x") = .ok ctx ∧ load (chars!"a:\n\\\n| b\nl:\n-\n\\ x") = .ok ctx' ∧ 1 < ctx.heap.length ∧ (ctx.heap.at 1).type = .field ∧
    (ctx.heap.sub? (.item 2 0)).isSome = true ∧ (ctx.heap.at 1).continuations.map (·.length) = some 2 := by
  refine ⟨_, _, rfl, rfl, ?_⟩
  decide +kernel

/-- There is no value iff all parts are empty. -/
theorem C20_none (ps : List (Bool × Option Str)) : joined ps = none ↔ ∀ p ∈ ps, p.2 = none := by
  induction ps with
  | nil => simp [joined]
  | cons p ps ih =>
    obtain ⟨s, v⟩ := p
    cases v with
    | none => simp [joined, ih]
    | some x => simp [joined]

/-- Empty parts before the first text do not matter, not even if they are spaced. -/
theorem C20_first (es ps : List (Bool × Option Str)) (b : Bool) (x : Str) (he : ∀ p ∈ es, p.2 = none) :
    joined (es ++ (b, some x) :: ps) = some (x ++ tailText false ps) := by
  induction es with
  | nil => rfl
  | cons p es ih =>
    obtain ⟨s, v⟩ := p
    have : v = none := he (s, v) (by simp)
    subst this
    exact ih fun p hp => he p (by simp [hp])

/-- Between a text and the next one there is a single blank iff one of the parts after the first up to the second is spaced. -/
theorem C20_next (es ps : List (Bool × Option Str)) (b : Bool) (y : Str) (he : ∀ p ∈ es, p.2 = none) :
    tailText false (es ++ (b, some y) :: ps) = (if (∃ p ∈ es, p.1 = true) ∨ b = true then [' '] else []) ++ y ++ tailText false ps := by
  have key : ∀ es : List (Bool × Option Str), (∀ p ∈ es, p.2 = none) → ∀ c : Bool, tailText c (es ++ (b, some y) :: ps) =
      (if c = true ∨ (∃ p ∈ es, p.1 = true) ∨ b = true then [' '] else []) ++ y ++ tailText false ps := by
    intro es
    induction es with
    | nil => intro _ c; simp [tailText]
    | cons p es ih =>
      intro he c
      obtain ⟨s, v⟩ := p
      have : v = none := he (s, v) (by simp)
      subst this
      rw [List.cons_append, tailText, ih (fun p hp => he p (by simp [hp]))]
      congr 3
      simp [or_assoc]
  rw [key es he false]; simp only [Bool.false_eq_true, false_or]

/-- Nothing follows the last text. -/
theorem C20_last (es : List (Bool × Option Str)) (he : ∀ p ∈ es, p.2 = none) : tailText false es = [] := by
  have key : ∀ es : List (Bool × Option Str), (∀ p ∈ es, p.2 = none) → ∀ c : Bool, tailText c es = [] := by
    intro es
    induction es with
    | nil => intro _ c; rfl
    | cons p es ih =>
      intro he c
      obtain ⟨s, v⟩ := p
      have : v = none := he (s, v) (by simp)
      subst this
      exact ih (fun p hp => he p (by simp [hp])) _
  exact key es he false

example : ∃ ctx, load (chars!"a:\n\\\n| b\n|\n\\\n| c\n| d\nl:\n-\n\\ x") = .ok ctx ∧ textOf (answer [] ctx.heap 9 (.value (.elem 1))) = some (some (chars!"b cd")) ∧
    textOf (answer [] ctx.heap 9 (.value (.item 2 0))) = some (some (chars!"x")) := by
  refine ⟨_, rfl, ?_, ?_⟩ <;> decide +kernel

/-! ## C22, C54: comments -/

/-- Partial: elements whose only comment line is empty are left out. Reading the comment of anything else never fails; it is the text of the comment
lines it has after loading. -/
theorem C22_comment_partial (ha : analyze input = .ok ctx) (hl : load input = .ok ctx') (r : Ref) (hr : Readable (ctx'.heap.comments r)) :
    answer input ctx'.heap fuel (.comment r) = .ok (.text (commentOf (ctx'.heap.comments r))) := by
  have L := loaded ha hl
  exact answer_of (q := .comment r) (returns_map Answer.text (L.comment (input := input) r (fun cs hcs x e => hr x (by rw [hcs, e]))))

example : ∃ ctx ctx', analyze (chars!">\n>  a\n>\nx < y\n> c\ny: 1") = .ok ctx ∧ load (chars!">\n>  a\n>\nx < y\n> c\ny: 1") = .ok ctx' ∧ Readable (ctx'.heap.comments (.elem 1)) ∧
    (ctx'.heap.comments (.elem 1)).map (·.length) = some 3 := by
  obtain ⟨ctx, ctx', h1, h2, h3, h4⟩ : ∃ ctx ctx', analyze (chars!">\n>  a\n>\nx < y\n> c\ny: 1") = .ok ctx ∧ load (chars!">\n>  a\n>\nx < y\n> c\ny: 1") = .ok ctx' ∧ readableB (ctx'.heap.comments (.elem 1)) = true ∧
      (ctx'.heap.comments (.elem 1)).map (·.length) = some 3 := by
    refine ⟨_, _, rfl, rfl, ?_⟩
    decide +kernel
  exact ⟨ctx, ctx', h1, h2, readableB_sound h3, h4⟩

/-- The claim that reading a comment never fails is false of the code: a single empty comment line raises. -/
theorem C22_refuted : ∃ ctx, load (chars!">\na: 1") = .ok ctx ∧ failure (answer [] ctx.heap 9 (.comment (.elem 1))) = some .keyError ∧
    failure (answer [] ctx.heap 9 (.raw (.elem 0))) = some .keyError := by
  refine ⟨_, rfl, ?_, ?_⟩ <;> decide +kernel

/-- The text of a comment with some non-empty line: cut off the empty lines at both ends; each remaining line is indented by its column minus the
smallest column of a non-empty line; lines are joined by line feeds. -/
theorem C22_text (cs : List (Nat × Option Str)) (hs : ∃ c ∈ cs, c.2.isSome) :
    ∃ front mid back m, cs = front ++ mid ++ back ∧ (∀ c ∈ front, c.2 = none) ∧ (∀ c ∈ back, c.2 = none) ∧
      (∃ c, mid.head? = some c ∧ c.2.isSome) ∧ (∃ c, mid.getLast? = some c ∧ c.2.isSome) ∧
      (∀ c ∈ cs, c.2.isSome → m ≤ c.1) ∧ (∃ c ∈ cs, c.2.isSome ∧ c.1 = m) ∧
      commentText cs = some (['\n'].intercalate (mid.map fun c => match c.2 with
        | none => []
        | some x => List.replicate (c.1 - m) ' ' ++ x)) := by
  have hn : ¬ ∀ c ∈ cs, c.2.isNone = true := by
    obtain ⟨c, hc, h⟩ := hs
    intro q
    have := q c hc
    cases hv : c.2 with
    | none => rw [hv] at h; simp at h
    | some x => rw [hv] at this; simp at this
  have hm : ∃ m, commonIndent cs = m ∧ (∀ c ∈ cs, c.2.isSome → m ≤ c.1) ∧ ∃ c ∈ cs, c.2.isSome ∧ c.1 = m := by
    unfold commonIndent
    cases hq : ((cs.filter fun c => c.2.isSome).map (·.1)).min? with
    | none =>
      obtain ⟨c, hc, h⟩ := hs
      simp only [List.min?_eq_none_iff, List.map_eq_nil_iff, List.filter_eq_nil_iff] at hq
      exact absurd h (hq c hc)
    | some m =>
      obtain ⟨h1, h2⟩ := List.min?_eq_some_iff.1 hq
      refine ⟨m, rfl, ?_, ?_⟩
      · intro c hc hcs
        exact h2 _ (List.mem_map.2 ⟨c, List.mem_filter.2 ⟨hc, hcs⟩, rfl⟩)
      · obtain ⟨c, h3, h4⟩ := List.mem_map.1 h1
        exact ⟨c, (List.mem_filter.1 h3).1, (List.mem_filter.1 h3).2, h4⟩
  obtain ⟨m, hm1, hm2, hm3⟩ := hm
  rcases split_blank (fun c : Nat × Option Str => c.2.isNone) cs with h | ⟨pre, mid, post, h1, h2, h3, h4, h5⟩
  · exact absurd h hn
  · refine ⟨pre, mid, post, m, h1, fun c hc => by simpa using h2 c hc, fun c hc => by simpa using h3 c hc, ?_, ?_, hm2, hm3, ?_⟩
    · obtain ⟨x, t, e1, e2⟩ := h4
      refine ⟨x, by rw [e1]; rfl, ?_⟩
      cases hx : x.2 with
      | none => rw [hx] at e2; simp at e2
      | some _ => rfl
    · obtain ⟨y, t, e1, e2⟩ := h5
      refine ⟨y, by rw [e1]; simp, ?_⟩
      cases hx : y.2 with
      | none => rw [hx] at e2; simp at e2
      | some _ => rfl
    · unfold commentText
      rw [if_neg (by simpa using hn), hm1]
      congr 2
      have := trimBlank_split h2 h3 h4 h5
      rw [← h1] at this
      rw [this]
      refine List.map_congr_left fun c _ => ?_
      cases c.2 <;> rfl

example : ∃ c ∈ ([(2, none), (3, some (chars!"a")), (2, none), (2, some (chars!"b")), (1, none)] : List (Nat × Option Str)), c.2.isSome := by decide

/-- A comment with empty lines only is no comment. -/
theorem C22_blank (cs : List (Nat × Option Str)) (hs : ∀ c ∈ cs, c.2 = none) : commentText cs = none := by
  unfold commentText
  rw [if_pos (by simpa using hs)]

/-- The comment lines of an element after loading: its own; a copy without any has those of its template. -/
theorem C54_inherited (ha : analyze input = .ok ctx) (hl : load input = .ok ctx') (hi : i < ctx.heap.length)
    (hs : (ctx.heap.at i).type ≠ .section ∨ Undisturbed ctx.heap i) {c : Option (List Comment)} (hc : CommentsOf ctx.heap i c) : ctx'.heap.comments (.elem i) = c := by
  have L := loaded ha hl
  by_cases hq : (ctx.heap.at i).type = .section
  · exact L.sec.comments_of hc hi (.inl hq) (hs.resolve_left fun n => n hq)
  · exact L.non.comments hc hi hq

/-- Every element has comment lines in this sense. -/
theorem C54_defined (ha : analyze input = .ok ctx) (hl : load input = .ok ctx') (hi : i < ctx.heap.length) : ∃ c, CommentsOf ctx.heap i c := by
  have L := loaded ha hl
  by_cases hq : (ctx.heap.at i).type = .section
  · exact (L.sec.grounded i hi (.inl hq)).comments
  · exact (L.non.grounded i hi hq).comments

/-- Sample for the hypotheses: a copy of a copy, with the comment of the element that is copied in the end. -/
example : ∃ ctx ctx' c, analyze (chars!"x < y\nz < x\n> c\ny: 1") = .ok ctx ∧ load (chars!"x < y\nz < x\n> c\ny: 1") = .ok ctx' ∧ 2 < ctx.heap.length ∧ (ctx.heap.at 2).type ≠ .section ∧
    CommentsOf ctx.heap 2 c ∧ c.map (·.length) = some 1 := by
  obtain ⟨ctx, ctx', h1, h2, h3, h4, h5⟩ : ∃ ctx ctx', analyze (chars!"x < y\nz < x\n> c\ny: 1") = .ok ctx ∧ load (chars!"x < y\nz < x\n> c\ny: 1") = .ok ctx' ∧ 2 < ctx.heap.length ∧ (ctx.heap.at 2).type ≠ .section ∧
      (ctx'.heap.comments (.elem 2)).map (·.length) = some 1 := by
    refine ⟨_, _, rfl, rfl, ?_⟩
    decide +kernel
  obtain ⟨c, hc⟩ := C54_defined h1 h2 h3
  exact ⟨ctx, ctx', c, h1, h2, h3, h4, hc, by rw [← C54_inherited h1 h2 h3 (.inl h4) hc]; exact h5⟩

/-- No comment line comes from nowhere, whatever deep copies do. -/
theorem C54_written (ha : analyze input = .ok ctx) (hl : load input = .ok ctx') (j : Nat) : ∃ i, ctx'.heap.comments (.elem j) = ctx.heap.comments (.elem i) :=
  (loaded ha hl).written j

example : ∃ ctx, load (chars!">\n>   a\n>\n>  b\n>\nx < y\n> c\ny: 1") = .ok ctx ∧ textOf (answer [] ctx.heap 9 (.comment (.elem 1))) = some (some (chars!" a\n\nb")) := by
  refine ⟨_, rfl, ?_⟩; decide +kernel
example : ∃ ctx, load (chars!"x < y\n> c\ny: 1") = .ok ctx ∧ textOf (answer [] ctx.heap 9 (.comment (.elem 1))) = some (some (chars!"c")) := by
  refine ⟨_, rfl, ?_⟩; decide +kernel

/-! ## C31: non-section elements can be read -/

/-- As many nested calls as there are elements are enough to read the value, the items or the entries of any element that is not a section, through both
interfaces. -/
theorem C31_terminates (ha : analyze input = .ok ctx) (hl : load input = .ok ctx') (hi : i < ctx.heap.length) (hs : (ctx.heap.at i).type ≠ .section)
    (hf : ctx.heap.length ≤ fuel) :
    (∃ v, answer input ctx'.heap fuel (.value (.elem i)) = .ok (.text v)) ∧
    ((ctx'.heap.at i).type = .list → ∃ xs, answer input ctx'.heap fuel (.items i) = .ok (.refs xs) ∧ instItems ctx'.heap fuel i = .ok xs) ∧
    ((ctx'.heap.at i).type = .fieldset → ∃ xs m, answer input ctx'.heap fuel (.entries i) = .ok (.refs xs) ∧ instEntries ctx'.heap fuel i [] = .ok (m, xs)) ∧
    ((ctx'.heap.at i).type = .empty → instItems ctx'.heap fuel i = .ok [] ∧ instEntries ctx'.heap fuel i [] = .ok ([], [])) := by
  have L := loaded ha hl
  have g := L.non.grounded i hi hs
  obtain ⟨n, hn, gn⟩ := g.bounded hi
  refine ⟨?_, ?_, ?_, ?_⟩
  · obtain ⟨v, hv⟩ := g.value (input := input)
    exact ⟨v, answer_of (q := .value (.elem i)) (returns_map Answer.text (L.value hi hs hv hf))⟩
  · intro hty
    obtain ⟨xs, hx⟩ := g.items
    exact ⟨xs, answer_of (q := .items i) (returns_map Answer.refs (L.items (input := input) hi hs hty hx hf)), instItems_spec L.non n i fuel gn (by omega) hi hs hty xs hx⟩
  · intro hty
    obtain ⟨xs, hx⟩ := g.entries
    obtain ⟨m, h2, _⟩ := instEntries_spec L.non n i fuel gn (by omega) hi hs hty xs hx [] (by simp)
    refine ⟨xs, m, answer_of (q := .entries i) (returns_map Answer.refs (L.entries (input := input) hi hs hty hx hf)), ?_⟩
    have e : untaken ctx.heap [] xs = xs := by unfold untaken; rw [List.filter_eq_self]; simp
    rw [e] at h2; simpa using h2
  · intro hty
    obtain ⟨fuel, rfl⟩ : ∃ f, fuel = f + 1 := ⟨fuel - 1, by omega⟩
    obtain ⟨h1, h2⟩ := inst_empty L.non hi hty hs fuel
    exact ⟨h1, h2 []⟩

example : ∃ ctx ctx', analyze (chars!"c < b\n- 3\nb < a\na:\n- 1") = .ok ctx ∧ load (chars!"c < b\n- 3\nb < a\na:\n- 1") = .ok ctx' ∧
    1 < ctx.heap.length ∧ (ctx.heap.at 1).type ≠ .section ∧ (ctx'.heap.at 1).type = .list ∧ (instItems ctx'.heap 9 1).toOption = some [.item 3 0, .item 1 0] := by
  refine ⟨_, _, rfl, rfl, ?_⟩
  decide +kernel

/-! ## C27–C29: copies of fields, lists and fieldsets -/

/-- An element copied from a field or multiline field is a field with the value of the template. -/
theorem C27_value (ha : analyze input = .ok ctx) (hl : load input = .ok ctx') (hs : (ctx.heap.at i).type ≠ .section) (ht : TemplateIs ctx.heap i t)
    (hk : (ctx'.heap.at t).type = .field ∨ (ctx'.heap.at t).type = .mlBegin) (hf : ctx.heap.length ≤ fuel) :
    (ctx'.heap.at i).type = .field ∧ ∃ v, answer input ctx'.heap fuel (.value (.elem i)) = .ok (.text v) ∧ answer input ctx'.heap fuel (.value (.elem t)) = .ok (.text v) := by
  have L := loaded ha hl
  obtain ⟨h1, h2⟩ := L.non.nonsec hs ht
  obtain ⟨v, hv⟩ := (L.non.grounded t h1 h2).value (input := input)
  refine ⟨?_, v, answer_of (q := .value (.elem i)) (returns_map Answer.text (L.value ht.1 hs (.copy ht hv) hf)),
    answer_of (q := .value (.elem t)) (returns_map Answer.text (L.value h1 h2 hv hf))⟩
  cases L.non.link hs ht with
  | mirrored e1 e2 e3 => rw [e3]; rcases hk with e | e <;> rw [e] <;> rfl
  | nothing e1 e2 => rcases hk with e | e <;> rw [e] at e2 <;> simp at e2
  | extended e1 e2 e3 => rcases hk with e | e <;> rw [e] at e2 <;> rcases e1 with e1 | e1 <;> rw [e1] at e2 <;> simp at e2
  | fresh e1 e2 => rcases hk with e | e <;> rw [e] at e2 <;> simp at e2

example : ∃ ctx ctx', analyze (chars!"c < b\nb < a\n-- a\n x\n\n-- a") = .ok ctx ∧ load (chars!"c < b\nb < a\n-- a\n x\n\n-- a") = .ok ctx' ∧ (ctx.heap.at 1).type = .empty ∧ TemplateIs ctx.heap 1 2 ∧
    (ctx'.heap.at 2).type = .field := by
  obtain ⟨ctx, ctx', h1, h2, h3, h4, h5, h6⟩ : ∃ ctx ctx', analyze (chars!"c < b\nb < a\n-- a\n x\n\n-- a") = .ok ctx ∧ load (chars!"c < b\nb < a\n-- a\n x\n\n-- a") = .ok ctx' ∧ 1 < ctx.heap.length ∧
      (ctx.heap.at 1).type = .empty ∧ templateB ctx.heap 1 = some 2 ∧ (ctx'.heap.at 2).type = .field := by
    refine ⟨_, _, rfl, rfl, ?_⟩
    decide +kernel
  exact ⟨ctx, ctx', h1, h2, h4, (templateB_iff h3).1 h5, h6⟩

/-- An element copied from a list without own items is a list with the items of the template. -/
theorem C27_items (ha : analyze input = .ok ctx) (hl : load input = .ok ctx') (hs : (ctx.heap.at i).type = .empty) (ht : TemplateIs ctx.heap i t)
    (hk : (ctx'.heap.at t).type = .list) (hf : ctx.heap.length ≤ fuel) :
    (ctx'.heap.at i).type = .list ∧ ∃ xs, answer input ctx'.heap fuel (.items i) = .ok (.refs xs) ∧ answer input ctx'.heap fuel (.items t) = .ok (.refs xs) ∧
      instItems ctx'.heap fuel i = .ok xs ∧ instItems ctx'.heap fuel t = .ok xs := by
  have L := loaded ha hl
  have hs' : (ctx.heap.at i).type ≠ .section := by rw [hs]; decide
  obtain ⟨h1, h2⟩ := L.non.nonsec hs' ht
  obtain ⟨xs, hx⟩ := (L.non.grounded t h1 h2).items
  have hy : ItemsOf ctx.heap i xs := by
    have := ItemsOf.copy ht hx
    rwa [L.non.itemsAt_nil ht.1 (by rw [hs]; decide), List.append_nil] at this
  have hty : (ctx'.heap.at i).type = .list := by
    cases L.non.link hs' ht with
    | mirrored e1 e2 e3 => rw [e3, hk]; rfl
    | nothing e1 e2 => rw [hk] at e2; simp at e2
    | extended e1 => rw [hs] at e1; simp at e1
    | fresh e1 => rw [hs] at e1; simp at e1
  obtain ⟨n, hn, gn⟩ := (L.non.grounded i ht.1 hs').bounded ht.1
  obtain ⟨m, hm, gm⟩ := (L.non.grounded t h1 h2).bounded h1
  exact ⟨hty, xs, answer_of (q := .items i) (returns_map Answer.refs (L.items (input := input) ht.1 hs' hty hy hf)),
    answer_of (q := .items t) (returns_map Answer.refs (L.items (input := input) h1 h2 hk hx hf)),
    instItems_spec L.non n i fuel gn (by omega) ht.1 hs' hty xs hy, instItems_spec L.non m t fuel gm (by omega) h1 h2 hk xs hx⟩

example : ∃ ctx ctx', analyze (chars!"c < b\nb < a\na:\n- x\n- y") = .ok ctx ∧ load (chars!"c < b\nb < a\na:\n- x\n- y") = .ok ctx' ∧ (ctx.heap.at 1).type = .empty ∧ TemplateIs ctx.heap 1 2 ∧
    (ctx'.heap.at 2).type = .list := by
  obtain ⟨ctx, ctx', h1, h2, h3, h4, h5, h6⟩ : ∃ ctx ctx', analyze (chars!"c < b\nb < a\na:\n- x\n- y") = .ok ctx ∧ load (chars!"c < b\nb < a\na:\n- x\n- y") = .ok ctx' ∧ 1 < ctx.heap.length ∧
      (ctx.heap.at 1).type = .empty ∧ templateB ctx.heap 1 = some 2 ∧ (ctx'.heap.at 2).type = .list := by
    refine ⟨_, _, rfl, rfl, ?_⟩
    decide +kernel
  exact ⟨ctx, ctx', h1, h2, h4, (templateB_iff h3).1 h5, h6⟩

/-- What the typed and the untyped interface return for a fieldset. -/
theorem fieldset_entries (ha : analyze input = .ok ctx) (hl : load input = .ok ctx') (hi : i < ctx.heap.length) (hs : (ctx.heap.at i).type ≠ .section)
    (hty : (ctx'.heap.at i).type = .fieldset) (hf : ctx.heap.length ≤ fuel) (hx : EntriesOf ctx.heap i xs) :
    answer input ctx'.heap fuel (.entries i) = .ok (.refs xs) ∧ ∃ m, instEntries ctx'.heap fuel i [] = .ok (m, xs) := by
  obtain ⟨_, _, h3, _⟩ := C31_terminates ha hl hi hs hf
  obtain ⟨ys, m, h4, h5⟩ := h3 hty
  have L := loaded ha hl
  have := answer_of (q := .entries i) (returns_map Answer.refs (L.entries (input := input) hi hs hty hx hf))
  rw [this] at h4
  injection h4 with h4; injection h4 with h4; subst h4
  exact ⟨this, m, h5⟩

/-- An element copied from a fieldset without own entries is a fieldset with the entries of the template. -/
theorem C27_entries (ha : analyze input = .ok ctx) (hl : load input = .ok ctx') (hs : (ctx.heap.at i).type = .empty) (ht : TemplateIs ctx.heap i t)
    (hk : (ctx'.heap.at t).type = .fieldset) (hf : ctx.heap.length ≤ fuel) :
    (ctx'.heap.at i).type = .fieldset ∧ ∃ xs, answer input ctx'.heap fuel (.entries i) = .ok (.refs xs) ∧ answer input ctx'.heap fuel (.entries t) = .ok (.refs xs) ∧
      (∃ m, instEntries ctx'.heap fuel i [] = .ok (m, xs)) ∧ ∃ m, instEntries ctx'.heap fuel t [] = .ok (m, xs) := by
  have L := loaded ha hl
  have hs' : (ctx.heap.at i).type ≠ .section := by rw [hs]; decide
  obtain ⟨h1, h2⟩ := L.non.nonsec hs' ht
  obtain ⟨xs, hx⟩ := (L.non.grounded t h1 h2).entries
  have hy : EntriesOf ctx.heap i xs := by
    have := EntriesOf.copy ht hx
    have e := L.non.entriesAt_nil ht.1 (by rw [hs]; decide)
    have e' : notRedefined ctx.heap i xs = xs := by unfold notRedefined; rw [e, List.filter_eq_self]; simp
    rwa [e, List.append_nil, e'] at this
  have hty : (ctx'.heap.at i).type = .fieldset := by
    cases L.non.link hs' ht with
    | mirrored e1 e2 e3 => rw [e3, hk]; rfl
    | nothing e1 e2 => rw [hk] at e2; simp at e2
    | extended e1 => rw [hs] at e1; simp at e1
    | fresh e1 => rw [hs] at e1; simp at e1
  obtain ⟨q1, q2⟩ := fieldset_entries ha hl ht.1 hs' hty hf hy
  obtain ⟨q3, q4⟩ := fieldset_entries ha hl h1 h2 hk hf hx
  exact ⟨hty, xs, q1, q3, q2, q4⟩

example : ∃ ctx ctx', analyze (chars!"c < b\nb < a\na:\nx = 1") = .ok ctx ∧ load (chars!"c < b\nb < a\na:\nx = 1") = .ok ctx' ∧ (ctx.heap.at 1).type = .empty ∧ TemplateIs ctx.heap 1 2 ∧
    (ctx'.heap.at 2).type = .fieldset := by
  obtain ⟨ctx, ctx', h1, h2, h3, h4, h5, h6⟩ : ∃ ctx ctx', analyze (chars!"c < b\nb < a\na:\nx = 1") = .ok ctx ∧ load (chars!"c < b\nb < a\na:\nx = 1") = .ok ctx' ∧ 1 < ctx.heap.length ∧
      (ctx.heap.at 1).type = .empty ∧ templateB ctx.heap 1 = some 2 ∧ (ctx'.heap.at 2).type = .fieldset := by
    refine ⟨_, _, rfl, rfl, ?_⟩
    decide +kernel
  exact ⟨ctx, ctx', h1, h2, h4, (templateB_iff h3).1 h5, h6⟩

/-- The items of a copied list with own items are those of the template followed by the own ones. -/
theorem C28_append (ha : analyze input = .ok ctx) (hl : load input = .ok ctx') (hs : (ctx.heap.at i).type = .list) (ht : TemplateIs ctx.heap i t)
    (hk : (ctx'.heap.at t).type = .list) (hf : ctx.heap.length ≤ fuel) :
    (ctx'.heap.at i).type = .list ∧ ∃ xs, answer input ctx'.heap fuel (.items t) = .ok (.refs xs) ∧ instItems ctx'.heap fuel t = .ok xs ∧
      answer input ctx'.heap fuel (.items i) = .ok (.refs (xs ++ itemsAt ctx.heap i)) ∧ instItems ctx'.heap fuel i = .ok (xs ++ itemsAt ctx.heap i) := by
  have L := loaded ha hl
  have hs' : (ctx.heap.at i).type ≠ .section := by rw [hs]; decide
  obtain ⟨h1, h2⟩ := L.non.nonsec hs' ht
  obtain ⟨xs, hx⟩ := (L.non.grounded t h1 h2).items
  have hty : (ctx'.heap.at i).type = .list := by
    cases L.non.link hs' ht with
    | mirrored e1 => rw [hs] at e1; simp at e1
    | nothing e1 => rw [hs] at e1; simp at e1
    | extended _ _ e3 => rw [e3, hs]
    | fresh _ _ e3 => rw [e3, hs]
  obtain ⟨n, hn, gn⟩ := (L.non.grounded i ht.1 hs').bounded ht.1
  obtain ⟨m, hm, gm⟩ := (L.non.grounded t h1 h2).bounded h1
  exact ⟨hty, xs, answer_of (q := .items t) (returns_map Answer.refs (L.items (input := input) h1 h2 hk hx hf)),
    instItems_spec L.non m t fuel gm (by omega) h1 h2 hk xs hx,
    answer_of (q := .items i) (returns_map Answer.refs (L.items (input := input) ht.1 hs' hty (.copy ht hx) hf)),
    instItems_spec L.non n i fuel gn (by omega) ht.1 hs' hty _ (.copy ht hx)⟩

example : ∃ ctx ctx', analyze (chars!"c < b\n- z\nb < a\na:\n- x\n- y") = .ok ctx ∧ load (chars!"c < b\n- z\nb < a\na:\n- x\n- y") = .ok ctx' ∧ (ctx.heap.at 1).type = .list ∧ TemplateIs ctx.heap 1 2 ∧
    (ctx'.heap.at 2).type = .list := by
  obtain ⟨ctx, ctx', h1, h2, h3, h4, h5, h6⟩ : ∃ ctx ctx', analyze (chars!"c < b\n- z\nb < a\na:\n- x\n- y") = .ok ctx ∧ load (chars!"c < b\n- z\nb < a\na:\n- x\n- y") = .ok ctx' ∧ 1 < ctx.heap.length ∧
      (ctx.heap.at 1).type = .list ∧ templateB ctx.heap 1 = some 2 ∧ (ctx'.heap.at 2).type = .list := by
    refine ⟨_, _, rfl, rfl, ?_⟩
    decide +kernel
  exact ⟨ctx, ctx', h1, h2, h4, (templateB_iff h3).1 h5, h6⟩

/-- The entries of a copied fieldset with own entries are those of the template whose keys it does not redefine, in template order, followed by the own ones. -/
theorem C29_override (ha : analyze input = .ok ctx) (hl : load input = .ok ctx') (hs : (ctx.heap.at i).type = .fieldset) (ht : TemplateIs ctx.heap i t)
    (hk : (ctx'.heap.at t).type = .fieldset) (hf : ctx.heap.length ≤ fuel) :
    (ctx'.heap.at i).type = .fieldset ∧ ∃ xs, answer input ctx'.heap fuel (.entries t) = .ok (.refs xs) ∧ (∃ m, instEntries ctx'.heap fuel t [] = .ok (m, xs)) ∧
      answer input ctx'.heap fuel (.entries i) = .ok (.refs (notRedefined ctx.heap i xs ++ entriesAt ctx.heap i)) ∧
      ∃ m, instEntries ctx'.heap fuel i [] = .ok (m, notRedefined ctx.heap i xs ++ entriesAt ctx.heap i) := by
  have L := loaded ha hl
  have hs' : (ctx.heap.at i).type ≠ .section := by rw [hs]; decide
  obtain ⟨h1, h2⟩ := L.non.nonsec hs' ht
  obtain ⟨xs, hx⟩ := (L.non.grounded t h1 h2).entries
  have hty : (ctx'.heap.at i).type = .fieldset := by
    cases L.non.link hs' ht with
    | mirrored e1 => rw [hs] at e1; simp at e1
    | nothing e1 => rw [hs] at e1; simp at e1
    | extended _ _ e3 => rw [e3, hs]
    | fresh _ _ e3 => rw [e3, hs]
  obtain ⟨q1, q2⟩ := fieldset_entries ha hl ht.1 hs' hty hf (.copy ht hx)
  obtain ⟨q3, q4⟩ := fieldset_entries ha hl h1 h2 hk hf hx
  exact ⟨hty, xs, q3, q4, q1, q2⟩

example : ∃ ctx ctx', analyze (chars!"c < b\nx = 3\nb < a\ny = 2\na:\nx = 1\nz = 1") = .ok ctx ∧ load (chars!"c < b\nx = 3\nb < a\ny = 2\na:\nx = 1\nz = 1") = .ok ctx' ∧ (ctx.heap.at 1).type = .fieldset ∧ TemplateIs ctx.heap 1 2 ∧
    (ctx'.heap.at 2).type = .fieldset := by
  obtain ⟨ctx, ctx', h1, h2, h3, h4, h5, h6⟩ : ∃ ctx ctx', analyze (chars!"c < b\nx = 3\nb < a\ny = 2\na:\nx = 1\nz = 1") = .ok ctx ∧ load (chars!"c < b\nx = 3\nb < a\ny = 2\na:\nx = 1\nz = 1") = .ok ctx' ∧ 1 < ctx.heap.length ∧
      (ctx.heap.at 1).type = .fieldset ∧ templateB ctx.heap 1 = some 2 ∧ (ctx'.heap.at 2).type = .fieldset := by
    refine ⟨_, _, rfl, rfl, ?_⟩
    decide +kernel
  exact ⟨ctx, ctx', h1, h2, h4, (templateB_iff h3).1 h5, h6⟩

example : ∃ ctx, load (chars!"c < b\nx = 3\nb < a\ny = 2\na:\nx = 1\nz = 1") = .ok ctx ∧
    refsOf (answer [] ctx.heap 9 (.entries 1)) = some [.entry 3 1, .entry 2 0, .entry 1 0] := by
  refine ⟨_, rfl, ?_⟩; decide +kernel
example : ∃ ctx, load (chars!"c < b\nb < a\n-- a\n x\n\n-- a") = .ok ctx ∧
    textOf (answer (chars!"c < b\nb < a\n-- a\n x\n\n-- a") ctx.heap 9 (.value (.elem 1))) = some (some (chars!" x\n")) := by
  refine ⟨_, rfl, ?_⟩; decide +kernel

/-! ## C32, C33: sections -/

/-- Partial: sections that a deep merge may touch, or that are copied from such sections, are left out. As many nested calls as there are elements are
enough to read all elements of any other section (or the document) through the typed interface. -/
theorem C32_terminates_partial (ha : analyze input = .ok ctx) (hl : load input = .ok ctx') (hi : s < ctx.heap.length)
    (hs : (ctx.heap.at s).type = .section ∨ s = 0) (u : Undisturbed ctx.heap s) (hf : ctx.heap.length ≤ fuel) :
    ∃ xs, instElements ctx'.heap fuel s [] = .ok xs ∧ ElementsOf ctx.heap s xs := by
  have L := loaded ha hl
  have g := L.sec.grounded s hi hs
  obtain ⟨n, hn, gn⟩ := g.bounded hi
  obtain ⟨xs, hx⟩ := g.elements
  have := instElements_spec L.non L.sec n s fuel gn (by omega) hi hs u xs hx []
  have e : leftOver ctx.heap [] xs = xs := by unfold leftOver; rw [List.filter_eq_self]; simp
  rw [e] at this
  exact ⟨xs, by simpa using this, hx⟩

/-- The claim is false of the code: after a deep merge a section can extend a section that mirrors it; reading its elements never ends. -/
theorem C32_refuted : ∃ ctx, load (chars!"# S << T\n## K\nx: 1\n# T\n## K < K") = .ok ctx ∧ (ctx.heap.at 2).type = .section ∧
    ∀ fuel, instElements ctx.heap fuel 2 [] = .error .recursionError := by
  refine ⟨_, rfl, by decide +kernel, ?_⟩
  have key : ∀ (h : Heap), (h.at 2).mirror = none → (h.at 2).extend = some 5 → (h.at 5).mirror = some 2 → ∀ fuel acc,
      instElements h fuel 2 acc = .error .recursionError ∧ instElements h fuel 5 acc = .error .recursionError := by
    intro h h1 h2 h3 fuel
    induction fuel with
    | zero => intro acc; exact ⟨rfl, rfl⟩
    | succ fuel ih =>
      intro acc
      simp only [instElements, h1, h2, h3]
      exact ⟨(ih _).2, (ih _).1⟩
  exact fun fuel => (key _ (by decide +kernel) (by decide +kernel) (by decide +kernel) fuel []).1

/-- A document without deep copies. -/
def NoDeepCopies (h : Heap) : Prop := ∀ a, (h.at a).deepCopy = false

theorem NoDeepCopies.undisturbed {h : Heap} (n : NoDeepCopies h) (s : Nat) : Undisturbed h s := ⟨fun a _ => n a, fun _ _ a _ => n a⟩

/-- Without deep copies, the elements of a copied section are its own followed by those of the template whose keys it does not define. -/
theorem C33_copied (ha : analyze input = .ok ctx) (hl : load input = .ok ctx') (nd : NoDeepCopies ctx.heap) (hs : (ctx.heap.at s).type = .section)
    (ht : TemplateIs ctx.heap s t) (hf : ctx.heap.length ≤ fuel) :
    ∃ xs, instElements ctx'.heap fuel t [] = .ok xs ∧ instElements ctx'.heap fuel s [] = .ok ((ctx.heap.at s).elements ++ notOverridden ctx.heap s xs) := by
  have L := loaded ha hl
  obtain ⟨_, h1, h2⟩ := L.sec.holder s t (.inl hs) ht
  obtain ⟨xs, hx, ex⟩ := C32_terminates_partial ha hl h1 (.inl h2) (nd.undisturbed t) hf
  obtain ⟨ys, hy, ey⟩ := C32_terminates_partial ha hl ht.1 (.inl hs) (nd.undisturbed s) hf
  exact ⟨xs, hx, by rw [hy, ey.det (.copy ht ex)]⟩

/-- Sample for the hypotheses (also for `C32_terminates_partial`): a copy of a copy of a section. -/
example : ∃ ctx ctx', analyze (chars!"# C < B\ny: 3\n# B < A\n# A\nx: 1\ny: 1") = .ok ctx ∧ load (chars!"# C < B\ny: 3\n# B < A\n# A\nx: 1\ny: 1") = .ok ctx' ∧ NoDeepCopies ctx.heap ∧ (ctx.heap.at 1).type = .section ∧
    TemplateIs ctx.heap 1 3 ∧ (∀ s, Undisturbed ctx.heap s) := by
  obtain ⟨ctx, ctx', h1, h2, h3, h4, h5, h6⟩ : ∃ ctx ctx', analyze (chars!"# C < B\ny: 3\n# B < A\n# A\nx: 1\ny: 1") = .ok ctx ∧ load (chars!"# C < B\ny: 3\n# B < A\n# A\nx: 1\ny: 1") = .ok ctx' ∧ 1 < ctx.heap.length ∧
      (ctx.heap.at 1).type = .section ∧ templateB ctx.heap 1 = some 3 ∧ ctx.heap.all (fun e => !e.deepCopy) = true := by
    refine ⟨_, _, rfl, rfl, ?_⟩
    decide +kernel
  have d : NoDeepCopies ctx.heap := fun i => by simpa using at_all h6 (by decide) i
  exact ⟨ctx, ctx', h1, h2, d, h4, (templateB_iff h3).1 h5, fun s => ⟨fun a _ => d a, fun _ _ a _ => d a⟩⟩

/-- Without deep copies, the elements of a section that is not copied are its own. -/
theorem C33_own (ha : analyze input = .ok ctx) (hl : load input = .ok ctx') (nd : NoDeepCopies ctx.heap) (hi : s < ctx.heap.length)
    (hs : (ctx.heap.at s).type = .section ∨ s = 0) (hc : (ctx.heap.at s).copy = none) (hf : ctx.heap.length ≤ fuel) :
    instElements ctx'.heap fuel s [] = .ok (ctx.heap.at s).elements := by
  obtain ⟨xs, hx, ex⟩ := C32_terminates_partial ha hl hi hs (nd.undisturbed s) hf
  rw [hx, ex.det (.own hc)]

/-- Both hold of sections that no deep merge can touch, whatever deep copies there are elsewhere; the deep copy itself is included. -/
theorem C33_undisturbed (ha : analyze input = .ok ctx) (hl : load input = .ok ctx') (u : Undisturbed ctx.heap s) (hs : (ctx.heap.at s).type = .section)
    (ht : TemplateIs ctx.heap s t) (hf : ctx.heap.length ≤ fuel) :
    ∃ xs, instElements ctx'.heap fuel t [] = .ok xs ∧ instElements ctx'.heap fuel s [] = .ok ((ctx.heap.at s).elements ++ notOverridden ctx.heap s xs) := by
  have L := loaded ha hl
  obtain ⟨_, h1, h2⟩ := L.sec.holder s t (.inl hs) ht
  obtain ⟨xs, hx, ex⟩ := C32_terminates_partial ha hl h1 (.inl h2) (u.template ht) hf
  obtain ⟨ys, hy, ey⟩ := C32_terminates_partial ha hl ht.1 (.inl hs) u hf
  exact ⟨xs, hx, by rw [hy, ey.det (.copy ht ex)]⟩

example : ∃ ctx, load (chars!"# C < B\ny: 3\n# B < A\n# A\nx: 1\ny: 1") = .ok ctx ∧ (instElements ctx.heap 9 1 []).toOption = some [2, 5] := by
  refine ⟨_, rfl, ?_⟩; decide +kernel

/-! ## C35: raw output -/

/-- Partial: documents with a single empty comment line anywhere are left out. `raw` on a list shows the items that typed access returns, in order; likewise
for the entries of a fieldset. -/
theorem C35_lists_partial (ha : analyze input = .ok ctx) (hl : load input = .ok ctx') (hr : CommentsReadable ctx.heap) :
    ∃ N, ∀ fuel, N ≤ fuel → ∀ i, i < ctx.heap.length → (ctx.heap.at i).type ≠ .section →
      ((ctx'.heap.at i).type = .list → ∃ xs rs c, instItems ctx'.heap fuel i = .ok xs ∧ RawsOf input ctx.heap xs rs ∧
        answer input ctx'.heap fuel (.raw (.elem i)) = .ok (.raw (.node .list c (some (ctx.heap.at i).key) rs))) ∧
      ((ctx'.heap.at i).type = .fieldset → ∃ m xs rs c, instEntries ctx'.heap fuel i [] = .ok (m, xs) ∧ RawsOf input ctx.heap xs rs ∧
        answer input ctx'.heap fuel (.raw (.elem i)) = .ok (.raw (.node .fieldset c (some (ctx.heap.at i).key) rs))) := by
  have L := loaded ha hl
  obtain ⟨N, hN⟩ := L.enough (input := input)
  refine ⟨N, fun fuel hf i hi hs => ?_⟩
  have en := hN fuel hf
  have hlen := en.1
  obtain ⟨_, q1, q2, _⟩ := C31_terminates ha hl hi hs (fuel := fuel) (by omega)
  have g := L.non.grounded i hi hs
  obtain ⟨c, hc⟩ := g.comments
  have hz : (ctx'.heap.at i).type = .list ∨ (ctx'.heap.at i).type = .fieldset → i ≠ 0 := by
    rintro h rfl
    rw [L.docType] at h; simp at h
  constructor
  · intro hty
    obtain ⟨xs, hx⟩ := g.items
    obtain ⟨ys, h1, h2⟩ := q1 hty
    have h3 := answer_of (q := .items i) (returns_map Answer.refs (L.items (input := input) hi hs hty hx (fuel := fuel) (by omega)))
    rw [h1] at h3; injection h3 with h3; injection h3 with h3; subst h3
    obtain ⟨rs, hrs⟩ := hasRaws (input := input) fun r hr => hasRaw_sub (hx.sub r hr)
    refine ⟨ys, rs, c.map fun _ => commentOf c, h2, hrs, ?_⟩
    have := L.answer en (q := .raw (.elem i)) (by exact ⟨hi, hr, .inl ⟨hs, hz (.inl hty)⟩⟩) (.raw (.list hi hc (hty ▸ L.kind i hi hs) hx hrs))
    exact answer_of this
  · intro hty
    obtain ⟨xs, hx⟩ := g.entries
    obtain ⟨ys, m, h1, h2⟩ := q2 hty
    have h3 := answer_of (q := .entries i) (returns_map Answer.refs (L.entries (input := input) hi hs hty hx (fuel := fuel) (by omega)))
    rw [h1] at h3; injection h3 with h3; injection h3 with h3; subst h3
    obtain ⟨rs, hrs⟩ := hasRaws (input := input) fun r hr => hasRaw_sub (hx.sub r hr)
    refine ⟨m, ys, rs, c.map fun _ => commentOf c, h2, hrs, ?_⟩
    have := L.answer en (q := .raw (.elem i)) (by exact ⟨hi, hr, .inl ⟨hs, hz (.inr hty)⟩⟩) (.raw (.fieldset hi hc (hty ▸ L.kind i hi hs) hx hrs))
    exact answer_of this

example : ∃ ctx ctx', analyze (chars!"> c\na:\n> d\n- 1\nb < a\n- 2") = .ok ctx ∧ load (chars!"> c\na:\n> d\n- 1\nb < a\n- 2") = .ok ctx' ∧ CommentsReadable ctx.heap ∧
    2 < ctx.heap.length ∧ (ctx.heap.at 2).type ≠ .section ∧ (ctx'.heap.at 2).type = .list := by
  obtain ⟨ctx, ctx', h1, h2, h3, h4⟩ : ∃ ctx ctx', analyze (chars!"> c\na:\n> d\n- 1\nb < a\n- 2") = .ok ctx ∧ load (chars!"> c\na:\n> d\n- 1\nb < a\n- 2") = .ok ctx' ∧
      commentsReadableB ctx.heap = true ∧ 2 < ctx.heap.length ∧ (ctx.heap.at 2).type ≠ .section ∧ (ctx'.heap.at 2).type = .list := by
    refine ⟨_, _, rfl, rfl, ?_⟩
    decide +kernel
  exact ⟨ctx, ctx', h1, h2, commentsReadableB_sound h3, h4⟩

/-- Partial: documents with deep copies above sections, with sections copied without own elements or with a single empty comment line are left out. `raw` on a
section or the document succeeds and shows the elements that typed access returns (in another order: copied elements come first). -/
theorem C35_sections_partial (ha : analyze input = .ok ctx) (hl : load input = .ok ctx') (hr : CommentsReadable ctx.heap) (st : AllStraight ctx.heap) :
    ∃ N, ∀ fuel, N ≤ fuel → ∀ s, s < ctx.heap.length → (ctx.heap.at s).type = .section ∨ s = 0 →
      ∃ xs ys rs ty c k, instElements ctx'.heap fuel s [] = .ok xs ∧ List.Perm xs ys ∧ RawsOf input ctx.heap (ys.map .elem) rs ∧
        answer input ctx'.heap fuel (.raw (.elem s)) = .ok (.raw (.node ty c k rs)) := by
  have L := loaded ha hl
  obtain ⟨N, hN⟩ := L.enough (input := input)
  refine ⟨N, fun fuel hf s hi hs => ?_⟩
  have en := hN fuel hf
  have hlen := en.1
  obtain ⟨xs, h1, h2⟩ := C32_terminates_partial ha hl hi hs (st s hi hs).1 (fuel := fuel) (by omega)
  obtain ⟨ys, h3, h4⟩ := L.hasRaw_sec (input := input) hi hs
  obtain ⟨rs, hrs⟩ := hasRaws (input := input) (h := ctx.heap) (rs := ys.map .elem) (by
    intro r hr'
    simp only [List.mem_map] at hr'
    obtain ⟨j, hj, rfl⟩ := hr'
    exact (h4 j hj).2.2)
  by_cases hz : s = 0
  · subst hz
    have := L.answer en (q := .raw (.elem 0)) (by exact ⟨hi, hr, .inr st⟩) (.raw (.document h3 hrs))
    exact ⟨xs, ys, rs, _, _, _, h1, h2.perm h3, hrs, answer_of this⟩
  · have hsec := hs.resolve_right hz
    obtain ⟨c, hc⟩ := (L.sec.grounded s hi hs).comments
    have := L.answer en (q := .raw (.elem s)) (by exact ⟨hi, hr, .inr st⟩) (.raw (.section hi hc hsec h3 hrs))
    exact ⟨xs, ys, rs, _, _, _, h1, h2.perm h3, hrs, answer_of this⟩

example : ∃ ctx ctx', analyze (chars!"> c\na:\n> d\n- 1\n# S\nx: 1\n# T < S\ny:\nk = v") = .ok ctx ∧ load (chars!"> c\na:\n> d\n- 1\n# S\nx: 1\n# T < S\ny:\nk = v") = .ok ctx' ∧
    CommentsReadable ctx.heap ∧ AllStraight ctx.heap ∧ (ctx.heap.at 4).type = .section ∧ (ctx.heap.at 4).copy.isSome := by
  obtain ⟨ctx, ctx', h1, h2, h3, h4, h5⟩ : ∃ ctx ctx', analyze (chars!"> c\na:\n> d\n- 1\n# S\nx: 1\n# T < S\ny:\nk = v") = .ok ctx ∧ load (chars!"> c\na:\n> d\n- 1\n# S\nx: 1\n# T < S\ny:\nk = v") = .ok ctx' ∧
      commentsReadableB ctx.heap = true ∧ straightB ctx.heap = true ∧ (ctx.heap.at 4).type = .section ∧ (ctx.heap.at 4).copy.isSome := by
    refine ⟨_, _, rfl, rfl, ?_⟩
    decide +kernel
  exact ⟨ctx, ctx', h1, h2, commentsReadableB_sound h3, straightB_sound h4, h5⟩

/-- The claim is false of the code: `raw` raises on a document with a section that is copied without own elements, which typed access can read. -/
theorem C35_refuted : ∃ ctx, load (chars!"# A\nx: 1\n# B < A") = .ok ctx ∧ failure (answer [] ctx.heap 9 (.raw (.elem 0))) = some .typeError ∧
    (instElements ctx.heap 9 3 []).toOption = some [2] := by
  refine ⟨_, rfl, ?_, ?_⟩ <;> decide +kernel

/-- The order differs: typed access lists own elements first, `raw` last. -/
theorem C35_order_refuted : ∃ ctx, load (chars!"# A\nx: 1\n# B < A\ny: 2") = .ok ctx ∧ elementsOf (answer [] ctx.heap 9 (.elements 3)) = some (some [2, 4]) ∧
    (instElements ctx.heap 9 3 []).toOption = some [4, 2] := by
  refine ⟨_, rfl, ?_, ?_⟩ <;> decide +kernel

/-! ## C05: multiline fields -/

/-- The value of a multiline field is the text between the line feed that ends its opening line and the one before its terminator, exactly; it has no value if
the terminator follows immediately. No line of the text is a terminator. -/
theorem C05_verbatim (ha : analyze input = .ok ctx) (hl : load input = .ok ctx') (hi : i < ctx.heap.length) (hty : (ctx.heap.at i).type = .mlBegin)
    (hf : ctx.heap.length ≤ fuel) :
    ∃ b fin op key v line rest, scan b (input.drop b) = some ⟨fin, .multiline op key⟩ ∧ (ctx.heap.at i).key = key.text ∧
      answer input ctx'.heap fuel (.value (.elem i)) = .ok (.text v) ∧
      input.drop fin = (match v with | none => [] | some t => '\n' :: t) ++ '\n' :: (line ++ rest) ∧ '\n' ∉ line ∧ LineEnd rest ∧ IsTerminator op.text key.text line ∧
      ∀ body' line' rest', input.drop fin = body' ++ '\n' :: (line' ++ rest') → '\n' ∉ line' → LineEnd rest' →
        body'.length < (match v with | none => 0 | some t => t.length + 1) → ¬ IsTerminator op.text key.text line' := by
  have L := loaded ha hl
  have hs : (ctx.heap.at i).type ≠ .section := by rw [hty]; decide
  have hz : 0 < i := by
    refine Nat.pos_of_ne_zero ?_
    rintro rfl
    rw [L.non.ok.doc.1] at hty; simp at hty
  have ok := L.non.ok.elem i hi
  have hc : (ctx.heap.at i).copy = none := by
    cases hq : (ctx.heap.at i).copy with
    | none => rfl
    | some k =>
      have := ok.template (by rw [← ok.copy, hq]; rfl)
      rw [hty] at this; simp at this
  obtain ⟨n, b, fin, op, key, T, h1, h2, h3⟩ := C19_recorded ha i hz hi hty
  obtain ⟨body, line, rest, e1, e2, e3, e4, e5, e6, e7⟩ := C19_first_terminator h1 h2
  have hin : T.start ≤ input.length := by
    have := congrArg List.length e1
    simp at this; omega
  have hv := multiline_value ok hty (by omega) hin h3
  have hans := answer_of (q := .value (.elem i)) (returns_map Answer.text (L.value (input := input) hi hs (.own hc) hf))
  have hkey : (ctx.heap.at i).key = key.text := by
    have : (ctx.heap.at i).head.head? = (Event.multi n b fin op key (mlBody input n fin T.start) T).pieces.head? := by rw [h3]
    simp only [Elem.head, Event.pieces, List.cons_append, List.head?_cons, Option.some.injEq] at this
    have := congrArg Piece.key this
    simpa [Elem.piece, pieceOf, keyText] using this
  refine ⟨b, fin, op, key, _, line, rest, h1, hkey, hans, ?_⟩
  rw [hv]
  by_cases hq : T.start = fin
  · rw [if_pos hq]
    have : body = [] := by
      have : body.length = 0 := by omega
      exact List.eq_nil_of_length_eq_zero this
    subst this
    exact ⟨e1, e2, e3, e4, fun b' l' r' _ _ _ hlt => by simp at hlt⟩
  · rw [if_neg hq]
    have hne : body ≠ [] := by rintro rfl; simp at e5; exact hq e5
    obtain ⟨c, text, rfl⟩ := List.exists_cons_of_ne_nil hne
    have hcn : c = '\n' := by
      have hb : b ≤ input.length := by
        refine Nat.le_of_not_lt fun hb => ?_
        rw [List.drop_eq_nil_of_le (Nat.le_of_lt hb)] at h1
        simp [scan] at h1
      have := (scan_ok hb h1).eol
      simp only [e1] at this
      simpa [atEol] using this
    subst hcn
    have htext : slice input (fin + 1) T.start = text := by
      unfold slice
      rw [List.drop_take, ← List.drop_drop, e1]
      simp at e5
      have : T.start - (fin + 1) = text.length := by omega
      simp [this]
    rw [htext]
    exact ⟨by simpa using e1, e2, e3, e4, fun b' l' r' f1 f2 f3 hlt => e7 b' l' r' f1 f2 f3 (by simpa using hlt)⟩

example : ∃ ctx, load (chars!"-- k\n\n  a: b\n--- k\n\n-- k\n-- e\n-- e") = .ok ctx ∧
    textOf (answer (chars!"-- k\n\n  a: b\n--- k\n\n-- k\n-- e\n-- e") ctx.heap 9 (.value (.elem 1))) = some (some (chars!"\n  a: b\n--- k\n")) ∧
    textOf (answer (chars!"-- k\n\n  a: b\n--- k\n\n-- k\n-- e\n-- e") ctx.heap 9 (.value (.elem 2))) = some none := by
  refine ⟨_, rfl, ?_, ?_⟩ <;> decide +kernel

end Eno
