import Verif.Proofs.RawShape
import Verif.Proofs.ElementSample
import Verif.Proofs.WorldReach
import Verif.Props.LookupProps
import Verif.Props.ElementProps

/-!
# C82: what Python code sees of results and exceptions

The dictionaries that `raw` returns and the texts of the exceptions that the library raises with a text of its own.
-/

namespace Eno

open Spec

variable {input : Str} {ctx' : Ctx}

/-! ## Numbers and parentheses -/

theorem intText_eq (n : Int) : intText n = numeral n := by
  cases n with
  | ofNat n =>
    show decimal n = (Nat.repr n).toList
    unfold decimal Nat.repr
    simp
  | negSucc n =>
    show '-' :: decimal (n + 1) = ("-" ++ Nat.repr (n + 1)).toList
    unfold decimal Nat.repr
    simp

theorem decimal_chars {n : Nat} {c : Char} (hc : c ∈ decimal n) : c.isDigit = true :=
  Nat.isDigit_of_mem_toDigits (b := 10) (by omega) (by omega) hc

theorem decimal_once {n m : Nat} (h : decimal n = decimal m) : n = m := by
  have := congrArg (Nat.ofDigitChars 10 · 0) h
  simpa [decimal] using this

theorem intText_closed (n : Int) : ')' ∉ intText n := by
  intro h
  cases n with
  | ofNat n => exact absurd (decimal_chars h) (by decide)
  | negSucc n =>
    rcases List.mem_cons.1 h with h | h
    · cases h
    · exact absurd (decimal_chars h) (by decide)

theorem intText_inj {n m : Int} (h : intText n = intText m) : n = m := by
  have no : ∀ {a b : Nat}, decimal a ≠ '-' :: decimal b := fun {a b} h => by
    have : '-' ∈ decimal a := by rw [h]; exact List.mem_cons_self ..
    exact absurd (decimal_chars this) (by decide)
  cases n with
  | ofNat n =>
    cases m with
    | ofNat m => rw [decimal_once (n := n) (m := m) h]
    | negSucc m => exact absurd h no
  | negSucc n =>
    cases m with
    | ofNat m => exact absurd h.symm no
    | negSucc m =>
      have := decimal_once (n := n + 1) (m := m + 1) (List.cons.inj h).2
      rw [show n = m by omega]

theorem closed_split {x y : Str} : ∀ {a b : Str}, ')' ∉ a → ')' ∉ b → a ++ ')' :: x = b ++ ')' :: y → a = b ∧ x = y
  | [], [], _, _, h => ⟨rfl, (List.cons.inj h).2⟩
  | [], c :: b, _, hb, h => absurd (by rw [← (List.cons.inj h).1]; exact List.mem_cons_self ..) hb
  | c :: a, [], ha, _, h => absurd (by rw [(List.cons.inj h).1]; exact List.mem_cons_self ..) ha
  | c :: a, d :: b, ha, hb, h => by
    obtain ⟨h1, h2⟩ := List.cons.inj h
    obtain ⟨h3, h4⟩ := closed_split (fun q => ha (List.mem_cons_of_mem _ q)) (fun q => hb (List.mem_cons_of_mem _ q)) h2
    exact ⟨by rw [h1, h3], h4⟩

/-! ## `lookup` -/

/-- The text of the exception for a line. -/
def lineText (l last : Int) : Str :=
  chars!"You are trying to look up a line (" ++ numeral l ++ chars!") outside of the document's line range (0-" ++ numeral last ++ chars!")"

/-- The text of the exception for an index. -/
def indexText (i last : Int) : Str :=
  chars!"You are trying to look up an index (" ++ numeral i ++ chars!") outside of the document's index range (0-" ++ numeral last ++ chars!")"

/-- The exception for a line that is refused names this line and the last line that is accepted. There is a text exactly where this exception is raised. -/
theorem C82_line (hl : load input = .ok ctx') (c l : Int) :
    ∃ last : Int, (∀ n, (∃ x, lookup input (some n) (some c) none = .ok x) ↔ 0 ≤ n ∧ n ≤ last) ∧
      (lookup input (some l) (some c) none = .error (.py .indexError) ∧ lookupText input (some l) none = some (lineText l last) ∨
        (∃ x, lookup input (some l) (some c) none = .ok x) ∧ lookupText input (some l) none = none) := by
  refine ⟨ctx'.lineCount - 1, fun n => ⟨fun ⟨x, hx⟩ => ?_, fun h => (C52_line hl n c).2 (by omega)⟩, ?_⟩
  · apply Classical.byContradiction
    intro hn
    rw [(C52_line hl n c).1 (by omega)] at hx
    cases hx
  · unfold lookupText lineText
    rw [hl, ← intText_eq, ← intText_eq]
    dsimp only
    by_cases h : l < 0 ∨ l ≥ ctx'.lineCount
    · rw [if_pos h]
      exact .inl ⟨(C52_line hl l c).1 (by omega), rfl⟩
    · rw [if_neg h]
      exact .inr ⟨(C52_line hl l c).2 (by omega), rfl⟩

example : ∃ ctx', load (chars!"a: 1\nb: 2") = .ok ctx' := ⟨_, rfl⟩

example : lookupText (chars!"a: 1\nb: 2") (some (-3)) none = some (chars!"You are trying to look up a line (-3) outside of the document's line range (0-1)") := by decide +kernel

/-- The exception for an index that is refused names this index and the last index that is accepted. There is a text exactly where this exception is raised. -/
theorem C82_index (hl : load input = .ok ctx') (l c : Option Int) (i : Int) :
    ∃ last : Int, (∀ n, (∃ x, lookup input l c (some n) = .ok x) ↔ 0 ≤ n ∧ n ≤ last) ∧
      (lookup input l c (some i) = .error (.py .indexError) ∧ lookupText input l (some i) = some (indexText i last) ∨
        (∃ x, lookup input l c (some i) = .ok x) ∧ lookupText input l (some i) = none) := by
  refine ⟨input.length, fun n => ⟨fun ⟨x, hx⟩ => ?_, fun h => (C52_index hl l c n).2 (by omega)⟩, ?_⟩
  · apply Classical.byContradiction
    intro hn
    rw [(C52_index hl l c n).1 (by omega)] at hx
    cases hx
  · unfold lookupText indexText
    rw [hl, ← intText_eq, ← intText_eq]
    dsimp only
    by_cases h : i < 0 ∨ i > input.length
    · rw [if_pos h]
      exact .inl ⟨(C52_index hl l c i).1 (by omega), rfl⟩
    · rw [if_neg h]
      exact .inr ⟨(C52_index hl l c i).2 (by omega), rfl⟩

example : lookupText (chars!"a: 1\nb: 2") (some 1) (some 10) = some (chars!"You are trying to look up an index (10) outside of the document's index range (0-9)") := by decide +kernel

/-- A text says whether it is about a line or an index, about which one, and what the last one is. -/
theorem C82_said (a b c d : Int) : (lineText a b = lineText c d → a = c ∧ b = d) ∧ (indexText a b = indexText c d → a = c ∧ b = d) ∧ lineText a b ≠ indexText c d := by
  have two : ∀ {p q : Str}, p ++ numeral a ++ q ++ numeral b ++ [')'] = p ++ numeral c ++ q ++ numeral d ++ [')'] → (∃ q', q = ')' :: q') → a = c ∧ b = d := by
    rintro p q h ⟨q, rfl⟩
    simp only [List.append_assoc, List.append_cancel_left_eq, List.cons_append] at h
    simp only [← intText_eq] at h
    obtain ⟨h1, h2⟩ := closed_split (intText_closed a) (intText_closed c) h
    rw [List.append_cancel_left_eq] at h2
    exact ⟨intText_inj h1, intText_inj (closed_split (intText_closed b) (intText_closed d) h2).1⟩
  refine ⟨fun h => two h ⟨_, rfl⟩, fun h => two h ⟨_, rfl⟩, fun h => ?_⟩
  have := congrArg (fun s : Str => s[27]?) h
  simp [lineText, indexText] at this

example : lineText 3 1 = chars!"You are trying to look up a line (3) outside of the document's line range (0-1)" := by decide +kernel

namespace El

variable {E : Env} {w : World} {o : Nat} {k : Kind} {m : Str} {x : Raw}

/-! ## `to_empty`, `to_field`, `to_fieldset`, `to_list` -/

/-- How the kinds are called in the text. -/
def nameOf : Kind → Str
  | .empty => chars!"empty_element"
  | .field => chars!"field"
  | .fieldset => chars!"fieldset"
  | .list => chars!"list"
  | .section => chars!"section"

/-- How the kind that was asked for is called. -/
def askedAs : Kind → Str
  | .empty => chars!"an empty."
  | .field => chars!"a field."
  | .fieldset => chars!"a fieldset."
  | .list => chars!"a list."
  | .section => []

/-- The text of the exception. -/
def againText (j k : Kind) : Str := chars!"This element was already yielded as " ++ nameOf j ++ chars!" and can't be yielded again as " ++ askedAs k

theorem pretty_name (j : Kind) : j.type.pretty.getD (chars!"None") = nameOf j := by cases j <;> rfl

theorem again_asked (k : Kind) : k.again = askedAs k := by cases k <;> rfl

/-- Where there is a text, a type error is raised and nothing changes; the text names the kind as which the element can still be yielded and the kind that was asked for. -/
theorem C82_again (hl : load input = .ok E.ctx) (hw : Reach E w) (hx : IsA w o .sectionElement ∨ IsA w o .element) (hm : toText k (w.at o) = some m) :
    run E o (.to k) w = (.error (.py .typeError), w) ∧ ∃ j y, j ≠ k ∧ k ≠ .section ∧ run E o (.to j) w = (.ok (.obj y), w) ∧ m = againText j k := by
  have ho : o < w.objs.length := by rcases hx with h | h <;> exact h.1
  have O := (hw.inv (envOk_load hl)).objs o ho
  unfold toText at hm
  cases hk : (w.at o).made k with
  | some y => rw [hk] at hm; cases hm
  | none =>
    rw [hk] at hm
    cases hj : (w.at o).yielded with
    | none => rw [hj] at hm; cases hm
    | some j =>
      rw [hj] at hm
      dsimp only at hm
      by_cases hs : k = .section
      · rw [if_pos hs] at hm; cases hm
      · rw [if_neg hs] at hm
        cases hm
        obtain ⟨y, hy⟩ := Option.isSome_iff_exists.1 ((O.yielded j).1 hj)
        refine ⟨?_, j, y, ?_, hs, ?_, by rw [pretty_name, again_asked]; rfl⟩
        · rw [to_call hx, map_run, to_run, hk]
          dsimp only
          rw [if_pos ⟨hs, by rw [hj]; rfl⟩]
        · rintro rfl
          rw [hk] at hy; cases hy
        · rw [to_call hx, map_run, to_run, hy]

/-- There is a text if it was yielded as another kind. -/
theorem toText_other {j : Kind} (hl : load input = .ok E.ctx) (hw : Reach E w) (ho : o < w.objs.length) (hj : (w.at o).yielded = some j) (hk : j ≠ k) (hs : k ≠ .section) :
    ∃ m, toText k (w.at o) = some m := by
  have O := (hw.inv (envOk_load hl)).objs o ho
  unfold toText
  cases hm : (w.at o).made k with
  | some y =>
    have := (O.yielded k).2 (by rw [hm]; rfl)
    rw [hj] at this
    cases this
    exact absurd rfl hk
  | none => rw [hj]; dsimp only; rw [if_neg hs]; exact ⟨_, rfl⟩

example : ∃ E input w o m, load input = .ok E.ctx ∧ Reach E w ∧ IsA w o .sectionElement ∧ toText .empty (w.at o) = some m := by
  obtain ⟨E, S⟩ := sample
  obtain ⟨m, hm⟩ := toText_other (k := .empty) S.loaded yielded_reach S.yielded.2.2.2.2.2.1 S.yielded.2.2.2.2.1 (by decide) (by decide)
  exact ⟨E, sampleText, sampleYielded E, 1, m, S.loaded, yielded_reach, ⟨S.yielded.2.2.2.2.2.1, S.yielded.2.1⟩, hm⟩

example : againText .list .empty = chars!"This element was already yielded as list and can't be yielded again as an empty." := by decide +kernel

/-- Where there is no text, the element is yielded or the error for an unexpected type is raised. -/
theorem C82_else (hx : IsA w o .sectionElement ∨ IsA w o .element) (hm : toText k (w.at o) = none) :
    (∃ y, (run E o (.to k) w).1 = .ok (.obj y)) ∨ (run E o (.to k) w).1 = raised (unexpectedElementType E.o E.ctx none (w.at o).ref (expectedOf k)) := by
  rw [to_call hx, map_run, to_run]
  unfold toText at hm
  cases hk : (w.at o).made k with
  | some y => exact .inl ⟨y, rfl⟩
  | none =>
    rw [hk] at hm
    dsimp only at hm ⊢
    rw [if_neg]
    · by_cases hf : k.fits (E.ctx.heap.type (w.at o).ref) = true
      · rw [if_pos hf]; exact .inl ⟨_, rfl⟩
      · right
        rw [if_neg hf, validation_run, show k.expected = expectedOf k by cases k <;> rfl]
        cases unexpectedElementType E.o E.ctx none (w.at o).ref (expectedOf k) <;> rfl
    · rintro ⟨hs, hj⟩
      obtain ⟨j, hj⟩ := Option.isSome_iff_exists.1 hj
      rw [hj] at hm
      dsimp only at hm
      rw [if_neg hs] at hm
      cases hm

example : ∃ (E : Env) (input : Str) (w : World) (o : Nat), load input = .ok E.ctx ∧ IsA w o .sectionElement ∧ toText .field (w.at o) = none := by
  obtain ⟨E, S⟩ := sample
  refine ⟨E, sampleText, sampleOpen E, 1, S.loaded, ⟨S.opened.2.2.2.1, S.opened.2.1⟩, ?_⟩
  unfold toText
  rw [S.opened.2.2.1]
  split <;> rfl

/-- A text says as what the element was yielded and as what it was asked for. -/
theorem C82_kinds {j j' k k' : Kind} (hk : k ≠ .section) (hk' : k' ≠ .section) (h : againText j k = againText j' k') : j = j' ∧ k = k' := by
  cases k <;> first | exact absurd rfl hk | skip
  all_goals cases k' <;> first | exact absurd rfl hk' | skip
  all_goals cases j <;> cases j' <;> first | exact ⟨rfl, rfl⟩ | exact absurd h (by decide)

example : Kind.list ≠ .section ∧ Kind.field ≠ .section ∧ againText .empty .list ≠ againText .empty .field := by decide

/-! ## `raw` -/

theorem known_object (V : EnvOk E) (I : Inv E w) (ho : o < w.objs.length) : OfDocument E.ctx.heap (w.at o).ref := by
  have := (I.objs o ho).ref
  revert this
  generalize (w.at o).ref = r
  cases (w.at o).cls <;> cases r <;> simp only [RefOk, OfDocument, Actual] <;> intro h
  all_goals first | exact h.1 | exact h.2 | exact h | exact h.elim | skip
  · rcases h with h | ⟨h, _⟩
    · exact h.2
    · cases h; exact V.present
  · exact h.resolve_right (by rintro ⟨h, _⟩; cases h)
  · exact h.resolve_right (by rintro ⟨h, _⟩; cases h)

/-- **C82**: whenever `raw` returns something, after whatever else was done, it is a dictionary of the form that belongs to the document, an element, an item or an entry. -/
theorem C82_raw (hl : load input = .ok E.ctx) (hw : Reach E w) (ho : o < w.objs.length) (hx : (run E o .raw w).1 = .ok (.raw x)) : ShapeOf (w.at o).ref x.dict := by
  have V := envOk_load hl
  have I := hw.inv V
  have e : run E o .raw w = (Val.raw <$> rawOf E o : Api Val) w := by
    unfold run
    rw [bind_ok obj_run]
  rw [e, map_run] at hx
  have e2 : rawOf E o w = reading (readRaw E.ctx.input E.ctx.heap E.depth (w.at o).ref) w := by
    unfold rawOf; rw [bind_ok obj_run]
  rw [e2] at hx
  unfold reading at hx
  have S := readRaw_shape (formed_load hl) V.values E.depth (w.at o).ref w.cache (known_object V I ho) I.cache
  revert hx S
  rcases readRaw E.ctx.input E.ctx.heap E.depth (w.at o).ref w.cache with ⟨z | z, c⟩
  · intro hx _; cases hx
  · intro hx S; cases hx; exact S x rfl

/-- The dictionary that was returned (to state examples). -/
def gotRaw : Except Exc Val → Option Raw
  | .ok (.raw x) => some x
  | _ => none

theorem raw_sample : ∃ E input x, load input = .ok E.ctx ∧ (run E 0 .raw World.start).1 = .ok (.raw x) := by
  obtain ⟨ctx, h1, h2⟩ : ∃ ctx, load (chars!"> c\na: 1\nl:\n- 1\n# s\nf:\nb = 2\n") = .ok ctx ∧ (gotRaw (run ⟨{}, ctx, 99⟩ 0 .raw World.start).1).isSome = true := by
    refine ⟨_, rfl, ?_⟩; decide +kernel
  obtain ⟨x, hx⟩ := Option.isSome_iff_exists.1 h2
  refine ⟨⟨{}, ctx, 99⟩, _, x, h1, ?_⟩
  revert hx
  generalize (run ⟨{}, ctx, 99⟩ 0 .raw World.start).1 = y
  intro hx
  unfold gotRaw at hx
  split at hx
  · cases hx; rfl
  · cases hx

example : ∃ E input w o x, load input = .ok E.ctx ∧ Reach E w ∧ o < w.objs.length ∧ (run E o .raw w).1 = .ok (.raw x) := by
  obtain ⟨E, input, x, h1, h2⟩ := raw_sample
  exact ⟨E, input, World.start, 0, x, h1, start_reach, by decide, h2⟩

/-- In particular items and entries have the form of items and entries, and all else that of a document or of an element. -/
theorem C82_class (hl : load input = .ok E.ctx) (hw : Reach E w) (ho : o < w.objs.length) (hx : (run E o .raw w).1 = .ok (.raw x)) :
    match (w.at o).cls with
    | .item => ItemShape x.dict
    | .entry => EntryShape x.dict
    | .sectionElement => ElementShape x.dict
    | .of .section => DocumentShape x.dict ∨ ElementShape x.dict
    | .of _ => ElementShape x.dict
    | .element => DocumentShape x.dict ∨ ElementShape x.dict ∨ ItemShape x.dict ∨ EntryShape x.dict := by
  have S := C82_raw hl hw ho hx
  have := ((hw.inv (envOk_load hl)).objs o ho).ref
  revert this S
  generalize (w.at o).ref = r
  have el : ∀ i, 0 < i → ShapeOf (.elem i) x.dict → ElementShape x.dict := by
    intro i hi h
    obtain ⟨i, rfl⟩ : ∃ m, i = m + 1 := ⟨i - 1, by omega⟩
    exact h
  have any : ∀ i, ShapeOf (.elem i) x.dict → DocumentShape x.dict ∨ ElementShape x.dict := by
    intro i h
    cases i with
    | zero => exact .inl h
    | succ i => exact .inr h
  cases hc : (w.at o).cls with
  | of k =>
    cases r with
    | elem i =>
      intro S R
      obtain ⟨_, h2, _⟩ := R
      cases k
      case «section» => exact any i S
      all_goals exact el i (Nat.pos_of_ne_zero fun q => by cases h2 q) S
    | item i j => intro _ R; cases R
    | entry i j => intro _ R; cases R
  | sectionElement =>
    cases r with
    | elem i => intro S R; exact el i R.1 S
    | item i j => intro _ R; cases R
    | entry i j => intro _ R; cases R
  | element =>
    cases r with
    | elem i => intro S _; exact (any i S).imp_right .inl
    | item i j => intro S _; exact .inr (.inr (.inl S))
    | entry i j => intro S _; exact .inr (.inr (.inr S))
  | entry =>
    cases r with
    | elem i => intro _ R; cases R
    | item i j => intro _ R; cases R
    | entry i j => intro S _; exact S
  | item =>
    cases r with
    | elem i => intro _ R; cases R
    | item i j => intro S _; exact S
    | entry i j => intro _ R; cases R

end El

end Eno
