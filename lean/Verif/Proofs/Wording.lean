import Verif.Shown

/-! # Messages can be told apart by their text -/

namespace Eno

/-! ## Comparing patterns -/

/-- A pattern, character by character. -/
inductive Sym where
  | chr (c : Char)
  | line
  | key

def syms : List Piece → List Sym
  | [] => []
  | .lit s :: ps => s.map .chr ++ syms ps
  | .line :: ps => .line :: syms ps
  | .key :: ps => .key :: syms ps

/-- A pattern with digits `d` and key `k`. -/
def out (d k : Str) : List Sym → Str
  | [] => []
  | .chr c :: x => c :: out d k x
  | .line :: x => d ++ out d k x
  | .key :: x => k ++ out d k x

theorem out_append (d k : Str) (x y : List Sym) : out d k (x ++ y) = out d k x ++ out d k y := by
  induction x with
  | nil => rfl
  | cons s x ih => cases s <;> simp [out, ih]

theorem out_reverse (d k : Str) (x : List Sym) : (out d k x).reverse = out d.reverse k.reverse x.reverse := by
  induction x with
  | nil => rfl
  | cons s x ih => cases s <;> simp [out, out_append, ih]

theorem fillIn_eq (n : Nat) (k : Str) (ps : List Piece) : fillIn n k ps = out (decimal n) k (syms ps) := by
  induction ps with
  | nil => rfl
  | cons p ps ih =>
    cases p with
    | lit s =>
      simp only [fillIn, syms, out_append, ih]
      congr 1
      induction s with
      | nil => rfl
      | cons c s ih => simp [out, ← ih]
    | line => simp [fillIn, syms, out, ih]
    | key => simp [fillIn, syms, out, ih]

def isDec (c : Char) : Bool := '0' ≤ c && c ≤ '9'

/-- What follows is not a digit. -/
def closed : List Sym → Bool
  | [] => true
  | .chr c :: _ => !isDec c
  | _ => false

/-- Two patterns whose beginnings never agree. -/
def clash : List Sym → List Sym → Bool
  | .chr a :: x, .chr b :: y => !(a == b) || clash x y
  | .line :: x, .line :: y => closed x && closed y && clash x y
  | .line :: _, .chr b :: _ => !isDec b
  | .chr a :: _, .line :: _ => !isDec a
  | [], .chr _ :: _ | [], .line :: _ | .chr _ :: _, [] | .line :: _, [] => true
  | _, _ => false

/-- Digits. -/
def Digits (d : Str) : Prop := d ≠ [] ∧ ∀ c ∈ d, isDec c = true

theorem Digits.reverse {d : Str} (h : Digits d) : Digits d.reverse := ⟨by simpa using h.1, by simpa using h.2⟩

theorem closed_head {d k : Str} {x : List Sym} (h : closed x = true) : ∀ c ∈ (out d k x).head?, isDec c = false := by
  intro c hc
  match x, h with
  | [], _ => simp [out] at hc
  | .chr a :: x, h =>
    simp only [out, List.head?_cons, Option.mem_some_iff] at hc
    subst hc
    simpa [closed] using h

/-- Digits end where something else begins. -/
theorem digits_cut : ∀ {d d' r r' : Str}, (∀ c ∈ d, isDec c = true) → (∀ c ∈ d', isDec c = true) → (∀ c ∈ r.head?, isDec c = false) → (∀ c ∈ r'.head?, isDec c = false) →
    d ++ r = d' ++ r' → d = d' ∧ r = r' := by
  intro d
  induction d with
  | nil =>
    intro d' r r' _ h' hr _ e
    cases d' with
    | nil => exact ⟨rfl, e⟩
    | cons a d' =>
      simp only [List.nil_append] at e
      subst e
      have h1 := hr a (by simp)
      have h2 := h' a (by simp)
      rw [h1] at h2; cases h2
  | cons a d ih =>
    intro d' r r' h h' hr hr' e
    cases d' with
    | nil =>
      simp only [List.nil_append] at e
      subst e
      have h1 := hr' a (by simp)
      have h2 := h a (by simp)
      rw [h1] at h2; cases h2
    | cons b d' =>
      simp only [List.cons_append, List.cons.injEq] at e
      obtain ⟨rfl, e⟩ := e
      obtain ⟨rfl, e2⟩ := ih (fun c hc => h c (by simp [hc])) (fun c hc => h' c (by simp [hc])) hr hr' e
      exact ⟨rfl, e2⟩

theorem clash_sound {d d' k k' : Str} (hd : Digits d) (hd' : Digits d') : ∀ (x y : List Sym), clash x y = true → out d k x ≠ out d' k' y := by
  intro x
  induction x with
  | nil =>
    intro y h e
    match y, h with
    | .chr c :: y, _ => simp [out] at e
    | .line :: y, _ => simp [out, hd'.1] at e
  | cons s x ih =>
    intro y h e
    cases s with
    | chr a =>
      match y, h with
      | .chr b :: y, h =>
        simp only [out, List.cons.injEq] at e
        simp only [clash, Bool.or_eq_true, Bool.not_eq_true', beq_eq_false_iff_ne] at h
        rcases h with h | h
        · exact h e.1
        · exact ih y h e.2
      | .line :: y, h =>
        obtain ⟨b, t, rfl⟩ : ∃ b t, d' = b :: t := by cases d' with | nil => exact absurd rfl hd'.1 | cons b t => exact ⟨b, t, rfl⟩
        simp only [out, List.cons_append, List.cons.injEq] at e
        have h1 := hd'.2 b (by simp)
        rw [← e.1] at h1
        simp [clash, h1] at h
      | [], h => simp [out] at e
    | line =>
      match y, h with
      | .chr b :: y, h =>
        obtain ⟨a, t, rfl⟩ : ∃ b t, d = b :: t := by cases d with | nil => exact absurd rfl hd.1 | cons b t => exact ⟨b, t, rfl⟩
        simp only [out, List.cons_append, List.cons.injEq] at e
        have h1 := hd.2 a (by simp)
        rw [e.1] at h1
        simp [clash, h1] at h
      | .line :: y, h =>
        simp only [clash, Bool.and_eq_true] at h
        simp only [out] at e
        exact ih y h.2 (digits_cut hd.2 hd'.2 (closed_head h.1.1) (closed_head h.1.2) e).2
      | [], h => simp [out, hd.1] at e
    | key => cases y <;> simp [clash] at h

/-- The digits can be found from the front. -/
def found : List Sym → Bool
  | .chr _ :: x => found x
  | .line :: x => closed x
  | _ => false

theorem found_sound {d d' k k' : Str} (hd : Digits d) (hd' : Digits d') : ∀ (x : List Sym), found x = true → out d k x = out d' k' x → d = d' := by
  intro x
  induction x with
  | nil => intro h; cases h
  | cons s x ih =>
    intro h e
    cases s with
    | chr a => simp only [out, List.cons.injEq] at e; exact ih h e.2
    | line => exact (digits_cut hd.2 hd'.2 (closed_head h) (closed_head h) e).1
    | key => cases h

/-- No further key. -/
def keyless : List Sym → Bool
  | [] => true
  | .key :: _ => false
  | _ :: x => keyless x

/-- Exactly one key. -/
def keyed : List Sym → Bool
  | [] => false
  | .key :: x => keyless x
  | _ :: x => keyed x

theorem keyless_sound {d k k' : Str} : ∀ (x : List Sym), keyless x = true → out d k x = out d k' x := by
  intro x
  induction x with
  | nil => intro _; rfl
  | cons s x ih =>
    intro h
    cases s with
    | chr a => simp only [out]; rw [ih h]
    | line => simp only [out]; rw [ih h]
    | key => cases h

theorem keyed_sound {d k k' : Str} : ∀ (x : List Sym), keyed x = true → out d k x = out d k' x → k = k' := by
  intro x
  induction x with
  | nil => intro h; cases h
  | cons s x ih =>
    intro h e
    cases s with
    | chr a => simp only [out, List.cons.injEq] at e; exact ih h e.2
    | line => simp only [out, List.append_cancel_left_eq] at e; exact ih h e
    | key =>
      simp only [out] at e
      rw [keyless_sound (k := k) (k' := k') x h] at e
      exact List.append_cancel_right e

/-! ## Decimal numbers -/

theorem decimal_digits (n : Nat) : Digits (decimal n) := by
  refine ⟨?_, ?_⟩
  · unfold decimal
    intro h
    have := Nat.length_toDigits_pos (b := 10) (n := n)
    simp [h] at this
  · intro c hc
    have := Nat.isDigit_of_mem_toDigits (b := 10) (by omega) (by omega) hc
    simp only [Char.isDigit, Bool.and_eq_true, decide_eq_true_eq] at this
    simp only [isDec, Bool.and_eq_true, decide_eq_true_eq]
    exact this

theorem decimal_inj {n m : Nat} (h : decimal n = decimal m) : n = m := by
  have := congrArg (Nat.ofDigitChars 10 · 0) h
  simpa [decimal] using this

/-! ## All messages -/

/-- The message with other values. -/
def Msg.refill (n : Nat) (k : Str) : Msg → Msg
  | .cyclicDependency _ _ => .cyclicDependency n k
  | .invalidLine _ => .invalidLine n
  | .missingElementForContinuation _ => .missingElementForContinuation n
  | .missingFieldsetForFieldsetEntry _ => .missingFieldsetForFieldsetEntry n
  | .missingListForListItem _ => .missingListForListItem n
  | .nonSectionElementNotFound _ _ => .nonSectionElementNotFound n k
  | .sectionHierarchyLayerSkip _ => .sectionHierarchyLayerSkip n
  | .sectionNotFound _ _ => .sectionNotFound n k
  | .unterminatedEscapedKey _ => .unterminatedEscapedKey n
  | .twoOrMoreTemplatesFound _ => .twoOrMoreTemplatesFound k
  | .unterminatedMultilineField _ _ => .unterminatedMultilineField k n
  | .given _ => .given k
  | .commentError _ => .commentError k
  | .keyError _ => .keyError k
  | .valueError _ => .valueError k
  | .missingComment => .missingComment
  | .missingFieldValue _ => .missingFieldValue k
  | .missingFieldsetEntryValue _ => .missingFieldsetEntryValue k
  | .missingListItemValue _ => .missingListItemValue k
  | .unexpectedElement => .unexpectedElement
  | .named x y => .named x (y.map fun _ => k)

abbrev Msg.shape (m : Msg) : Msg := m.refill 0 []

theorem refill_shape (m : Msg) : m.shape.refill m.line m.key = m := by
  cases m with
  | named x y => cases y <;> rfl
  | _ => rfl

theorem pieces_shape (l : Locale) (m : Msg) : l.pieces m.shape = l.pieces m := by
  cases l <;> cases m with
  | named x y => cases x <;> cases y <;> rfl
  | _ => rfl

def MsgName.all : List MsgName :=
  [.missingElement, .missingEmpty, .missingField, .missingFieldset, .missingFieldsetEntry, .missingList, .missingSection,
   .expectedEmpty, .expectedField, .expectedFields, .expectedFieldset, .expectedFieldsets, .expectedList, .expectedLists, .expectedSection, .expectedSections,
   .expectedFieldsetEntry, .expectedListItem,
   .expectedSingleElement, .expectedSingleEmpty, .expectedSingleField, .expectedSingleFieldset, .expectedSingleFieldsetEntry, .expectedSingleList, .expectedSingleSection]

/-- All shapes apart from `given`. -/
def shapes : List Msg :=
  [.cyclicDependency 0 [], .invalidLine 0, .missingElementForContinuation 0, .missingFieldsetForFieldsetEntry 0, .missingListForListItem 0, .nonSectionElementNotFound 0 [],
   .sectionHierarchyLayerSkip 0, .sectionNotFound 0 [], .unterminatedEscapedKey 0, .twoOrMoreTemplatesFound [], .unterminatedMultilineField [] 0, .commentError [], .keyError [],
   .valueError [], .missingComment, .missingFieldValue [], .missingFieldsetEntryValue [], .missingListItemValue [], .unexpectedElement] ++
  MsgName.all.map (fun x => .named x none) ++ MsgName.all.map (fun x => .named x (some []))

theorem MsgName.mem_all (x : MsgName) : x ∈ MsgName.all := by cases x <;> decide

theorem shape_mem {m : Msg} (h : ∀ s, m ≠ .given s) : m.shape ∈ shapes := by
  cases m with
  | given s => exact absurd rfl (h s)
  | named x y =>
    refine List.mem_append.2 ?_
    cases y with
    | none => exact .inl (List.mem_append.2 (.inr (List.mem_map.2 ⟨x, x.mem_all, rfl⟩)))
    | some k => exact .inr (List.mem_map.2 ⟨x, x.mem_all, rfl⟩)
  | _ => simp only [Msg.shape, Msg.refill]; decide

def Msg.takesLine : Msg → Bool
  | .cyclicDependency _ _ | .invalidLine _ | .missingElementForContinuation _ | .missingFieldsetForFieldsetEntry _ | .missingListForListItem _
  | .nonSectionElementNotFound _ _ | .sectionHierarchyLayerSkip _ | .sectionNotFound _ _ | .unterminatedEscapedKey _ | .unterminatedMultilineField _ _ => true
  | _ => false

def Msg.takesKey : Msg → Bool
  | .cyclicDependency _ _ | .nonSectionElementNotFound _ _ | .sectionNotFound _ _ | .twoOrMoreTemplatesFound _ | .unterminatedMultilineField _ _
  | .given _ | .commentError _ | .keyError _ | .valueError _ | .missingFieldValue _ | .missingFieldsetEntryValue _ | .missingListItemValue _ | .named _ (some _) => true
  | _ => false

theorem takesLine_shape (m : Msg) : m.shape.takesLine = m.takesLine := by cases m with | named x y => cases y <;> rfl | _ => rfl
theorem takesKey_shape (m : Msg) : m.shape.takesKey = m.takesKey := by cases m with | named x y => cases y <;> rfl | _ => rfl
theorem line_eq_zero (m : Msg) (h : m.takesLine = false) : m.line = 0 := by cases m <;> first | rfl | cases h
theorem key_eq_nil (m : Msg) (h : m.takesKey = false) : m.key = [] := by
  cases m with
  | named x y => cases y <;> first | rfl | cases h
  | _ => first | rfl | cases h

/-- The values can be read off the text. -/
def legible (s : Msg) (ps : List Piece) : Bool :=
  (!s.takesLine || found (syms ps) || found (syms ps).reverse) && (!s.takesKey || keyed (syms ps))

def different (ps qs : List Piece) : Bool := clash (syms ps) (syms qs) || clash (syms ps).reverse (syms qs).reverse

theorem different_sound {n n' : Nat} {k k' : Str} {ps qs : List Piece} (h : different ps qs = true) : fillIn n k ps ≠ fillIn n' k' qs := by
  rw [fillIn_eq, fillIn_eq]
  simp only [different, Bool.or_eq_true] at h
  rcases h with h | h
  · exact clash_sound (decimal_digits n) (decimal_digits n') _ _ h
  · intro e
    have := congrArg List.reverse e
    rw [out_reverse, out_reverse] at this
    exact clash_sound (decimal_digits n).reverse (decimal_digits n').reverse _ _ h this

theorem legible_sound {m m' : Msg} {ps : List Piece} (hs : m.shape = m'.shape) (h : legible m.shape ps = true) (e : fillIn m.line m.key ps = fillIn m'.line m'.key ps) : m = m' := by
  simp only [legible, Bool.and_eq_true, Bool.or_eq_true, Bool.not_eq_true'] at h
  have hl : m.line = m'.line := by
    rw [fillIn_eq, fillIn_eq] at e
    rcases h.1 with (h1 | h1) | h1
    · rw [line_eq_zero m (by rw [← takesLine_shape]; exact h1), line_eq_zero m' (by rw [← takesLine_shape, ← hs]; exact h1)]
    · exact decimal_inj (found_sound (decimal_digits _) (decimal_digits _) _ h1 e)
    · have := congrArg List.reverse e
      rw [out_reverse, out_reverse] at this
      exact decimal_inj (List.reverse_inj.1 (found_sound (decimal_digits _).reverse (decimal_digits _).reverse _ h1 this))
  have hk : m.key = m'.key := by
    rw [hl, fillIn_eq, fillIn_eq] at e
    rcases h.2 with h1 | h1
    · rw [key_eq_nil m (by rw [← takesKey_shape]; exact h1), key_eq_nil m' (by rw [← takesKey_shape, ← hs]; exact h1)]
    · exact keyed_sound _ h1 e
  rw [← refill_shape m, ← refill_shape m', hs, hl, hk]

/-- Any two of some patterns are different. -/
def allDifferent : List (List Piece) → Bool
  | [] => true
  | p :: ps => ps.all (different p) && allDifferent ps

def Locale.all (l : Locale) : List (List Piece) := shapes.filterMap l.pieces

end Eno
