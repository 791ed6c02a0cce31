import Verif.Lookup
import Verif.Proofs.HeapLemmas

/-!
# Lookup, for lines and indices at once

The line and the index variants of lookup.py do the same with two measures of an instruction: its line number, and its range.
-/

namespace Eno

/-- Where an instruction begins and ends. -/
abbrev Extent := Base → Nat × Nat

/-- By line number. -/
def byLine : Extent := fun b => (b.line, b.line)

/-- By position. -/
def bySpan : Extent := fun b => b.span

variable (m : Extent)

def gConts (r : Ref) (n : Nat) : List Cont → Option Hit
  | [] => none
  | c :: cs => if n < (m c.toBase).1 then some ⟨r, none⟩ else if n ≤ (m c.toBase).2 then some ⟨r, some c.toBase⟩ else gConts r n cs

def gField (r : Ref) (b : Base) (conts : Option (List Cont)) (n : Nat) : Except PyExc (Option Hit) :=
  if n < (m b).1 then .ok none
  else if n ≤ (m b).2 then .ok (some ⟨r, some b⟩)
  else
    match conts with
    | none => .ok none
    | some cs =>
      match cs.getLast? with
      | none => .error .indexError
      | some l => if n > (m l.toBase).2 then .ok none else .ok (gConts m r n cs)

def gSubs (whole : Ref) (ref : Nat → Ref) (n : Nat) : Nat → List Sub → Except PyExc (Option Hit)
  | _, [] => .ok none
  | k, x :: xs =>
    if n < (m x.toBase).1 then .ok (some ⟨whole, none⟩)
    else if n ≤ (m x.toBase).2 then .ok (some ⟨ref k, some x.toBase⟩)
    else
      match gField m (ref k) x.toBase x.continuations n with
      | .error e => .error e
      | .ok (some h) => .ok (some h)
      | .ok none => gSubs whole ref n (k + 1) xs

def gWhole (whole : Ref) (ref : Nat → Ref) (b : Base) (subs : Option (List Sub)) (n : Nat) : Except PyExc (Option Hit) :=
  if n < (m b).1 then .ok none
  else if n ≤ (m b).2 then .ok (some ⟨whole, some b⟩)
  else
    match subs with
    | none => .ok none
    | some xs =>
      match xs.getLast? with
      | none => .error .indexError
      | some l => if n > (m l.toBase).2 then .ok none else gSubs m whole ref n 0 xs

/-- What happens at the element that is looked into. -/
def gBody (ml : Ref → Elem → Nat → Except PyExc (Option Hit)) (h : Heap) (s n : Nat) (inner : Nat → Except PyExc Hit) (i : Nat) : Except PyExc Hit :=
  if n ≤ (m (h.at i).toBase).2 then .ok ⟨.elem i, some (h.at i).toBase⟩
  else
    match (h.at i).type with
    | .field => orSection s (gField m (.elem i) (h.at i).toBase (h.at i).continuations n)
    | .fieldset => orSection s (gWhole m (.elem i) (.entry i) (h.at i).toBase (h.at i).entries n)
    | .list => orSection s (gWhole m (.elem i) (.item i) (h.at i).toBase (h.at i).items n)
    | .mlBegin => if (h.at i).template = none then orSection s (ml (.elem i) (h.at i) n) else .ok ⟨.elem s, none⟩
    | .section => inner i
    | _ => .ok ⟨.elem s, none⟩

def gSection (ml : Ref → Elem → Nat → Except PyExc (Option Hit)) (h : Heap) (s n : Nat) (inner : Nat → Except PyExc Hit) : List Nat → Except PyExc Hit
  | [] => .ok ⟨.elem s, none⟩
  | i :: is => if n < (m (h.at i).toBase).1 then gSection ml h s n inner is else gBody m ml h s n inner i

def gCheck (ml : Ref → Elem → Nat → Except PyExc (Option Hit)) (h : Heap) (n : Nat) : Nat → Nat → Except PyExc Hit
  | 0, _ => .error .recursionError
  | fuel + 1, s => gSection m ml h s n (gCheck ml h n fuel) (h.at s).elements.reverse

variable {m}

theorem contsByLine_eq (r : Ref) (n : Nat) (cs : List Cont) : contsByLine r n cs = gConts byLine r n cs := by
  induction cs with
  | nil => rfl
  | cons c cs ih =>
    rw [contsByLine, gConts, ih]
    by_cases h1 : n < c.line
    · rw [if_neg (by omega), if_pos h1, if_pos (show n < (byLine c.toBase).1 from h1)]
    · rw [if_neg h1, if_neg (show ¬ n < (byLine c.toBase).1 from h1)]
      by_cases h2 : n = c.line
      · rw [if_pos h2, if_pos (show n ≤ (byLine c.toBase).2 from Nat.le_of_eq h2)]
      · rw [if_neg h2, if_neg (show ¬ n ≤ (byLine c.toBase).2 from fun q => h2 (Nat.le_antisymm q (Nat.le_of_not_lt h1)))]

theorem contsByIndex_eq (r : Ref) (n : Nat) (cs : List Cont) : contsByIndex r n cs = gConts bySpan r n cs := by
  induction cs with
  | nil => rfl
  | cons c cs ih => rw [contsByIndex, gConts, ih]; rfl

theorem line_cases {α} (b : Base) (n : Nat) (x y z : α) :
    (if n < b.line then x else if n = b.line then y else z) = if n < (byLine b).1 then x else if n ≤ (byLine b).2 then y else z := by
  by_cases h1 : n < b.line
  · rw [if_pos h1, if_pos (show n < (byLine b).1 from h1)]
  · rw [if_neg h1, if_neg (show ¬ n < (byLine b).1 from h1)]
    by_cases h2 : n = b.line
    · rw [if_pos h2, if_pos (show n ≤ (byLine b).2 from Nat.le_of_eq h2)]
    · rw [if_neg h2, if_neg (show ¬ n ≤ (byLine b).2 from fun q => h2 (Nat.le_antisymm q (Nat.le_of_not_lt h1)))]

theorem line_cases' {α} (b : Base) (n : Nat) (x y z : α) :
    (if n = b.line then y else if n < b.line then x else z) = if n < (byLine b).1 then x else if n ≤ (byLine b).2 then y else z := by
  rw [← line_cases]
  by_cases h1 : n < b.line
  · rw [if_neg (by omega), if_pos h1, if_pos h1]
  · by_cases h2 : n = b.line
    · rw [if_pos h2, if_neg h1, if_pos h2]
    · rw [if_neg h2, if_neg h1, if_neg h1, if_neg h2]

theorem checkFieldByLine_eq : @checkFieldByLine = gField byLine := by
  funext r b conts n
  unfold checkFieldByLine gField
  rw [line_cases]
  cases conts with
  | none => rfl
  | some cs => cases hq : cs.getLast? <;> simp only [hq, contsByLine_eq] <;> rfl

theorem checkFieldByIndex_eq : @checkFieldByIndex = gField bySpan := by
  funext r b conts n
  unfold checkFieldByIndex gField
  cases conts with
  | none => rfl
  | some cs => cases hq : cs.getLast? <;> simp only [hq, contsByIndex_eq] <;> rfl

theorem subsByLine_eq (whole : Ref) (ref : Nat → Ref) (n : Nat) (xs : List Sub) : ∀ k, subsByLine whole ref n k xs = gSubs byLine whole ref n k xs := by
  induction xs with
  | nil => intro k; rfl
  | cons x xs ih =>
    intro k
    rw [subsByLine, gSubs, line_cases', ih, checkFieldByLine_eq]; rfl

theorem subsByIndex_eq (whole : Ref) (ref : Nat → Ref) (n : Nat) (xs : List Sub) : ∀ k, subsByIndex whole ref n k xs = gSubs bySpan whole ref n k xs := by
  induction xs with
  | nil => intro k; rfl
  | cons x xs ih =>
    intro k
    rw [subsByIndex, gSubs, ih, checkFieldByIndex_eq]; rfl

theorem checkSubsByLine_eq : @checkSubsByLine = gWhole byLine := by
  funext whole ref b subs n
  unfold checkSubsByLine gWhole
  rw [line_cases]
  cases subs with
  | none => rfl
  | some cs => cases hq : cs.getLast? <;> simp only [hq, subsByLine_eq] <;> rfl

theorem checkSubsByIndex_eq : @checkSubsByIndex = gWhole bySpan := by
  funext whole ref b subs n
  unfold checkSubsByIndex gWhole
  cases subs with
  | none => rfl
  | some cs => cases hq : cs.getLast? <;> simp only [hq, subsByIndex_eq] <;> rfl

theorem sectionByLine_eq (h : Heap) (s n : Nat) (inner : Nat → Except PyExc Hit) (is : List Nat) :
    sectionByLine h s n inner is = gSection byLine checkMultilineByLine h s n inner is := by
  induction is with
  | nil => rfl
  | cons i is ih =>
    rw [sectionByLine, gSection, ih, gBody, checkFieldByLine_eq, checkSubsByLine_eq, ← line_cases]
    simp only [gt_iff_lt, eq_comm]
    rfl

theorem sectionByIndex_eq (h : Heap) (s n : Nat) (inner : Nat → Except PyExc Hit) (is : List Nat) :
    sectionByIndex h s n inner is = gSection bySpan checkMultilineByIndex h s n inner is := by
  induction is with
  | nil => rfl
  | cons i is ih =>
    rw [sectionByIndex, gSection, ih, gBody, checkFieldByIndex_eq, checkSubsByIndex_eq]; rfl

theorem checkInSectionByLine_eq (h : Heap) (n : Nat) : ∀ fuel s, checkInSectionByLine h n fuel s = gCheck byLine checkMultilineByLine h n fuel s := by
  intro fuel
  induction fuel with
  | zero => intro s; rfl
  | succ fuel ih => intro s; rw [checkInSectionByLine, gCheck, sectionByLine_eq, show checkInSectionByLine h n fuel = gCheck byLine checkMultilineByLine h n fuel from funext ih]

theorem checkInSectionByIndex_eq (h : Heap) (n : Nat) : ∀ fuel s, checkInSectionByIndex h n fuel s = gCheck bySpan checkMultilineByIndex h n fuel s := by
  intro fuel
  induction fuel with
  | zero => intro s; rfl
  | succ fuel ih => intro s; rw [checkInSectionByIndex, gCheck, sectionByIndex_eq, show checkInSectionByIndex h n fuel = gCheck bySpan checkMultilineByIndex h n fuel from funext ih]

/-! ## The tree -/

/-- What lookup needs to know about nesting. -/
structure Tree (h : Heap) : Prop where
  els : ∀ p, p < h.length → (h.at p).elements = (List.range h.length).filter fun i => (h.at i).parent = some p
  root : (h.at 0).parent = none
  pos : 0 < h.length
  par : ∀ i, 0 < i → i < h.length → ∃ p, (h.at i).parent = some p ∧ p < i ∧ ((h.at p).type = .section ∨ p = 0)
  apart : ∀ {s y c x}, x < h.length → (h.at x).parent = some y → (h.at c).parent = some s → s < y → y < c → c < x → False

/-- `e` is `s` or below it. -/
inductive Under (h : Heap) (s : Nat) : Nat → Prop where
  | refl : Under h s s
  | step {x y} : (h.at x).parent = some y → Under h s y → Under h s x

variable {h : Heap}

theorem Tree.parent_lt (T : Tree h) (hx : x < h.length) (hp : (h.at x).parent = some y) : 0 < x ∧ y < x ∧ ((h.at y).type = .section ∨ y = 0) := by
  have hx0 : 0 < x := by
    apply Nat.pos_of_ne_zero; rintro rfl
    rw [T.root] at hp; simp at hp
  obtain ⟨p, h1, h2⟩ := T.par x hx0 hx
  rw [h1] at hp; injection hp with hp; subst hp
  exact ⟨hx0, h2⟩

theorem Under.le (T : Tree h) (u : Under h s e) : e < h.length → s ≤ e := by
  induction u with
  | refl => intro; omega
  | step hp u ih =>
    intro hl
    have := T.parent_lt hl hp
    have := ih (by omega)
    omega

theorem Tree.under_root (T : Tree h) : ∀ e, e < h.length → Under h 0 e := by
  intro e
  induction e using Nat.strongRecOn with
  | _ e ih =>
    intro hl
    by_cases h0 : e = 0
    · subst h0; exact .refl
    · obtain ⟨p, h1, h2, _⟩ := T.par e (by omega) hl
      exact .step h1 (ih p h2 (by omega))

theorem Under.child (_T : Tree h) (u : Under h s e) (hne : e ≠ s) : ∃ c, (h.at c).parent = some s ∧ Under h c e := by
  induction u with
  | refl => exact absurd rfl hne
  | @step x y hp u ih =>
    by_cases hy : y = s
    · subst hy; exact ⟨x, hp, .refl⟩
    · obtain ⟨c, h1, h2⟩ := ih hy
      exact ⟨c, h1, .step hp h2⟩

/-- What is below an element comes before its later siblings. -/
theorem Under.before (T : Tree h) (u : Under h c' x) (h1 : (h.at c').parent = some s) (h2 : (h.at c).parent = some s) (hc : c' < c) (hcl : c < h.length) :
    x < h.length → x < c := by
  induction u with
  | refl => intro; exact hc
  | @step x y hp u ih =>
    intro hl
    have hy := T.parent_lt hl hp
    have hyc := ih (by omega)
    have hcy := u.le T (by omega)
    have hs := (T.parent_lt (by omega : c' < h.length) h1).2.1
    apply Nat.lt_of_not_le
    intro hcx
    by_cases hxc : x = c
    · subst hxc
      rw [h2] at hp; injection hp with hp; omega
    · exact T.apart hl hp h2 (by omega) hyc (by omega)

theorem gSection_find (ml : Ref → Elem → Nat → Except PyExc (Option Hit)) (h : Heap) (s n : Nat) (inner : Nat → Except PyExc Hit) (is : List Nat) :
    gSection m ml h s n inner is = match is.find? (fun i => decide (¬ n < (m (h.at i).toBase).1)) with
      | none => .ok ⟨.elem s, none⟩
      | some i => gBody m ml h s n inner i := by
  induction is with
  | nil => rfl
  | cons i is ih =>
    simp only [gSection, List.find?_cons]
    by_cases hi : n < (m (h.at i).toBase).1
    · rw [if_pos hi, ih]; simp [hi]
    · rw [if_neg hi]; simp [hi]

/-- `e` is the last element that begins at or before `n` (the document if there is none). -/
structure LastAt (m : Extent) (h : Heap) (n e : Nat) : Prop where
  lt : e < h.length
  le : e ≠ 0 → (m (h.at e).toBase).1 ≤ n
  last : ∀ j, e < j → j < h.length → n < (m (h.at j).toBase).1

/-- Every element begins after the first line of those before it. -/
def Begins (m : Extent) (h : Heap) : Prop :=
  ∀ i j, 0 < i → i < j → j < h.length → (m (h.at i).toBase).1 ≤ (m (h.at i).toBase).2 ∧ (m (h.at i).toBase).2 < (m (h.at j).toBase).1

/-- The result at an element. -/
def gAt (m : Extent) (ml : Ref → Elem → Nat → Except PyExc (Option Hit)) (h : Heap) (n e : Nat) : Except PyExc Hit :=
  match (h.at e).parent with
  | none => .ok ⟨.elem e, none⟩
  | some p => gBody m ml h p n (fun i => .ok ⟨.elem i, none⟩) e

theorem gCheck_at {ml : Ref → Elem → Nat → Except PyExc (Option Hit)} (T : Tree h) (B : Begins m h) (L : LastAt m h n e) :
    ∀ fuel s, Under h s e → h.length - s < fuel → gCheck m ml h n fuel s = if e = s then .ok ⟨.elem s, none⟩ else gAt m ml h n e := by
  intro fuel
  induction fuel with
  | zero => intro s _ hf; omega
  | succ fuel ih =>
    intro s u hf
    have hse := u.le T L.lt
    have hsl : s < h.length := by have := L.lt; omega
    simp only [gCheck]
    rw [gSection_find]
    cases hq : (h.at s).elements.reverse.find? (fun i => decide (¬ n < (m (h.at i).toBase).1)) with
    | none =>
      have hno : ∀ c, c < h.length → (h.at c).parent = some s → n < (m (h.at c).toBase).1 := by
        intro c hc hp
        have := List.find?_eq_none.1 hq c (by rw [List.mem_reverse, T.els s hsl]; simp [hc, hp])
        simpa using this
      by_cases hes : e = s
      · simp [hes]
      · obtain ⟨c, h1, h2⟩ := u.child T hes
        have hce := h2.le T L.lt
        have hcl : c < h.length := by have := L.lt; omega
        have h3 := hno c hcl h1
        have hc0 := (T.parent_lt hcl h1).1
        have h4 := L.le (by omega)
        by_cases heq : c = e
        · subst heq; omega
        · have := B c e hc0 (by omega) L.lt; omega
    | some c =>
      obtain ⟨hc1, as, bs, hsplit, has⟩ := List.find?_eq_some_iff_append.1 hq
      have hcm : c ∈ (h.at s).elements := by
        have : c ∈ (h.at s).elements.reverse := by rw [hsplit]; simp
        simpa using this
      rw [T.els s hsl] at hcm
      simp only [List.mem_filter, List.mem_range, decide_eq_true_eq] at hcm
      obtain ⟨hcl, hcp⟩ := hcm
      have hc1' : (m (h.at c).toBase).1 ≤ n := by simpa using hc1
      obtain ⟨hc0, hsc, _⟩ := T.parent_lt hcl hcp
      have hce : c ≤ e := by
        apply Nat.le_of_not_lt; intro hlt
        have := L.last c hlt hcl; omega
      have hes : e ≠ s := by omega
      -- every child after `c` comes after `e`
      have hlater : ∀ d, d < h.length → (h.at d).parent = some s → c < d → e < d := by
        intro d hd hdp hcd
        have hdm : d ∈ (h.at s).elements.reverse := by rw [List.mem_reverse, T.els s hsl]; simp [hd, hdp]
        have hsorted : ((h.at s).elements.reverse).Pairwise (· > ·) := by
          rw [List.pairwise_reverse, T.els s hsl]
          exact (List.pairwise_lt_range).sublist List.filter_sublist
        rw [hsplit] at hdm hsorted
        have hda : d ∈ as := by
          rcases List.mem_append.1 hdm with q | q
          · exact q
          · rcases List.mem_cons.1 q with rfl | q
            · omega
            · have := (List.pairwise_cons.1 (List.pairwise_append.1 hsorted).2.1).1 d q
              omega
        have hdn := has d hda
        simp only [Nat.not_lt, Bool.not_eq_eq_eq_not, Bool.not_true, decide_eq_false_iff_not, Nat.not_le] at hdn
        apply Nat.lt_of_not_le
        intro hde
        have h4 := L.le (by omega)
        by_cases heq : d = e
        · subst heq; omega
        · have := B d e (by omega) (by omega) L.lt; omega
      obtain ⟨c', hp', hu'⟩ := u.child T hes
      have hle' := hu'.le T L.lt
      have hcl' : c' < h.length := by have := L.lt; omega
      have hcc : c' = c := by
        rcases Nat.lt_trichotomy c' c with q | q | q
        · have := hu'.before T hp' hcp q hcl L.lt; omega
        · exact q
        · have := hlater c' hcl' hp' q; omega
      subst hcc
      simp only [if_neg hes]
      by_cases hec : e = c'
      · subst hec
        have hg : gAt m ml h n e = gBody m ml h s n (fun i => .ok ⟨.elem i, none⟩) e := by unfold gAt; rw [hcp]
        rw [hg]
        unfold gBody
        by_cases hin : n ≤ (m (h.at e).toBase).2
        · rw [if_pos hin, if_pos hin]
        · rw [if_neg hin, if_neg hin]
          cases hty : (h.at e).type <;> try rfl
          simp only
          rw [ih e .refl (by omega), if_pos rfl]
      · obtain ⟨c2, hp2, _⟩ := hu'.child T hec
        have hty : (h.at c').type = .section := by
          have hc2l : c2 < h.length := by have := (‹Under h c2 e›).le T L.lt; have := L.lt; omega
          rcases (T.parent_lt hc2l hp2).2.2 with q | q
          · exact q
          · omega
        have := B c' e hc0 (by omega) L.lt
        have := L.le (by omega)
        unfold gBody
        rw [if_neg (by omega), hty]
        simp only
        rw [ih c' hu' (by omega), if_neg hec]

end Eno
