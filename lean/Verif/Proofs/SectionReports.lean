import Verif.Spec.Extent
import Verif.Proofs.LookupFacts
import Verif.Proofs.ErrorReports

/-! # Reports about elements: which lines are tagged, and when tagging fails -/

namespace Eno

open Spec

variable {input : Str} {ctx : Ctx} {h : Heap} {s s' s'' : Snippet} {tag : Tag} {a b c : Nat} {N : Nat}

/-- `s'` is `s` with the lines from `a` to before `b` tagged. -/
structure Painted (tag : Tag) (a b : Nat) (s s' : Snippet) : Prop where
  len : s'.length = s.length
  on : ∀ n, a ≤ n → n < b → ∃ t, s'.getD n none = some t ∧ (t = tag ∨ t = .indicate)
  off : ∀ n, n < a ∨ b ≤ n → s'.getD n none = s.getD n none

theorem Painted.refl : Painted tag a a s s := ⟨rfl, fun n _ _ => by omega, fun _ _ => rfl⟩

theorem Painted.trans (P : Painted tag a b s s') (Q : Painted tag b c s' s'') (h1 : a ≤ b) (h2 : b ≤ c) : Painted tag a c s s'' := by
  refine ⟨Q.len.trans P.len, fun n ha hc => ?_, fun n hn => ?_⟩
  · by_cases hb : n < b
    · rw [Q.off n (.inl hb)]; exact P.on n ha hb
    · exact Q.on n (by omega) hc
  · rw [Q.off n (by omega), P.off n (by omega)]

theorem put_painted {t : Tag} (h : a < s.length) (ht : t = tag ∨ t = .indicate) : ∃ s', put s a t = .ok s' ∧ Painted tag a (a + 1) s s' := by
  refine ⟨_, put_ok h, by simp, fun n h1 h2 => ⟨t, ?_, ht⟩, fun n hn => ?_⟩
  · have : n = a := by omega
    subst this
    rw [getD_set h, if_pos rfl]
  · rw [getD_set h, if_neg (by omega)]

theorem range_painted {t : Tag} (ht : t = tag ∨ t = .indicate) : ∀ (k a : Nat) (s : Snippet), a + k ≤ s.length →
    ∃ s', putAll s ((List.range' a k).map (·, t)) = .ok s' ∧ Painted tag a (a + k) s s' := by
  intro k
  induction k with
  | zero => intro a s _; exact ⟨s, rfl, .refl⟩
  | succ k ih =>
    intro a s hl
    obtain ⟨s1, h1, P1⟩ := put_painted (s := s) (a := a) (by omega) ht
    obtain ⟨s2, h2, P2⟩ := ih (a + 1) s1 (by rw [P1.len]; omega)
    refine ⟨s2, ?_, P1.trans (by rw [show a + (k + 1) = a + 1 + k by omega]; exact P2) (by omega) (by omega)⟩
    rw [List.range'_succ, List.map_cons, putAll_cons]
    simp only [h1]
    exact h2

theorem tagLines_painted {t : Tag} (ht : t = tag ∨ t = .indicate) (h1 : a ≤ b) (h2 : b ≤ s.length) : ∃ s', tagLines t a b s = .ok s' ∧ Painted tag a b s s' := by
  obtain ⟨s', h3, P⟩ := range_painted ht (b - a) a s (by omega)
  exact ⟨s', h3, by rwa [show a + (b - a) = b by omega] at P⟩

/-! ## Continuations, items and entries -/

def Rising (bs : List Base) : Prop := bs.Pairwise fun a b => a.line < b.line

theorem endLine_cons {x y : Base} {bs : List Base} : endLine (x :: y :: bs) = endLine (y :: bs) := by simp [endLine, List.getLast?_cons]

theorem endLine_append {bs : List Base} {cs : List Base} (hc : cs ≠ []) : endLine (bs ++ cs) = endLine cs := by
  simp only [endLine, List.getLast?_append]
  cases h : cs.getLast? with
  | none => exact absurd (List.getLast?_eq_none_iff.1 h) hc
  | some x => rfl

theorem endLine_ge {bs : List Base} (hr : Rising bs) {x : Base} (hx : x ∈ bs) : x.line ≤ endLine bs := by
  induction bs generalizing x with
  | nil => cases hx
  | cons y bs ih =>
    have h1 := List.pairwise_cons.1 hr
    cases bs with
    | nil => simp at hx; subst hx; simp [endLine]
    | cons z bs =>
      rw [endLine_cons]
      rcases List.mem_cons.1 hx with rfl | hx
      · have := h1.1 z (by simp)
        have := ih h1.2 (x := z) (by simp)
        omega
      · exact ih h1.2 hx

theorem endLine_mem {bs : List Base} (h : bs ≠ []) : ∃ x ∈ bs, x.line = endLine bs := by
  unfold endLine
  cases hl : bs.getLast? with
  | none => exact absurd (List.getLast?_eq_none_iff.1 hl) h
  | some x => exact ⟨x, List.mem_of_getLast? hl, rfl⟩

theorem contsLoop_painted : ∀ (cs : List Cont) (x : Base) (s : Snippet), Rising (x :: cs.map Cont.toBase) → (∀ c ∈ cs, c.line < s.length) →
    ∃ s', contsLoop tag cs (x.line + 1) s = .ok (endLine (x :: cs.map Cont.toBase) + 1, s') ∧ Painted tag (x.line + 1) (endLine (x :: cs.map Cont.toBase) + 1) s s' := by
  intro cs
  induction cs with
  | nil => intro x s _ _; exact ⟨s, rfl, .refl⟩
  | cons c cs ih =>
    intro x s hr hl
    have hr' := List.pairwise_cons.1 hr
    have hxc : x.line < c.line := hr'.1 c.toBase (by simp)
    have hcl := hl c (by simp)
    obtain ⟨s1, e1, P1⟩ := tagLines_painted (s := s) (a := x.line + 1) (b := c.line) (t := tag) (tag := tag) (.inl rfl) (by omega) (by omega)
    obtain ⟨s2, e2, P2⟩ := put_painted (s := s1) (a := c.line) (t := tag) (tag := tag) (by rw [P1.len]; omega) (.inl rfl)
    obtain ⟨s3, e3, P3⟩ := ih c.toBase s2 hr'.2 (fun d hd => by rw [P2.len, P1.len]; exact hl d (by simp [hd]))
    have hge : c.line ≤ endLine (c.toBase :: cs.map Cont.toBase) := endLine_ge hr'.2 (x := c.toBase) (by simp)
    refine ⟨s3, ?_, ?_⟩
    · rw [contsLoop, List.map_cons, endLine_cons]
      simp only [e1, e2, bind, Except.bind]
      rw [show max (x.line + 1) c.line = c.line by omega]
      exact e3
    · rw [List.map_cons, endLine_cons]
      exact (P1.trans P2 (by omega) (by omega)).trans P3 (by omega) (by omega)

theorem tagConts_painted {x : Base} {conts : Option (List Cont)} (hr : Rising (x :: (conts.getD []).map Cont.toBase)) (hl : ∀ c ∈ conts.getD [], c.line < s.length) :
    ∃ s', tagConts tag x.line conts s = .ok (endLine (x :: (conts.getD []).map Cont.toBase) + 1, s') ∧
      Painted tag (x.line + 1) (endLine (x :: (conts.getD []).map Cont.toBase) + 1) s s' := by
  cases conts with
  | none => exact ⟨s, rfl, .refl⟩
  | some cs => exact contsLoop_painted cs x s hr hl

theorem subsLoop_painted : ∀ (xs : List Sub) (bs : List Base) (s : Snippet), bs ≠ [] → Rising (bs ++ xs.flatMap Sub.rows) → (∀ x ∈ xs, ∀ b ∈ x.rows, b.line < s.length) →
    ∃ s', subsLoop tag xs (endLine bs + 1) s = .ok (endLine (bs ++ xs.flatMap Sub.rows) + 1, s') ∧
      Painted tag (endLine bs + 1) (endLine (bs ++ xs.flatMap Sub.rows) + 1) s s' := by
  intro xs
  induction xs with
  | nil => intro bs s _ _ _; simp only [List.flatMap_nil, List.append_nil]; exact ⟨s, rfl, .refl⟩
  | cons x xs ih =>
    intro bs s hb hr hl
    have hr0 := List.pairwise_append.1 hr
    have hrx : Rising (x.rows ++ xs.flatMap Sub.rows) := by have := hr0.2.1; rwa [List.flatMap_cons] at this
    have hrx1 : Rising x.rows := (List.pairwise_append.1 hrx).1
    have hlt : endLine bs < x.line := by
      obtain ⟨y, hy, e⟩ := endLine_mem hb
      have := hr0.2.2 y hy x.toBase (by simp [Sub.rows])
      omega
    have hxl : x.line < s.length := hl x (by simp) x.toBase (by simp [Sub.rows])
    obtain ⟨s1, e1, P1⟩ := tagLines_painted (s := s) (a := endLine bs + 1) (b := x.line) (t := tag) (tag := tag) (.inl rfl) (by omega) (by omega)
    obtain ⟨s2, e2, P2⟩ := put_painted (s := s1) (a := x.line) (t := tag) (tag := tag) (by rw [P1.len]; omega) (.inl rfl)
    obtain ⟨s3, e3, P3⟩ := tagConts_painted (s := s2) (tag := tag) (x := x.toBase) (conts := x.continuations) hrx1
      (fun c hc => by rw [P2.len, P1.len]; exact hl x (by simp) c.toBase (by simp only [Sub.rows, List.mem_cons, List.mem_map]; exact .inr ⟨c, hc, rfl⟩))
    have hne : bs ++ x.rows ≠ [] := by simp [hb]
    have hend : endLine (bs ++ x.rows) = endLine x.rows := endLine_append (by simp [Sub.rows])
    have hge : x.line ≤ endLine x.rows := endLine_ge hrx1 (x := x.toBase) (by simp [Sub.rows])
    have hrr : Rising ((bs ++ x.rows) ++ xs.flatMap Sub.rows) := by simpa using hr
    obtain ⟨s4, e4, P4⟩ := ih (bs ++ x.rows) s3 hne hrr (fun y hy b hb => by
      rw [P3.len, P2.len, P1.len]; exact hl y (by simp [hy]) b hb)
    have hle : endLine x.rows ≤ endLine ((bs ++ x.rows) ++ xs.flatMap Sub.rows) := by
      obtain ⟨y, hy, e⟩ := endLine_mem (bs := x.rows) (by simp [Sub.rows])
      rw [← e]
      exact endLine_ge hrr (by simp [hy])
    rw [hend] at e4 P4
    have e5 : bs ++ (x :: xs).flatMap Sub.rows = (bs ++ x.rows) ++ xs.flatMap Sub.rows := by simp
    refine ⟨s4, ?_, ?_⟩
    · rw [subsLoop, e5]
      simp only [e1, e2, bind, Except.bind]
      rw [e3]
      exact e4
    · rw [e5]
      exact ((P1.trans P2 (by omega) (by omega)).trans P3 (by omega) (by change x.line + 1 ≤ endLine x.rows + 1; omega)).trans P4 (by change endLine bs + 1 ≤ endLine x.rows + 1; omega) (by change endLine x.rows + 1 ≤ _; omega)

theorem tagSubs_painted {x : Base} {subs : Option (List Sub)} (hr : Rising (x :: (subs.getD []).flatMap Sub.rows)) (hl : ∀ y ∈ subs.getD [], ∀ b ∈ y.rows, b.line < s.length) :
    ∃ s', tagSubs tag x.line subs s = .ok (endLine (x :: (subs.getD []).flatMap Sub.rows) + 1, s') ∧
      Painted tag (x.line + 1) (endLine (x :: (subs.getD []).flatMap Sub.rows) + 1) s s' := by
  cases subs with
  | none => exact ⟨s, rfl, .refl⟩
  | some xs =>
    have := subsLoop_painted (tag := tag) xs [x] s (by simp) (by simpa using hr) hl
    simpa [tagSubs, endLine] using this

/-! ## Elements -/

/-- What tagging needs to know about a loaded document. -/
structure Shown (h : Heap) (N : Nat) : Prop where
  tree : Tree h
  ordered : Ordered byLine h
  kinds : Kinds h
  types : ∀ i, 0 < i → i < h.length → (h.at i).type ∈ [Ty.section, .field, .empty, .list, .fieldset, .mlBegin]
  below : ∀ i, 0 < i → i < h.length → ∀ b ∈ (h.at i).rows, b.line < N
  multiline : ∀ i, i < h.length → (h.at i).type = .mlBegin → ∃ f, (h.at i).fin = some f ∧
    ((h.at i).lines.getD []).map (·.line) = List.range' ((h.at i).line + 1) ((h.at i).lines.getD []).length ∧ f.line = (h.at i).line + ((h.at i).lines.getD []).length + 1
  leaves : ∀ i, i < h.length → 0 < i → (h.at i).type ≠ .section → (h.at i).elements = []

theorem Shown.rising (S : Shown h N) {i : Nat} (h0 : 0 < i) (hi : i < h.length) : Rising (h.at i).rows := S.ordered.inner i h0 hi

/-- The rows of an element go with its type. -/
theorem Shown.rows (S : Shown h N) {i : Nat} (hi : i < h.length) :
    (h.at i).rows = (h.at i).toBase :: match (h.at i).type with
      | .field => ((h.at i).continuations.getD []).map Cont.toBase
      | .list => ((h.at i).items.getD []).flatMap Sub.rows
      | .fieldset => ((h.at i).entries.getD []).flatMap Sub.rows
      | .mlBegin => (h.at i).lines.getD [] ++ (h.at i).fin.toList
      | _ => [] := by
  have q1 : (h.at i).type ≠ .field → (h.at i).continuations = none := by
    intro ht; cases q : (h.at i).continuations with
    | none => rfl
    | some cs => exact absurd (S.kinds.conts i cs hi q).1 ht
  have q2 : (h.at i).type ≠ .list → (h.at i).items = none := by
    intro ht; cases q : (h.at i).items with
    | none => rfl
    | some cs => exact absurd (S.kinds.items i cs hi q).1 ht
  have q3 : (h.at i).type ≠ .fieldset → (h.at i).entries = none := by
    intro ht; cases q : (h.at i).entries with
    | none => rfl
    | some cs => exact absurd (S.kinds.entries i cs hi q).1 ht
  have q4 : (h.at i).type ≠ .mlBegin → (h.at i).lines = none ∧ (h.at i).fin = none := by
    intro ht
    constructor
    · cases q : (h.at i).lines with
      | none => rfl
      | some cs => exact absurd (S.kinds.lines i hi (.inl (by rw [q]; simp))) ht
    · cases q : (h.at i).fin with
      | none => rfl
      | some cs => exact absurd (S.kinds.lines i hi (.inr (by rw [q]; simp))) ht
  unfold Elem.rows
  cases ht : (h.at i).type <;> simp [ht] at q1 q2 q3 q4 <;> simp [q1, q2, q3, q4]

theorem silent_leaf {i : Nat} (ht : (h.at i).type ≠ .section) : Silent h i ↔ (h.at i).type = .empty ∨ ((h.at i).type = .fieldset ∧ (h.at i).entries = none) := by
  constructor
  · intro q; cases q with
    | empty e => exact .inl e
    | fieldset e f => exact .inr ⟨e, f⟩
    | «section» e => exact absurd e ht
  · rintro (e | ⟨e, f⟩)
    · exact .empty e
    · exact .fieldset e f

theorem endLine_single (b : Base) : endLine [b] = b.line := rfl

/-- Tagging an element that is not a section. -/
theorem tagLeaf_painted (S : Shown h s.length) {i : Nat} (h0 : 0 < i) (hi : i < h.length) (ht : (h.at i).type ≠ .section) :
    ∃ r s', tagLeaf tag (h.at i) s = .ok (r, s') ∧ Painted tag ((h.at i).line + 1) (endLine (h.at i).rows + 1) s s' ∧
      ((r = some (endLine (h.at i).rows + 1) ∧ ¬ Silent h i) ∨ (r = none ∧ Silent h i)) := by
  have hr := S.rising h0 hi
  have hb := S.below i h0 hi
  have hrows := S.rows hi
  have hty := S.types i h0 hi
  rw [silent_leaf ht]
  unfold tagLeaf
  cases hq : (h.at i).type <;> simp only [hq] at hrows ⊢ <;> rw [hq] at hty <;> try (simp at hty; done)
  case «section» =>
    exact absurd hq ht
  case field =>
    rw [hrows] at hr hb ⊢
    obtain ⟨s', e, P⟩ := tagConts_painted (s := s) (tag := tag) hr (fun c hc => hb c.toBase (by simp only [List.mem_cons, List.mem_map]; exact .inr ⟨c, hc, rfl⟩))
    exact ⟨_, s', by rw [e]; rfl, P, .inl ⟨rfl, by simp⟩⟩
  case empty =>
    rw [hrows, endLine_single]
    exact ⟨none, s, rfl, .refl, .inr ⟨rfl, .inl (by simp)⟩⟩
  case list =>
    rw [hrows] at hr hb ⊢
    obtain ⟨s', e, P⟩ := tagSubs_painted (s := s) (tag := tag) hr (fun y hy b hy' => hb b (by simp only [List.mem_cons, List.mem_flatMap]; exact .inr ⟨y, hy, hy'⟩))
    exact ⟨_, s', by rw [e]; rfl, P, .inl ⟨rfl, by simp⟩⟩
  case fieldset =>
    cases he : (h.at i).entries with
    | none =>
      rw [he] at hrows
      simp only [Option.getD_none, List.flatMap_nil] at hrows
      rw [hrows, endLine_single]
      exact ⟨none, s, by simp, .refl, .inr ⟨rfl, .inr ⟨by simp, rfl⟩⟩⟩
    | some xs =>
      rw [hrows, he] at hr hb ⊢
      obtain ⟨s', e, P⟩ := tagSubs_painted (s := s) (tag := tag) hr (fun y hy b hy' => hb b (by simp only [List.mem_cons, List.mem_flatMap]; exact .inr ⟨y, hy, hy'⟩))
      exact ⟨_, s', by simp only [Option.isSome_some, if_true]; rw [e]; rfl, P, .inl ⟨rfl, by simp⟩⟩
  case mlBegin =>
    obtain ⟨f, hf, h1, h2⟩ := S.multiline i hi hq
    rw [hrows, hf] at hb ⊢
    have hfl : f.line < s.length := hb f (by simp)
    have hend : endLine ((h.at i).toBase :: ((h.at i).lines.getD [] ++ (some f).toList)) = f.line := by
      rw [← List.cons_append, endLine_append (by simp)]; rfl
    rw [hend]
    obtain ⟨s1, e1, P1⟩ := range_painted (tag := tag) (t := tag) (.inl rfl) ((h.at i).lines.getD []).length ((h.at i).line + 1) s (by omega)
    obtain ⟨s2, e2, P2⟩ := put_painted (s := s1) (a := f.line) (t := tag) (tag := tag) (by rw [P1.len]; omega) (.inl rfl)
    refine ⟨some (f.line + 1), s2, ?_, ?_, .inl ⟨rfl, by simp⟩⟩
    · unfold tagMultiline
      rw [show ((h.at i).lines.getD []).map (fun b => (b.line, tag)) = (((h.at i).lines.getD []).map (·.line)).map (·, tag) by rw [List.map_map]; rfl, h1]
      simp only [e1, bind, Except.bind, hf, e2]
      rfl
    · refine P1.trans ?_ (by omega) (by omega)
      rw [show (h.at i).line + 1 + ((h.at i).lines.getD []).length = f.line by omega]
      exact P2

/-! ## Sections -/

/-- What tagging everything in an element does to a snippet of `N` lines. -/
def Tags (h : Heap) (N : Nat) (tag : Tag) (i : Nat) (f : Snippet → Except PyExc (Option Nat × Snippet)) : Prop :=
  (Stuck h i ∧ ∀ s, s.length = N → f s = .error .typeError) ∨
  (¬ Stuck h i ∧ ∃ L, EndsAt h i L ∧ (h.at i).line ≤ L ∧ L < N ∧ (∃ j, Under h i j ∧ j < h.length ∧ ∃ b ∈ (h.at j).rows, b.line = L) ∧
    ∀ s, s.length = N → ∃ r s', f s = .ok (r, s') ∧ Painted tag ((h.at i).line + 1) (L + 1) s s' ∧ ((r = some (L + 1) ∧ ¬ Silent h i) ∨ (r = none ∧ Silent h i)))

theorem not_stuck_leaf {i : Nat} (he : (h.at i).elements = []) : ¬ Stuck h i := by
  intro q; cases q with
  | here e => rw [he] at e; simp at e
  | inner e => rw [he] at e; simp at e

theorem tagLeaf_tags (S : Shown h N) {i : Nat} (h0 : 0 < i) (hi : i < h.length) (ht : (h.at i).type ≠ .section) : Tags h N tag i (tagLeaf tag (h.at i)) := by
  right
  have hne : (h.at i).rows ≠ [] := by simp [Elem.rows]
  refine ⟨not_stuck_leaf (S.leaves i hi h0 ht), _, .leaf ht, endLine_ge (S.rising h0 hi) (rows_head _), ?_, ?_, ?_⟩
  · obtain ⟨x, hx, e⟩ := endLine_mem hne
    rw [← e]; exact S.below i h0 hi x hx
  · exact ⟨i, .refl, hi, endLine_mem hne⟩
  · intro s hs
    subst hs
    exact tagLeaf_painted S h0 hi ht

/-- The elements from some point on of a section. -/
structure Rest (h : Heap) (sec : Nat) (is : List Nat) : Prop where
  sorted : is.Pairwise (· < ·)
  kids : ∀ i ∈ is, i < h.length ∧ (h.at i).parent = some sec

theorem Rest.tail {sec i : Nat} {is : List Nat} (R : Rest h sec (i :: is)) : Rest h sec is :=
  ⟨(List.pairwise_cons.1 R.sorted).2, fun j hj => R.kids j (by simp [hj])⟩

/-- Two elements in a row of which the first is silent, or one that is stuck. -/
def StuckIn (h : Heap) (is : List Nat) : Prop :=
  (∃ pre i j post, is = pre ++ i :: j :: post ∧ Silent h i) ∨ ∃ i ∈ is, (h.at i).type = .section ∧ Stuck h i

theorem stuck_iff {sec : Nat} : Stuck h sec ↔ StuckIn h (h.at sec).elements := by
  constructor
  · intro q; cases q with
    | here e s => exact .inl ⟨_, _, _, _, e, s⟩
    | inner e t s => exact .inr ⟨_, e, t, s⟩
  · rintro (⟨_, _, _, _, e, s⟩ | ⟨_, e, t, s⟩)
    · exact .here e s
    · exact .inner e t s

theorem stuckIn_cons {i j : Nat} {is : List Nat} : StuckIn h (i :: j :: is) ↔ Silent h i ∨ ((h.at i).type = .section ∧ Stuck h i) ∨ StuckIn h (j :: is) := by
  constructor
  · rintro (⟨pre, a, b, post, e, s⟩ | ⟨a, ha, t, s⟩)
    · cases pre with
      | nil => simp only [List.nil_append, List.cons.injEq] at e; obtain ⟨rfl, _⟩ := e; exact .inl s
      | cons p pre =>
        simp only [List.cons_append, List.cons.injEq] at e
        exact .inr (.inr (.inl ⟨pre, a, b, post, e.2, s⟩))
    · rcases List.mem_cons.1 ha with rfl | ha
      · exact .inr (.inl ⟨t, s⟩)
      · exact .inr (.inr (.inr ⟨a, ha, t, s⟩))
  · rintro (s | ⟨t, s⟩ | (⟨pre, a, b, post, e, s⟩ | ⟨a, ha, t, s⟩))
    · exact .inl ⟨[], i, j, is, rfl, s⟩
    · exact .inr ⟨i, by simp, t, s⟩
    · exact .inl ⟨i :: pre, a, b, post, by rw [e]; rfl, s⟩
    · exact .inr ⟨a, by simp [ha], t, s⟩

theorem stuckIn_single {i : Nat} : StuckIn h [i] ↔ (h.at i).type = .section ∧ Stuck h i := by
  constructor
  · rintro (⟨pre, a, b, post, e, s⟩ | ⟨a, ha, t, s⟩)
    · have := congrArg List.length e
      simp at this
      omega
    · simp at ha; subst ha; exact ⟨t, s⟩
  · rintro ⟨t, s⟩; exact .inr ⟨i, by simp, t, s⟩

/-- The loop over the elements of a section. -/
theorem sectionLoop_painted (S : Shown h N) {sec : Nat} {inner : Nat → Snippet → Except PyExc (Option Nat × Snippet)} :
    ∀ (is : List Nat) (i a : Nat) (s : Snippet), Rest h sec (i :: is) → s.length = N → a ≤ (h.at i).line →
      (∀ j ∈ i :: is, (h.at j).type = .section → Tags h N tag j (inner j)) →
      (StuckIn h (i :: is) ∧ sectionLoop h tag true inner (i :: is) (some a) s = .error .typeError) ∨
      (¬ StuckIn h (i :: is) ∧ ∃ l L, (i :: is).getLast? = some l ∧ EndsAt h l L ∧ (h.at i).line ≤ L ∧ L < N ∧ (∃ j, Under h l j ∧ j < h.length ∧ ∃ b ∈ (h.at j).rows, b.line = L) ∧
        ∃ r s', sectionLoop h tag true inner (i :: is) (some a) s = .ok (r, s') ∧ Painted tag a (L + 1) s s' ∧ ((r = some (L + 1) ∧ ¬ Silent h l) ∨ (r = none ∧ Silent h l))) := by
  intro is
  induction is with
  | nil =>
    intro i a s R hs ha hI
    obtain ⟨hi, hp⟩ := R.kids i (by simp)
    have h0 := (S.tree.parent_lt hi hp).1
    have hb : (h.at i).line < N := S.below i h0 hi _ (rows_head _)
    obtain ⟨s1, e1, P1⟩ := tagLines_painted (s := s) (a := a) (b := (h.at i).line) (t := .indicate) (tag := tag) (.inr rfl) ha (by omega)
    obtain ⟨s2, e2, P2⟩ := put_painted (s := s1) (a := (h.at i).line) (t := .indicate) (tag := tag) (by rw [P1.len]; omega) (.inr rfl)
    have hT : Tags h N tag i (fun s => if (h.at i).type = .section then inner i s else tagLeaf tag (h.at i) s) := by
      by_cases ht : (h.at i).type = .section
      · simp only [ht, if_true]; exact hI i (by simp) ht
      · simp only [ht, if_false]; exact tagLeaf_tags S h0 hi ht
    have hl2 : s2.length = N := by rw [P2.len, P1.len, hs]
    have hrun : sectionLoop h tag true inner [i] (some a) s = (if (h.at i).type = .section then inner i s2 else tagLeaf tag (h.at i) s2) := by
      rw [sectionLoop]
      simp only [fillTo, e1, bind, Except.bind, e2]
      rw [if_neg (by simp)]
      by_cases ht : (h.at i).type = .section
      · rw [if_pos ht, if_pos ht]; cases inner i s2 <;> rfl
      · rw [if_neg ht, if_neg ht]; cases tagLeaf tag (h.at i) s2 <;> rfl
    rw [hrun, stuckIn_single]
    rcases hT with ⟨q, hq⟩ | ⟨q, L, g1, g2, g3, g4, g5⟩
    · left
      refine ⟨⟨?_, q⟩, hq s2 hl2⟩
      apply Classical.byContradiction; intro ht
      exact not_stuck_leaf (S.leaves i hi h0 ht) q
    · right
      obtain ⟨r, s3, e3, P3, hr⟩ := g5 s2 hl2
      exact ⟨fun x => q x.2, i, L, rfl, g1, g2, g3, g4, r, s3, e3, (P1.trans P2 ha (by omega)).trans P3 (by omega) (by omega), hr⟩
  | cons j is ih =>
    intro i a s R hs ha hI
    obtain ⟨hi, hp⟩ := R.kids i (by simp)
    obtain ⟨hj, hpj⟩ := R.kids j (by simp)
    have hij : i < j := (List.pairwise_cons.1 R.sorted).1 j (by simp)
    have h0 := (S.tree.parent_lt hi hp).1
    have hb : (h.at i).line < N := S.below i h0 hi _ (rows_head _)
    obtain ⟨s1, e1, P1⟩ := tagLines_painted (s := s) (a := a) (b := (h.at i).line) (t := .indicate) (tag := tag) (.inr rfl) ha (by omega)
    obtain ⟨s2, e2, P2⟩ := put_painted (s := s1) (a := (h.at i).line) (t := .indicate) (tag := tag) (by rw [P1.len]; omega) (.inr rfl)
    have hT : Tags h N tag i (fun s => if (h.at i).type = .section then inner i s else tagLeaf tag (h.at i) s) := by
      by_cases ht : (h.at i).type = .section
      · simp only [ht, if_true]; exact hI i (by simp) ht
      · simp only [ht, if_false]; exact tagLeaf_tags S h0 hi ht
    have hl2 : s2.length = N := by rw [P2.len, P1.len, hs]
    have hrun : sectionLoop h tag true inner (i :: j :: is) (some a) s = (if (h.at i).type = .section then inner i s2 else tagLeaf tag (h.at i) s2).bind
        fun x => sectionLoop h tag true inner (j :: is) x.1 x.2 := by
      rw [sectionLoop]
      simp only [fillTo, e1, bind, Except.bind, e2]
      rw [if_neg (by simp)]
      by_cases ht : (h.at i).type = .section
      · rw [if_pos ht, if_pos ht]
      · rw [if_neg ht, if_neg ht]
    rw [hrun, stuckIn_cons]
    rcases hT with ⟨q, hq⟩ | ⟨q, L, g1, g2, g3, ⟨j', u1, u2, b, u3, u4⟩, g5⟩
    · left
      refine ⟨.inr (.inl ⟨?_, q⟩), by have := hq s2 hl2; simp only at this; rw [this]; rfl⟩
      apply Classical.byContradiction; intro ht
      exact not_stuck_leaf (S.leaves i hi h0 ht) q
    · obtain ⟨r, s3, e3, P3, hr⟩ := g5 s2 hl2
      have e3' : (if (h.at i).type = .section then inner i s2 else tagLeaf tag (h.at i) s2) = .ok (r, s3) := e3
      rw [e3']
      simp only [Except.bind]
      rcases hr with ⟨rfl, hr⟩ | ⟨rfl, hr⟩
      · have hlt : L < (h.at j).line := by
          have hj' := u1.before S.tree hp hpj hij hj u2
          have hle := u1.le S.tree u2
          rw [← u4]
          exact S.ordered.outer j' j (by omega) hj' hj b u3 _ (rows_head _)
        rcases ih j (L + 1) s3 R.tail (by rw [P3.len, hl2]) (by omega) (fun k hk => hI k (by simp only [List.mem_cons] at hk ⊢; exact .inr hk)) with ⟨k1, k2⟩ | ⟨k1, l, M, k2, k3, k4, k5, k6, r, s4, k7, P4, k8⟩
        · left; exact ⟨.inr (.inr k1), k2⟩
        · right
          refine ⟨?_, l, M, by rw [List.getLast?_cons_cons]; exact k2, k3, by omega, k5, k6, r, s4, k7, ((P1.trans P2 ha (by omega)).trans P3 (by omega) (by omega)).trans P4 (by omega) (by omega), k8⟩
          rintro (x | x | x)
          · exact hr x
          · exact q x.2
          · exact k1 x
      · left
        refine ⟨.inl hr, ?_⟩
        rw [sectionLoop]
        rfl

theorem Shown.rest (S : Shown h N) {sec : Nat} (hs : sec < h.length) : Rest h sec (h.at sec).elements := by
  rw [S.tree.els sec hs]
  refine ⟨List.pairwise_lt_range.filter _, fun i hi => ?_⟩
  simp only [List.mem_filter, List.mem_range, decide_eq_true_eq] at hi
  exact hi

theorem under_of_parent {i j p : Nat} (h1 : (h.at j).parent = some p) (u : Under h j i) : Under h p i := by
  induction u with
  | refl => exact .step h1 .refl
  | step hp u ih => exact .step hp ih

theorem endsAt_unique {i L L' : Nat} (h1 : EndsAt h i L) (h2 : EndsAt h i L') : L = L' := by
  induction h1 with
  | leaf a =>
    cases h2 with
    | leaf => rfl
    | bare b => exact absurd b a
    | «section» b => exact absurd b a
  | bare a b =>
    cases h2 with
    | leaf c => exact absurd a c
    | bare => rfl
    | «section» _ c => rw [b] at c; simp at c
  | «section» a b c ih =>
    cases h2 with
    | leaf d => exact absurd a d
    | bare _ d => rw [d] at b; simp at b
    | «section» _ d e => rw [b] at d; injection d with d; subst d; exact ih e

/-- Tagging everything in a section. -/
theorem tagSection_tags (S : Shown h N) : ∀ (n sec : Nat), h.length - sec < n → 0 < sec → sec < h.length → (h.at sec).type = .section →
    Tags h N tag sec (tagSection h tag n true sec) := by
  intro n
  induction n with
  | zero => intro sec h1; omega
  | succ n ih =>
    intro sec h1 h0 hl ht
    have R := S.rest hl
    have hb : (h.at sec).line < N := S.below sec h0 hl _ (rows_head _)
    cases he : (h.at sec).elements with
    | nil =>
      right
      refine ⟨not_stuck_leaf he, (h.at sec).line, .bare ht he, by omega, hb, ⟨sec, .refl, hl, _, rows_head _, rfl⟩, fun s _ => ?_⟩
      refine ⟨some ((h.at sec).line + 1), s, by rw [tagSection, he]; rfl, .refl, .inl ⟨rfl, ?_⟩⟩
      intro q; cases q with
      | empty q => rw [ht] at q; simp at q
      | fieldset q => rw [ht] at q; simp at q
      | «section» _ q => rw [he] at q; simp at q
    | cons i is =>
      rw [he] at R
      obtain ⟨hi, hp⟩ := R.kids i (by simp)
      have hlt : (h.at sec).line < (h.at i).line := S.ordered.outer sec i h0 (S.tree.parent_lt hi hp).2.1 hi _ (rows_head _) _ (rows_head _)
      have hI : ∀ j ∈ i :: is, (h.at j).type = .section → Tags h N tag j (tagSection h tag n true j) := by
        intro j hj hs
        obtain ⟨hjl, hjp⟩ := R.kids j hj
        have := S.tree.parent_lt hjl hjp
        exact ih j (by omega) (by omega) hjl hs
      have key := fun s hs => sectionLoop_painted (tag := tag) S is i ((h.at sec).line + 1) s R hs (by omega) hI
      have hst : Stuck h sec ↔ StuckIn h (i :: is) := by rw [stuck_iff, he]
      by_cases q : Stuck h sec
      · left
        refine ⟨q, fun s hs => ?_⟩
        rw [tagSection, he]
        rcases key s hs with ⟨_, k⟩ | ⟨k, _⟩
        · exact k
        · exact absurd (hst.1 q) k
      · right
        refine ⟨q, ?_⟩
        rcases key (List.replicate N none) (by simp) with ⟨k, _⟩ | ⟨_, l, L, k2, k3, k4, k5, ⟨j, u1, u2, u3⟩, _⟩
        · exact absurd (hst.2 k) q
        · have hll := R.kids l (List.mem_of_getLast? k2)
          refine ⟨L, .section ht (by rw [he]; exact k2) k3, by omega, k5, ⟨j, under_of_parent hll.2 u1, u2, u3⟩, fun s hs => ?_⟩
          rcases key s hs with ⟨k, _⟩ | ⟨_, l', L', m2, m3, m4, m5, _, r, s', m7, P, m8⟩
          · exact absurd (hst.2 k) q
          · rw [k2] at m2; injection m2 with m2; subst m2
            have : L' = L := endsAt_unique m3 k3
            subst this
            have hsil : Silent h sec ↔ Silent h l := by
              constructor
              · intro q; cases q with
                | empty q => rw [ht] at q; simp at q
                | fieldset q => rw [ht] at q; simp at q
                | «section» _ q r => rw [he, k2] at q; injection q with q; subst q; exact r
              · intro q; exact .section ht (by rw [he]; exact k2) q
            exact ⟨r, s', by rw [tagSection, he]; exact m7, P, by rw [hsil]; exact m8⟩

/-- Tagging anything. -/
theorem tagElement_tags (S : Shown h N) {i : Nat} (h0 : 0 < i) (hi : i < h.length) : Tags h N tag i (tagElement h tag i) := by
  unfold tagElement
  by_cases ht : (h.at i).type = .section
  · simp only [ht, if_true]; exact tagSection_tags S _ i (by omega) h0 hi ht
  · simp only [ht, if_false]; exact tagLeaf_tags S h0 hi ht

/-! ## Missing elements -/

def StuckFlat (h : Heap) (is : List Nat) : Prop :=
  ∃ pre i j post, is = pre ++ i :: j :: post ∧ Silent h i ∧ ∀ k ∈ pre ++ [i], (h.at k).type ≠ .section

theorem stuckFlat_cons {i j : Nat} {is : List Nat} (hi : (h.at i).type ≠ .section) : StuckFlat h (i :: j :: is) ↔ Silent h i ∨ StuckFlat h (j :: is) := by
  constructor
  · rintro ⟨pre, a, b, post, e, s, t⟩
    cases pre with
    | nil => simp only [List.nil_append, List.cons.injEq] at e; obtain ⟨rfl, _⟩ := e; exact .inl s
    | cons p pre =>
      simp only [List.cons_append, List.cons.injEq] at e
      exact .inr ⟨pre, a, b, post, e.2, s, fun k hk => t k (by simp only [List.cons_append, List.mem_cons]; exact .inr hk)⟩
  · rintro (s | ⟨pre, a, b, post, e, s, t⟩)
    · exact ⟨[], i, j, is, rfl, s, by simpa using hi⟩
    · exact ⟨i :: pre, a, b, post, by rw [e]; rfl, s, by
        intro k hk
        simp only [List.cons_append, List.mem_cons] at hk
        rcases hk with rfl | hk
        · exact hi
        · exact t k hk⟩

theorem stuckFlat_short {i : Nat} {is : List Nat} (hi : (h.at i).type = .section) : ¬ StuckFlat h (i :: is) := by
  rintro ⟨pre, a, b, post, e, s, t⟩
  cases pre with
  | nil => simp only [List.nil_append, List.cons.injEq] at e; obtain ⟨rfl, _⟩ := e; exact t _ (by simp) hi
  | cons p pre => simp only [List.cons_append, List.cons.injEq] at e; obtain ⟨rfl, _⟩ := e; exact t _ (by simp) hi

theorem stuckFlat_single {i : Nat} : ¬ StuckFlat h [i] := by
  rintro ⟨pre, a, b, post, e, _⟩
  have := congrArg List.length e
  simp at this
  omega

theorem aboveEnds_cons {i n a b : Nat} {is : List Nat} (hi : (h.at i).type ≠ .section) (hne : is ≠ []) (A : AboveEnds h a is n) : AboveEnds h b (i :: is) n := by
  rcases A with ⟨pre, j, post, e, h1, h2, h3⟩ | ⟨h1, ⟨h2, _⟩ | ⟨l, h2, h3⟩⟩
  · refine .inl ⟨i :: pre, j, post, by rw [e]; rfl, h1, ?_, h3⟩
    intro k hk
    rcases List.mem_cons.1 hk with rfl | hk
    · exact hi
    · exact h2 k hk
  · exact absurd h2 hne
  · refine .inr ⟨?_, .inr ⟨l, ?_, h3⟩⟩
    · intro k hk
      rcases List.mem_cons.1 hk with rfl | hk
      · exact hi
      · exact h1 k hk
    · cases is with
      | nil => exact absurd rfl hne
      | cons k is => rw [List.getLast?_cons_cons]; exact h2

/-- The loop that stops at the first section. -/
theorem flatLoop_painted (S : Shown h N) {sec : Nat} {inner : Nat → Snippet → Except PyExc (Option Nat × Snippet)} :
    ∀ (is : List Nat) (a : Nat) (s : Snippet), Rest h sec is → s.length = N → (∀ i ∈ is, a ≤ (h.at i).line) → a ≤ N →
      (StuckFlat h is ∧ sectionLoop h tag false inner is (some a) s = .error .typeError) ∨
      (¬ StuckFlat h is ∧ ∃ n r s', sectionLoop h tag false inner is (some a) s = .ok (r, s') ∧ a ≤ n ∧ n ≤ N ∧ AboveEnds h a is n ∧ Painted tag a n s s') := by
  intro is
  induction is with
  | nil =>
    intro a s _ _ _ haN
    right
    refine ⟨?_, a, some a, s, rfl, by omega, haN, .inr ⟨by simp, .inl ⟨rfl, rfl⟩⟩, .refl⟩
    rintro ⟨pre, i, j, post, e, _⟩
    simp at e
  | cons i is ih =>
    intro a s R hs ha haN
    have hai := ha i (by simp)
    obtain ⟨hi, hp⟩ := R.kids i (by simp)
    have h0 := (S.tree.parent_lt hi hp).1
    have hb : (h.at i).line < N := S.below i h0 hi _ (rows_head _)
    obtain ⟨s1, e1, P1⟩ := tagLines_painted (s := s) (a := a) (b := (h.at i).line) (t := .indicate) (tag := tag) (.inr rfl) hai (by omega)
    by_cases ht : (h.at i).type = .section
    · right
      refine ⟨stuckFlat_short ht, (h.at i).line, some (max a (h.at i).line), s1, ?_, hai, by omega, .inl ⟨[], i, is, rfl, ht, by simp, rfl⟩, P1⟩
      rw [sectionLoop]
      simp only [fillTo, e1, bind, Except.bind]
      rw [if_pos ⟨by simp, ht⟩]
    · obtain ⟨s2, e2, P2⟩ := put_painted (s := s1) (a := (h.at i).line) (t := .indicate) (tag := tag) (by rw [P1.len]; omega) (.inr rfl)
      have hl2 : s2.length = N := by rw [P2.len, P1.len, hs]
      obtain ⟨r, s3, e3, P3, hr⟩ := tagLeaf_painted (s := s2) (tag := tag) (by rw [hl2]; exact S) h0 hi ht
      have hge : (h.at i).line ≤ endLine (h.at i).rows := endLine_ge (S.rising h0 hi) (rows_head _)
      have hltN : endLine (h.at i).rows < N := by
        obtain ⟨x, hx, e⟩ := endLine_mem (bs := (h.at i).rows) (by simp [Elem.rows])
        rw [← e]; exact S.below i h0 hi x hx
      have P := (P1.trans P2 hai (by omega)).trans P3 (by omega) (by omega)
      have hrun : sectionLoop h tag false inner (i :: is) (some a) s = sectionLoop h tag false inner is r s3 := by
        rw [sectionLoop]
        simp only [fillTo, e1, bind, Except.bind, e2]
        rw [if_neg (by simp [ht]), if_neg ht, e3]
      rw [hrun]
      cases is with
      | nil =>
        right
        exact ⟨stuckFlat_single, _, r, s3, rfl, by omega, by omega, .inr ⟨by simpa using ht, .inr ⟨i, rfl, rfl⟩⟩, P⟩
      | cons j is =>
        rw [stuckFlat_cons ht]
        rcases hr with ⟨rfl, hr⟩ | ⟨rfl, hr⟩
        · have hlt : ∀ k ∈ j :: is, endLine (h.at i).rows + 1 ≤ (h.at k).line := by
            intro k hk
            obtain ⟨hk1, _⟩ := R.kids k (by simp only [List.mem_cons] at hk ⊢; exact .inr hk)
            have hik : i < k := (List.pairwise_cons.1 R.sorted).1 k hk
            obtain ⟨x, hx, e⟩ := endLine_mem (bs := (h.at i).rows) (by simp [Elem.rows])
            have : x.line < (h.at k).line := S.ordered.outer i k h0 hik hk1 x hx _ (rows_head _)
            omega
          rcases ih _ s3 R.tail (by rw [P3.len, hl2]) hlt (by omega) with ⟨k1, k2⟩ | ⟨k1, n, r, s4, k2, k3, k4, k5, P4⟩
          · exact .inl ⟨.inr k1, k2⟩
          · refine .inr ⟨?_, n, r, s4, k2, by omega, k4, aboveEnds_cons ht (by simp) k5, P.trans P4 (by omega) (by omega)⟩
            rintro (x | x)
            · exact hr x
            · exact k1 x
        · left
          refine ⟨.inl hr, ?_⟩
          rw [sectionLoop]
          rfl

/-! ## The end of an element -/

theorem lastInSub_ok {x : Sub} (hc : x.continuations ≠ some []) : ∃ b, lastInSub x = .ok b ∧ x.rows.getLast? = some b := by
  unfold lastInSub Sub.rows
  cases h : x.continuations with
  | none => exact ⟨_, rfl, rfl⟩
  | some cs =>
    cases hl : cs.getLast? with
    | none => rw [List.getLast?_eq_none_iff] at hl; subst hl; exact absurd h hc
    | some c => exact ⟨c.toBase, by simp only [hl], by simp [List.getLast?_cons, hl]⟩

theorem lastInSubs_ok {e : Elem} {xs : List Sub} (hne : xs ≠ []) (hc : ∀ x ∈ xs, x.continuations ≠ some []) :
    ∃ b, lastInSubs e (some xs) = .ok b ∧ (e.toBase :: ((some xs).getD []).flatMap Sub.rows).getLast? = some b := by
  cases hl : xs.getLast? with
  | none => exact absurd (List.getLast?_eq_none_iff.1 hl) hne
  | some x =>
    obtain ⟨b, e1, e2⟩ := lastInSub_ok (hc x (List.mem_of_getLast? hl))
    refine ⟨b, by simp only [lastInSubs, hl]; exact e1, ?_⟩
    obtain ⟨pre, rfl⟩ : ∃ pre, xs = pre ++ [x] := by
      rw [List.getLast?_eq_some_iff] at hl; exact hl
    simp [List.getLast?_cons, e2]

/-- `last_in` finds the last line. -/
theorem lastIn_ends (S : Shown h N) : ∀ (n i : Nat), h.length - i < n → 0 < i → i < h.length →
    ∃ b j, lastIn h n i = .ok b ∧ EndsAt h i b.line ∧ Under h i j ∧ j < h.length ∧ 0 < j ∧ b ∈ (h.at j).rows := by
  intro n
  induction n with
  | zero => intro i h1; omega
  | succ n ih =>
    intro i h1 h0 hi
    have hrows := S.rows hi
    have hty := S.types i h0 hi
    have leaf : ∀ b, (h.at i).type ≠ .section → lastIn h (n + 1) i = .ok b → (h.at i).rows.getLast? = some b →
        ∃ b j, lastIn h (n + 1) i = .ok b ∧ EndsAt h i b.line ∧ Under h i j ∧ j < h.length ∧ 0 < j ∧ b ∈ (h.at j).rows := by
      intro b ht h2 h3
      refine ⟨b, i, h2, ?_, .refl, hi, h0, List.mem_of_getLast? h3⟩
      have := EndsAt.leaf (h := h) ht
      rwa [endLine, h3] at this
    cases hq : (h.at i).type <;> simp only [hq] at hrows <;> rw [hq] at hty <;> try (simp at hty; done)
    case empty => exact leaf (h.at i).toBase (by rw [hq]; simp) (by rw [lastIn]; simp only [hq]) (by rw [hrows]; rfl)
    case field =>
      cases hc : (h.at i).continuations with
      | none => exact leaf (h.at i).toBase (by rw [hq]; simp) (by rw [lastIn]; simp only [hq, hc]) (by rw [hrows, hc]; rfl)
      | some cs =>
        have hne := (S.kinds.conts i cs hi hc).2
        cases hl : cs.getLast? with
        | none => exact absurd (List.getLast?_eq_none_iff.1 hl) hne
        | some c => exact leaf c.toBase (by rw [hq]; simp) (by rw [lastIn]; simp only [hq, hc, hl]) (by rw [hrows, hc]; simp [List.getLast?_cons, hl])
    case list =>
      cases hx : (h.at i).items with
      | none => exact leaf (h.at i).toBase (by rw [hq]; simp) (by rw [lastIn]; simp only [hq, hx]; rfl) (by rw [hrows, hx]; rfl)
      | some xs =>
        obtain ⟨_, hne, hcs⟩ := S.kinds.items i xs hi hx
        obtain ⟨b, e1, e2⟩ := lastInSubs_ok (e := h.at i) hne hcs
        exact leaf b (by rw [hq]; simp) (by rw [lastIn]; simp only [hq, hx]; exact e1) (by rw [hrows, hx]; exact e2)
    case fieldset =>
      cases hx : (h.at i).entries with
      | none => exact leaf (h.at i).toBase (by rw [hq]; simp) (by rw [lastIn]; simp only [hq, hx]; rfl) (by rw [hrows, hx]; rfl)
      | some xs =>
        obtain ⟨_, hne, hcs⟩ := S.kinds.entries i xs hi hx
        obtain ⟨b, e1, e2⟩ := lastInSubs_ok (e := h.at i) hne hcs
        exact leaf b (by rw [hq]; simp) (by rw [lastIn]; simp only [hq, hx]; exact e1) (by rw [hrows, hx]; exact e2)
    case mlBegin =>
      obtain ⟨f, hf, _⟩ := S.multiline i hi hq
      exact leaf f (by rw [hq]; simp) (by rw [lastIn]; simp only [hq, hf]) (by rw [hrows, hf]; simp [List.getLast?_cons])
    case «section» =>
      cases hl : (h.at i).elements.getLast? with
      | none => exact ⟨(h.at i).toBase, i, by rw [lastIn]; simp only [hq, hl], .bare hq (List.getLast?_eq_none_iff.1 hl), .refl, hi, h0, rows_head _⟩
      | some j =>
        obtain ⟨hj, hjp⟩ := (S.rest hi).kids j (List.mem_of_getLast? hl)
        have := S.tree.parent_lt hj hjp
        obtain ⟨b, k, e1, e2, e3, e4⟩ := ih j (by omega) (by omega) hj
        exact ⟨b, k, by rw [lastIn]; simp only [hq, hl]; exact e1, .section hq hl e2, under_of_parent hjp e3, e4⟩

end Eno
