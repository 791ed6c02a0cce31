import Verif.Proofs.WrittenRun
import Verif.Proofs.MultilineValue

/-! # Reading written elements -/

namespace Eno

open Spec

variable {input : Str} {ls rest : List Str} {s s0 : AS} {P Q : AS → Prop} {H : Heap} {E : Elem}

/-- Recorded continuations without their places. -/
def contParts (cs : Option (List Cont)) : List (Bool × Option Str) := (cs.getD []).map fun c => (c.spaced, c.value)

/-- The analyzer has just been reading the element `E` behind `H`. -/
structure Within (H : Heap) (E : Elem) (s0 s : AS) : Prop where
  heap : s.heap = H ++ [E]
  comments : s.comments = none
  depth : s.depth = s0.depth
  sec : s.lastSection = s0.lastSection
  cs : s.copySections = s0.copySections
  cn : s.copyNonSections = s0.copyNonSections

/-- Where a continuation goes. -/
def putCont (c : Cont) (h : Heap) : ContRef → Heap
  | .elem i => h.modify i (Elem.addCont c)
  | .sub i => h.modify i (Elem.addContLast c)

/-- Continuations are added to what was read last. -/
theorem Run.continues {more : List (Bool × Option Str)} (h : Each Continues more ls) {ref : ContRef} {upd : Option (List Cont) → Elem}
    (hupd : ∀ cs c, putCont c (H ++ [upd cs]) ref = H ++ [upd (some (cs.getD [] ++ [c]))]) : ∀ {s : AS} {cs : Option (List Cont)},
    Within H (upd cs) s0 s → s.lastCont = some ref →
    Run input (ls ++ rest) s rest (fun s' => ∃ cs', Within H (upd cs') s0 s' ∧ s'.lastNonSection = s.lastNonSection ∧
      contParts cs' = contParts cs ++ more ∧ (cs' = none ↔ cs = none ∧ more = [])) := by
  induction h with
  | nil => intro s cs hw _; exact Run.nothing ⟨cs, hw, rfl, by simp, by simp⟩
  | @cons a as l1 l2 h1 _ ih =>
    intro s cs hw hlc
    obtain ⟨hf, hwr⟩ := h1
    rename_i f t
    simp only [List.append_assoc]
    refine Run.trans (Run.filler hf (by simp) (r := []) ⟨by simp [hw.comments], by simp [hw.comments, commentLines]⟩) ?_
    rintro _ ⟨m, cm, r', h1, rfl⟩
    refine Run.trans (P := fun s' => ∃ c : Cont, (c.spaced, c.value) = a ∧ Within H (upd (some (cs.getD [] ++ [c]))) s0 s' ∧
      s'.lastNonSection = s.lastNonSection ∧ s'.lastCont = some ref) (mid := l2 ++ rest) ?_ ?_
    · refine Run.line hwr (by simp) (.inl (writes_ne hwr (by simp))) ?_
      intro n i tok htok _hk
      obtain ⟨fin, body⟩ := tok
      cases body <;> simp [Line.ofBody] at htok
      rename_i sp op v
      obtain ⟨e1, e2⟩ := htok
      have hst : ∀ ref', some ref = some ref' → ∃ s', step { s with metas := m, comments := cm } n i ⟨fin, .continuation sp op v⟩ = .ok s' ∧
          ∃ c : Cont, (c.spaced, c.value) = a ∧ s'.heap = putCont c s.heap ref' ∧ s'.comments = none ∧ s'.depth = s.depth ∧ s'.lastSection = s.lastSection ∧
            s'.copySections = s.copySections ∧ s'.copyNonSections = s.copyNonSections ∧ s'.lastNonSection = s.lastNonSection ∧ s'.lastCont = s.lastCont := by
        intro ref' he
        injection he with he
        subst he
        cases ref with
        | elem j =>
          simp only [step, stepContinuation, hlc]
          exact ⟨_, rfl, _, by rw [e2, e1], rfl, rfl, rfl, rfl, rfl, rfl, rfl, by first | rfl | exact hlc.symm⟩
        | sub j =>
          simp only [step, stepContinuation, hlc]
          exact ⟨_, rfl, _, by rw [e2, e1], rfl, rfl, rfl, rfl, rfl, rfl, rfl, by first | rfl | exact hlc.symm⟩
      obtain ⟨s', hs', c, hc, g1, g2, g3, g4, g5, g6, g7, g8⟩ := hst ref rfl
      refine ⟨s', hs', c, hc, ⟨?_, g2, g3.trans hw.depth, g4.trans hw.sec, g5.trans hw.cs, g6.trans hw.cn⟩, g7, g8.trans hlc⟩
      rw [g1, hw.heap, hupd]
    · rintro s' ⟨c, hc, hw', hn, hl'⟩
      refine Run.mono (ih hw' hl') ?_
      rintro s'' ⟨cs', k1, k2, k3, k4⟩
      refine ⟨cs', k1, k2.trans hn, ?_, ?_⟩
      · rw [k3]; simp [contParts, hc]
      · constructor
        · intro e; have := k4.1 e; simp at this
        · rintro ⟨_, e⟩; simp at e

/-! ## Items and entries -/

/-- An item as it was read. -/
def Sub.toItem (x : Sub) : Item := ⟨commentLines (x.comments.getD []), ⟨x.value, contParts x.continuations⟩⟩

/-- An entry as it was read. -/
def Sub.toEntry (x : Sub) : Entry := ⟨commentLines (x.comments.getD []), x.key.getD [], ⟨x.value, contParts x.continuations⟩⟩

/-- The comment of an item or entry can be read. -/
def Sub.Fine (x : Sub) : Prop := Remarked (commentLines (x.comments.getD [])) x.comments

theorem Remarked.self {r : Remark} {c : Option (List Comment)} (h : Remarked r c) : Remarked (commentLines (c.getD [])) c :=
  ⟨⟨h.said.1, rfl⟩, by rw [h.said.2]; exact h.readable⟩

/-- Items are added to a list, or make an empty element one. -/
theorem Run.items {xs : List Item} (h : Each Item.Written xs ls) (hE : E.entries = none) : ∀ {s : AS} {ys : List Sub},
    (E.type = .empty ∧ ys = [] ∧ Within H E s0 s ∨ ys ≠ [] ∧ Within H { E with type := .list, items := some ys } s0 s) →
    s.lastNonSection = some H.length →
    Run input (ls ++ rest) s rest (fun s' => ∃ zs, zs.map Sub.toItem = xs ∧ (∀ z ∈ zs, z.Fine) ∧
      (xs ≠ [] → Within H { E with type := .list, items := some (ys ++ zs) } s0 s') ∧ (xs = [] → s' = s)) := by
  induction h with
  | nil => intro s ys _ _; exact Run.nothing ⟨[], rfl, by simp, by simp, by simp⟩
  | @cons a as l1 l2 h1 _ ih =>
    intro s ys hw hln
    obtain ⟨ho, hco⟩ := h1
    rename_i o c
    simp only [List.append_assoc]
    have hcm : s.comments = none := by rcases hw with ⟨_, _, hw⟩ | ⟨_, hw⟩ <;> exact hw.comments
    refine Run.trans (P := fun s' => ∃ z : Sub, z.toItem = ⟨a.remark, ⟨a.parts.first, []⟩⟩ ∧ z.continuations = none ∧ z.Fine ∧
      Within H { E with type := .list, items := some (ys ++ [z]) } s0 s' ∧ s'.lastNonSection = some H.length ∧ s'.lastCont = some (.sub H.length))
      (mid := c ++ (l2 ++ rest)) ?_ ?_
    · refine Run.opening ho (by simp) (by simp) hcm ?_
      intro m cm n i tok hr htok _hk
      obtain ⟨fin, body⟩ := tok
      cases body <;> simp [Line.ofBody] at htok
      rename_i op v
      have hz : ∀ z : Sub, z.value = v.map (·.text) → z.comments = cm → z.continuations = none → z.toItem = ⟨a.remark, ⟨a.parts.first, []⟩⟩ ∧ z.continuations = none ∧ z.Fine := by
        intro z z1 z2 z3
        refine ⟨?_, z3, ?_⟩
        · simp only [Sub.toItem, z1, z2, z3, hr.said.2, htok]; rfl
        · unfold Sub.Fine; rw [z2]; exact hr.self
      rcases hw with ⟨ht, rfl, hw⟩ | ⟨hne, hw⟩
      · have hat : Heap.at s.heap H.length = E := by rw [hw.heap]; exact Heap.at_append_last
        have Z := hz { line := n, ranges := [(.line, (i, fin)), (.itemOperator, op.span)] ++ valueRange .value v, isEntry := false
                       key := none, value := v.map (·.text), comments := cm, continuations := none } rfl rfl rfl
        simp only [step, stepListItem, hln, hat, ht]
        refine ⟨_, rfl, _, Z.1, Z.2.1, Z.2.2, ⟨?_, rfl, hw.depth, hw.sec, hw.cs, hw.cn⟩, by first | exact hln | rfl, rfl⟩
        show List.modify s.heap _ _ = _
        rw [hw.heap, modify_last]; rfl
      · have hat : Heap.at s.heap H.length = { E with type := .list, items := some ys } := by rw [hw.heap]; exact Heap.at_append_last
        have Z := hz { line := n, ranges := [(.line, (i, fin)), (.itemOperator, op.span)] ++ valueRange .value v, isEntry := false
                       key := none, value := v.map (·.text), comments := cm, continuations := none } rfl rfl rfl
        simp only [step, stepListItem, hln, hat]
        refine ⟨_, rfl, _, Z.1, Z.2.1, Z.2.2, ⟨?_, rfl, hw.depth, hw.sec, hw.cs, hw.cn⟩, by first | exact hln | rfl, rfl⟩
        show List.modify s.heap _ _ = _
        rw [hw.heap, modify_last]
    · rintro s1 ⟨z, z1, z2, z3, hw1, hl1, hc1⟩
      refine Run.trans (Run.continues (upd := fun cs => { E with type := .list, items := some (ys ++ [{ z with continuations := cs }]) }) (cs := none) (H := H)
        (s0 := s0) hco (ref := .sub H.length) ?_ ?_ hc1) ?_
      · intro cs c
        simp only [putCont, modify_last, Elem.addContLast, hE, Option.map_none, Option.map_some, modifyLast_snoc]
        rfl
      · have : { z with continuations := none } = z := by rw [← z2]
        simp only [this]; exact hw1
      · rintro s2 ⟨cs', k1, k2, k3, k4⟩
        refine Run.mono (ih (ys := ys ++ [{ z with continuations := cs' }]) (.inr ⟨by simp, k1⟩) (k2.trans hl1)) ?_
        rintro s3 ⟨zs, m1, m2, m3, m4⟩
        refine ⟨{ z with continuations := cs' } :: zs, ?_, ?_, ?_, by simp⟩
        · simp only [List.map_cons, m1, List.cons.injEq, and_true]
          simp only [Sub.toItem] at z1 ⊢
          simp only [Item.mk.injEq, Parts.mk.injEq] at z1
          rw [k3, z1.1, z1.2.1]; rfl
        · intro x hx
          rcases List.mem_cons.1 hx with rfl | hx
          · exact z3
          · exact m2 x hx
        · intro _
          by_cases he : as = []
          · subst he
            have : zs = [] := by simpa using m1
            subst this
            rw [m4 rfl]; exact k1
          · have := m3 he
            simpa using this

/-- Entries are added to a fieldset, or make an empty element one. -/
theorem Run.entries {xs : List Entry} (h : Each Entry.Written xs ls) (hE : E.items = none) : ∀ {s : AS} {ys : List Sub},
    (E.type = .empty ∧ ys = [] ∧ Within H E s0 s ∨ ys ≠ [] ∧ Within H { E with type := .fieldset, entries := some ys } s0 s) →
    s.lastNonSection = some H.length →
    Run input (ls ++ rest) s rest (fun s' => ∃ zs, zs.map Sub.toEntry = xs ∧ (∀ z ∈ zs, z.Fine ∧ z.key.isSome) ∧
      (xs ≠ [] → Within H { E with type := .fieldset, entries := some (ys ++ zs) } s0 s') ∧ (xs = [] → s' = s)) := by
  induction h with
  | nil => intro s ys _ _; exact Run.nothing ⟨[], rfl, by simp, by simp, by simp⟩
  | @cons a as l1 l2 h1 _ ih =>
    intro s ys hw hln
    obtain ⟨ho, hco⟩ := h1
    rename_i o c
    simp only [List.append_assoc]
    have hcm : s.comments = none := by rcases hw with ⟨_, _, hw⟩ | ⟨_, hw⟩ <;> exact hw.comments
    refine Run.trans (P := fun s' => ∃ z : Sub, z.toEntry = ⟨a.remark, a.key, ⟨a.parts.first, []⟩⟩ ∧ z.continuations = none ∧ (z.Fine ∧ z.key.isSome) ∧
      Within H { E with type := .fieldset, entries := some (ys ++ [z]) } s0 s' ∧ s'.lastNonSection = some H.length ∧ s'.lastCont = some (.sub H.length))
      (mid := c ++ (l2 ++ rest)) ?_ ?_
    · refine Run.opening ho (by simp) (by simp) hcm ?_
      intro m cm n i tok hr htok _hk
      obtain ⟨fin, body⟩ := tok
      cases body <;> simp [Line.ofBody] at htok
      rename_i k op v
      have hz : ∀ z : Sub, z.key = some k.text → z.value = v.map (·.text) → z.comments = cm → z.continuations = none →
          z.toEntry = ⟨a.remark, a.key, ⟨a.parts.first, []⟩⟩ ∧ z.continuations = none ∧ (z.Fine ∧ z.key.isSome) := by
        intro z z0 z1 z2 z3
        refine ⟨?_, z3, ?_, by simp [z0]⟩
        · simp only [Sub.toEntry, z0, z1, z2, z3, hr.said.2, htok, Option.getD_some]; rfl
        · unfold Sub.Fine; rw [z2]; exact hr.self
      rcases hw with ⟨ht, rfl, hw⟩ | ⟨hne, hw⟩
      · have hat : Heap.at s.heap H.length = E := by rw [hw.heap]; exact Heap.at_append_last
        have Z := hz { line := n, ranges := [(.line, (i, fin))] ++ escapeRanges k ++ [(.entryOperator, op.span), (.key, k.span)] ++ valueRange .value v, isEntry := true
                       key := some k.text, value := v.map (·.text), comments := cm, continuations := none } rfl rfl rfl rfl
        simp only [step, stepEntry, hln, hat, ht]
        refine ⟨_, rfl, _, Z.1, Z.2.1, Z.2.2, ⟨?_, rfl, hw.depth, hw.sec, hw.cs, hw.cn⟩, by first | exact hln | rfl, rfl⟩
        show List.modify s.heap _ _ = _
        rw [hw.heap, modify_last]; rfl
      · have hat : Heap.at s.heap H.length = { E with type := .fieldset, entries := some ys } := by rw [hw.heap]; exact Heap.at_append_last
        have Z := hz { line := n, ranges := [(.line, (i, fin))] ++ escapeRanges k ++ [(.entryOperator, op.span), (.key, k.span)] ++ valueRange .value v, isEntry := true
                       key := some k.text, value := v.map (·.text), comments := cm, continuations := none } rfl rfl rfl rfl
        simp only [step, stepEntry, hln, hat]
        refine ⟨_, rfl, _, Z.1, Z.2.1, Z.2.2, ⟨?_, rfl, hw.depth, hw.sec, hw.cs, hw.cn⟩, by first | exact hln | rfl, rfl⟩
        show List.modify s.heap _ _ = _
        rw [hw.heap, modify_last]
    · rintro s1 ⟨z, z1, z2, z3, hw1, hl1, hc1⟩
      refine Run.trans (Run.continues (upd := fun cs => { E with type := .fieldset, entries := some (ys ++ [{ z with continuations := cs }]) }) (cs := none) (H := H)
        (s0 := s0) hco (ref := .sub H.length) ?_ ?_ hc1) ?_
      · intro cs c
        simp only [putCont, modify_last, Elem.addContLast, hE, Option.map_none, Option.map_some, modifyLast_snoc]
        rfl
      · have : { z with continuations := none } = z := by rw [← z2]
        simp only [this]; exact hw1
      · rintro s2 ⟨cs', k1, k2, k3, k4⟩
        refine Run.mono (ih (ys := ys ++ [{ z with continuations := cs' }]) (.inr ⟨by simp, k1⟩) (k2.trans hl1)) ?_
        rintro s3 ⟨zs, m1, m2, m3, m4⟩
        refine ⟨{ z with continuations := cs' } :: zs, ?_, ?_, ?_, by simp⟩
        · simp only [List.map_cons, m1, List.cons.injEq, and_true]
          simp only [Sub.toEntry] at z1 ⊢
          simp only [Entry.mk.injEq, Parts.mk.injEq] at z1
          rw [k3, z1.1, z1.2.1, z1.2.2.1]; rfl
        · intro x hx
          rcases List.mem_cons.1 hx with rfl | hx
          · exact z3
          · exact m2 x hx
        · intro _
          by_cases he : as = []
          · subst he
            have : zs = [] := by simpa using m1
            subst this
            rw [m4 rfl]; exact k1
          · have := m3 he
            simpa using this

/-! ## Multiline fields -/

theorem findTerminator_skip {op key l r : Str} (h : '\n' ∉ l) : ∀ pos, findTerminator op key pos (l ++ r) = findTerminator op key (pos + l.length) r := by
  induction l with
  | nil => intro pos; rfl
  | cons c l ih =>
    intro pos
    have hc : c ≠ '\n' := by rintro rfl; simp at h
    have hl : '\n' ∉ l := fun hm => h (by simp [hm])
    simp only [List.cons_append, findTerminator, hc, if_false, ih hl, List.length_cons]
    congr 1; omega

/-- The terminator of a written multiline field is found. -/
theorem find_written {op key t : Str} (ho : ∃ c u, op = c :: u ∧ isHs c = false) (hk : ∃ c u, key = c :: u ∧ isHs c = false) (ht : '\n' ∉ t)
    (hT : IsTerminator op key t) : ∀ (body : List Str) (pos : Nat), (∀ l ∈ body, '\n' ∉ l ∧ ¬ IsTerminator op key l) →
    At input (pos + 1) (body ++ t :: rest) → input.drop pos = '\n' :: input.drop (pos + 1) →
    ∃ T, findTerminator op key pos (input.drop pos) = some T ∧ T.start = pos + (body.map fun l => l.length + 1).sum ∧ At input (T.fin + 1) rest := by
  intro body
  induction body with
  | nil =>
    intro pos _ ha hd
    obtain ⟨r, hr, h1, _, _, h4, _⟩ := at_cons ha
    have hl : lineOf (input.drop (pos + 1)) = t := by rw [h1, lineOf_append_end ht hr]
    have := (terminatorLine_iff ho hk t).2 hT
    rw [hd]
    simp only [findTerminator, if_true, hl]
    cases hq : terminatorLine op key t with
    | none => rw [hq] at this; simp at this
    | some x => exact ⟨_, rfl, by simp, h4⟩
  | cons l body ih =>
    intro pos hb ha hd
    obtain ⟨r, hr, h1, h2, h3, h4, _, h5, _⟩ := at_cons ha
    have hl := hb l (by simp)
    have hl' : lineOf (input.drop (pos + 1)) = l := by rw [h1, lineOf_append_end hl.1 hr]
    have hno : terminatorLine op key l = none := by
      cases hq : terminatorLine op key l with
      | none => rfl
      | some x => exact absurd ((terminatorLine_iff ho hk l).1 (by simp [hq])) hl.2
    have hd' : input.drop (pos + 1 + l.length) = '\n' :: input.drop (pos + 1 + l.length + 1) := by
      rw [h3, show pos + 1 + l.length + 1 = (pos + 1 + l.length) + 1 from rfl, ← List.drop_drop, h3, h5 (by simp)]; simp
    obtain ⟨T, g1, g2, g3⟩ := ih (pos + 1 + l.length) (fun x hx => hb x (by simp [hx])) h4 hd'
    refine ⟨T, ?_, by rw [g2]; simp; omega, g3⟩
    rw [hd]
    simp only [findTerminator, if_true, hl', hno]
    rw [h1, findTerminator_skip hl.1, ← h3]
    exact g1

theorem sum_lengths (l : Str) (body : List Str) : ((l :: body).map fun l => l.length + 1).sum = (['\n'].intercalate (l :: body)).length + 1 := by
  induction body generalizing l with
  | nil => simp [List.intercalate]
  | cons a b ih =>
    rw [intercalate_cons, List.map_cons, List.sum_cons, ih]
    simp; omega

theorem intercalate_append (l : Str) (body : List Str) (t : Str) (rest : List Str) :
    ['\n'].intercalate (l :: body ++ t :: rest) = ['\n'].intercalate (l :: body) ++ '\n' :: ['\n'].intercalate (t :: rest) := by
  induction body generalizing l with
  | nil => rw [List.cons_append, List.nil_append, intercalate_cons]; simp [List.intercalate]
  | cons a b ih =>
    rw [List.cons_append, List.cons_append, intercalate_cons, ← List.cons_append, ih, intercalate_cons]
    simp

/-- The value of a multiline field by its body. -/
theorem ownValue_body {n fin : Nat} {T : Term} {body : List Str} {t : Str} {E : Elem} (hty : E.type = .mlBegin)
    (hl : E.lines = bodyLines (mlBody input n fin T.start)) (ha : At input (fin + 1) (body ++ t :: rest))
    (hT : T.start = fin + (body.map fun l => l.length + 1).sum) :
    ownValue input E = if body = [] then none else some (['\n'].intercalate body) := by
  simp only [ownValue, hty, if_true, hl]
  cases body with
  | nil =>
    simp at hT
    simp [mlBody, hT, bodyLines]
  | cons l body =>
    rw [sum_lengths] at hT
    have hne : ¬ T.start = fin := by omega
    have hat : input.drop (fin + 1) = ['\n'].intercalate (l :: body) ++ '\n' :: ['\n'].intercalate (t :: rest) := by
      rw [← intercalate_append]; exact ha.2
    have hsl : (input.take T.start).drop (fin + 1) = ['\n'].intercalate (l :: body) := by
      rw [List.drop_take, hat, hT, show fin + ((['\n'].intercalate (l :: body)).length + 1) - (fin + 1) = (['\n'].intercalate (l :: body)).length by omega]
      simp
    obtain ⟨p, r1, q, front, e1, e2, e3, e4⟩ := place_ends (['\n'].intercalate (l :: body)) (n + 1) (fin + 1)
    have hb : mlBody input n fin T.start = p :: r1 := by simp only [mlBody, if_neg hne, hsl, e1]
    have hb' : mlBody input n fin T.start = front ++ [q] := by simp only [mlBody, if_neg hne, hsl, e3]
    have h1 : (bodyLines (mlBody input n fin T.start)) = some ((mlBody input n fin T.start).map fun p => ⟨p.1, [(.line, p.2), (.value, p.2)]⟩) := by
      unfold bodyLines; rw [if_neg (by rw [hb]; simp)]
    rw [h1]
    simp only [Option.bind_some, List.head?_map, List.getLast?_map]
    rw [show (mlBody input n fin T.start).head? = some p by rw [hb]; rfl, show (mlBody input n fin T.start).getLast? = some q by rw [hb']; simp]
    simp only [Option.map_some, Option.bind_some]
    have s1 : (Base.span ⟨q.1, [(.line, q.2), (.value, q.2)]⟩) = q.2 := rfl
    have s2 : (Base.span ⟨p.1, [(.line, p.2), (.value, p.2)]⟩) = p.2 := rfl
    rw [s1, s2, e2, e4, show fin + 1 + (['\n'].intercalate (l :: body)).length = T.start by omega, hsl]
    simp

/-! ## Elements -/

/-- What is recorded of an element is what it says. -/
def ContentIs (input : Str) : Content → Elem → Prop
  | .parts p, E => E.type = (if p.first = none ∧ p.more = [] then .empty else .field) ∧ E.value = p.first ∧ contParts E.continuations = p.more ∧
      E.items = none ∧ E.entries = none
  | .items x xs, E => E.type = .list ∧ E.entries = none ∧ ∃ ys, E.items = some ys ∧ ys.map Sub.toItem = x :: xs ∧ ∀ y ∈ ys, y.Fine
  | .entries x xs, E => E.type = .fieldset ∧ E.items = none ∧ ∃ ys, E.entries = some ys ∧ ys.map Sub.toEntry = x :: xs ∧ ∀ y ∈ ys, y.Fine ∧ y.key.isSome
  | .verbatim ls, E => E.type = .mlBegin ∧ ownValue input E = (if ls = [] then none else some (['\n'].intercalate ls)) ∧ E.items = none ∧ E.entries = none

/-- The same with key and comment. -/
structure ElemIs (input : Str) (e : Element) (E : Elem) : Prop where
  key : E.key = e.key
  remark : Remarked e.remark E.comments
  copy : E.copy = none
  template : E.template = none
  deep : E.deepCopy = false
  elements : E.elements = []
  content : ContentIs input e.content E

/-- A written element is read as one element that says the same. -/
theorem Run.element {e : Element} (h : e.Written ls) (hc : s.comments = none) :
    Run input (ls ++ rest) s rest (fun s' => ∃ E, ElemIs input e E ∧ s'.heap = s.append s.lastSection E ∧ s'.comments = none ∧ s'.depth = s.depth ∧
      s'.lastSection = s.lastSection ∧ s'.copySections = s.copySections ∧ s'.copyNonSections = s.copyNonSections) := by
  let H : Heap := s.heap.modify s.lastSection fun p => { p with elements := p.elements ++ [s.heap.length] }
  have hH : H.length = s.heap.length := by simp [H]
  have happ : ∀ E, s.append s.lastSection E = H ++ [E] := fun E => rfl
  have done : ∀ {e : Element} {E : Elem} {s' : AS}, ElemIs input e E → Within H E s s' → ∃ E, ElemIs input e E ∧ s'.heap = s.append s.lastSection E ∧
      s'.comments = none ∧ s'.depth = s.depth ∧ s'.lastSection = s.lastSection ∧ s'.copySections = s.copySections ∧ s'.copyNonSections = s.copyNonSections :=
    fun h1 h2 => ⟨_, h1, by rw [happ]; exact h2.heap, h2.comments, h2.depth, h2.sec, h2.cs, h2.cn⟩
  -- the first line of a field, list or fieldset
  have first : ∀ {r k v o rest'}, Opening r (.element k v) o → Run input (o ++ rest') s rest' (fun s' => ∃ E : Elem, E.key = k ∧ Remarked r E.comments ∧ E.copy = none ∧ E.template = none ∧
      E.deepCopy = false ∧ E.elements = [] ∧ E.type = (if v = none then .empty else .field) ∧ E.value = v ∧ E.continuations = none ∧ E.items = none ∧ E.entries = none ∧
      Within H E s s' ∧ s'.lastCont = some (.elem H.length) ∧ s'.lastNonSection = some H.length) := by
    intro r k v o rest' ho
    refine Run.opening ho (by simp) (by simp) hc ?_
    intro m cm n i tok hr htok _hk
    obtain ⟨fin, body⟩ := tok
    cases body <;> simp [Line.ofBody] at htok
    rename_i K op v'
    obtain ⟨rfl, rfl⟩ := htok
    refine ⟨_, rfl, _, ?_, ?_, ?_, ?_, ?_, ?_, ?_, ?_, ?_, ?_, ?_, ⟨rfl, rfl, rfl, rfl, rfl, rfl⟩, ?_, ?_⟩
    · rfl
    · exact hr
    · rfl
    · rfl
    · rfl
    · rfl
    · cases v' <;> simp
    · rfl
    · rfl
    · rfl
    · rfl
    · simp [stepElement, hH]
    · simp [stepElement, hH]
  cases h with
  | @parts r k p o c ho hco =>
    simp only [List.append_assoc]
    refine Run.trans (first ho) ?_
    rintro s1 ⟨E, e1, e2, e3, e3t, e3', e4, e5, e6, e7, e8, e9, hw, hl, hn⟩
    refine Run.mono (Run.continues (upd := fun cs => { E with type := if cs = none then E.type else (if E.type = .empty then .field else E.type), continuations := cs })
      (cs := none) (H := H) (s0 := s) hco (ref := .elem H.length) ?_ ?_ hl) ?_
    · intro cs c
      simp only [putCont, modify_last, Elem.addCont]
      cases cs with
      | none => simp
      | some cs => simp
    · have : { E with type := if (none : Option (List Cont)) = none then E.type else (if E.type = .empty then .field else E.type), continuations := none } = E := by
        rw [if_pos rfl, ← e7]
      exact cast (congrArg (fun x => Within H x s s1) this.symm) hw
    · rintro s2 ⟨cs', k1, k2, k3, k4⟩
      refine done (E := { E with type := if cs' = none then E.type else (if E.type = .empty then .field else E.type), continuations := cs' })
        ⟨e1, e2, e3, e3t, e3', e4, ?_, e6, by simpa [contParts] using k3, e8, e9⟩ k1
      show (if cs' = none then E.type else (if E.type = .empty then .field else E.type)) = _
      rw [e5]
      by_cases hcs : cs' = none
      · have hm := (k4.1 hcs).2
        rw [if_pos hcs]; simp [hm]
      · have hm : p.more ≠ [] := fun e => hcs (k4.2 ⟨rfl, e⟩)
        rw [if_neg hcs]
        cases p.first <;> simp [hm]
  | @items r k x xs o l1 ho hx =>
    simp only [List.append_assoc]
    refine Run.trans (first ho) ?_
    rintro s1 ⟨E, e1, e2, e3, e3t, e3', e4, e5, e6, e7, e8, e9, hw, hl, hn⟩
    refine Run.mono (Run.items (E := E) hx e9 (.inl ⟨by simpa using e5, rfl, hw⟩) hn) ?_
    rintro s2 ⟨zs, m1, m2, m3, _⟩
    exact done (E := { E with type := .list, items := some zs }) ⟨e1, e2, e3, e3t, e3', e4, rfl, e9, zs, rfl, m1, m2⟩ (by simpa using m3 (by simp))
  | @entries r k x xs o l1 ho hx =>
    simp only [List.append_assoc]
    refine Run.trans (first ho) ?_
    rintro s1 ⟨E, e1, e2, e3, e3t, e3', e4, e5, e6, e7, e8, e9, hw, hl, hn⟩
    refine Run.mono (Run.entries (E := E) hx e8 (.inl ⟨by simpa using e5, rfl, hw⟩) hn) ?_
    rintro s2 ⟨zs, m1, m2, m3, _⟩
    exact done (E := { E with type := .fieldset, entries := some zs }) ⟨e1, e2, e3, e3t, e3', e4, rfl, e8, zs, rfl, m1, m2⟩ (by simpa using m3 (by simp))
  | @verbatim r k d body o t ho hb ht hT =>
    obtain ⟨hg, hcs, hrd, hwr⟩ := ho
    rename_i g cs t0
    simp only [List.append_assoc]
    refine Run.trans (Run.gap hg (by simp) hc) ?_
    rintro _ ⟨m, rfl⟩
    refine Run.trans (Run.remarks hcs (r0 := []) ⟨by simp, rfl⟩) ?_
    rintro _ ⟨cm, h2, rfl⟩
    intro i n ha
    simp only [List.cons_append, List.nil_append] at ha
    obtain ⟨r', hr', hd, hle, hd', hat, hlt, hrest, _⟩ := at_cons ha
    obtain ⟨tok, q1, q2, q3⟩ := scan_writes hwr hr' i
    rw [← hd] at q1
    obtain ⟨fin, tb⟩ := tok
    cases tb <;> simp [Line.ofBody] at q3
    rename_i op key
    simp only at q2
    have hsh := multiline_shape q1
    have hop : op.text = rep d '-' := by
      have hs := scan_shape q1
      simp only [rep, ← q3.1]
      exact List.eq_replicate_iff.2 ⟨rfl, hs.2.1⟩
    have hd1 : input.drop fin = '\n' :: input.drop (fin + 1) := by
      rw [show fin + 1 = fin + 1 from rfl, ← List.drop_drop, q2, hd', hrest (by simp)]; simp
    obtain ⟨T, f1, f2, f3⟩ := find_written (input := input) (rest := rest) hsh.1 hsh.2.2.1 ht (by rw [hop, q3.2]; exact hT) body fin
      (by rw [hop, q3.2]; exact hb) (by rw [q2]; exact hat) hd1
    refine ⟨T.fin + 1, n + (mlBody input n fin T.start).length + 2, [.multi n i fin op key (mlBody input n fin T.start) T], _, f3, rfl, ?_, ?_⟩
    · intro es' r htr
      exact Trace.multi (hlt (by simp)) q1 f1 htr
    · refine done (E := { line := n, ranges := [(.line, (i, fin)), (.multilineFieldOperator, op.span), (.key, key.span)], comments := cm, key := key.text
                          parent := some s.lastSection, type := .mlBegin, lines := bodyLines (mlBody input n fin T.start)
                          fin := some (endBase (n + (mlBody input n fin T.start).length + 1) op key T) })
        ⟨q3.2, ⟨by simpa using h2, hrd⟩, rfl, rfl, rfl, rfl, rfl, ?_, rfl, rfl⟩ ⟨?_, rfl, rfl, rfl, rfl, rfl⟩
      · exact ownValue_body (n := n) (fin := fin) (T := T) rfl rfl (by rw [q2]; exact hat) f2
      · simp only [closeMultiline, openMultiline]
        have hlast : (H ++ [({ line := n, ranges := [(.line, (i, fin)), (.multilineFieldOperator, op.span), (.key, key.span)], comments := cm, key := key.text
                               parent := some s.lastSection, type := .mlBegin } : Elem)]).length - 1 = H.length := by simp
        show List.modify (H ++ [_]) ((H ++ [_]).length - 1) _ = _
        rw [hlast, modify_last]

end Eno
