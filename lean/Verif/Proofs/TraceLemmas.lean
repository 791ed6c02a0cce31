import Verif.Analyzer
import Verif.Proofs.TokGeometry

/-! # The analyzer loop follows the trace of the input -/

namespace Eno
open Spec

variable {input s : Str}

/-! ### Cutting text at line feeds -/

theorem splitNl_ne_nil (s : Str) : splitNl s ≠ [] := by
  induction s with
  | nil => simp [splitNl]
  | cons c t ih =>
    unfold splitNl; split
    · simp
    · split <;> simp

theorem splitNl_noNl {s : Str} (h : '\n' ∉ s) : splitNl s = [s] := by
  induction s with
  | nil => rfl
  | cons c t ih =>
    simp at h
    unfold splitNl
    rw [if_neg (fun e => h.1 e.symm), ih h.2]

theorem splitNl_append {a : Str} (h : '\n' ∉ a) (b : Str) : splitNl (a ++ '\n' :: b) = a :: splitNl b := by
  induction a with
  | nil => simp [splitNl]
  | cons c t ih =>
    simp at h
    rw [List.cons_append, splitNl, if_neg (fun e => h.1 e.symm), ih h.2]

theorem findIdx?_nl (w : Str) :
    (w.findIdx? (· == '\n') = none ∧ '\n' ∉ w) ∨
    (∃ a b, w.findIdx? (· == '\n') = some a.length ∧ w = a ++ '\n' :: b ∧ '\n' ∉ a) := by
  induction w with
  | nil => left; simp
  | cons c t ih =>
    by_cases hc : c = '\n'
    · subst hc; right; exact ⟨[], t, by simp [List.findIdx?_cons], rfl, by simp⟩
    · rcases ih with ⟨h1, h2⟩ | ⟨a, b, h1, h2, h3⟩
      · left; simp [List.findIdx?_cons, hc, h1, h2]; exact fun e => hc e.symm
      · right
        refine ⟨c :: a, b, by simp [List.findIdx?_cons, hc, h1], by simp [h2], ?_⟩
        simp [h3]; exact fun e => hc e.symm

theorem pieces_eq {stop : Nat} (hs : stop ≤ input.length) : ∀ (fuel index line : Nat), index ≤ stop → stop - index < fuel →
    pieces input stop fuel index line = some (place line index (splitNl ((input.take stop).drop index))) := by
  intro fuel
  induction fuel with
  | zero => intro index line _ h; omega
  | succ fuel ih =>
    intro index line hi hf
    unfold pieces findNl
    have hl : ((input.take stop).drop index).length = stop - index := by simp; omega
    rcases findIdx?_nl ((input.take stop).drop index) with ⟨h1, h2⟩ | ⟨a, b, h1, h2, h3⟩
    · simp only [h1, Option.map_none]
      rw [splitNl_noNl h2]
      simp only [place, hl]
      rw [show index + (stop - index) = stop by omega]
    · simp only [h1, Option.map_some]
      have hlen := congrArg List.length h2
      rw [hl] at hlen; simp at hlen
      have hd : (input.take stop).drop (index + a.length + 1) = b := by
        have : (input.take stop).drop (index + (a.length + 1)) = ((input.take stop).drop index).drop (a.length + 1) := by rw [List.drop_drop]
        rw [show index + a.length + 1 = index + (a.length + 1) by omega, this, h2]; simp
      rw [ih _ _ (by omega) (by omega), hd, h2, splitNl_append h3]
      simp [place]

theorem place_length (n i : Nat) (ls : List Str) : (place n i ls).length = ls.length := by
  induction ls generalizing n i with
  | nil => rfl
  | cons l ls ih => simp [place, ih]

/-- The error context always exists. -/
theorem pieces_total (index line : Nat) : ∃ p ps, pieces input input.length (input.length + 2) index line = some (p :: ps) := by
  by_cases h : index ≤ input.length
  · rw [pieces_eq (Nat.le_refl _) _ _ _ h (by omega)]
    cases hs : splitNl ((input.take input.length).drop index) with
    | nil => exact absurd hs (splitNl_ne_nil _)
    | cons l ls => exact ⟨_, _, rfl⟩
  · refine ⟨(line, index, input.length), [], ?_⟩
    have : (input.take input.length).drop index = [] := by simp; omega
    unfold pieces findNl; rw [this]; rfl

/-! ### Terminators -/

theorem findTerminator_ge {op key : Str} (s : Str) : ∀ (pos : Nat) (T : Term), findTerminator op key pos s = some T →
    pos ≤ T.start ∧ T.start < T.op ∧ T.op + op.length ≤ T.key ∧ T.start < T.fin := by
  induction s with
  | nil => intro pos T h; simp [findTerminator] at h
  | cons c t ih =>
    intro pos T h
    unfold findTerminator at h
    split at h
    · simp at h; subst h; simp; omega
    · have := ih _ _ h; omega

theorem findTerminator_start {op key : Str} (s : Str) : ∀ (pos : Nat) (T : Term), findTerminator op key pos s = some T →
    ∃ a b, s = a ++ '\n' :: b ∧ T.start = pos + a.length ∧ T.fin = T.start + 1 + (lineOf b).length ∧
      ∃ h g, terminatorLine op key (lineOf b) = some (h, g) ∧ T.op = T.start + 1 + h ∧ T.key = T.op + op.length + g := by
  induction s with
  | nil => intro pos T h; simp [findTerminator] at h
  | cons c t ih =>
    intro pos T h
    unfold findTerminator at h
    split at h
    · rename_i hh g hm
      simp at h; subst h
      by_cases hc : c = '\n'
      · subst hc
        simp at hm
        exact ⟨[], t, rfl, by simp, by simp, hh, g, hm, by simp, by simp⟩
      · simp [hc] at hm
    · obtain ⟨a, b, h1, h2, h3, h4⟩ := ih _ _ h
      exact ⟨c :: a, b, by simp [h1], by simp; omega, h3, h4⟩

/-! ### The trace exists -/

theorem trace_total (input : Str) : ∀ (m i n : Nat), input.length - i < m → ∃ es r, Trace input i n es r := by
  intro m
  induction m with
  | zero => intro i n h; omega
  | succ m ih =>
    intro i n hm
    by_cases hi : i < input.length
    · cases ht : scan i (input.drop i) with
      | none => exact ⟨_, _, .bad hi ht⟩
      | some t =>
        have hok := scan_ok (by omega) ht
        have hle := placed_le hok.placed
        by_cases hb : oneLine t
        · obtain ⟨es, r, h⟩ := ih (t.fin + 1) (n + 1) (by omega)
          exact ⟨_, _, .line hi ht hb h⟩
        · simp only [oneLine, Classical.not_forall, Classical.not_not] at hb
          obtain ⟨op, key, hb⟩ := hb
          obtain ⟨fin, body⟩ := t
          simp only at hb; subst hb
          cases hf : findTerminator op.text key.text fin (input.drop fin) with
          | none => exact ⟨_, _, .unterminated hi ht hf⟩
          | some T =>
            have := findTerminator_ge _ _ _ hf
            simp only at hle
            obtain ⟨es, r, h⟩ := ih (T.fin + 1) (n + (mlBody input n fin T.start).length + 2) (by omega)
            exact ⟨_, _, .multi hi ht hf h⟩
    · exact ⟨_, _, .done (by omega)⟩

/-- Every input has a trace. -/
theorem trace_exists (input : Str) : ∃ es r, Trace input 0 0 es r := trace_total input (input.length + 1) 0 0 (by omega)

/-- The trace of an input is unique. -/
theorem trace_unique {i n : Nat} {es es' : List Event} {r r' : Ending} (h : Trace input i n es r) (h' : Trace input i n es' r') :
    es = es' ∧ r = r' := by
  induction h generalizing es' r' with
  | done hi => cases h' <;> first | exact ⟨rfl, rfl⟩ | (exfalso; omega)
  | bad hi ht => 
    cases h' with
    | done => exfalso; omega
    | bad => exact ⟨rfl, rfl⟩
    | line _ ht' => rw [ht] at ht'; simp at ht'
    | multi _ ht' => rw [ht] at ht'; simp at ht'
    | unterminated _ ht' => rw [ht] at ht'; simp at ht'
  | line hi ht hb _ ih =>
    cases h' with
    | done => exfalso; omega
    | bad _ ht' => rw [ht] at ht'; simp at ht'
    | line _ ht' hb' h' => rw [ht] at ht'; simp at ht'; subst ht'; have := ih h'; simp [this]
    | multi _ ht' => rw [ht] at ht'; simp at ht'; subst ht'; exact absurd rfl (hb _ _)
    | unterminated _ ht' => rw [ht] at ht'; simp at ht'; subst ht'; exact absurd rfl (hb _ _)
  | multi hi ht hf _ ih =>
    cases h' with
    | done => exfalso; omega
    | bad _ ht' => rw [ht] at ht'; simp at ht'
    | line _ ht' hb' => rw [ht] at ht'; simp at ht'; subst ht'; exact absurd rfl (hb' _ _)
    | multi _ ht' hf' h' => 
      rw [ht] at ht'; simp at ht'; obtain ⟨rfl, rfl, rfl⟩ := ht'
      rw [hf] at hf'; simp at hf'; subst hf'
      have := ih h'; simp [this]
    | unterminated _ ht' hf' => 
      rw [ht] at ht'; simp at ht'; obtain ⟨rfl, rfl, rfl⟩ := ht'
      rw [hf] at hf'; simp at hf'
  | unterminated hi ht hf =>
    cases h' with
    | done => exfalso; omega
    | bad _ ht' => rw [ht] at ht'; simp at ht'
    | line _ ht' hb' => rw [ht] at ht'; simp at ht'; subst ht'; exact absurd rfl (hb' _ _)
    | multi _ ht' hf' h' => 
      rw [ht] at ht'; simp at ht'; obtain ⟨rfl, rfl, rfl⟩ := ht'
      rw [hf] at hf'; simp at hf'
    | unterminated _ ht' hf' => rw [ht] at ht'; simp at ht'; obtain ⟨rfl, rfl, rfl⟩ := ht'; exact ⟨rfl, rfl⟩

/-! ### Running the analyzer over events -/

/-- The lines stored on a multiline field. -/
def bodyLines (body : List (Nat × Nat × Nat)) : Option (List Base) :=
  if body = [] then none else some (body.map fun p => ⟨p.1, [(.line, p.2), (.value, p.2)]⟩)

/-- The end instruction stored on a multiline field. -/
def endBase (n : Nat) (op key : Cap) (T : Term) : Base :=
  ⟨n, [(.key, (T.key, T.key + key.text.length)), (.line, (T.start + 1, T.fin)), (.multilineFieldOperator, (T.op, T.op + op.text.length))]⟩

/-- One event. -/
def applyEvent (s : AS) : Event → Except LineFail AS
  | .line n b t => step s n b t
  | .multi n b fin op key body T =>
    .ok (closeMultiline (openMultiline s n b fin op key) (bodyLines body) (endBase (n + body.length + 1) op key T))

/-- All events; an error reports the state before the offending event and the event. -/
def runEvents : AS → List Event → Except (AS × Event × LineFail) AS
  | s, [] => .ok s
  | s, e :: es =>
    match applyEvent s e with
    | .ok s' => runEvents s' es
    | .error f => .error (s, e, f)

/-- What the loop returns once all events have been applied. -/
def finish (input : Str) (s : AS) : Ending → Except AExc (Nat × AS)
  | .finished n => .ok (n, s)
  | .invalid n b => .error (failAt input s b n .invalidLine)
  | .unterminated n b fin op key =>
    let s' := openMultiline s n b fin op key
    match tokenizeErrorContext input s' (fin + 1) (n + 1) with
    | none => .error .outOfFuel
    | some (ctx, _) =>
      .error (.parse (.unterminatedMultilineField (s'.heap.length - 1)) ctx (s'.heap.at (s'.heap.length - 1)).toBase)

theorem multiline_shape {i fin : Nat} {op key : Cap} (h : scan i s = some ⟨fin, .multiline op key⟩) :
    (∃ c u, op.text = c :: u ∧ isHs c = false) ∧ '\n' ∉ op.text ∧ (∃ c u, key.text = c :: u ∧ isHs c = false) ∧ '\n' ∉ key.text := by
  have hs := scan_shape h
  obtain ⟨h1, h2, h3, h4, _⟩ := hs
  refine ⟨?_, ?_, h4, h3⟩
  · cases hx : op.text with
    | nil => rw [hx] at h1; simp at h1
    | cons c u => exact ⟨c, u, rfl, by rw [h2 c (by simp [hx])]; decide⟩
  · intro hm; exact absurd (h2 _ hm) (by decide)

theorem runMultiline_eq {i n fin : Nat} {op key : Cap} (hi : i ≤ input.length) (h : scan i (input.drop i) = some ⟨fin, .multiline op key⟩) (s : AS) :
    runMultiline input s n fin op.text key.text =
      match findTerminator op.text key.text fin (input.drop fin) with
      | none =>
        match tokenizeErrorContext input s (fin + 1) (n + 1) with
        | none => .error .outOfFuel
        | some (ctx, _) =>
          .error (.parse (.unterminatedMultilineField (s.heap.length - 1)) ctx (s.heap.at (s.heap.length - 1)).toBase)
      | some T =>
        .ok (closeMultiline s (bodyLines (mlBody input n fin T.start)) (endBase (n + (mlBody input n fin T.start).length + 1) op key T),
          T.fin + 1, n + (mlBody input n fin T.start).length + 2) := by
  obtain ⟨ho, ho', hk, hk'⟩ := multiline_shape h
  have hok := scan_ok hi h
  have hst := search_terminator ho ho' hk hk' (input.drop fin) fin
  unfold runMultiline
  cases hf : findTerminator op.text key.text fin (input.drop fin) with
  | none =>
    rw [hf] at hst
    cases hs : Re.search (Grammar.terminator op.text key.text) fin (input.drop fin) with
    | none => rfl
    | some x => rw [hs] at hst; simp at hst
  | some T =>
    rw [hf] at hst
    cases hs : Re.search (Grammar.terminator op.text key.text) fin (input.drop fin) with
    | none => rw [hs] at hst; simp at hst
    | some x =>
      obtain ⟨start, st⟩ := x
      rw [hs] at hst; simp [termView] at hst
      obtain ⟨h1, h2, h3, h4⟩ := hst
      subst h1
      simp only [h2, h3, h4, Cap.span]
      have hge := findTerminator_ge _ _ _ hf
      obtain ⟨a, b, hab, hst, _⟩ := findTerminator_start _ _ _ hf
      have hlen := congrArg List.length hab
      simp at hlen
      by_cases he : T.start = fin
      · simp [he, mlBody, bodyLines, endBase]
      · rw [if_neg he, pieces_eq (by omega) _ _ _ (by omega) (by omega)]
        simp only [mlBody, if_neg he, bodyLines]
        have hne : place (n + 1) (fin + 1) (splitNl ((input.take T.start).drop (fin + 1))) ≠ [] := by
          intro e
          have := congrArg List.length e
          rw [place_length] at this
          exact splitNl_ne_nil _ (List.eq_nil_of_length_eq_zero this)
        rw [if_neg hne]
        simp only [endBase, Except.ok.injEq, Prod.mk.injEq, closeMultiline]
        refine ⟨?_, trivial, by omega⟩
        rw [show n + 1 + (place (n + 1) (fin + 1) (splitNl ((input.take T.start).drop (fin + 1)))).length =
          n + (place (n + 1) (fin + 1) (splitNl ((input.take T.start).drop (fin + 1)))).length + 1 by omega]

theorem loop_eq {i n : Nat} {es : List Event} {r : Ending} (h : Trace input i n es r) : ∀ (fuel : Nat) (s : AS),
    input.length - i < fuel →
    loop input fuel i n s =
      match runEvents s es with
      | .error (s', e, f) => .error (lineFail input s' e.at.2 e.at.1 f)
      | .ok s' => finish input s' r := by
  induction h with
  | done hi =>
    intro fuel s hf
    cases fuel with
    | zero => omega
    | succ fuel => unfold loop; rw [if_neg (by omega)]; rfl
  | bad hi ht =>
    intro fuel s hf
    cases fuel with
    | zero => omega
    | succ fuel => unfold loop; rw [if_pos hi, tokAt_eq, ht]; rfl
  | line hi ht hb h ih =>
    intro fuel s hf
    cases fuel with
    | zero => omega
    | succ fuel =>
      have hok := scan_ok (by omega) ht
      have hle := placed_le hok.placed
      unfold loop; rw [if_pos hi, tokAt_eq, ht]
      simp only [runEvents, applyEvent]
      split
      · rename_i f he; simp [he, Event.at]
      · rename_i s' he
        rw [he]
        simp only
        split
        · rename_i op key hbody; exact absurd hbody (hb _ _)
        · exact ih fuel s' (by omega)
  | multi hi ht hf' h ih =>
    rename_i i n fin op key T es r
    intro fuel s hf
    cases fuel with
    | zero => omega
    | succ fuel =>
      have hok := scan_ok (by omega) ht
      have hle := placed_le hok.placed
      have hge := findTerminator_ge _ _ _ hf'
      simp only at hle
      unfold loop; rw [if_pos hi, tokAt_eq, ht]
      simp only [runEvents, applyEvent, step]
      rw [runMultiline_eq (by omega) ht, hf']
      simp only
      exact ih fuel _ (by omega)
  | unterminated hi ht hf' =>
    rename_i i n fin op key
    intro fuel s hf
    cases fuel with
    | zero => omega
    | succ fuel =>
      unfold loop; rw [if_pos hi, tokAt_eq, ht]
      simp only [runEvents, step]
      rw [runMultiline_eq (by omega) ht, hf']
      simp only [finish]
      split <;> rename_i hx
      · split at hx
        · simpa using hx.symm
        · simpa using hx.symm
      · split at hx <;> simp at hx

/-- Line count of a finished analysis (analyzer.py:58, 463-466). -/
def lineCountOf (input : Str) (n : Nat) : Nat :=
  if input = [] then 1 else if input.getLast? = some '\n' then n + 1 else n

/-- The context a finished analysis leaves behind. -/
def ctxOf (input : Str) (n : Nat) (s : AS) : Ctx :=
  { input := input, heap := s.heap, metas := flushed s.metas s.comments, lineCount := lineCountOf input n
    copySections := s.copySections, copyNonSections := s.copyNonSections }

theorem analyze_eq {es : List Event} {r : Ending} (h : Trace input 0 0 es r) :
    analyze input =
      match runEvents AS.init es with
      | .error (s', e, f) => .error (lineFail input s' e.at.2 e.at.1 f)
      | .ok s' =>
        match finish input s' r with
        | .error x => .error x
        | .ok (n, s) => .ok (ctxOf input n s) := by
  unfold analyze
  by_cases hi : input = []
  · subst hi
    cases h with
    | done => simp [runEvents, finish, ctxOf, lineCountOf, AS.init, flushed]
    | bad hlt => simp at hlt
    | line hlt => simp at hlt
    | multi hlt => simp at hlt
    | unterminated hlt => simp at hlt
  · rw [if_neg (by simpa using hi), loop_eq h _ _ (by omega)]
    cases hr : runEvents AS.init es with
    | error x => rfl
    | ok s' =>
      simp only
      cases hf : finish input s' r with
      | error x => rfl
      | ok x => simp [ctxOf, lineCountOf, hi]

/-- A successful analysis applied every event of a complete trace. -/
theorem analyze_ok {ctx : Ctx} (h : analyze input = .ok ctx) :
    ∃ es n s, Trace input 0 0 es (.finished n) ∧ runEvents AS.init es = .ok s ∧ ctx = ctxOf input n s := by
  obtain ⟨es, r, ht⟩ := trace_exists input
  rw [analyze_eq ht] at h
  split at h
  · simp at h
  · rename_i s' hr
    cases r with
    | finished n => simp [finish] at h; exact ⟨es, n, s', ht, hr, h.symm⟩
    | invalid => simp [finish] at h
    | unterminated =>
      simp only [finish] at h
      split at h
      · simp at h
      · rename_i hy; split at hy <;> simp at hy

end Eno
