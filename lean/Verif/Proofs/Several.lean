import Verif.Spec.Several
import Verif.Proofs.ElementErrors
import Verif.Proofs.ErrorKinds

/-! # Errors about several elements, and about missing ones -/

namespace Eno

open Spec

variable {input : Str} {ctx : Ctx} {o : Options} {s s' : Snippet} {ps : List (Nat × Nat)} {rs : List Ref}

/-- What the marks are after reporting elements one after the other. -/
def marksAfter (s : Snippet) (ps : List (Nat × Nat)) (k : Nat) : Option Tag :=
  ps.foldl (fun t p => if k = p.1 then some .emphasize else if p.1 < k ∧ k ≤ p.2 then some .indicate else t) (s.getD k none)

theorem begins_snoc {p : Nat × Nat} {k : Nat} : BeginsAt (ps ++ [p]) k ↔ k = p.1 ∨ (BeginsAt ps k ∧ ¬ (p.1 < k ∧ k ≤ p.2)) := by
  constructor
  · rintro ⟨pre, q, post, e, h1, h2⟩
    rcases List.eq_nil_or_concat post with rfl | ⟨post', q', rfl⟩
    · obtain ⟨_, e⟩ := List.append_inj' e rfl
      injection e with e; subst e; exact .inl h1
    · rw [List.concat_eq_append, ← List.cons_append, ← List.append_assoc] at e
      obtain ⟨e1, e2⟩ := List.append_inj' e rfl
      injection e2 with e2; subst e2
      exact .inr ⟨⟨pre, q, post', e1, h1, fun x hx => h2 x (by simp [hx])⟩, h2 p (by simp)⟩
  · rintro (h | ⟨⟨pre, q, post, rfl, h1, h2⟩, h3⟩)
    · exact ⟨ps, p, [], rfl, h, by simp⟩
    · refine ⟨pre, q, post ++ [p], by simp, h1, fun x hx => ?_⟩
      rcases List.mem_append.1 hx with hx | hx
      · exact h2 x hx
      · simp at hx; subst hx; exact h3

theorem goes_snoc {p : Nat × Nat} {k : Nat} : GoesOver (ps ++ [p]) k ↔ (p.1 < k ∧ k ≤ p.2) ∨ (GoesOver ps k ∧ p.1 ≠ k) := by
  constructor
  · rintro ⟨pre, q, post, e, h1, h2⟩
    rcases List.eq_nil_or_concat post with rfl | ⟨post', q', rfl⟩
    · obtain ⟨_, e⟩ := List.append_inj' e rfl
      injection e with e; subst e; exact .inl h1
    · rw [List.concat_eq_append, ← List.cons_append, ← List.append_assoc] at e
      obtain ⟨e1, e2⟩ := List.append_inj' e rfl
      injection e2 with e2; subst e2
      exact .inr ⟨⟨pre, q, post', e1, h1, fun x hx => h2 x (by simp [hx])⟩, h2 p (by simp)⟩
  · rintro (h | ⟨⟨pre, q, post, rfl, h1, h2⟩, h3⟩)
    · exact ⟨ps, p, [], rfl, h, by simp⟩
    · refine ⟨pre, q, post ++ [p], by simp, h1, fun x hx => ?_⟩
      rcases List.mem_append.1 hx with hx | hx
      · exact h2 x hx
      · simp at hx; subst hx; exact h3

theorem not_begins_nil {k : Nat} : ¬ BeginsAt [] k := by
  rintro ⟨pre, p, post, e, _⟩; simp at e

theorem not_goes_nil {k : Nat} : ¬ GoesOver [] k := by
  rintro ⟨pre, p, post, e, _⟩; simp at e

theorem snoc_rec {α : Type _} {P : List α → Prop} (h0 : P []) (h1 : ∀ l a, P l → P (l ++ [a])) (l : List α) : P l := by
  have : ∀ n (l : List α), l.length = n → P l := by
    intro n
    induction n with
    | zero => intro l hl; rw [List.length_eq_zero_iff.1 hl]; exact h0
    | succ n ih =>
      intro l hl
      rcases List.eq_nil_or_concat l with rfl | ⟨l', a, rfl⟩
      · exact h0
      · rw [List.concat_eq_append] at hl ⊢
        exact h1 _ _ (ih l' (by simpa using hl))
  exact this _ l rfl

theorem marksAfter_spec (hs : s.getD k none = none) : ∀ ps, (marksAfter s ps k = some .emphasize ↔ BeginsAt ps k) ∧ (marksAfter s ps k = some .indicate ↔ GoesOver ps k) ∧
    (marksAfter s ps k = none ∨ marksAfter s ps k = some .emphasize ∨ marksAfter s ps k = some .indicate) := by
  intro ps
  induction ps using snoc_rec with
  | h0 =>
    have e : marksAfter s [] k = none := hs
    rw [e]; simp [not_begins_nil, not_goes_nil]
  | h1 ps p ih =>
    have e : marksAfter s (ps ++ [p]) k = if k = p.1 then some .emphasize else if p.1 < k ∧ k ≤ p.2 then some .indicate else marksAfter s ps k := by
      simp [marksAfter, List.foldl_append]
    rw [e, begins_snoc, goes_snoc]
    by_cases h1 : k = p.1
    · rw [if_pos h1]
      refine ⟨by simp [h1], ?_, by simp⟩
      simp only [reduceCtorEq, Option.some.injEq, false_iff]
      rintro (q | q)
      · omega
      · exact q.2 h1.symm
    · rw [if_neg h1]
      by_cases h2 : p.1 < k ∧ k ≤ p.2
      · rw [if_pos h2]
        exact ⟨by simp [h1, h2], by simp [h2], by simp⟩
      · rw [if_neg h2]
        refine ⟨by rw [ih.1]; simp only [h1, h2, false_or, not_false_eq_true, and_true], ?_, ih.2.2⟩
        rw [ih.2.1]
        have : p.1 ≠ k := fun e => h1 e.symm
        simp only [h2, this, false_or, ne_eq, not_false_eq_true, and_true]

/-- Reporting several elements. -/
theorem reportElements_marks (C : Complete ctx) (S : Shown ctx.heap ctx.lineCount) : ∀ (rs : List Ref) (s : Snippet), s.length = ctx.lineCount → (∀ r ∈ rs, ∃ b, FirstLine ctx.heap r b) →
    ((∃ r ∈ rs, RefStuck ctx.heap r) ∧ reportElements ctx.heap rs s = .error .typeError) ∨
    ((∀ r ∈ rs, ¬ RefStuck ctx.heap r) ∧ ∃ ps s', Spans ctx.heap rs ps ∧ reportElements ctx.heap rs s = .ok s' ∧ s'.length = ctx.lineCount ∧ ∀ k, s'.getD k none = marksAfter s ps k) := by
  intro rs
  induction rs with
  | nil => intro s hs _; exact .inr ⟨by simp, [], s, .nil, rfl, hs, fun _ => rfl⟩
  | cons r rs ih =>
    intro s hs hf
    obtain ⟨b, hb⟩ := hf r (by simp)
    rcases reportElement_over C S hb hs with ⟨q, e⟩ | ⟨q, L, s1, h1, e, M⟩
    · refine .inl ⟨⟨r, by simp, q⟩, ?_⟩
      unfold reportElements
      rw [List.foldlM_cons, e]; rfl
    · have e' : reportElements ctx.heap (r :: rs) s = reportElements ctx.heap rs s1 := by
        unfold reportElements
        rw [List.foldlM_cons, e]; rfl
      rw [e']
      rcases ih s1 M.len (fun x hx => hf x (by simp [hx])) with ⟨⟨x, hx, q'⟩, k⟩ | ⟨q', ps, s2, k1, k2, k3, k4⟩
      · exact .inl ⟨⟨x, by simp [hx], q'⟩, k⟩
      · refine .inr ⟨?_, (b.line, L) :: ps, s2, .cons hb h1 k1, k2, k3, fun k => ?_⟩
        · intro x hx
          rcases List.mem_cons.1 hx with rfl | hx
          · exact q
          · exact q' x hx
        · rw [k4 k]
          unfold marksAfter
          rw [List.foldl_cons, M.marks k]

theorem spans_begin (h : Spans ctx.heap rs ps) (hne : rs ≠ []) : ∃ k, BeginsAt ps k := by
  have hp : ps ≠ [] := by
    cases h with
    | nil => exact absurd rfl hne
    | cons => simp
  rcases List.eq_nil_or_concat ps with rfl | ⟨l, p, rfl⟩
  · exact absurd rfl hp
  · rw [List.concat_eq_append]
    exact ⟨p.1, begins_snoc.2 (.inl rfl)⟩

/-- The marks of a missing element. -/
theorem missing_shown {report : Snippet → Except PyExc Snippet} {n m : Nat} (C : Complete ctx) (hn : n < ctx.lineCount) (hm : n < m)
    (P : Painted .question (n + 1) m ((List.replicate ctx.lineCount none).set n (some .indicate)) s) (hr : report (List.replicate ctx.lineCount none) = .ok s) (o : Options)
    (ho : o.reporter ≠ .terminal) : ∃ out, makeSnippet o ctx report = .ok out ∧ (o.reporter = .text → MissingShown o ctx.lineCount out n m) := by
  have hlen : s.length = ctx.lineCount := by rw [P.len]; simp
  have hat : s.getD n none = some .indicate := by
    rw [P.off n (by omega), getD_set (by simpa using hn), if_pos rfl]
  have hin : ∀ k, n < k → k < m → s.getD k none = some .question ∨ s.getD k none = some .indicate := by
    intro k h1 h2
    obtain ⟨t, e, ht⟩ := P.on k (by omega) h2
    rw [e]
    rcases ht with rfl | rfl
    · exact .inl rfl
    · exact .inr rfl
  have hout : ∀ k, k < n ∨ m ≤ k → s.getD k none = none := by
    intro k hk
    rw [P.off k (by omega), getD_set (by simpa using hn), if_neg (by omega), fresh_getD]
  have hM : Marked s := by
    intro t ht
    obtain ⟨k, hk, e⟩ := List.getElem_of_mem ht
    have q : s.getD k none = some t := by rw [List.getD, List.getElem?_eq_getElem hk, e]; rfl
    by_cases h1 : k = n
    · subst h1; rw [hat] at q; injection q with q; exact .inr (.inl q.symm)
    · by_cases h2 : n < k ∧ k < m
      · rcases hin k h2.1 h2.2 with e | e <;> rw [e] at q <;> injection q with q
        · exact .inr (.inr q.symm)
        · exact .inr (.inl q.symm)
      · rw [hout k (by omega)] at q; cases q
  obtain ⟨rows, r1, r2, r3, r4, _⟩ := snippet_marks C hr hlen hM ⟨n, .indication, hat⟩ o
  obtain ⟨out, he⟩ := makeSnippet_ok C hr ho
  refine ⟨out, he, fun ht => ⟨rows, ?_, r3, ?_, ?_, ?_⟩⟩
  · have := r1 ht
    rw [he] at this; injection this
  · intro k t hk
    obtain ⟨j, _, h1⟩ := (r4 .emphasis k (by simp)).1 ⟨t, hk⟩
    have h1 : s.getD j none = some .emphasize := h1
    by_cases h2 : j = n
    · subst h2; rw [hat] at h1; cases h1
    · by_cases h3 : n < j ∧ j < m
      · rcases hin j h3.1 h3.2 with e | e <;> rw [e] at h1 <;> cases h1
      · rw [hout j (by omega)] at h1; cases h1
  · exact (r4 .indication (n + 1) (by simp)).2 ⟨n, rfl, hat⟩
  · intro k
    rw [r4 .indication (k + 1) (by simp), r4 .question (k + 1) (by simp)]
    constructor
    · rintro (⟨j, e, h1⟩ | ⟨j, e, h1⟩)
      all_goals
        have : k = j := by omega
        subst this
        apply Classical.byContradiction
        intro q
        have := hout k (by omega)
        simp only [MarkedAs, this] at h1
        cases h1
    · rintro ⟨h1, h2⟩
      by_cases h3 : k = n
      · subst h3; exact .inl ⟨k, rfl, hat⟩
      · rcases hin k (by omega) h2 with e | e
        · exact .inr ⟨k, rfl, e⟩
        · exact .inl ⟨k, rfl, e⟩

/-- Without marks everything is questioned. -/
theorem all_questioned {report : Snippet → Except PyExc Snippet} (C : Complete ctx) (hr : report (List.replicate ctx.lineCount none) = .ok (List.replicate ctx.lineCount none)) (o : Options)
    (ho : o.reporter ≠ .terminal) : ∃ out, makeSnippet o ctx report = .ok out ∧ (o.reporter = .text → AllQuestioned o ctx.lineCount out) := by
  obtain ⟨B, c, f⟩ := C.full
  obtain ⟨index, hi, I⟩ := buildIndex_ok C.grown c
  obtain ⟨out, he⟩ := makeSnippet_ok C hr ho
  refine ⟨out, he, fun ht => ?_⟩
  have hM : Marked (List.replicate ctx.lineCount (none : Option Tag)) := by
    intro t h; have := List.eq_of_mem_replicate h; cases this
  have hw : window (List.replicate ctx.lineCount (none : Option Tag)) = List.replicate ctx.lineCount (some .question) := by
    unfold window
    rw [if_pos (by simp)]
    simp
  have hg : ∀ k, (window (List.replicate ctx.lineCount (none : Option Tag))).getD k none = if k < ctx.lineCount then some .question else none := by
    intro k
    rw [hw, List.getD, List.getElem?_replicate]
    split <;> rfl
  refine ⟨rowsOf (content ctx.input index) (window (List.replicate ctx.lineCount none)), ?_, ?_, ?_, ?_⟩
  · unfold makeSnippet at he
    simp only [hi, hr, ht, text_print] at he
    injection he with he
    exact he.symm
  · have := window_accounts (text := content ctx.input index) hM
    simpa using this
  · intro m k t h
    obtain ⟨n, tag, _, _, h1, _, h2⟩ := rows_mem.1 h
    rw [hg] at h1
    split at h1
    · injection h1 with h1; subst h1; exact h2.symm
    · cases h1
  · intro k
    constructor
    · rintro ⟨t, h⟩
      obtain ⟨n, tag, e, _, h1, _⟩ := rows_mem.1 h
      rw [hg] at h1
      have : k = n := by omega
      subst this
      split at h1
      · assumption
      · cases h1
    · intro h
      exact ⟨_, rows_mem.2 ⟨k, .question, rfl, rfl, by rw [hg, if_pos h], by simp, rfl⟩⟩

end Eno
