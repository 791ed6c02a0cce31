import Verif.Spec.Snippet
import Verif.Proofs.ErrorContexts

/-! # What snippets show -/

namespace Eno

open Spec

variable {input : Str} {ctx : Ctx} {B : List Base} {h h0 : Heap} {index : List (Option Row)} {o : Options} {s : Snippet}

/-! ## Rows -/

def markOf : Tag → Mark
  | .emphasize => .emphasis
  | .indicate => .indication
  | .question => .question
  | _ => .plain

/-- The text shown for a line. -/
def content (input : Str) (index : List (Option Row)) (n : Nat) : Str :=
  match index.getD n none with
  | none => []
  | some r => sourceText input r.toBase

def rowOf (text : Nat → Str) (x : Nat × Tag) : SnipRow := if x.2 = .omission then .omitted else .line (markOf x.2) (x.1 + 1) (text x.1)

def rowsOf (text : Nat → Str) (s : Snippet) : List SnipRow := (shown s).map (rowOf text)

theorem allOk_mapped {α β : Type} {f : α → Except PyExc β} {g : α → β} (l : List α) (h : ∀ a ∈ l, f a = .ok (g a)) : allOk (l.map f) = .ok (l.map g) := by
  induction l with
  | nil => rfl
  | cons a t ih => simp [allOk, h a (by simp), ih (fun x hx => h x (by simp [hx]))]

theorem text_line (n : Nat) (t : Tag) : TextReporter.line o input index n t = .ok ((rowOf (content input index) (n, t)).plain (numberWidth o)) := by
  have hw : TextReporter.gutterWidth o = numberWidth o + 3 := by
    simp only [TextReporter.gutterWidth, numberWidth, rjust, List.length_append, List.length_replicate]
    omega
  have e1 : numberWidth o + 3 - 5 = numberWidth o - 2 := by omega
  have e2 : numberWidth o + 3 - 3 = numberWidth o := by omega
  unfold TextReporter.line
  rw [hw, e1, e2]
  cases t <;> simp [rowOf, SnipRow.plain, indicator, markOf, Mark.sign, content] <;> rfl

theorem text_print (s : Snippet) : TextReporter.print o input index s = .ok (plainSnippet o (rowsOf (content input index) s)) := by
  unfold TextReporter.print printLines
  have := allOk_mapped (f := fun x : Nat × Tag => TextReporter.line o input index x.1 x.2)
    (g := fun x => (rowOf (content input index) x).plain (numberWidth o)) (shown s) (fun a _ => text_line a.1 a.2)
  rw [this]
  simp only [Except.map, plainSnippet, TextReporter.header, rowsOf, List.map_map, Function.comp_def]
  congr 1
  cases o.source <;> simp

theorem shown_mem {n : Nat} {t : Tag} : (n, t) ∈ shown s ↔ s.getD n none = some t := by
  unfold shown
  rw [List.mem_filterMap]
  constructor
  · rintro ⟨⟨m, u⟩, hm, e⟩
    simp only [Option.map_eq_some_iff] at e
    obtain ⟨v, rfl, e⟩ := e
    injection e with e1 e2
    subst e1; subst e2
    obtain ⟨k, hk, e⟩ := List.getElem_of_mem hm
    simp only [List.getElem_zip, List.getElem_range, Prod.mk.injEq] at e
    obtain ⟨rfl, e⟩ := e
    have hk' : k < s.length := by simp at hk; exact hk
    simp [List.getD, List.getElem?_eq_getElem hk', e]
  · intro e
    have hn : n < s.length := by
      apply Nat.lt_of_not_le; intro hge
      rw [List.getD, List.getElem?_eq_none hge] at e; cases e
    refine ⟨(n, some t), ?_, by simp⟩
    rw [List.mem_iff_getElem]
    refine ⟨n, by simp [hn], ?_⟩
    rw [List.getD, List.getElem?_eq_getElem hn] at e
    simp only [Option.getD_some] at e
    simp [e]

theorem shown_sorted : (shown s).Pairwise fun a b => a.1 < b.1 := by
  unfold shown
  rw [List.pairwise_filterMap]
  have : ((List.range s.length).zip s).Pairwise fun a b => a.1 < b.1 := by
    rw [List.pairwise_iff_getElem]
    intro i j hi hj hij
    simpa using hij
  refine this.imp ?_
  intro a b hab c hc d hd
  simp only [Option.map_eq_some_iff] at hc hd
  obtain ⟨_, _, rfl⟩ := hc
  obtain ⟨_, _, rfl⟩ := hd
  exact hab

theorem rows_inOrder (text : Nat → Str) : InOrder (rowsOf text s) := by
  unfold InOrder rowsOf
  rw [List.pairwise_filterMap, List.pairwise_map]
  refine shown_sorted.imp ?_
  intro a b hab c hc d hd
  unfold rowOf at hc hd
  split at hc
  · simp [SnipRow.number?] at hc
  · split at hd
    · simp [SnipRow.number?] at hd
    · simp [SnipRow.number?] at hc hd; omega

theorem rows_mem {text : Nat → Str} {m : Mark} {k : Nat} {t : Str} : SnipRow.line m k t ∈ rowsOf text s ↔
    ∃ n tag, k = n + 1 ∧ t = text n ∧ s.getD n none = some tag ∧ tag ≠ .omission ∧ markOf tag = m := by
  unfold rowsOf
  rw [List.mem_map]
  constructor
  · rintro ⟨⟨n, tag⟩, hm, e⟩
    unfold rowOf at e
    split at e
    · cases e
    · rename_i ho
      injection e with e1 e2 e3
      exact ⟨n, tag, e2.symm, e3.symm, shown_mem.1 hm, ho, e1⟩
  · rintro ⟨n, tag, rfl, rfl, hm, ho, rfl⟩
    exact ⟨(n, tag), shown_mem.2 hm, by simp [rowOf, ho]⟩

/-! ## What a line shows -/

/-- No instruction goes over several lines. -/
def Tidy (ctx : Ctx) : Prop := ∀ b ∈ ctx.instructions, NoNl ctx.input b.span.1 b.span.2

theorem Charted.tidy (C : Charted ctx B) (t : Tidy ctx) : ∀ b ∈ B, NoNl ctx.input b.span.1 b.span.2 := by
  intro b hb
  rcases C.hidden b hb with h | h
  · exact t b h
  · exact h.1

theorem Charted.tidy_neat (C : Charted ctx B) (h : Neat ctx.input) : Tidy ctx := fun b hb => C.neat h b (C.all b hb)

theorem content_eq (I : Indexed ctx index) {b : Base} (hb : b ∈ ctx.instructions) : content ctx.input index b.line = sourceText ctx.input b := by
  obtain ⟨r, hr, e⟩ := I.complete b hb
  unfold content
  rw [hr]; simp only [e]

/-- A line shows its text, unless it is blank or a comment. -/
theorem content_ok (C : Charted ctx B) (I : Indexed ctx index) (t : Tidy ctx) (n : Nat) : content ctx.input index n = lineText ctx.input n ∨
    (content ctx.input index n = [] ∧ (WhiteLine (lineText ctx.input n) ∨
      (IsCommentLine (lineText ctx.input n) ∧ ∃ b ∈ B, b.line = n ∧ b ∉ ctx.instructions))) := by
  have tid := C.tidy t
  unfold content
  cases hi : index.getD n none with
  | some r =>
    obtain ⟨h1, h2⟩ := I.sound n r hi
    left
    simp only
    rw [C.text tid _ (C.all _ h2), h1]; rfl
  | none =>
    right
    refine ⟨rfl, ?_⟩
    by_cases hb : ∃ b ∈ B, b.line = n
    · obtain ⟨b, hb, rfl⟩ := hb
      have hni : b ∉ ctx.instructions := by
        intro hm
        obtain ⟨r, hr, _⟩ := I.complete b hm
        rw [hr] at hi; cases hi
      rcases C.hidden b hb with hm | hm
      · exact absurd hm hni
      · right
        refine ⟨?_, b, hb, rfl, hni⟩
        have := C.text tid b hb
        unfold lineText
        rw [← this]; exact hm.2
    · left
      exact C.rest tid n fun b hb' e => hb ⟨b, hb', e⟩

/-! ## The window keeps emphasis -/

theorem window_mark {n : Nat} {t : Tag} (h : s.getD n none = some t) : (window s).getD n none = some t := by
  have hn : n < s.length := by
    apply Nat.lt_of_not_le; intro hge
    rw [List.getD, List.getElem?_eq_none hge] at h; cases h
  have ha : s.all (·.isNone) = false := by
    rw [List.all_eq_false]
    refine ⟨s[n], List.getElem_mem hn, ?_⟩
    rw [List.getD, List.getElem?_eq_getElem hn] at h
    simp only [Option.getD_some] at h
    simp [h]
  have hl : loopAt s n = some t := by unfold loopAt; rw [h]; rfl
  rw [window_at ha hn, hl, if_neg (by simp)]

theorem window_emphasis {n : Nat} (h : (window s).getD n none = some .emphasize) : s.getD n none = some .emphasize := by
  by_cases ha : s.all (·.isNone) = false
  · have hn : n < s.length := by
      rw [← window_length]
      apply Nat.lt_of_not_le; intro hge
      rw [List.getD, List.getElem?_eq_none hge] at h; cases h
    rw [window_at ha hn] at h
    split at h
    · cases h
    · unfold loopAt at h
      split at h
      · exact h
      · split at h
        · cases h
        · split at h <;> cases h
  · exfalso
    unfold window at h
    rw [if_pos (by simpa using ha)] at h
    simp only [List.getD, List.getElem?_map] at h
    cases hx : s[n]? with
    | none => rw [hx] at h; cases h
    | some x => rw [hx] at h; cases h

/-! ## Making snippets -/

theorem snippet_text (ho : o.reporter = .text) (g : Grown ctx.heap) (C : Charted ctx B) {report : Snippet → Except PyExc Snippet}
    (hr : report (List.replicate ctx.lineCount none) = .ok s) :
    ∃ index, Indexed ctx index ∧ makeSnippet o ctx report = .ok (plainSnippet o (rowsOf (content ctx.input index) (window s))) := by
  obtain ⟨index, e, I⟩ := buildIndex_ok g C
  refine ⟨index, I, ?_⟩
  unfold makeSnippet
  simp only [e, hr, ho, text_print]

end Eno
