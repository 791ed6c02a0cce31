import Verif.Proofs.WrittenLines
import Verif.Proofs.TokGeometry
import Verif.Proofs.Outcome
import Verif.Proofs.HeapLemmas

/-! # Reading written lines one after the other -/

namespace Eno

open Spec

variable {input : Str} {ls rest : List Str} {s : AS} {P Q : AS → Prop}

/-- The lines `ls` are what remains of the input from offset `i` on. -/
def At (input : Str) (i : Nat) : List Str → Prop
  | [] => input.length ≤ i
  | l :: ls => i ≤ input.length ∧ input.drop i = ['\n'].intercalate (l :: ls)

theorem at_start (ls : List Str) : At (['\n'].intercalate ls) 0 ls := by
  cases ls with
  | nil => simp [At]
  | cons l ls => simp [At]

theorem intercalate_cons (l l' : Str) (ls : List Str) : ['\n'].intercalate (l :: l' :: ls) = l ++ '\n' :: ['\n'].intercalate (l' :: ls) := by
  simp [List.intercalate, List.intersperse]

/-- The next line: what follows it is the end or a line feed, and the lines behind it come next. -/
theorem at_cons {i : Nat} {l : Str} (h : At input i (l :: rest)) :
    ∃ r, LineEnd r ∧ input.drop i = l ++ r ∧ i + l.length ≤ input.length ∧ input.drop (i + l.length) = r ∧ At input (i + l.length + 1) rest ∧
      ((l ≠ [] ∨ rest ≠ []) → i < input.length) ∧ (rest ≠ [] → r = '\n' :: ['\n'].intercalate rest) ∧ (rest = [] → r = []) := by
  obtain ⟨h1, h2⟩ := h
  have hlen := congrArg List.length h2
  simp only [List.length_drop] at hlen
  have key : ∀ r, input.drop i = l ++ r → input.drop (i + l.length) = r := by
    intro r hr
    rw [← List.drop_drop, hr, List.drop_left]
  cases rest with
  | nil =>
    simp [List.intercalate] at h2 hlen
    refine ⟨[], .inl rfl, by simpa using h2, by omega, key [] (by simpa using h2), by simp [At]; omega, ?_, by simp, by simp⟩
    intro h
    rcases h with h | h
    · have := List.length_pos_iff.2 h; omega
    · exact absurd rfl h
  | cons l' ls =>
    rw [intercalate_cons] at h2 hlen
    simp at hlen
    refine ⟨_, .inr ⟨_, rfl⟩, h2, by omega, key _ h2, ⟨by omega, ?_⟩, fun _ => by omega, by simp, by simp⟩
    rw [show i + l.length + 1 = (i + l.length) + 1 from rfl, ← List.drop_drop, key _ h2]; simp

/-- Reading the lines `ls` up to `rest` in the state `s` succeeds and leads to a state with `P`. -/
def Run (input : Str) (ls : List Str) (s : AS) (rest : List Str) (P : AS → Prop) : Prop :=
  ∀ i n, At input i ls → ∃ i' n' es s', At input i' rest ∧ runEvents s es = .ok s' ∧
    (∀ es' r, Trace input i' n' es' r → Trace input i n (es ++ es') r) ∧ P s'

theorem Run.nothing (h : P s) : Run input ls s ls P := fun i n ha => ⟨i, n, [], s, ha, rfl, fun _ _ ht => ht, h⟩

theorem Run.mono (h : Run input ls s rest P) (hpq : ∀ s', P s' → Q s') : Run input ls s rest Q := by
  intro i n ha
  obtain ⟨i', n', es, s', h1, h2, h3, h4⟩ := h i n ha
  exact ⟨i', n', es, s', h1, h2, h3, hpq _ h4⟩

theorem runEvents_then {es es' : List Event} {s' : AS} (h : runEvents s es = .ok s') : runEvents s (es ++ es') = runEvents s' es' := by
  induction es generalizing s with
  | nil => simp [runEvents] at h; subst h; rfl
  | cons e es ih =>
    simp only [runEvents, List.cons_append] at h ⊢
    split at h
    · exact ih h
    · simp at h

theorem Run.trans {mid : List Str} (h : Run input ls s mid P) (h' : ∀ s', P s' → Run input mid s' rest Q) : Run input ls s rest Q := by
  intro i n ha
  obtain ⟨i1, n1, es1, s1, a1, r1, t1, p1⟩ := h i n ha
  obtain ⟨i2, n2, es2, s2, a2, r2, t2, p2⟩ := h' s1 p1 i1 n1 a1
  exact ⟨i2, n2, es1 ++ es2, s2, a2, by rw [runEvents_then r1, r2], fun es' r ht => by rw [List.append_assoc]; exact t1 _ _ (t2 _ _ ht), p2⟩

/-- One line that is not the opening of a multiline field. -/
theorem Run.one {t : Str} {R : Tok → Nat → Prop} (hs : ∀ r, LineEnd r → ∀ pos, ∃ tok, scan pos (t ++ r) = some tok ∧ tok.fin = pos + t.length ∧ R tok pos)
    (hne : t ≠ [] ∨ rest ≠ []) (h : ∀ n i tok, R tok i → TokOk input i tok → oneLine tok ∧ ∃ s', step s n i tok = .ok s' ∧ P s') :
    Run input (t :: rest) s rest P := by
  intro i n ha
  obtain ⟨r, hr, hd, hle, _, hat, hlt, _⟩ := at_cons ha
  obtain ⟨tok, h1, h2, h3⟩ := hs r hr i
  rw [← hd] at h1
  have hok := scan_ok (by omega) h1
  obtain ⟨ho, s', hs', hp⟩ := h n i tok h3 hok
  refine ⟨i + t.length + 1, n + 1, [.line n i tok], s', hat, by simp [runEvents, applyEvent, hs'], ?_, hp⟩
  intro es' r ht
  exact Trace.line (hlt hne) h1 ho (by rw [h2]; exact ht)

theorem oneLine_of {tok : Tok} {l : Line} (h : Line.ofBody tok.body = l) (hl : ∀ n k, l ≠ .multiline n k) : oneLine tok := by
  intro op key hb
  rw [hb] at h
  exact hl _ _ h.symm

theorem Run.line {t : Str} {l : Line} (hw : Writes l t) (hl : ∀ n k, l ≠ .multiline n k) (hne : t ≠ [] ∨ rest ≠ [])
    (h : ∀ n i tok, Line.ofBody tok.body = l → TokOk input i tok → ∃ s', step s n i tok = .ok s' ∧ P s') : Run input (t :: rest) s rest P :=
  Run.one (R := fun tok _ => Line.ofBody tok.body = l) (fun _ hr pos => scan_writes hw hr pos) hne
    (fun n i tok h1 h2 => ⟨oneLine_of h1 hl, h n i tok h1 h2⟩)

/-! ## Comments and blank lines -/

/-- Recorded comment lines that say `r`. -/
def SaidBy (r : Remark) (c : Option (List Comment)) : Prop := c ≠ some [] ∧ commentLines (c.getD []) = r

theorem remarks_ne {a : Nat × Option Str} {t : Str} (h : Remarks a t) : t ≠ [] := by cases h <;> simp

theorem Run.remark {a : Nat × Option Str} {t : Str} {r : Remark} (hw : Remarks a t) (hc : SaidBy r s.comments)
    (h : ∀ c, SaidBy (r ++ [a]) c → P { s with comments := c }) : Run input (t :: rest) s rest P := by
  refine Run.one (R := fun tok pos => ∃ op c, tok = ⟨pos + t.length, .comment op c⟩ ∧ c.map (·.text) = a.2 ∧ ∀ x, c = some x → x.b = pos + a.1)
    (fun r hr pos => ?_) (.inl (remarks_ne hw)) ?_
  · obtain ⟨op, c, h1, h2, h3⟩ := scan_remarks hw hr pos
    exact ⟨_, h1, rfl, op, c, rfl, h2, h3⟩
  · rintro n i tok ⟨op, c, rfl, h2, h3⟩ _
    refine ⟨by simp [oneLine], _, rfl, ?_⟩
    simp only [stepComment]
    refine h _ ⟨by simp, ?_⟩
    simp only [Option.getD_some, commentLines, List.map_append, List.map_cons, List.map_nil]
    congr 1
    · exact hc.2
    · congr 1
      have ha : a = (a.1, a.2) := rfl
      rw [ha]
      congr 1
      cases c with
      | none =>
        cases hw with
        | none =>
          show ((none : Option (Nat × Nat)).getD (0, 0)).1 - i = 0
          simp
        | some => simp at h2
      | some x =>
        have := h3 x rfl
        show x.b - i = a.1
        omega

theorem Run.blank {t : Str} (hw : Blank t) (hr : rest ≠ []) (h : ∀ m, P { s with metas := m, comments := none }) : Run input (t :: rest) s rest P := by
  refine Run.line (Writes.blank hw) (by simp) (.inr hr) ?_
  intro n i tok htok _
  have : tok.body = .empty := by
    cases hb : tok.body <;> rw [hb] at htok <;> simp [Line.ofBody] at htok
  refine ⟨{ s with metas := flushed s.metas s.comments, comments := none }, by simp [step, this], h _⟩

/-- Blank lines and comments in front of something change nothing but the comments. -/
theorem Run.filler {f : List Str} (hf : Filler f) (hr : rest ≠ []) : ∀ {s : AS} {r : Remark}, SaidBy r s.comments →
    Run input (f ++ rest) s rest (fun s' => ∃ m c r', SaidBy r' c ∧ s' = { s with metas := m, comments := c }) := by
  induction f with
  | nil => intro s r hc; exact Run.nothing ⟨s.metas, s.comments, r, hc, rfl⟩
  | cons t f ih =>
    intro s r hc
    have hf' : Filler f := fun l hl => hf l (by simp [hl])
    rcases hf t (by simp) with hb | ⟨a, ha⟩
    · refine Run.trans (Run.blank (P := fun s' => ∃ m, s' = { s with metas := m, comments := none }) hb (by simp [hr]) (fun m => ⟨m, rfl⟩)) ?_
      rintro _ ⟨m, rfl⟩
      refine Run.mono (ih hf' (r := []) ⟨by simp, rfl⟩) ?_
      rintro _ ⟨m, c, r', h1, rfl⟩
      exact ⟨m, c, r', h1, rfl⟩
    · refine Run.trans (Run.remark (P := fun s' => ∃ c, SaidBy (r ++ [a]) c ∧ s' = { s with comments := c }) ha hc (fun c h => ⟨c, h, rfl⟩)) ?_
      rintro _ ⟨c, h1, rfl⟩
      refine Run.mono (ih hf' h1) ?_
      rintro _ ⟨m, c, r', h1, rfl⟩
      exact ⟨m, c, r', h1, rfl⟩

theorem Run.gap {g : List Str} (hg : Gap g) (hr : rest ≠ []) (hc : s.comments = none) :
    Run input (g ++ rest) s rest (fun s' => ∃ m, s' = { s with metas := m, comments := none }) := by
  rcases List.eq_nil_or_concat g with rfl | ⟨f, t, rfl⟩
  · exact Run.nothing ⟨s.metas, by rw [← hc]⟩
  · have hb := hg.2 t (by simp)
    have hf : Filler f := fun l hl => hg.1 l (by simp [hl])
    rw [List.concat_eq_append, List.append_assoc]
    refine Run.trans (Run.filler hf (by simp) (r := []) ⟨by simp [hc], by simp [hc, commentLines]⟩) ?_
    rintro _ ⟨m, c, r', h1, rfl⟩
    exact Run.blank hb hr (fun m => ⟨m, rfl⟩)

theorem Run.remarks {r : Remark} {cs : List Str} (h : Each (fun a ls => ∃ c, Remarks a c ∧ ls = [c]) r cs) : ∀ {s : AS} {r0 : Remark}, SaidBy r0 s.comments →
    Run input (cs ++ rest) s rest (fun s' => ∃ c, SaidBy (r0 ++ r) c ∧ s' = { s with comments := c }) := by
  induction h with
  | nil => intro s r0 hc; exact Run.nothing ⟨s.comments, by simpa using hc, rfl⟩
  | @cons a as ls ls' h1 _ ih =>
    intro s r0 hc
    obtain ⟨t, ht, rfl⟩ := h1
    refine Run.trans (Run.remark (P := fun s' => ∃ c, SaidBy (r0 ++ [a]) c ∧ s' = { s with comments := c }) ht hc (fun c h => ⟨c, h, rfl⟩)) ?_
    rintro _ ⟨c, h2, rfl⟩
    refine Run.mono (ih h2) ?_
    rintro _ ⟨c, h3, rfl⟩
    exact ⟨c, by simpa using h3, rfl⟩

theorem writes_ne {l : Line} {t : Str} (h : Writes l t) (hl : l ≠ .empty) : t ≠ [] := by
  cases h with
  | blank => exact absurd rfl hl
  | heading _ hn => simp [rep]; intros; omega
  | headingCopy _ hn => simp [rep]; intros; omega
  | multiline _ hn => simp [rep]; intros; omega
  | _ => simp

/-- The comment lines before an instruction as they are recorded. -/
structure Remarked (r : Remark) (c : Option (List Comment)) : Prop where
  said : SaidBy r c
  readable : ∀ n, r ≠ [(n, none)]

theorem Run.opening {r : Remark} {l : Line} {o : List Str} (ho : Opening r l o) (hl : ∀ n k, l ≠ .multiline n k) (he : l ≠ .empty)
    (hc : s.comments = none)
    (h : ∀ m c n i tok, Remarked r c → Line.ofBody tok.body = l → TokOk input i tok →
      ∃ s', step { s with metas := m, comments := c } n i tok = .ok s' ∧ P s') :
    Run input (o ++ rest) s rest P := by
  obtain ⟨hg, hcs, hrd, hw⟩ := ho
  rename_i g cs t
  simp only [List.append_assoc]
  refine Run.trans (Run.gap hg (by simp) hc) ?_
  rintro _ ⟨m, rfl⟩
  refine Run.trans (Run.remarks hcs (r0 := []) ⟨by simp, rfl⟩) ?_
  rintro _ ⟨c, h2, rfl⟩
  exact Run.line hw hl (.inl (writes_ne hw he)) (fun n i tok h1 h3 => h m c n i tok ⟨by simpa using h2, hrd⟩ h1 h3)

/-- The rest of a document. -/
theorem Run.finish {f : List Str} (hf : Filler f) : ∀ {s : AS} {r : Remark} {i n : Nat}, SaidBy r s.comments → At input i f →
    ∃ es s' n', Trace input i n es (.finished n') ∧ runEvents s es = .ok s' ∧ ∃ m c, s' = { s with metas := m, comments := c } := by
  intro s r i n hc ha
  rcases List.eq_nil_or_concat f with rfl | ⟨f, t, rfl⟩
  · exact ⟨[], s, n, .done ha, rfl, s.metas, s.comments, rfl⟩
  · rw [List.concat_eq_append] at ha hf
    have hf' : Filler f := fun l hl => hf l (by simp [hl])
    obtain ⟨i1, n1, es1, s1, a1, r1, t1, m, c, r', h2, rfl⟩ := Run.filler (input := input) hf' (rest := [t]) (by simp) hc i n ha
    have last : ∃ es s' n', Trace input i1 n1 es (.finished n') ∧ runEvents { s with metas := m, comments := c } es = .ok s' ∧
        ∃ m c, s' = { s with metas := m, comments := c } := by
      by_cases he : t = []
      · subst he
        obtain ⟨h3, h4⟩ := a1
        simp [List.intercalate] at h4
        exact ⟨[], _, n1, .done (by omega), rfl, m, c, rfl⟩
      · have : Run input ([t] ++ []) { s with metas := m, comments := c } [] (fun s' => ∃ m c, s' = { s with metas := m, comments := c }) := by
          rcases hf t (by simp) with hb | ⟨a, hra⟩
          · refine Run.line (Writes.blank hb) (by simp) (.inl he) ?_
            intro n i tok htok _
            have : tok.body = .empty := by
              cases hb : tok.body <;> rw [hb] at htok <;> simp [Line.ofBody] at htok
            exact ⟨{ s with metas := flushed m c, comments := none }, by simp [step, this], _, _, rfl⟩
          · exact Run.remark hra h2 (fun c _ => ⟨m, c, rfl⟩)
        obtain ⟨i2, n2, es2, s2, a2, r2, t2, h5⟩ := this i1 n1 a1
        exact ⟨es2, s2, n2, by have := t2 [] _ (.done a2); simpa using this, r2, h5⟩
    obtain ⟨es2, s2, n2, t2, r2, h5⟩ := last
    exact ⟨es1 ++ es2, s2, n2, t1 _ _ t2, by rw [runEvents_then r1, r2], h5⟩

end Eno
