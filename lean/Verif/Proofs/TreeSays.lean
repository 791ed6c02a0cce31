import Verif.Proofs.WrittenLines
import Verif.Proofs.SaysLemmas
import Verif.Spec.Tree

/-! # What written documents say -/

namespace Eno

open Spec

/-- Lines, each after a line feed. -/
def feeds (ls : List Str) : Str := ls.flatMap ('\n' :: ·)

/-- Lines with line feeds between them. -/
def lined : List Str → Str
  | [] => []
  | l :: ls => l ++ feeds ls

theorem lined_eq : ∀ ls : List Str, ['\n'].intercalate ls = lined ls
  | [] => rfl
  | [l] => by simp [lined, feeds, List.intercalate]
  | l :: m :: ls => by
    have := lined_eq (m :: ls)
    simp only [lined] at this ⊢
    rw [show (['\n'] : Str).intercalate (l :: m :: ls) = l ++ (['\n'] ++ ['\n'].intercalate (m :: ls)) by simp [List.intercalate, List.intersperse], this]
    simp [feeds]

theorem feeds_drop (ls : List Str) : (feeds ls).drop 1 = lined ls := by cases ls <;> simp [feeds, lined]

theorem feeds_end (ls : List Str) : LineEnd (feeds ls) := by
  cases ls with
  | nil => exact .inl rfl
  | cons l ls => exact .inr ⟨l ++ feeds ls, by simp [feeds]⟩

theorem feeds_append (a b : List Str) : feeds (a ++ b) = feeds a ++ feeds b := by simp [feeds]

variable {l : Line} {t : Str} {ls ls' : List Str} {es : List Said} {r : Stop}

theorem readLine_writes {u : Str} (h : Writes l t) (hr : LineEnd u) : readLine (t ++ u) = some (l, u) := by
  obtain ⟨tok, h1, h2, h3⟩ := scan_writes h hr 0
  rw [← (scan_view 0 (t ++ u)).1, h1]
  simp [view, h2, h3]

theorem readLine_remarks {u : Str} {a : Nat × Option Str} (h : Remarks a t) (hr : LineEnd u) : readLine (t ++ u) = some (.comment a.2, u) ∧
    saidOf (t ++ u) (.comment a.2) = .comment (a.2.map fun x => (a.1, x)) := by
  obtain ⟨op, c, h1, h2, h3⟩ := scan_remarks h hr 0
  constructor
  · rw [← (scan_view 0 (t ++ u)).1, h1]
    simp [view, Line.ofBody, h2]
  · have := scan_column h1 rfl
    rw [h2] at this
    unfold saidOf
    simp only
    rw [← this]
    congr 1
    cases c with
    | none => rw [← h2]; rfl
    | some x =>
      have h4 := h3 x rfl
      rw [← h2]
      simp
      omega

theorem saidOf_writes {s : Str} (h : Writes l t) : saidOf s l = .line l := by cases h <;> rfl

theorem says_blank {x : Str} (hx : Blank x) (S : Says (lined ls) es r) (hn : lined (x :: ls) ≠ []) : Says (lined (x :: ls)) (.line .empty :: es) r := by
  have := readLine_writes (.blank hx) (feeds_end ls)
  exact .line (l := .empty) (rest := feeds ls) hn this (by simp) (by rw [feeds_drop]; exact S)

theorem says_comment {x : Str} {a : Nat × Option Str} (hx : Remarks a x) (S : Says (lined ls) es r) :
    Says (lined (x :: ls)) (.comment (a.2.map fun x => (a.1, x)) :: es) r := by
  obtain ⟨h1, h2⟩ := readLine_remarks hx (feeds_end ls)
  rw [← h2]
  refine .line (rest := feeds ls) ?_ h1 (by simp) (by rw [feeds_drop]; exact S)
  cases hx <;> simp [lined]

theorem says_written {x : Str} (hx : Writes l x) (hl : l ≠ .empty) (hm : ∀ d k, l ≠ .multiline d k) (S : Says (lined ls) es r) :
    Says (lined (x :: ls)) (.line l :: es) r := by
  have := readLine_writes hx (feeds_end ls)
  rw [← saidOf_writes (s := x ++ feeds ls) hx]
  refine .line (rest := feeds ls) ?_ this hm (by rw [feeds_drop]; exact S)
  intro h
  rw [lined] at h
  rw [h] at this
  simp [readLine] at this
  exact hl this.1.symm

theorem says_ne {s : Str} {e : Said} (S : Says s (e :: es) r) : s ≠ [] := by cases S <;> assumption

/-! ## Blank lines and comments -/

/-- Blank lines and comments. -/
def Fill (es : List Said) : Prop := ∀ e ∈ es, (∃ x, e = .comment x) ∨ e = .line .empty

theorem told_fill : ∀ {fs X : List Said}, Fill fs → leftAlone X = true → told (fs ++ X) = told X ∧ leftAlone (fs ++ X) = true
  | [], X, _, h => ⟨rfl, h⟩
  | e :: fs, X, hf, h => by
    obtain ⟨h1, h2⟩ := told_fill (fs := fs) (fun e he => hf e (by simp [he])) h
    rcases hf e (by simp) with ⟨x, rfl⟩ | rfl
    · simp only [List.cons_append, told, h2, if_true, leftAlone]; exact ⟨h1, trivial⟩
    · exact ⟨h1, rfl⟩

/-- What blank lines and comments say, with something behind them. -/
theorem says_fill : ∀ {f : List Str}, Filler f → Says (lined ls) es r → lined ls ≠ [] → ∃ fs, Fill fs ∧ Says (lined (f ++ ls)) (fs ++ es) r ∧ lined (f ++ ls) ≠ []
  | [], _, S, hn => ⟨[], by simp [Fill], S, hn⟩
  | x :: f, hf, S, hn => by
    obtain ⟨fs, h1, h2, h3⟩ := says_fill (f := f) (fun y hy => hf y (by simp [hy])) S hn
    have h4 : lined (x :: (f ++ ls)) ≠ [] := by
      intro h
      apply h3
      simp [lined] at h
      rw [← feeds_drop, h.2]; rfl
    rcases hf x (by simp) with hb | ⟨a, ha⟩
    · exact ⟨.line .empty :: fs, by rintro e he; rcases List.mem_cons.1 he with rfl | he; exact .inr rfl; exact h1 e he, says_blank hb h2 h4, h4⟩
    · exact ⟨.comment _ :: fs, by rintro e he; rcases List.mem_cons.1 he with rfl | he; exact .inl ⟨_, rfl⟩; exact h1 e he, says_comment ha h2, h4⟩

/-- What blank lines and comments at the end say. -/
theorem says_tail : ∀ {f : List Str}, Filler f → ∃ fs, Fill fs ∧ Says (lined f) fs .finished
  | [], _ => ⟨[], by simp [Fill], .done⟩
  | x :: f, hf => by
    obtain ⟨fs, h1, h2⟩ := says_tail (f := f) (fun y hy => hf y (by simp [hy]))
    rcases hf x (by simp) with hb | ⟨a, ha⟩
    · by_cases h4 : lined (x :: f) = []
      · rw [h4]; exact ⟨[], by simp [Fill], .done⟩
      · exact ⟨.line .empty :: fs, by rintro e he; rcases List.mem_cons.1 he with rfl | he; exact .inr rfl; exact h1 e he, says_blank hb h2 h4⟩
    · exact ⟨.comment _ :: fs, by rintro e he; rcases List.mem_cons.1 he with rfl | he; exact .inl ⟨_, rfl⟩; exact h1 e he, says_comment ha h2⟩

theorem told_tail {fs : List Said} (h : Fill fs) : told fs = [] := by
  have := (told_fill (X := []) h rfl).1
  rw [List.append_nil] at this
  exact this

theorem says_gap {g : List Str} (hg : Spec.Gap g) (S : Says (lined ls) es r) (hn : lined ls ≠ []) : ∃ es', Says (lined (g ++ ls)) es' r ∧ told es' = told es ∧ lined (g ++ ls) ≠ [] := by
  rcases List.eq_nil_or_concat g with rfl | ⟨g, x, rfl⟩
  · exact ⟨es, S, rfl, hn⟩
  · have hb : Blank x := hg.2 x (by simp)
    have h4 : lined (x :: ls) ≠ [] := by
      intro h
      apply hn
      simp [lined] at h
      rw [← feeds_drop, h.2]; rfl
    obtain ⟨fs, h1, h2, h3⟩ := says_fill (f := g) (fun y hy => hg.1 y (by simp [hy])) (says_blank hb S h4) h4
    refine ⟨_, by simpa using h2, ?_, by simpa using h3⟩
    rw [(told_fill h1 (X := .line .empty :: es) rfl).1]
    rfl

/-- Comment lines in front of a line that owns them. -/
theorem says_remark {q : Remark} : ∀ {cs : List Str}, Each (fun a ls => ∃ c, Remarks a c ∧ ls = [c]) q cs → Says (lined ls) es r → lined ls ≠ [] → leftAlone es = false →
    Says (lined (cs ++ ls)) (Remark.said q ++ es) r ∧ told (Remark.said q ++ es) = Remark.said q ++ told es ∧ lined (cs ++ ls) ≠ [] ∧ leftAlone (Remark.said q ++ es) = false := by
  intro cs h S hn ho
  induction h with
  | nil => exact ⟨S, rfl, hn, ho⟩
  | @cons a as c cs' h1 _ ih =>
    obtain ⟨c, h1, rfl⟩ := h1
    obtain ⟨i1, i2, i3, i4⟩ := ih
    have := says_comment h1 i1
    refine ⟨this, ?_, says_ne this, i4⟩
    simp only [Remark.said, List.map_cons, List.cons_append] at i2 i4 ⊢
    rw [told, i4]
    simp [i2]

/-- A line with its comment. -/
theorem says_opening {q : Remark} {o : List Str} {e : Said} (he : told (e :: es) = e :: told es) (ho : leftAlone (e :: es) = false)
    (h : Opening q l o) (S : ∀ t, Writes l t → Says (lined (t :: ls)) (e :: es) r) : ∃ es', Says (lined (o ++ ls)) es' r ∧ told es' = Remark.said q ++ e :: told es ∧ lined (o ++ ls) ≠ [] := by
  obtain ⟨hg, hc, _, hw⟩ := h
  have S := S _ hw
  obtain ⟨i1, i2, i3, i4⟩ := says_remark hc S (says_ne S) ho
  obtain ⟨es', j1, j2, j3⟩ := says_gap hg i1 i3
  exact ⟨es', by simpa using j1, by rw [j2, i2, he], by simpa using j3⟩

/-! ## Lines that say something whatever follows -/

/-- The lines say `d` in front of everything. -/
def Tells (ls : List Str) (d : List Said) : Prop :=
  ∀ ls' es r, Says (lined ls') es r → ∃ es', Says (lined (ls ++ ls')) es' r ∧ told es' = d ++ told es

theorem Tells.nil : Tells [] [] := fun _ es _ h => ⟨es, h, rfl⟩

theorem Tells.append {a b : List Str} {d d' : List Said} (h : Tells a d) (h' : Tells b d') : Tells (a ++ b) (d ++ d') := by
  intro ls' es r S
  obtain ⟨es1, S1, t1⟩ := h' _ _ _ S
  obtain ⟨es2, S2, t2⟩ := h _ _ _ S1
  exact ⟨es2, by simpa using S2, by rw [t2, t1, List.append_assoc]⟩

theorem Tells.each {α} {R : α → List Str → Prop} {f : α → List Said} (hR : ∀ a ls, R a ls → Tells ls (f a)) {as : List α} {ls : List Str} (h : Each R as ls) :
    Tells ls (as.flatMap f) := by
  induction h with
  | nil => exact .nil
  | cons h _ ih => exact (hR _ _ h).append ih

/-- A line that is not blank, no continuation and no multiline field owns its comment. -/
theorem tells_opening {q : Remark} {o : List Str} (h : Opening q l o) (h1 : l ≠ .empty) (h2 : ∀ d k, l ≠ .multiline d k) (h3 : ∀ d k, l ≠ .continuation d k) :
    Tells o (Remark.said q ++ [.line l]) := by
  intro ls' es r S
  have e1 : told (.line l :: es) = .line l :: told es := by cases l <;> first | rfl | exact absurd rfl h1
  have e2 : leftAlone (.line l :: es) = false := by cases l <;> first | rfl | exact absurd rfl h1 | exact absurd rfl (h3 _ _)
  obtain ⟨es', i1, i2, _⟩ := says_opening e1 e2 h fun t ht => says_written ht h1 h2 S
  exact ⟨es', i1, by rw [i2]; simp⟩

theorem tells_continues {c : Bool × Option Str} {ls : List Str} (h : Continues c ls) : Tells ls [.line (.continuation c.1 c.2)] := by
  intro ls' es r S
  obtain ⟨hf, hw⟩ := h
  have S1 := says_written hw (by simp) (by simp) S
  obtain ⟨fs, h1, h2, _⟩ := says_fill hf S1 (says_ne S1)
  refine ⟨_, by simpa using h2, ?_⟩
  rw [(told_fill h1 (X := .line (.continuation c.1 c.2) :: es) rfl).1]
  rfl

theorem tells_more {more : List (Bool × Option Str)} {ls : List Str} (h : Each Continues more ls) : Tells ls (saidMore more) := by
  have := Tells.each (fun a ls h => tells_continues h) h
  unfold saidMore
  rwa [List.map_eq_flatMap]

theorem tells_item {x : Item} {ls : List Str} (h : x.Written ls) : Tells ls x.said := by
  obtain ⟨h1, h2⟩ := h
  have := (tells_opening h1 (by simp) (by simp) (by simp)).append (tells_more h2)
  simpa [Item.said] using this

theorem tells_entry {x : Entry} {ls : List Str} (h : x.Written ls) : Tells ls x.said := by
  obtain ⟨h1, h2⟩ := h
  have := (tells_opening h1 (by simp) (by simp) (by simp)).append (tells_more h2)
  simpa [Entry.said] using this

/-! ## Multiline fields -/

theorem line_split {a b u v : Str} (ha : '\n' ∉ a) (hb : '\n' ∉ b) (hu : LineEnd u) (hv : LineEnd v) (h : a ++ u = b ++ v) : a = b ∧ u = v := by
  rw [List.append_eq_append_iff] at h
  rcases h with ⟨c, rfl, h⟩ | ⟨c, rfl, h⟩
  · cases c with
    | nil => exact ⟨by simp, by simpa using h⟩
    | cons x c =>
      rcases hu with rfl | ⟨t, rfl⟩
      · cases h
      · simp at h; obtain ⟨rfl, _⟩ := h; simp at hb
  · cases c with
    | nil => exact ⟨by simp, by simpa using h.symm⟩
    | cons x c =>
      rcases hv with rfl | ⟨t, rfl⟩
      · cases h
      · simp at h; obtain ⟨rfl, _⟩ := h; simp at ha

/-- A line in a row of lines that begins before their end is one of them. -/
theorem lineIn_feeds : ∀ {body : List Str} {z p l q : Str}, (∀ x ∈ body, '\n' ∉ x) → LineIn (feeds body ++ '\n' :: z) p l q → p.length < (feeds body).length → l ∈ body
  | [], z, p, l, q, _, _, h => by simp [feeds] at h
  | x :: body, z, p, l, q, hn, h, hp => by
    have ht := h.text
    have hx : '\n' ∉ x := hn x (by simp)
    cases p with
    | nil =>
      simp only [feeds, List.flatMap_cons, List.cons_append, List.nil_append, List.cons.injEq, true_and, List.append_assoc] at ht
      have : LineEnd (feeds body ++ '\n' :: z) := by cases body <;> exact .inr ⟨_, rfl⟩
      rw [(line_split hx h.noNl this h.eol ht).1]; simp
    | cons c p =>
      simp only [feeds, List.flatMap_cons, List.cons_append, List.cons.injEq, List.append_assoc] at ht
      obtain ⟨rfl, ht⟩ := ht
      rw [List.append_eq_append_iff] at ht
      rcases ht with ⟨c, rfl, ht⟩ | ⟨c, hc, ht⟩
      · have := lineIn_feeds (body := body) (fun y hy => hn y (by simp [hy])) ⟨ht, h.noNl, h.eol⟩ (by simp [feeds] at hp ⊢; omega)
        simp [this]
      · cases c with
        | nil =>
          simp at hc; subst hc
          have := lineIn_feeds (body := body) (p := []) (fun y hy => hn y (by simp [hy])) ⟨ht.symm, h.noNl, h.eol⟩ (by simp [feeds] at hp ⊢; omega)
          simp [this]
        | cons y c =>
          simp at ht
          rw [hc, ← ht.1] at hx; simp at hx

theorem tells_verbatim {q : Remark} {k : Str} {n : Nat} {body : List Str} {o : List Str} {t : Str} (h : Opening q (.multiline n k) o) (hb : ∀ l ∈ body, '\n' ∉ l ∧ ¬ IsTerminator (rep n '-') k l)
    (ht : '\n' ∉ t) (hi : IsTerminator (rep n '-') k t) : Tells (o ++ (body ++ [t])) (Remark.said q ++ [.multi k (if body = [] then none else some (['\n'].intercalate body))]) := by
  intro ls' es r S
  have e : (if feeds body = [] then none else some ((feeds body).drop 1)) = (if body = [] then none else some (['\n'].intercalate body)) := by
    rw [feeds_drop, lined_eq]
    cases body <;> simp [feeds]
  obtain ⟨es', i1, i2, _⟩ := says_opening (ls := body ++ t :: ls') (e := .multi k (if body = [] then none else some (['\n'].intercalate body))) (es := es) (r := r) rfl rfl h (by
    intro w hw
    have hr := readLine_writes hw (feeds_end (body ++ t :: ls'))
    rw [← e]
    refine .multi (rest := feeds (body ++ t :: ls')) (line := t) (after := feeds ls') ?_ hr ?_ hi ?_ (by rw [feeds_drop]; exact S)
    · intro h
      rw [lined] at h
      rw [h] at hr
      simp [readLine] at hr
    · exact ⟨by simp [feeds], ht, feeds_end _⟩
    · intro p l q hl hp hT
      have : feeds (body ++ t :: ls') = feeds body ++ '\n' :: (t ++ feeds ls') := by simp [feeds]
      rw [this] at hl
      exact (hb l (lineIn_feeds (fun x hx => (hb x hx).1) hl hp)).2 hT)
  exact ⟨es', by simpa using i1, by rw [i2]; simp⟩

/-! ## Elements, sections and documents -/

theorem tells_element {e : Element} {ls : List Str} (h : e.Written ls) : Tells ls e.said := by
  cases h with
  | parts h1 h2 =>
    have := (tells_opening h1 (by simp) (by simp) (by simp)).append (tells_more h2)
    simpa [Element.said] using this
  | items h1 h2 =>
    have := (tells_opening h1 (by simp) (by simp) (by simp)).append (Tells.each (fun _ _ h => tells_item h) h2)
    simpa [Element.said, Inner.said] using this
  | entries h1 h2 =>
    have := (tells_opening h1 (by simp) (by simp) (by simp)).append (Tells.each (fun _ _ h => tells_entry h) h2)
    simpa [Element.said, Inner.said] using this
  | verbatim h1 h2 h3 h4 => exact tells_verbatim h1 h2 h3 h4

theorem tells_elements {es : List Element} {ls : List Str} (h : Each Element.Written es ls) : Tells ls ((es.map Thing.plain).flatMap Thing.said) := by
  have := Tells.each (fun _ _ h => tells_element h) h
  rwa [List.flatMap_map]

mutual

theorem tells_sec {d : Nat} : ∀ {s : Sec} {ls : List Str}, s.Written d ls → Tells ls (s.part.said d)
  | .mk q k es ss, _, .mk h1 h2 h3 => by
    have := (tells_opening h1 (by simp) (by simp) (by simp)).append ((tells_elements h2).append (tells_secs h3))
    simpa [Sec.part, Part.said] using this

theorem tells_secs {d : Nat} : ∀ {ss : List Sec} {ls : List Str}, SecsWritten d ss ls → Tells ls (partsSaid d (secParts ss))
  | [], _, .nil => by simpa [secParts, partsSaid] using Tells.nil
  | s :: ss, _, .cons h1 h2 => by
    rw [secParts, partsSaid]
    exact (tells_sec h1).append (tells_secs h2)

end

/-- A written document says what the document says. -/
theorem text_says {D : Document} {input : Str} (h : D.Text input) : ∃ es, Says input es .finished ∧ told es = D.doc.said := by
  obtain ⟨ls, hl, rfl⟩ := h
  obtain ⟨h1, h2, h3⟩ := hl
  obtain ⟨fs, f1, f2⟩ := says_tail h3
  obtain ⟨es, e1, e2⟩ := (tells_elements h1).append (tells_secs h2) _ _ _ f2
  rw [lined_eq]
  refine ⟨es, by simpa using e1, ?_⟩
  rw [e2, told_tail f1, List.append_nil]
  rfl

end Eno
