import Verif.Proofs.LineLemmas

/-! # Horizontal white space around a line does not matter -/

namespace Eno
open Spec

theorem readLine_indent {w : Str} (hw : Blank w) (s : Str) : readLine (w ++ s) = readLine s := by
  unfold readLine
  rw [List.dropWhile_append_of_pos (fun a ha => hw a ha)]

section suffix
variable {w r : Str}

/-- Equal, or equal up to the blanks `w` inserted at the end of the first line. -/
def Padded (w r s s' : Str) : Prop := s = s' ∨ ∃ L, '\n' ∉ L ∧ s = L ++ r ∧ s' = L ++ (w ++ r)

theorem Padded.refl (s : Str) : Padded w r s s := .inl rfl

theorem LineEnd.takeWhile_nil {p : Char → Bool} (hr : LineEnd r) (hp : p '\n' = false) : r.takeWhile p = [] := by
  rcases hr with rfl | ⟨t, rfl⟩ <;> simp [hp]
theorem LineEnd.dropWhile_self {p : Char → Bool} (hr : LineEnd r) (hp : p '\n' = false) : r.dropWhile p = r := by
  rcases hr with rfl | ⟨t, rfl⟩ <;> simp [hp]

theorem all_or_stop (p : Char → Bool) (L : Str) : (∀ a ∈ L, p a = true) ∨ ∃ b c m, L = b ++ c :: m ∧ (∀ a ∈ b, p a = true) ∧ p c = false := by
  induction L with
  | nil => left; simp
  | cons a t ih =>
    by_cases h : p a = true
    · rcases ih with h1 | ⟨b, c, m, rfl, h2, h3⟩
      · left; simpa [h] using h1
      · right; exact ⟨a :: b, c, m, rfl, by simpa [h] using h2, h3⟩
    · right; exact ⟨[], a, t, rfl, by simp, by simpa using h⟩

theorem dropWhile_stop {p : Char → Bool} {b m : Str} {c : Char} (h2 : ∀ a ∈ b, p a = true) (h3 : p c = false) (x : Str) :
    ((b ++ c :: m) ++ x).dropWhile p = c :: m ++ x := by
  rw [List.append_assoc, List.dropWhile_append_of_pos h2]; simp [h3]
theorem takeWhile_stop {p : Char → Bool} {b m : Str} {c : Char} (h2 : ∀ a ∈ b, p a = true) (h3 : p c = false) (x : Str) :
    ((b ++ c :: m) ++ x).takeWhile p = b := by
  rw [List.append_assoc, List.takeWhile_append_of_pos h2]; simp [h3]

/-- Skipping white space keeps the relation; if the texts still differ they share their first character. -/
theorem Padded.skip {p : Char → Bool} (hp : ∀ c, isHs c = true → p c = true) (hw : Blank w) {s s' : Str} (h : Padded w r s s') :
    s.dropWhile p = s'.dropWhile p ∨
      ∃ c L, '\n' ∉ c :: L ∧ p c = false ∧ s.dropWhile p = c :: (L ++ r) ∧ s'.dropWhile p = c :: (L ++ (w ++ r)) := by
  rcases h with rfl | ⟨L, hL, rfl, rfl⟩
  · left; rfl
  · rcases all_or_stop p L with h1 | ⟨b, c, m, rfl, h2, h3⟩
    · left
      rw [List.dropWhile_append_of_pos h1, List.dropWhile_append_of_pos h1, List.dropWhile_append_of_pos]
      intro a ha; exact hp a (hw a ha)
    · right
      refine ⟨c, m, ?_, h3, ?_, ?_⟩
      · intro hm; apply hL; simp at hm ⊢; exact Or.inr hm
      · rw [dropWhile_stop h2 h3]; rfl
      · rw [dropWhile_stop h2 h3]; rfl

theorem Padded.value (hw : Blank w) (hr : LineEnd r) {s s' : Str} (h : Padded w r s s') : valueOf s = valueOf s' := by
  have key : trimEnd (lineOf (s.dropWhile isHs)) = trimEnd (lineOf (s'.dropWhile isHs)) := by
    rcases h.skip (fun _ h => h) hw with h | ⟨c, L, hL, hc, h1, h2⟩
    · rw [h]
    · rw [h1, h2, ← List.cons_append, ← List.cons_append, lineOf_append hL, lineOf_append hL, lineOf_append hw.noNl, hr.lineOf]
      simp only [List.append_nil]
      have gen : ∀ x : Str, trimEnd (x ++ w) = trimEnd x := by
        intro x
        unfold trimEnd
        rw [List.reverse_append, List.dropWhile_append_of_pos]
        intro a ha; exact hw a (by simpa using ha)
      rw [gen]
  unfold valueOf
  simp only [key]

theorem Padded.next (hw : Blank w) {s s' : Str} (h : Padded w r s s') : nextOf s = nextOf s' := by
  rcases h with rfl | ⟨L, hL, rfl, rfl⟩
  · rfl
  · have hp : ∀ x : Str, '\n' ∉ x → ∀ a ∈ x, (a != '\n') = true := by
      intro x hx a ha; simp; rintro rfl; exact hx ha
    unfold nextOf
    rw [List.dropWhile_append_of_pos (hp L hL), List.dropWhile_append_of_pos (hp L hL), List.dropWhile_append_of_pos (hp w hw.noNl)]

theorem trimEnd_append_blank' (hw : Blank w) (x : Str) : trimEnd (x ++ w) = trimEnd x := by
  unfold trimEnd
  rw [List.reverse_append, List.dropWhile_append_of_pos]
  intro a ha; exact hw a (by simpa using ha)

theorem padded_key (hw : Blank w) (hr : LineEnd r) (key : Str) {s s' : Str} (h : Padded w r s s') :
    readAfterKey key s = readAfterKey key s' := by
  unfold readAfterKey
  rcases h.skip (fun _ h => isHs_isSp h) hw with h | ⟨c, L, hL, hc, h1, h2⟩
  · rw [h]
  · rw [h1, h2]
    have hL' : '\n' ∉ L := fun h => hL (by simp [h])
    have hp : Padded w r (L ++ r) (L ++ (w ++ r)) := .inr ⟨L, hL', rfl, rfl⟩
    by_cases c1 : c = ':'
    · subst c1; simp only [hp.value hw hr, hp.next hw]
    by_cases c2 : c = '='
    · subst c2; simp only [hp.value hw hr, hp.next hw]
    by_cases c3 : c = '<'
    · subst c3
      simp only
      rcases hp.skip (fun _ h => isHs_isSp h) hw with h | ⟨c, L', hL', hc, h1, h2⟩
      · rw [h]
      · have hq : Padded w r ((L ++ r).dropWhile isSp) ((L ++ (w ++ r)).dropWhile isSp) :=
          .inr ⟨c :: L', hL', by rw [h1]; rfl, by rw [h2]; rfl⟩
        rw [hq.value hw hr, hq.next hw]
    · split <;> simp_all

theorem padded_heading (hw : Blank w) (hr : LineEnd r) (d : Nat) (key : Str) {s s' : Str} (h : Padded w r s s') :
    readAfterHeading d key s = readAfterHeading d key s' := by
  unfold readAfterHeading
  rcases h.skip (fun _ h => h) hw with h | ⟨c, L, hL, hc, h1, h2⟩
  · rw [h]
  · rw [h1, h2]
    have hL' : '\n' ∉ L := fun h => hL (by simp [h])
    by_cases c3 : c = '<'
    · subst c3
      cases L with
      | nil =>
        have hp : Padded w r r (w ++ r) := .inr ⟨[], by simp, rfl, rfl⟩
        simp only [List.nil_append]
        have hr' : ∀ u, r ≠ '<' :: u := by rcases hr with rfl | ⟨t, rfl⟩ <;> simp
        have hwr : ∀ u, w ++ r ≠ '<' :: u := by
          intro u hu
          cases w with
          | nil => exact hr' u hu
          | cons a b =>
            have := hw a (by simp)
            simp at hu; rw [hu.1] at this; exact absurd this (by decide)
        split
        · rename_i heq; cases heq
        · rename_i heq; simp at heq
        · rename_i heq; simp at heq; exact absurd heq (hr' _)
        · rename_i heq; simp at heq; subst heq
          rw [hp.value hw hr, hp.next hw]
        · rename_i _ h; exact absurd rfl (h _)
      | cons a L2 =>
        by_cases ha : a = '<'
        · subst ha
          have hp : Padded w r (L2 ++ r) (L2 ++ (w ++ r)) := .inr ⟨L2, fun h => hL' (by simp [h]), rfl, rfl⟩
          simp only [List.cons_append, hp.value hw hr, hp.next hw]
        · have hp : Padded w r (a :: L2 ++ r) (a :: L2 ++ (w ++ r)) := .inr ⟨a :: L2, hL', rfl, rfl⟩
          have e1 := hp.value hw hr
          have e2 := hp.next hw
          simp only [List.cons_append] at e1 e2 ⊢
          split
          · rename_i heq; cases heq
          · rename_i heq; simp at heq
          · rename_i heq; simp at heq; exact absurd heq.1 ha
          · rename_i heq; simp at heq; subst heq
            split
            · rename_i heq; cases heq
            · rename_i heq; simp at heq
            · rename_i heq; simp at heq; exact absurd heq.1 ha
            · rename_i heq; simp at heq; subst heq
              rw [e1, e2]
            · rename_i _ h; exact absurd rfl (h _)
          · rename_i _ h; exact absurd rfl (h _)
    · have : c ≠ '\n' := by rintro rfl; exact hL (by simp)
      split <;> simp_all

theorem padded_plain (hw : Blank w) (hr : LineEnd r) {p : Char → Bool} (hp : ∀ c, isHs c = true → p c = true) (hnl : p '\n' = false)
    {read : Str → Str → Option (Line × Str)} (hread : ∀ k s s', Padded w r s s' → read k s = read k s')
    {s s' : Str} (h : Padded w r s s') : readPlain p read s = readPlain p read s' := by
  unfold readPlain
  rcases h with rfl | ⟨L, hL, rfl, rfl⟩
  · rfl
  · rcases all_or_stop p L with h1 | ⟨b, c, m, rfl, h2, h3⟩
    · rw [List.dropWhile_append_of_pos h1, List.dropWhile_append_of_pos h1, List.dropWhile_append_of_pos,
        List.takeWhile_append_of_pos h1, List.takeWhile_append_of_pos h1, List.takeWhile_append_of_pos,
        LineEnd.takeWhile_nil hr hnl, ← List.append_assoc]
      · simp only [List.append_nil, trimEnd_append_blank' hw]
      · intro a ha; exact hp a (hw a ha)
      · intro a ha; exact hp a (hw a ha)
    · rw [dropWhile_stop h2 h3, dropWhile_stop h2 h3, takeWhile_stop h2 h3, takeWhile_stop h2 h3]
      apply hread
      right
      refine ⟨c :: m, ?_, rfl, rfl⟩
      intro hm; apply hL; simp at hm ⊢; exact Or.inr hm

/-- A run of an operator character: the same run, and the relation behind it. -/
theorem Padded.run (hw : Blank w) (hr : LineEnd r) {d : Char} (hd : isHs d = false) (hd' : d ≠ '\n') {s s' : Str} (h : Padded w r s s') :
    s.takeWhile (· == d) = s'.takeWhile (· == d) ∧ Padded w r (s.dropWhile (· == d)) (s'.dropWhile (· == d)) := by
  rcases h with rfl | ⟨L, hL, rfl, rfl⟩
  · exact ⟨rfl, .refl _⟩
  · rcases all_or_stop (· == d) L with h1 | ⟨b, c, m, rfl, h2, h3⟩
    · rw [List.dropWhile_append_of_pos h1, List.dropWhile_append_of_pos h1,
        List.takeWhile_append_of_pos h1, List.takeWhile_append_of_pos h1]
      have hnl : ('\n' == d) = false := by simp; exact fun h => hd' h.symm
      have t1 : r.takeWhile (· == d) = [] := LineEnd.takeWhile_nil hr hnl
      have d1 : r.dropWhile (· == d) = r := LineEnd.dropWhile_self hr hnl
      have hwr : (w ++ r).takeWhile (· == d) = [] ∧ (w ++ r).dropWhile (· == d) = w ++ r := by
        cases w with
        | nil => exact ⟨t1, d1⟩
        | cons a t =>
          have ha := hw a (by simp)
          have : a ≠ d := by rintro rfl; rw [hd] at ha; cases ha
          simp [this]
      rw [t1, d1, hwr.1, hwr.2]
      exact ⟨rfl, .inr ⟨[], by simp, rfl, rfl⟩⟩
    · rw [dropWhile_stop h2 h3, dropWhile_stop h2 h3, takeWhile_stop h2 h3, takeWhile_stop h2 h3]
      refine ⟨rfl, .inr ⟨c :: m, ?_, rfl, rfl⟩⟩
      intro hm; apply hL; simp at hm ⊢; exact Or.inr hm

theorem findSome?_append_none {α β} {l l' : List α} {f : α → Option β} (h : ∀ a ∈ l', f a = none) :
    (l ++ l').findSome? f = l.findSome? f := by
  rw [List.findSome?_append, List.findSome?_eq_none_iff.mpr h, Option.or_none]

theorem findSome?_congr' {α β} {l : List α} {f g : α → Option β} (h : ∀ a ∈ l, f a = g a) : l.findSome? f = l.findSome? g := by
  induction l with
  | nil => rfl
  | cons a t ih => simp only [List.findSome?_cons, h a (by simp)]; rw [ih (fun a ha => h a (by simp [ha]))]

theorem padded_closing (hw : Blank w) (hr : LineEnd r) {read : Str → Option (Line × Str)}
    (hread : ∀ s s', Padded w r s s' → read s = read s') (n : Nat) {a a' : Str}
    (h : Padded w r a a') :
    (if a.take n = rep n '`' then read (a.drop n) else none) = (if a'.take n = rep n '`' then read (a'.drop n) else none) := by
  rcases h with rfl | ⟨L, hL, rfl, rfl⟩
  · rfl
  · have hrn : ∀ m, 0 < m → r.take m ≠ rep m '`' := by
      intro m hm he
      obtain ⟨m, rfl⟩ : ∃ k, m = k + 1 := ⟨m - 1, by omega⟩
      rcases hr with rfl | ⟨t, rfl⟩ <;> simp [rep, List.replicate_succ] at he
    have hwn : ∀ m, 0 < m → (w ++ r).take m ≠ rep m '`' := by
      intro m hm he
      cases w with
      | nil => exact hrn m hm he
      | cons x t =>
        have ha := hw x (by simp)
        obtain ⟨m, rfl⟩ : ∃ k, m = k + 1 := ⟨m - 1, by omega⟩
        simp [rep, List.replicate_succ] at he
        rw [he.1] at ha; exact absurd ha (by decide)
    by_cases hn : n ≤ L.length
    · rw [List.take_append_of_le_length hn, List.take_append_of_le_length hn, List.drop_append_of_le_length hn,
        List.drop_append_of_le_length hn]
      split
      · exact hread _ _ (.inr ⟨L.drop n, fun h => hL (List.mem_of_mem_drop h), rfl, rfl⟩)
      · rfl
    · rw [if_neg, if_neg]
      · intro he
        rcases take_rep_append he with h | ⟨_, h2, h3⟩
        · have := congrArg List.length h; simp [rep] at this; omega
        · exact hwn _ (by omega) h3
      · intro he
        rcases take_rep_append he with h | ⟨_, h2, h3⟩
        · have := congrArg List.length h; simp [rep] at this; omega
        · exact hrn _ (by omega) h3

theorem takeWhile_tick (s : Str) : s.takeWhile (· == '`') = rep (s.takeWhile (· == '`')).length '`' := by
  rw [rep, List.eq_replicate_iff]
  exact ⟨rfl, fun b hb => by simpa using mem_takeWhile_imp hb⟩

theorem padded_escaped (hw : Blank w) (hr : LineEnd r) {read : Str → Str → Option (Line × Str)}
    (hread : ∀ k s s', Padded w r s s' → read k s = read k s') {s s' : Str} (hs : ∃ t, s = '`' :: t) (h : Padded w r s s') :
    readEscaped read s = readEscaped read s' := by
  obtain ⟨hrun, hpad⟩ := h.run hw hr (d := '`') (by decide) (by decide)
  have hpos : 0 < (s.takeWhile (· == '`')).length := by obtain ⟨t, rfl⟩ := hs; simp
  unfold readEscaped
  rw [← hrun, takeWhile_tick s]
  generalize (s.takeWhile (· == '`')).length = n at hpos
  have hlen : (rep n '`').length = n := by simp [rep]
  simp only [hlen]
  rcases hpad.skip (fun _ h => h) hw with hq | ⟨c, L, hL, hc, h1, h2⟩
  · rw [hq]
  · rw [h1, h2, ← List.cons_append, ← List.cons_append]
    generalize hLL : c :: L = K at hL
    rw [lineOf_append hL, lineOf_append hL, lineOf_append hw.noNl, hr.lineOf]
    simp only [List.append_nil, List.length_append]
    rw [List.range_add]
    rw [findSome?_append_none]
    · apply findSome?_congr'
      intro i hi
      rw [List.mem_range] at hi
      rw [List.drop_append_of_le_length (by omega), List.drop_append_of_le_length (by omega),
        List.take_append_of_le_length (by omega), List.take_append_of_le_length (by omega)]
      have hp : Padded w r (K.drop (i + 1) ++ r) (K.drop (i + 1) ++ (w ++ r)) :=
        .inr ⟨_, fun h => hL (List.mem_of_mem_drop h), rfl, rfl⟩
      apply padded_closing hw hr (hread _)
      rcases hp.skip (fun _ h => h) hw with hq | ⟨c, L, hL, hc, h1, h2⟩
      · exact .inl hq
      · exact .inr ⟨c :: L, hL, by rw [h1]; rfl, by rw [h2]; rfl⟩
    · intro i hi
      simp only [List.mem_map, List.mem_range] at hi
      obtain ⟨j, hj, rfl⟩ := hi
      rw [if_neg]
      rw [Nat.add_assoc, ← List.drop_drop, List.drop_left, List.drop_append_of_le_length (by omega),
        List.dropWhile_append_of_pos (fun a ha => hw a (List.mem_of_mem_drop ha)), LineEnd.dropWhile_self hr (by decide)]
      intro he
      obtain ⟨m, rfl⟩ : ∃ k, n = k + 1 := ⟨n - 1, by omega⟩
      rcases hr with rfl | ⟨t, rfl⟩ <;> simp [rep, List.replicate_succ] at he

theorem padded_readHeading (hw : Blank w) (hr : LineEnd r) {s s' : Str} (h : Padded w r s s') : readHeading s = readHeading s' := by
  obtain ⟨hrun, hpad⟩ := h.run hw hr (d := '#') (by decide) (by decide)
  unfold readHeading
  rw [← hrun]
  generalize (s.takeWhile (· == '#')).length = n
  simp only
  rcases hpad.skip (fun _ h => isHs_isSp h) hw with hq | ⟨c, L, hL, hc, h1, h2⟩
  · rw [hq]
  · rw [h1, h2]
    have hp : Padded w r (c :: (L ++ r)) (c :: (L ++ (w ++ r))) := .inr ⟨c :: L, hL, rfl, rfl⟩
    by_cases c1 : c = '<'
    · subst c1; rfl
    by_cases c2 : c = '`'
    · subst c2
      exact padded_escaped hw hr (fun k s s' h => padded_heading hw hr n k h) ⟨_, rfl⟩ hp
    · have := padded_plain hw hr (p := fun c => c != '<' && c != '\n')
        (by intro c hc; have := isSp_not_op (isHs_isSp hc); simp [this, isHs_ne_nl hc]) (by simp)
        (fun k s s' h => padded_heading hw hr n k h) hp
      split
      · rename_i heq; cases heq
      · rename_i heq; simp at heq; exact absurd heq.1 c1
      · rename_i heq; simp at heq; exact absurd heq.1 c2
      · split
        · rename_i heq; cases heq
        · rename_i heq; simp at heq; exact absurd heq.1 c1
        · rename_i heq; simp at heq; exact absurd heq.1 c2
        · exact this

theorem padded_readDash (hw : Blank w) (hr : LineEnd r) {s s' : Str} (h : Padded w r s s') : readDash s = readDash s' := by
  obtain ⟨hrun, hpad⟩ := h.run hw hr (d := '-') (by decide) (by decide)
  unfold readDash
  rw [← hrun]
  simp only [hpad.value hw hr, hpad.next hw]

theorem padded_readLine (hw : Blank w) (hr : LineEnd r) {s s' : Str} (h : Padded w r s s') : readLine s = readLine s' := by
  unfold readLine
  rcases h.skip (fun _ h => h) hw with hq | ⟨c, L, hL, hc, h1, h2⟩
  · rw [hq]
  · rw [h1, h2]
    have hL' : '\n' ∉ L := fun h => hL (by simp [h])
    have hnl : c ≠ '\n' := by rintro rfl; exact hL (by simp)
    have hp : Padded w r (c :: (L ++ r)) (c :: (L ++ (w ++ r))) := .inr ⟨c :: L, hL, rfl, rfl⟩
    have hq : Padded w r (L ++ r) (L ++ (w ++ r)) := .inr ⟨L, hL', rfl, rfl⟩
    simp only [hq.value hw hr, hq.next hw, padded_readHeading hw hr hp, padded_readDash hw hr hp, hnl, if_false]
    rw [padded_plain hw hr _ _ (fun k s s' h => padded_key hw hr k h) hp]
    · by_cases c6 : c = '`'
      · rw [padded_escaped hw hr (fun k s s' h => padded_key hw hr k h) ⟨_, by rw [c6]⟩ hp]
      · simp only [c6, if_false]
    · intro c hc; have := isSp_not_op (isHs_isSp hc); simp [this, isHs_ne_nl hc]
    · simp

end suffix
end Eno
