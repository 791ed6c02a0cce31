import Verif.Proofs.FormLemmas
import Verif.Spec.Line

/-! # The position-free reading is the scanner without offsets -/

set_option linter.unusedSimpArgs false

namespace Eno
open Spec

/-- The content of the line and the text behind it. -/
def view (pos : Nat) (s : Str) (t : Tok) : Line × Str := (Line.ofBody t.body, s.drop (t.fin - pos))

theorem valueAt_text (pos : Nat) (s : Str) : (valueAt pos s).map (·.text) = valueOf s := by
  unfold valueAt valueOf runLen
  simp only [drop_takeWhile]
  split <;> simp

theorem drop_eol (pos : Nat) (s : Str) : s.drop (eolAt pos s - pos) = nextOf s := by
  unfold eolAt nextOf
  rw [Nat.add_sub_cancel_left]; exact drop_takeWhile _ _

theorem eolAt_ge (pos : Nat) (s : Str) : pos ≤ eolAt pos s := by unfold eolAt; omega

/-- Views compose over a consumed prefix. -/
theorem drop_fin {s : Str} {pos n fin : Nat} (h : pos + n ≤ fin) : s.drop (fin - pos) = (s.drop n).drop (fin - (pos + n)) := by
  rw [List.drop_drop]; congr 1; omega

theorem drop_fin_eol {s t : Str} {pos n : Nat} (h : s.drop n = t) : s.drop (eolAt (pos + n) t - pos) = nextOf t := by
  rw [drop_fin (eolAt_ge _ _), h, drop_eol]

/-- `after` (with offsets) and `readAfter` (without) say the same. -/
def Agree (after : Nat → Str → KeyTok → Option Tok) (read : Str → Str → Option (Line × Str)) : Prop :=
  ∀ pos s k, (after pos s k).map (view pos s) = read k.text s ∧ ∀ t, after pos s k = some t → pos ≤ t.fin

theorem agree_key : Agree afterKey readAfterKey := by
  intro pos s k
  unfold afterKey readAfterKey runLen
  simp only [drop_takeWhile]
  cases h : s.dropWhile isSp with
  | nil => simp
  | cons c t =>
    have hd : s.drop ((s.takeWhile isSp).length + 1) = t := by
      rw [← List.drop_drop, drop_takeWhile, h]; rfl
    by_cases h1 : c = ':'
    · subst h1
      constructor
      · simp only [Option.map_some, view, Line.ofBody, valueAt_text, Nat.add_assoc]
        rw [drop_fin_eol hd]
      · intro t' ht; simp at ht; rw [← ht]
        have := eolAt_ge (pos + (s.takeWhile isSp).length + 1) t; simp only; omega
    · by_cases h2 : c = '='
      · subst h2
        constructor
        · simp only [Option.map_some, view, Line.ofBody, valueAt_text, Nat.add_assoc]
          rw [drop_fin_eol hd]
        · intro t' ht; simp at ht; rw [← ht]
          have := eolAt_ge (pos + (s.takeWhile isSp).length + 1) t; simp only; omega
      · by_cases h3 : c = '<'
        · subst h3
          constructor
          · simp only
            rw [← valueAt_text (pos + (s.takeWhile isSp).length + 1 + (t.takeWhile isSp).length)]
            cases hv : valueAt (pos + (s.takeWhile isSp).length + 1 + (t.takeWhile isSp).length) (t.dropWhile isSp) with
            | none => simp
            | some v =>
              simp only [Option.map_some, view, Line.ofBody, Nat.add_assoc]
              rw [drop_fin_eol (t := t.dropWhile isSp)]
              rw [← Nat.add_assoc, ← List.drop_drop, hd, drop_takeWhile]
          · intro t' ht
            simp only [Option.map_eq_some_iff] at ht
            obtain ⟨v, _, rfl⟩ := ht
            have := eolAt_ge (pos + (s.takeWhile isSp).length + 1 + (t.takeWhile isSp).length) (t.dropWhile isSp); simp only; omega
        · constructor
          · split <;> simp_all
          · intro t' ht; split at ht <;> simp_all

theorem agree_heading (op : Cap) (d : Nat) (hop : op.text.length = d) : Agree (afterHeadingKey op) (readAfterHeading d) := by
  subst hop
  intro pos s k
  unfold afterHeadingKey readAfterHeading runLen
  simp only [drop_takeWhile]
  have hk : s.drop (s.takeWhile isHs).length = s.dropWhile isHs := drop_takeWhile _ _
  cases h : s.dropWhile isHs with
  | nil =>
    simp only [Option.map_some, view, Line.ofBody, Option.map_none, Nat.add_sub_cancel_left]
    rw [hk, h]; simp
  | cons c t =>
    have hd : s.drop ((s.takeWhile isHs).length + 1) = t := by
      rw [← List.drop_drop, drop_takeWhile, h]; rfl
    by_cases h1 : c = '\n'
    · subst h1
      simp only [Option.map_some, view, Line.ofBody, Option.map_none, Nat.add_sub_cancel_left]
      rw [hk, h]; simp
    · by_cases h2 : c = '<'
      · subst h2
        by_cases h3 : ∃ u, t = '<' :: u
        · obtain ⟨u, rfl⟩ := h3
          have hd2 : s.drop ((s.takeWhile isHs).length + 2) = u := by
            rw [show (s.takeWhile isHs).length + 2 = (s.takeWhile isHs).length + 1 + 1 by omega, ← List.drop_drop, hd]; rfl
          simp only
          rw [← valueAt_text (pos + (s.takeWhile isHs).length + 2)]
          cases hv : valueAt (pos + (s.takeWhile isHs).length + 2) u with
          | none => simp
          | some v =>
            constructor
            · simp only [Option.map_some, view, Line.ofBody, Nat.add_assoc]
              rw [drop_fin_eol hd2]; rfl
            · intro t' ht; simp at ht; rw [← ht]
              have := eolAt_ge (pos + (s.takeWhile isHs).length + 2) u; simp only; omega
        · skip
          constructor
          · have := valueAt_text (pos + (s.takeWhile isHs).length + 1) t
            split
            · rename_i heq; cases heq
            · rename_i heq; simp at heq
            · rename_i heq; simp at heq; exact absurd ⟨_, heq⟩ h3
            · rename_i heq; simp at heq; subst heq
              split
              · rename_i heq; cases heq
              · rename_i heq; simp at heq
              · rename_i heq; simp at heq; exact absurd ⟨_, heq⟩ h3
              · rename_i heq; simp at heq; subst heq
                rw [← this]
                cases hv : valueAt (pos + (s.takeWhile isHs).length + 1) t with
                | none => simp
                | some v =>
                  simp only [Option.map_some, view, Line.ofBody, Nat.add_assoc]
                  rw [drop_fin_eol hd]; rfl
              · rename_i _ hx; exact absurd rfl (hx t)
            · rename_i _ hx; exact absurd rfl (hx t)
          · intro t' ht
            split at ht
            · rename_i heq; cases heq
            · rename_i heq; simp at heq
            · rename_i heq; simp at heq; exact absurd ⟨_, heq⟩ h3
            · rename_i heq; simp at heq; subst heq
              simp only [Option.map_eq_some_iff] at ht
              obtain ⟨v, _, rfl⟩ := ht
              have := eolAt_ge (pos + (s.takeWhile isHs).length + 1) t; simp only; omega
            · cases ht
      · constructor
        · split <;> simp_all
        · intro t' ht; split at ht <;> simp_all

theorem findSome?_map_congr {α β γ} {l : List α} {f : α → Option β} {g : α → Option γ} {h : β → γ}
    (hfg : ∀ a ∈ l, (f a).map h = g a) : (l.findSome? f).map h = l.findSome? g := by
  rw [map_findSome?]
  induction l with
  | nil => rfl
  | cons a t ih =>
    simp only [List.findSome?_cons, hfg a (by simp)]
    rw [ih (fun a ha => hfg a (by simp [ha]))]

theorem view_shift {s r : Str} {pos n : Nat} (h : s.drop n = r) {o : Option Tok} (ho : ∀ t, o = some t → pos + n ≤ t.fin) :
    o.map (view pos s) = o.map (view (pos + n) r) := by
  cases o with
  | none => rfl
  | some t =>
    simp only [Option.map_some, view]
    rw [drop_fin (ho t rfl), h]

theorem view_escaped {after read} (ha : Agree after read) (pos : Nat) (s : Str) :
    (escapedKey after pos s).map (view pos s) = readEscaped read s := by
  unfold escapedKey readEscaped
  simp only [runLen, drop_takeWhile, take_takeWhile]
  have hr : s.drop ((s.takeWhile (· == '`')).length + ((s.dropWhile (· == '`')).takeWhile isHs).length) =
      (s.dropWhile (· == '`')).dropWhile isHs := by
    rw [← List.drop_drop, drop_takeWhile, drop_takeWhile]
  rw [hr]
  apply findSome?_map_congr
  intro i _
  simp only [← List.drop_drop, drop_takeWhile]
  generalize hrr : (s.dropWhile (· == '`')).dropWhile isHs = r at hr
  generalize ht : s.takeWhile (· == '`') = tk at hr
  generalize hh : ((s.dropWhile (· == '`')).takeWhile isHs).length = h at hr
  split
  · rw [view_shift (n := tk.length + h + (i + 1) + (((r.drop i).drop 1).takeWhile isHs).length + tk.length)
      (r := (((r.drop i).drop 1).dropWhile isHs).drop tk.length)]
    · have := (ha (pos + (tk.length + h + (i + 1) + (((r.drop i).drop 1).takeWhile isHs).length + tk.length))
        ((((r.drop i).drop 1).dropWhile isHs).drop tk.length)
        (.escaped ⟨pos, pos + tk.length, tk⟩ ⟨pos + tk.length + h, pos + tk.length + h + (i + 1), r.take (i + 1)⟩
          ⟨pos + tk.length + h + (i + 1) + (((r.drop i).drop 1).takeWhile isHs).length,
            pos + tk.length + h + (i + 1) + (((r.drop i).drop 1).takeWhile isHs).length + tk.length, tk⟩)).1
      simp only [← Nat.add_assoc] at this ⊢
      rw [this]; rfl
    · rw [Nat.add_assoc (tk.length + h + (i + 1)), ← List.drop_drop, ← List.drop_drop, ← List.drop_drop, hr, ← List.drop_drop, drop_takeWhile]
    · intro t ht
      have := (ha _ _ _).2 _ ht
      omega
  · rfl

theorem fin_escaped {after read} (ha : Agree after read) {pos : Nat} {s : Str} {t : Tok} (h : escapedKey after pos s = some t) :
    pos ≤ t.fin := by
  unfold escapedKey at h
  obtain ⟨i, _, hi⟩ := List.exists_of_findSome?_eq_some h
  simp only at hi
  split at hi
  · have := (ha _ _ _).2 _ hi; omega
  · cases hi

theorem view_plain {after read} (ha : Agree after read) (p : Char → Bool) (pos : Nat) (s : Str) :
    (plainKey p after pos s).map (view pos s) = readPlain p read s := by
  unfold plainKey readPlain
  simp only [drop_takeWhile]
  rw [view_shift (n := (s.takeWhile p).length) (r := s.dropWhile p) (drop_takeWhile _ _)]
  · rw [(ha _ _ _).1]; rfl
  · intro t ht; exact (ha _ _ _).2 _ ht

theorem fin_plain {after read} (ha : Agree after read) {p : Char → Bool} {pos : Nat} {s : Str} {t : Tok}
    (h : plainKey p after pos s = some t) : pos ≤ t.fin := by
  unfold plainKey at h
  have := (ha _ _ _).2 _ h; omega

theorem view_heading (pos : Nat) (s : Str) : (headingAt pos s).map (view pos s) = readHeading s ∧
    ∀ t, headingAt pos s = some t → pos ≤ t.fin := by
  unfold headingAt readHeading
  simp only [runLen, drop_takeWhile, take_takeWhile]
  have hr : s.drop ((s.takeWhile (· == '#')).length + ((s.dropWhile (· == '#')).takeWhile isSp).length) =
      (s.dropWhile (· == '#')).dropWhile isSp := by
    rw [← List.drop_drop, drop_takeWhile, drop_takeWhile]
  rw [hr]
  have hag := agree_heading ⟨pos, pos + (s.takeWhile (· == '#')).length, s.takeWhile (· == '#')⟩ _ rfl
  generalize hrr : (s.dropWhile (· == '#')).dropWhile isSp = r at hr
  split
  · simp
  · simp
  · rename_i tl
    constructor
    · rw [view_shift hr]
      · have := view_escaped hag (pos + ((s.takeWhile (· == '#')).length + ((s.dropWhile (· == '#')).takeWhile isSp).length)) ('`' :: tl)
        simp only [← Nat.add_assoc] at this ⊢
        rw [this]
      · intro t ht; have := fin_escaped hag ht; omega
    · intro t ht; have := fin_escaped hag ht; omega
  · rename_i h1 h2 h3
    constructor
    · rw [view_shift hr]
      · have := view_plain hag (fun c => c != '<' && c != '\n')
          (pos + ((s.takeWhile (· == '#')).length + ((s.dropWhile (· == '#')).takeWhile isSp).length)) r
        simp only [← Nat.add_assoc] at this ⊢
        rw [this]
      · intro t ht; have := fin_plain hag ht; omega
    · intro t ht; have := fin_plain hag ht; omega

theorem view_dash (pos : Nat) (s : Str) : (dashAt pos s).map (view pos s) = readDash s ∧
    ∀ t, dashAt pos s = some t → pos ≤ t.fin := by
  unfold dashAt readDash
  simp only [runLen, drop_takeWhile, take_takeWhile]
  have hd : s.drop (s.takeWhile (· == '-')).length = s.dropWhile (· == '-') := drop_takeWhile _ _
  split
  · rename_i h1
    rw [h1] at hd
    constructor
    · simp only [Option.map_some, view, Line.ofBody, valueAt_text, hd]
      rw [drop_fin_eol hd]
    · intro t ht; simp at ht; rw [← ht]
      have := eolAt_ge (pos + 1) s.tail; simp only; omega
  · rw [← valueAt_text (pos + (s.takeWhile (· == '-')).length)]
    cases hv : valueAt (pos + (s.takeWhile (· == '-')).length) (s.dropWhile (· == '-')) with
    | none => simp
    | some v =>
      constructor
      · simp only [Option.map_some, view, Line.ofBody]
        rw [drop_fin_eol hd]
      · intro t ht; simp at ht; rw [← ht]
        have := eolAt_ge (pos + (s.takeWhile (· == '-')).length) (s.dropWhile (· == '-')); simp only; omega

/-- The scanner, without offsets. -/
theorem scan_view (pos : Nat) (s : Str) : (scan pos s).map (view pos s) = readLine s ∧
    ∀ t, scan pos s = some t → pos ≤ t.fin := by
  unfold scan readLine runLen
  simp only [drop_takeWhile]
  have hr : s.drop (s.takeWhile isHs).length = s.dropWhile isHs := drop_takeWhile _ _
  cases h : s.dropWhile isHs with
  | nil => simp [view, Line.ofBody, hr, h]
  | cons c t =>
    have hd : s.drop ((s.takeWhile isHs).length + 1) = t := by
      rw [← List.drop_drop, drop_takeWhile, h]; rfl
    rw [h] at hr
    have hge := eolAt_ge (pos + (s.takeWhile isHs).length + 1) t
    simp only
    split
    · simp [view, Line.ofBody, hr]
    split
    · constructor
      · simp only [Option.map_some, view, Line.ofBody, valueAt_text, Nat.add_assoc]
        rw [drop_fin_eol hd]
      · intro t' ht; simp at ht; rw [← ht]; simp only; omega
    split
    · constructor
      · simp only [Option.map_some, view, Line.ofBody, valueAt_text, Nat.add_assoc]
        rw [drop_fin_eol hd]
      · intro t' ht; simp at ht; rw [← ht]; simp only; omega
    split
    · constructor
      · simp only [Option.map_some, view, Line.ofBody, valueAt_text, Nat.add_assoc]
        rw [drop_fin_eol hd]
      · intro t' ht; simp at ht; rw [← ht]; simp only; omega
    split
    · have := view_dash (pos + (s.takeWhile isHs).length) (c :: t)
      constructor
      · rw [view_shift hr this.2, this.1]
      · intro t' ht; have := this.2 t' ht; omega
    split
    · have := view_heading (pos + (s.takeWhile isHs).length) (c :: t)
      constructor
      · rw [view_shift hr this.2, this.1]
      · intro t' ht; have := this.2 t' ht; omega
    split
    · have h1 := view_escaped agree_key (pos + (s.takeWhile isHs).length) (c :: t)
      have h2 := fun t' => fin_escaped agree_key (pos := pos + (s.takeWhile isHs).length) (s := c :: t) (t := t')
      constructor
      · rw [view_shift hr h2, h1]
      · intro t' ht; have := h2 t' ht; omega
    split
    · simp
    · have h1 := view_plain agree_key (fun c => c != '\n' && c != ':' && c != '=' && c != '<') (pos + (s.takeWhile isHs).length) (c :: t)
      have h2 := fun t' => fin_plain agree_key (p := fun c => c != '\n' && c != ':' && c != '=' && c != '<')
        (pos := pos + (s.takeWhile isHs).length) (s := c :: t) (t := t')
      constructor
      · rw [view_shift hr h2, h1]
      · intro t' ht; have := h2 t' ht; omega

end Eno
