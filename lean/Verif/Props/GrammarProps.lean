import Verif.Proofs.SpaceLemmas

/-!
# C01–C04, C06: the line grammar

`tokAt pos s` is the regular expression of `grammar_regex.py` run by the backtracking matcher at offset `pos`,
where `s` is the input from `pos` on, followed by the analyzer's reading of the groups.
-/

namespace Eno
open Spec

/-! ## C01 -/

/-- At every offset of every input the compiled pattern, and the groups the analyzer reads from it, describe
exactly the line that the specification's scanner describes; where the scanner finds no line nothing matches. -/
theorem C01_grammar_exact (pos : Nat) (s : Str) : tokAt pos s = scan pos s := tokAt_eq pos s

/-- The same without offsets: what a line says and where it ends. -/
theorem C01_lines_exact (pos : Nat) (s : Str) :
    (tokAt pos s).map (fun t => (Line.ofBody t.body, s.drop (t.fin - pos))) = readLine s := by
  rw [tokAt_eq]; exact (scan_view pos s).1

/-- A match always sets the groups that the analyzer's branch for it reads. -/
theorem C01_groups_present (pos : Nat) (s : Str) (st : St) (h : recognise pos s = some st) : ∃ t, tokOf st = some t := by
  have := matchAt_REGEX pos s
  rw [recognise_eq] at h
  rw [h] at this
  cases hs : scan pos s with
  | none => rw [hs] at this; simp at this
  | some t => rw [hs] at this; exact ⟨t, by simpa using this⟩

-- a line of each kind is recognised, and a line without operator is not
example : (tokAt 0 (chars!"  color :  red \nx")).map (·.body) =
    some (.element (.plain ⟨2, 7, chars!"color"⟩) ⟨8, 9, [':']⟩ (some ⟨11, 14, chars!"red"⟩)) := by decide +kernel
example : tokAt 0 (chars!"just text\n") = none := by decide +kernel
example : (readLine (chars!"## `a < b` << c\nrest")) = some (.heading 2 (chars!"a < b") (some (true, chars!"c")), chars!"\nrest") := by
  decide +kernel
example : (recognise 3 (chars!"- item")).isSome = true := by decide +kernel

/-! ## C02 -/

/-- A field with an unescaped key. -/
theorem C02_field_line {k v : Str} (hk : PlainKey k) (hv : Trimmed v) {p0 p1 p2 p3 rest : Str}
    (h0 : Blank p0) (h1 : Blank p1) (h2 : Blank p2) (h3 : Blank p3) (hr : LineEnd rest) (pos : Nat) :
    (tokAt pos (p0 ++ (k ++ (p1 ++ (':' :: (p2 ++ (v ++ (p3 ++ rest)))))))).map (·.body) =
      some (.element (.plain ⟨pos + p0.length, pos + p0.length + k.length, k⟩)
        ⟨pos + p0.length + k.length + p1.length, pos + p0.length + k.length + p1.length + 1, [':']⟩
        (some ⟨pos + p0.length + k.length + p1.length + 1 + p2.length,
          pos + p0.length + k.length + p1.length + 1 + p2.length + v.length, v⟩)) := by
  rw [tokAt_eq, scan_indent h0, scan_plainKey hk h1 (.inl rfl), afterKey_element, valueAt_padded h2 h3 hv hr]
  rfl

/-- An element without value. -/
theorem C02_empty_line {k : Str} (hk : PlainKey k) {p0 p1 p2 rest : Str}
    (h0 : Blank p0) (h1 : Blank p1) (h2 : Blank p2) (hr : LineEnd rest) (pos : Nat) :
    (tokAt pos (p0 ++ (k ++ (p1 ++ (':' :: (p2 ++ rest)))))).map (·.body) =
      some (.element (.plain ⟨pos + p0.length, pos + p0.length + k.length, k⟩)
        ⟨pos + p0.length + k.length + p1.length, pos + p0.length + k.length + p1.length + 1, [':']⟩ none) := by
  rw [tokAt_eq, scan_indent h0, scan_plainKey hk h1 (.inl rfl), afterKey_element, valueAt_blank h2 hr]
  rfl

example : PlainKey (chars!"my key 2") where
  oneLine := by decide
  head := ⟨'m', chars!"y key 2", rfl, by decide⟩
  last := ⟨chars!"my key ", '2', rfl, by decide⟩
  start := by rintro c t ⟨⟩; decide
  noOp := by decide
example : Trimmed (chars!"a: b # c") where
  oneLine := by decide
  head := ⟨'a', chars!": b # c", rfl, by decide⟩
  last := ⟨chars!"a: b # ", 'c', rfl, by decide⟩
example : Blank (chars!" \t") := by decide

/-! ## C03 -/

/-- Between `n` backticks, kept apart by blanks where needed, every key that contains no run of `n` backticks can be written. -/
theorem C03_escaped_key_line {k : Str} (hk : Trimmed k) {n : Nat} (hn : 0 < n) (hinf : ¬ rep n '`' <:+: k) {p0 p1 p2 p3 t : Str}
    (h0 : Blank p0) (h1 : Blank p1) (h2 : Blank p2) (h3 : Blank p3)
    (hfst : p1 ≠ [] ∨ ∀ u, k ≠ '`' :: u) (hlst : p2 ≠ [] ∨ ∀ u, k ≠ u ++ ['`']) (pos : Nat) :
    ∃ b c e o v, (tokAt pos (p0 ++ (rep n '`' ++ (p1 ++ (k ++ (p2 ++ (rep n '`' ++ (p3 ++ ':' :: t)))))))).map (·.body) =
      some (.element (.escaped b ⟨pos + p0.length + n + p1.length, c, k⟩ e) o v) ∧ v = valueAt o.e t := by
  rw [tokAt_eq, scan_indent h0]
  have hs : ∀ x q, scan q (rep n '`' ++ x) = escapedKey afterKey q (rep n '`' ++ x) := by
    intro x q
    obtain ⟨m, rfl⟩ : ∃ m, n = m + 1 := ⟨n - 1, by omega⟩
    simp only [rep, List.replicate_succ, List.cons_append]
    rw [scan_head (by decide)]
    simp
  rw [hs]
  have key := fun tk => escapedKey_padded (after := afterKey) (t := p3 ++ ':' :: t) hn hk h1 h2 hinf hfst hlst (pos + p0.length) tk
  rw [key _ ((afterKey_blank h3 _ _ _).trans (afterKey_element _ _ _))]
  exact ⟨_, _, _, _, _, rfl, rfl⟩

/-- Hence every key can be written. -/
theorem C03_every_key_writable {k : Str} (hk : Trimmed k) : ∃ n, 0 < n ∧ ∀ (t : Str) (pos : Nat),
    (tokAt pos (rep n '`' ++ (' ' :: (k ++ (' ' :: (rep n '`' ++ ':' :: t)))))).map (fun x => Line.ofBody x.body) =
      some (.element k (valueOf t)) := by
  refine ⟨k.length + 1, by omega, fun t pos => ?_⟩
  have hinf : ¬ rep (k.length + 1) '`' <:+: k := by
    intro h
    have := h.length_le
    simp [rep] at this; omega
  have hb : Blank [' '] := by decide
  obtain ⟨b, c, e, o, v, h1, h2⟩ := C03_escaped_key_line hk (Nat.succ_pos _) hinf (p0 := []) (p1 := [' ']) (p2 := [' ']) (p3 := [])
    (by decide) hb hb (by decide) (by simp) (by simp) (t := t) pos
  simp only [List.nil_append, List.cons_append] at h1
  cases ht : tokAt pos (rep (k.length + 1) '`' ++ ' ' :: (k ++ ' ' :: (rep (k.length + 1) '`' ++ ':' :: t))) with
  | none => rw [ht] at h1; simp at h1
  | some x =>
    rw [ht] at h1
    simp only [Option.map_some, Option.some.injEq] at h1 ⊢
    rw [h1, Line.ofBody, h2, valueAt_text]
    rfl

-- a key made of operators and backticks
example : (tokAt 0 (chars!"``` ``a`: # ```: v")).map (fun x => Line.ofBody x.body) = some (.element (chars!"``a`: #") (some (chars!"v"))) := by
  decide +kernel

/-! ## C04 -/

variable {k v p0 p1 p2 p3 p4 p5 rest : Str}

/-- List items; a value that starts with a dash has to be kept apart from the operator. -/
theorem C04_list_item (hv : Trimmed v) (h0 : Blank p0) (h1 : Blank p1) (h2 : Blank p2) (hr : LineEnd rest)
    (hsep : p1 ≠ [] ∨ ∀ u, v ≠ '-' :: u) (pos : Nat) :
    (tokAt pos (p0 ++ '-' :: (p1 ++ (v ++ (p2 ++ rest))))).map (fun t => Line.ofBody t.body) = some (.listItem (some v)) := by
  rw [tokAt_eq, scan_indent h0, scan_listItem, valueAt_padded h1 h2 hv hr]
  · rfl
  · intro u hu
    cases p1 with
    | nil =>
      obtain ⟨a, b, rfl, _⟩ := hv.head
      rcases hsep with h | h
      · exact h rfl
      · simp at hu; rw [hu.1] at h; exact h b rfl
    | cons a b =>
      have := h1 a (by simp)
      simp at hu; rw [hu.1] at this; exact absurd this (by decide)

theorem C04_empty_list_item (h0 : Blank p0) (h1 : Blank p1) (hr : LineEnd rest) (pos : Nat) :
    (tokAt pos (p0 ++ '-' :: (p1 ++ rest))).map (fun t => Line.ofBody t.body) = some (.listItem none) := by
  rw [tokAt_eq, scan_indent h0, scan_listItem, valueAt_blank h1 hr]
  · rfl
  · intro u hu
    cases p1 with
    | nil => rcases hr with rfl | ⟨t, rfl⟩ <;> simp at hu
    | cons a b =>
      have := h1 a (by simp)
      simp at hu; rw [hu.1] at this; exact absurd this (by decide)

/-- Fieldset entries. -/
theorem C04_entry (hk : PlainKey k) (hv : Trimmed v) (h0 : Blank p0) (h1 : Blank p1) (h2 : Blank p2) (h3 : Blank p3) (hr : LineEnd rest) (pos : Nat) :
    (tokAt pos (p0 ++ (k ++ (p1 ++ ('=' :: (p2 ++ (v ++ (p3 ++ rest)))))))).map (fun t => Line.ofBody t.body) = some (.entry k (some v)) := by
  rw [tokAt_eq, scan_indent h0, scan_plainKey hk h1 (.inr (.inl rfl)), afterKey_entry, valueAt_padded h2 h3 hv hr]
  rfl

theorem C04_empty_entry (hk : PlainKey k) (h0 : Blank p0) (h1 : Blank p1) (h2 : Blank p2) (hr : LineEnd rest) (pos : Nat) :
    (tokAt pos (p0 ++ (k ++ (p1 ++ ('=' :: (p2 ++ rest)))))).map (fun t => Line.ofBody t.body) = some (.entry k none) := by
  rw [tokAt_eq, scan_indent h0, scan_plainKey hk h1 (.inr (.inl rfl)), afterKey_entry, valueAt_blank h2 hr]
  rfl

/-- Copies. -/
theorem C04_copy (hk : PlainKey k) (hv : Trimmed v) (h0 : Blank p0) (h1 : Blank p1) (h2 : Blank p2) (h3 : Blank p3) (hr : LineEnd rest) (pos : Nat) :
    (tokAt pos (p0 ++ (k ++ (p1 ++ ('<' :: (p2 ++ (v ++ (p3 ++ rest)))))))).map (fun t => Line.ofBody t.body) = some (.copy k v) := by
  rw [tokAt_eq, scan_indent h0, scan_plainKey hk h1 (.inr (.inr rfl)), afterKey_copy h2 h3 hv hr]
  rfl

/-- Continuations, direct and spaced. -/
theorem C04_continuation (spaced : Bool) (hv : Trimmed v) (h0 : Blank p0) (h1 : Blank p1) (h2 : Blank p2) (hr : LineEnd rest) (pos : Nat) :
    (tokAt pos (p0 ++ (if spaced then '\\' else '|') :: (p1 ++ (v ++ (p2 ++ rest))))).map (fun t => Line.ofBody t.body) =
      some (.continuation spaced (some v)) := by
  rw [tokAt_eq, scan_indent h0]
  cases spaced <;> (rw [scan_head (by decide)]; simp [valueAt_padded h1 h2 hv hr, Line.ofBody])

theorem C04_empty_continuation (spaced : Bool) (h0 : Blank p0) (h1 : Blank p1) (hr : LineEnd rest) (pos : Nat) :
    (tokAt pos (p0 ++ (if spaced then '\\' else '|') :: (p1 ++ rest))).map (fun t => Line.ofBody t.body) =
      some (.continuation spaced none) := by
  rw [tokAt_eq, scan_indent h0]
  cases spaced <;> (rw [scan_head (by decide)]; simp [valueAt_blank h1 hr, Line.ofBody])

/-- Comments. -/
theorem C04_comment (hv : Trimmed v) (h0 : Blank p0) (h1 : Blank p1) (h2 : Blank p2) (hr : LineEnd rest) (pos : Nat) :
    (tokAt pos (p0 ++ '>' :: (p1 ++ (v ++ (p2 ++ rest))))).map (fun t => Line.ofBody t.body) = some (.comment (some v)) := by
  rw [tokAt_eq, scan_indent h0, scan_head (by decide)]; simp [valueAt_padded h1 h2 hv hr, Line.ofBody]

theorem C04_empty_comment (h0 : Blank p0) (h1 : Blank p1) (hr : LineEnd rest) (pos : Nat) :
    (tokAt pos (p0 ++ '>' :: (p1 ++ rest))).map (fun t => Line.ofBody t.body) = some (.comment none) := by
  rw [tokAt_eq, scan_indent h0, scan_head (by decide)]; simp [valueAt_blank h1 hr, Line.ofBody]

/-- Blank lines. -/
theorem C04_blank (h0 : Blank p0) (hr : LineEnd rest) (pos : Nat) :
    (tokAt pos (p0 ++ rest)).map (fun t => Line.ofBody t.body) = some .empty := by
  rw [tokAt_eq, scan_indent h0]
  rcases hr with rfl | ⟨t, rfl⟩
  · simp [scan, runLen, Line.ofBody]
  · rw [scan_head (by decide)]; simp [Line.ofBody]

/-- Headings of any depth with an unescaped key. -/
theorem C04_heading {n : Nat} (hn : 0 < n) (hk : PlainHeadingKey k) (h0 : Blank p0) (h1 : Blank p1) (h2 : Blank p2) (hr : LineEnd rest)
    (hsep : p1 ≠ [] ∨ ∀ u, k ≠ '#' :: u) (pos : Nat) :
    (tokAt pos (p0 ++ (rep n '#' ++ (p1 ++ (k ++ (p2 ++ rest)))))).map (fun t => Line.ofBody t.body) = some (.heading n k none) := by
  rw [tokAt_eq, scan_indent h0, headingAt_plain hn h1 hk hsep h2 (.inl hr), afterHeadingKey_plain _ h2 hr]
  simp [Line.ofBody, KeyTok.text, rep]

/-- Headings with a shallow (`<`) or deep (`<<`) copy. -/
theorem C04_heading_copy {n : Nat} (deep : Bool) (hn : 0 < n) (hk : PlainHeadingKey k) (hv : Trimmed v)
    (h0 : Blank p0) (h1 : Blank p1) (h2 : Blank p2) (h3 : Blank p3) (h4 : Blank p4) (hr : LineEnd rest)
    (hsep : p1 ≠ [] ∨ ∀ u, k ≠ '#' :: u) (hsep' : p3 ≠ [] ∨ ∀ u, v ≠ '<' :: u) (pos : Nat) :
    (tokAt pos (p0 ++ (rep n '#' ++ (p1 ++ (k ++ (p2 ++ (rep (if deep then 2 else 1) '<' ++ (p3 ++ (v ++ (p4 ++ rest)))))))))).map
      (fun t => Line.ofBody t.body) = some (.heading n k (some (deep, v))) := by
  have : ∃ u, rep (if deep then 2 else 1) '<' ++ (p3 ++ (v ++ (p4 ++ rest))) = '<' :: u := by
    cases deep <;> simp [rep, List.replicate]
  rw [tokAt_eq, scan_indent h0, headingAt_plain hn h1 hk hsep h2 (.inr this), afterHeadingKey_copy _ deep h2 h3 h4 hv hr hsep']
  cases deep <;> simp [Line.ofBody, KeyTok.text, rep]

/-- Headings with an escaped key. -/
theorem C04_heading_escaped {n m : Nat} (hn : 0 < n) (hm : 0 < m) (hk : Trimmed k) (hinf : ¬ rep m '`' <:+: k)
    (h0 : Blank p0) (h1 : Blank p1) (h2 : Blank p2) (h3 : Blank p3) (h4 : Blank p4) (hr : LineEnd rest)
    (hfst : p2 ≠ [] ∨ ∀ u, k ≠ '`' :: u) (hlst : p3 ≠ [] ∨ ∀ u, k ≠ u ++ ['`']) (pos : Nat) :
    (tokAt pos (p0 ++ (rep n '#' ++ (p1 ++ (rep m '`' ++ (p2 ++ (k ++ (p3 ++ (rep m '`' ++ (p4 ++ rest)))))))))).map
      (fun t => Line.ofBody t.body) = some (.heading n k none) := by
  rw [tokAt_eq, scan_indent h0, headingAt_escaped hn h1 hm hk h2 h3 hinf hfst hlst _ _ (afterHeadingKey_plain _ h4 hr _ _)]
  simp [Line.ofBody, KeyTok.text, rep]

/-- Openers of multiline fields. -/
theorem C04_multiline {n : Nat} (hn : 2 ≤ n) (hk : Trimmed k) (h0 : Blank p0) (h1 : Blank p1) (h2 : Blank p2) (hr : LineEnd rest)
    (hsep : p1 ≠ [] ∨ ∀ u, k ≠ '-' :: u) (pos : Nat) :
    (tokAt pos (p0 ++ (rep n '-' ++ (p1 ++ (k ++ (p2 ++ rest)))))).map (fun t => Line.ofBody t.body) = some (.multiline n k) := by
  rw [tokAt_eq, scan_indent h0, scan_multiline hn, valueAt_padded h1 h2 hk hr]
  · simp [Line.ofBody, rep]
  · intro u hu
    cases p1 with
    | nil =>
      obtain ⟨a, b, rfl, _⟩ := hk.head
      rcases hsep with h | h
      · exact h rfl
      · simp at hu; rw [hu.1] at h; exact h b rfl
    | cons a b =>
      have := h1 a (by simp)
      simp at hu; rw [hu.1] at this; exact absurd this (by decide)

example : PlainHeadingKey (chars!"a: b") where
  oneLine := by decide
  head := ⟨'a', chars!": b", rfl, by decide⟩
  last := ⟨chars!"a: ", 'b', rfl, by decide⟩
  start := by rintro c t ⟨⟩; decide
  noOp := by decide
example : ([] : Str) ≠ [] ∨ ∀ u, (chars!"a: b") ≠ '#' :: u := by right; simp
example : ¬ rep 2 '`' <:+: (chars!"a`b") := by decide
example : LineEnd (chars!"\nnext: line") := .inr ⟨_, rfl⟩
-- without the separation the operator would swallow the first character
example : (tokAt 0 (chars!"--x")).map (fun t => Line.ofBody t.body) = some (.multiline 2 (chars!"x")) := by decide +kernel

/-! ## C06 -/

/-- Indenting a line changes neither what it says nor where the next line starts. -/
theorem C06_indentation {w : Str} (hw : Blank w) (s : Str) (pos : Nat) :
    (tokAt pos (w ++ s)).map (fun t => (Line.ofBody t.body, (w ++ s).drop (t.fin - pos))) =
      (tokAt pos s).map (fun t => (Line.ofBody t.body, s.drop (t.fin - pos))) := by
  rw [C01_lines_exact, C01_lines_exact, readLine_indent hw]

/-- Neither does trailing white space. -/
theorem C06_trailing {w line rest : Str} (hw : Blank w) (hl : '\n' ∉ line) (hr : LineEnd rest) (pos : Nat) :
    (tokAt pos (line ++ (w ++ rest))).map (fun t => (Line.ofBody t.body, (line ++ (w ++ rest)).drop (t.fin - pos))) =
      (tokAt pos (line ++ rest)).map (fun t => (Line.ofBody t.body, (line ++ rest).drop (t.fin - pos))) := by
  rw [C01_lines_exact, C01_lines_exact]
  exact (padded_readLine hw hr (.inr ⟨line, hl, rfl, rfl⟩)).symm

example : (tokAt 0 (chars!"a: b \t\nc: d")).map (fun t => (Line.ofBody t.body, (chars!"a: b \t\nc: d").drop (t.fin - 0))) =
    some (.element (chars!"a") (some (chars!"b")), chars!"\nc: d") := by decide +kernel

end Eno
