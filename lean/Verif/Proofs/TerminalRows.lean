import Verif.Proofs.ElementErrors
import Verif.Proofs.Paint
import Verif.Props.AnalyzerProps

/-! # The rows that the terminal reporter prints -/

namespace Eno

open Spec TerminalReporter

variable {input : Str} {ctx : Ctx} {h : Heap} {index : List (Option Row)} {o : Options} {r : Row}

/-! ## Comments and other rows -/

/-- A row without ranges of comments. -/
def NoRemark (b : Base) : Prop := ∀ x ∈ b.ranges, x.1 ≠ .commentOperator ∧ x.1 ≠ .comment

/-- A row has the type of a comment if it is one. -/
def Dressed (r : Row) : Prop :=
  (r.type = some .comment ∧ RangeName.commentOperator ∈ r.ranges.map Prod.fst ∧ RangeName.deepCopyOperator ∉ r.ranges.map Prod.fst) ∨ ∃ ty, r.type = some ty ∧ ty ≠ .comment ∧ ty ≠ .unparsed ∧ NoRemark r.toBase

theorem noRemark_names {b : Base} {names : List RangeName} (h : HasRanges b names) (h1 : .commentOperator ∉ names) (h2 : .comment ∉ names) : NoRemark b := by
  intro x hx
  have hm : x.1 ∈ names := List.Perm.mem_iff h |>.1 (List.mem_map_of_mem hx)
  exact ⟨fun e => h1 (e ▸ hm), fun e => h2 (e ▸ hm)⟩

theorem dressed_comments (ha : analyze input = .ok ctx) {cs : Option (List Comment)} (hc : ∀ c ∈ cs.getD [], ∃ q ∈ ctx.owners, c ∈ q.1) : ∀ r ∈ commentRows cs, Dressed r := by
  intro r hr
  unfold commentRows at hr
  obtain ⟨c, hm, rfl⟩ := List.mem_map.1 hr
  obtain ⟨q, hq, hm⟩ := hc c hm
  have hn := (C10_comment_names ha).1 q hq c hm
  refine .inl ⟨rfl, hn.mem_iff.2 (by simp), fun h => ?_⟩
  have := hn.mem_iff.1 h
  split at this <;> simp at this

theorem escapeNames_free (b : Bool) : RangeName.commentOperator ∉ escapeNames b ∧ RangeName.comment ∉ escapeNames b := by cases b <;> simp [escapeNames]
theorem valueNames_free (v : Option Str) : RangeName.commentOperator ∉ valueNames v ∧ RangeName.comment ∉ valueNames v := by cases v <;> simp [valueNames]
theorem elementNames_free (e : Elem) : RangeName.commentOperator ∉ elementNames e ∧ RangeName.comment ∉ elementNames e := by
  unfold elementNames
  split
  · simp
  · split <;> simp
  · simp
  · simp
  · simp [valueNames_free]

theorem dressed_elem (ha : analyze input = .ok ctx) (S : Shadow ctx.heap h) {i : Nat} (hi : 0 < i) (hl : i < h.length) : ∀ r ∈ elemRows (h.at i), Dressed r := by
  obtain ⟨_, ok, _⟩ := complete_analyze ha
  have hl0 : i < ctx.heap.length := by rw [← S.len]; exact hl
  have hm := mem_tail hi hl0
  have hg := grown ok S
  obtain ⟨e1, e2, e3, e4, e5, e6, e7, _⟩ := still_elements (S.own i)
  obtain ⟨n1, n2, n3, n4⟩ := C10_names ha _ hm
  obtain ⟨m1, m2⟩ := C10_multiline_names ha _ hm
  have hown : ∀ x ∈ (ctx.heap.at i).items.getD [] ++ (ctx.heap.at i).entries.getD [], ∀ c ∈ x.comments.getD [], ∃ q ∈ ctx.owners, c ∈ q.1 := by
    intro x hx c hc
    refine ⟨(x.comments.getD [], x.piece), ?_, hc⟩
    unfold Ctx.owners
    refine List.mem_flatMap.2 ⟨_, hm, ?_⟩
    unfold Elem.owners
    rcases List.mem_append.1 hx with hx | hx
    · exact List.mem_append_left _ (List.mem_cons_of_mem _ (List.mem_map_of_mem (f := fun x : Sub => (x.comments.getD [], x.piece)) hx))
    · exact List.mem_append_right _ (List.mem_map_of_mem (f := fun x : Sub => (x.comments.getD [], x.piece)) hx)
  have hcs : ∀ c ∈ (h.at i).comments.getD [], ∃ q ∈ ctx.owners, c ∈ q.1 := by
    intro c hc
    obtain ⟨j, hj⟩ := S.written i
    rw [hj] at hc
    have hj0 : 0 < j ∧ j < ctx.heap.length := by
      refine ⟨Nat.pos_of_ne_zero ?_, Nat.lt_of_not_le ?_⟩
      · rintro rfl; rw [ok.doc.2.2] at hc; simp at hc
      · intro hge; rw [Heap.at_ge hge] at hc; simp [Elem.document] at hc
    refine ⟨((ctx.heap.at j).comments.getD [], (ctx.heap.at j).piece), ?_, hc⟩
    unfold Ctx.owners
    refine List.mem_flatMap.2 ⟨_, mem_tail hj0.1 hj0.2, ?_⟩
    unfold Elem.owners
    exact List.mem_append_left _ (List.mem_cons_self)
  have hcont : ∀ c ∈ (ctx.heap.at i).continuations.getD [] ++ ((ctx.heap.at i).items.getD [] ++ (ctx.heap.at i).entries.getD []).flatMap (fun x => x.continuations.getD []),
      NoRemark c.toBase := by
    intro c hc
    obtain ⟨op, hop, hr⟩ := n4 c hc
    refine noRemark_names hr ?_ ?_ <;> rcases hop with rfl | rfl <;> simp [valueNames_free]
  have hsub : ∀ x ∈ (ctx.heap.at i).items.getD [] ++ (ctx.heap.at i).entries.getD [], ∀ r ∈ subRows x, Dressed r := by
    intro x hx r hr
    unfold subRows at hr
    rcases List.mem_append.1 hr with hr | hr
    · exact dressed_comments ha (hown x hx) r hr
    rcases List.mem_cons.1 hr with rfl | hr
    · refine .inr ⟨_, rfl, by split <;> simp, by split <;> simp, ?_⟩
      rcases List.mem_append.1 hx with hx | hx
      · cases q : (ctx.heap.at i).items with
        | none => rw [q] at hx; cases hx
        | some xs =>
          rw [q] at hx
          refine noRemark_names (n2 xs q x hx) ?_ ?_ <;> simp [valueNames_free]
      · cases q : (ctx.heap.at i).entries with
        | none => rw [q] at hx; cases hx
        | some xs =>
          rw [q] at hx
          obtain ⟨esc, hr⟩ := n3 xs q x hx
          refine noRemark_names hr ?_ ?_ <;> simp [valueNames_free, escapeNames_free]
    · unfold contRows at hr
      obtain ⟨c, hc, rfl⟩ := List.mem_map.1 hr
      exact .inr ⟨_, rfl, by simp, by simp, hcont c (List.mem_append_right _ (List.mem_flatMap.2 ⟨x, hx, hc⟩))⟩
  intro r hr
  unfold elemRows at hr
  rcases List.mem_append.1 hr with hr | hr
  · exact dressed_comments ha hcs r hr
  rcases List.mem_cons.1 hr with rfl | hr
  · have ht := hg.types i hi hl
    refine .inr ⟨_, rfl, ?_, ?_, ?_⟩
    · intro e; rw [e] at ht; simp at ht
    · intro e; rw [e] at ht; simp at ht
    · obtain ⟨esc, hr⟩ := n1
      rw [← e7] at hr
      refine noRemark_names hr ?_ ?_ <;> simp [elementNames_free, escapeNames_free]
  · split at hr
    · unfold contRows at hr
      rw [e4] at hr
      obtain ⟨c, hc, rfl⟩ := List.mem_map.1 hr
      exact .inr ⟨_, rfl, by simp, by simp, hcont c (List.mem_append_left _ hc)⟩
    · rw [e5, e6] at hr
      rcases List.mem_append.1 hr with hr | hr
      · obtain ⟨b, hb, rfl⟩ := List.mem_map.1 hr
        refine .inr ⟨_, rfl, by simp, by simp, ?_⟩
        simp only [Option.mem_toList] at hb
        refine noRemark_names (m2 b hb) ?_ ?_ <;> simp
      · obtain ⟨b, hb, rfl⟩ := List.mem_map.1 hr
        refine .inr ⟨_, rfl, by simp, by simp, ?_⟩
        cases q : (ctx.heap.at i).lines with
        | none => rw [q] at hb; cases hb
        | some ls =>
          rw [q] at hb
          refine noRemark_names (m1 ls q b hb) ?_ ?_ <;> simp
    · rw [e2] at hr
      obtain ⟨x, hx, hr⟩ := List.mem_flatMap.1 hr
      exact hsub x (List.mem_append_left _ hx) r hr
    · rw [e3] at hr
      obtain ⟨x, hx, hr⟩ := List.mem_flatMap.1 hr
      exact hsub x (List.mem_append_right _ hx) r hr
    · cases hr

theorem index_dressed (ha : analyze input = .ok ctx) (S : Shadow ctx.heap h) (e : buildIndex { ctx with heap := h } = .ok index) {n : Nat}
    (hr : index.getD n none = some r) : Dressed r := by
  obtain ⟨_, ok, _⟩ := complete_analyze ha
  have g := grown ok S
  obtain ⟨rows, h1, h2, _⟩ := traverse_ok g (h.length + 1) 0 (by omega)
  unfold buildIndex at e
  simp only [h1] at e
  rw [putAll_getD e] at hr
  have h0 : (List.replicate ctx.lineCount (none : Option Row)).getD n none = none := by
    simp only [List.getD, List.getElem?_replicate]; split <;> rfl
  rw [h0, Option.or_none] at hr
  obtain ⟨r', hr', q⟩ := List.mem_map.1 (lastWrite_mem hr)
  injection q with _ q
  subst q
  rcases List.mem_append.1 hr' with hr' | hr'
  · obtain ⟨j, hj, hl, hr'⟩ := h2 _ hr'
    exact dressed_elem ha S hj hl _ hr'
  · obtain ⟨m, hm, rfl⟩ := List.mem_map.1 hr'
    obtain ⟨c, rfl, _⟩ := (C10_comments ha).2 m hm
    have hn := (C10_comment_names ha).2 c hm
    refine .inl ⟨rfl, hn.mem_iff.2 (by simp), fun h => ?_⟩
    have := hn.mem_iff.1 h
    split at this <;> simp at this

/-! ## Contents -/

/-- What is printed for a line is shown as the line, in its colours. -/
theorem content_shown {c : Str} (hE : escape ∉ input) (hR : RangesOk input r.toBase) (hA : Apart r.toBase) (hD : Dressed r) (hc : TerminalReporter.content input (some r) = .ok c)
    (t : Str) : readTerminal .text [] (c ++ t) = stretch input r.toBase r.span.1 r.span.2 ++ readTerminal .text [] t := by
  rcases hD with ⟨h1, h2, _⟩ | ⟨ty, h1, h2, h3, h4⟩
  · unfold TerminalReporter.content at hc
    simp only [h1, true_or, if_true, Except.ok.injEq] at hc
    subst hc
    have : Styles BRIGHT_BLACK [chars!"90"] := by intro t; simp [BRIGHT_BLACK, esc, readTerminal, escape]
    rw [List.append_assoc, List.append_assoc, this]
    rw [show sourceText input r.toBase = slice input r.span.1 r.span.2 from rfl, shown_plain (slice_free hE), shown_reset]
    congr 1
    symm
    refine stretch_cells hR.inside fun i _ _ => ?_
    unfold lookAt
    rw [if_pos h2]
  · unfold TerminalReporter.content at hc
    simp only [h1, h2, h3, or_self, if_false] at hc
    have hnc : RangeName.commentOperator ∉ r.ranges.map Prod.fst := by
      intro hm
      obtain ⟨x, hx, e⟩ := List.mem_map.1 hm
      exact (h4 x hx).1 e
    refine paint_all (b := r.toBase) hE hR.inside hnc (painted r.toBase) r.span.2 [] c (painted_apart hA) ?_ ?_ hR.le (Nat.le_refl _) ?_ ?_ t
    · intro x hx
      obtain ⟨h5, h6⟩ := painted_mem.1 hx
      obtain ⟨h7, h8, h9⟩ := hR.within x.1 x.2 h5
      exact ⟨h5, h6, h7, h8, h9⟩
    · intro x hx hxl
      exact .inl (painted_mem.2 ⟨hx, hxl⟩)
    · intro t; rw [stretch_nil]; rfl
    · rw [List.append_nil]; exact hc

theorem paints_ok {lb : Nat} : ∀ (rs : Ranges) (c : Str), (∀ x ∈ rs, ∃ s, rangeStyle x.1 = .ok s) → ∃ out, rs.foldlM (paint input lb) c = .ok out
  | [], c, _ => ⟨c, rfl⟩
  | x :: rs, c, h => by
    obtain ⟨s, hs⟩ := h x (by simp)
    have e : ∃ c', paint input lb c x = .ok c' := by unfold paint; rw [hs]; exact ⟨_, rfl⟩
    obtain ⟨c', e⟩ := e
    obtain ⟨out, ho⟩ := paints_ok (lb := lb) rs c' (fun y hy => h y (by simp [hy]))
    refine ⟨out, ?_⟩
    rw [List.foldlM_cons, e]; exact ho

theorem terminal_content (hD : Dressed r) (hN : RangeName.deepCopyOperator ∉ r.ranges.map Prod.fst) : ∃ c, TerminalReporter.content input (some r) = .ok c := by
  rcases hD with ⟨h1, h2, _⟩ | ⟨ty, h1, h2, h3, h4⟩
  · unfold TerminalReporter.content
    simp only [h1, true_or, if_true]
    exact ⟨_, rfl⟩
  · unfold TerminalReporter.content
    simp only [h1, h2, h3, or_self, if_false]
    refine paints_ok _ _ fun x hx => ?_
    obtain ⟨h5, h6⟩ := (painted_mem (b := r.toBase)).1 hx
    have h7 := h4 x h5
    have h8 : x.1 ≠ .deepCopyOperator := fun e => hN (e ▸ List.mem_map_of_mem h5)
    generalize x.1 = n at h6 h7 h8
    cases n <;> first | exact ⟨_, rfl⟩ | simp_all

/-! ## Rows -/

/-- The row that is printed for a line with its tag. -/
def termRow (index : List (Option Row)) (x : Nat × Tag) : TermRow :=
  if x.2 = .omission then .omitted else .line (markOf x.2) (x.1 + 1) ((index.getD x.1 none).map Row.toBase)

theorem termRow_row (x : Nat × Tag) : (termRow index x).row input = rowOf (content input index) x := by
  unfold termRow rowOf content
  split
  · rfl
  · cases index.getD x.1 none <;> rfl

theorem decimal_calm (n : Nat) : escape ∉ decimal n := by
  intro h
  have := Nat.isDigit_of_mem_toDigits (by omega) (by omega) h
  simp [escape, Char.isDigit] at this

theorem rjust_calm {w : Nat} {s : Str} (h : escape ∉ s) : escape ∉ rjust w s := by
  unfold rjust
  intro hm
  rcases List.mem_append.1 hm with hm | hm
  · have := (List.mem_replicate.1 hm).2
    simp [escape] at this
  · exact h hm

/-- All that is known of the lines of an index. -/
structure Paintable (input : Str) (index : List (Option Row)) : Prop where
  free : escape ∉ input
  row : ∀ n r, index.getD n none = some r → RangesOk input r.toBase ∧ Apart r.toBase ∧ Dressed r

theorem gutter_shown {t : Tag} {style s : Str} {c : Char} (h1 : gutterStyle t = .ok style) (h2 : indicator t = .ok c) (hs : escape ∉ s) (u : Str) :
    readTerminal .text [] (style ++ [' ', c, ' '] ++ s ++ [' '] ++ RESET ++ u) =
      cells (markOf t).look (' ' :: (markOf t).sign :: ' ' :: (s ++ [' '])) ++ readTerminal .text [] u := by
  have key : Styles style (markOf t).look ∧ c = (markOf t).sign ∧ c ≠ escape := by
    cases t <;> simp only [gutterStyle, indicator, Except.ok.injEq, reduceCtorEq] at h1 h2 <;> subst h1 <;> subst h2 <;> refine ⟨?_, rfl, by decide⟩ <;> intro u <;>
      simp [BRIGHT_BLACK_BACKGROUND, BRIGHT_RED_BACKGROUND, BLACK, WHITE_BACKGROUND, esc, readTerminal, escape, markOf, Mark.look]
  obtain ⟨k1, rfl, k2⟩ := key
  have e : style ++ [' ', (markOf t).sign, ' '] ++ s ++ [' '] ++ RESET ++ u = style ++ ((' ' :: (markOf t).sign :: ' ' :: (s ++ [' '])) ++ (RESET ++ u)) := by simp
  rw [e, k1, shown_plain, shown_reset]
  intro hm
  simp only [List.mem_cons, List.mem_append, List.not_mem_nil, or_false] at hm
  rcases hm with hm | hm | hm | hm | hm
  · simp [escape] at hm
  · exact k2 hm.symm
  · simp [escape] at hm
  · exact hs hm
  · simp [escape] at hm

theorem line_shown {w n : Nat} {t : Tag} {s : Str} (P : Paintable input index) (hs : TerminalReporter.line w input index n t = .ok s) (u : Str) :
    readTerminal .text [] (s ++ u) = (termRow index (n, t)).shown input w ++ readTerminal .text [] u := by
  unfold TerminalReporter.line at hs
  unfold termRow
  by_cases ht : t = .omission
  · subst ht
    simp only [if_true, Except.ok.injEq] at hs ⊢
    subst hs
    have k : Styles (DIM ++ BRIGHT_BLACK_BACKGROUND) [chars!"2", chars!"40"] := by intro u; simp [DIM, BRIGHT_BLACK_BACKGROUND, esc, readTerminal, escape]
    have e : DIM ++ BRIGHT_BLACK_BACKGROUND ++ rjust (w + 2) ['.', '.', '.'] ++ [' ', ' '] ++ RESET ++ u =
        (DIM ++ BRIGHT_BLACK_BACKGROUND) ++ ((rjust (w + 2) (chars!"...") ++ chars!"  ") ++ (RESET ++ u)) := by simp
    rw [e, k, shown_plain, shown_reset]
    · rfl
    · intro hm
      rcases List.mem_append.1 hm with hm | hm
      · exact rjust_calm (by simp [escape]) hm
      · simp [escape] at hm
  · simp only [if_neg ht] at hs ⊢
    cases hc : TerminalReporter.content input (index.getD n none) with
    | error e => rw [hc] at hs; cases hs
    | ok c =>
      cases hg : gutterStyle t with
      | error e => rw [hc, hg] at hs; cases hs
      | ok style =>
        cases hi : indicator t with
        | error e => rw [hc, hg, hi] at hs; cases hs
        | ok d =>
          rw [hc, hg, hi] at hs
          have hs : (.ok (style ++ [' ', d, ' '] ++ rjust w (decimal (n + 1)) ++ [' '] ++ RESET ++ [' '] ++ c) : Except PyExc Str) = .ok s := hs
          injection hs with hs
          subst hs
          have e : style ++ [' ', d, ' '] ++ rjust w (decimal (n + 1)) ++ [' '] ++ RESET ++ [' '] ++ c ++ u =
            style ++ [' ', d, ' '] ++ rjust w (decimal (n + 1)) ++ [' '] ++ RESET ++ ([' '] ++ (c ++ u)) := by simp
          rw [e, gutter_shown hg hi (rjust_calm (decimal_calm _)), shown_plain (by simp [escape])]
          cases hx : index.getD n none with
          | none =>
            rw [hx] at hc
            injection hc with hc
            subst hc
            simp [TermRow.shown, cells]
          | some r =>
            rw [hx] at hc
            obtain ⟨p1, p2, p3⟩ := P.row n r hx
            rw [content_shown P.free p1 p2 p3 hc]
            simp [TermRow.shown, cells]

theorem lines_shown {w : Nat} (P : Paintable input index) : ∀ (xs : List (Nat × Tag)) (ls : List Str), allOk (xs.map fun x => TerminalReporter.line w input index x.1 x.2) = .ok ls →
    readTerminal .text [] (joinLines ls) = below (xs.map fun x => (termRow index x).shown input w)
  | [], ls, h => by
    injection h with h; subst h; rfl
  | x :: xs, ls, h => by
    rw [List.map_cons] at h
    cases hl : TerminalReporter.line w input index x.1 x.2 with
    | error e => rw [hl] at h; cases h
    | ok s =>
      rw [hl] at h
      cases hr : allOk (xs.map fun x => TerminalReporter.line w input index x.1 x.2) with
      | error e => simp only [allOk, hr] at h; cases h
      | ok ls' =>
        simp only [allOk, hr, Except.ok.injEq] at h
        subst h
        have ih := lines_shown P xs ls' hr
        cases xs with
        | nil =>
          injection hr with hr
          subst hr
          have := line_shown P hl []
          simpa [joinLines, below, readTerminal] using this
        | cons y ys =>
          cases ls' with
          | nil =>
            exfalso
            rw [List.map_cons] at hr
            cases h1 : TerminalReporter.line w input index y.1 y.2 with
            | error e => rw [h1] at hr; cases hr
            | ok s1 =>
              rw [h1] at hr
              simp only [allOk] at hr
              split at hr <;> cases hr
          | cons l ls' =>
            have e1 : joinLines (s :: l :: ls') = s ++ (['\n'] ++ joinLines (l :: ls')) := rfl
            rw [e1, line_shown P hl, shown_plain (by simp [escape]), ih]
            rfl

theorem header_shown {w : Nat} (hs : ∀ s, o.source = some s → escape ∉ s) (u : Str) :
    readTerminal .text [] (header o w ++ u) = sourceShown w o.source ++ readTerminal .text [] u := by
  unfold header
  cases hq : o.source with
  | none => rfl
  | some s =>
    cases s with
    | nil => rfl
    | cons c cs =>
      have hf := hs _ hq
      have k1 : Styles (BLACK ++ BRIGHT_RED_BACKGROUND) [chars!"30", chars!"101"] := by intro u; simp [BLACK, BRIGHT_RED_BACKGROUND, esc, readTerminal, escape]
      have k2 : Styles BOLD [chars!"1"] := by intro u; simp [BOLD, esc, readTerminal, escape]
      have e : BLACK ++ BRIGHT_RED_BACKGROUND ++ [' ', '>', ' '] ++ rjust w [' '] ++ [' '] ++ RESET ++ [' '] ++ BOLD ++ (c :: cs) ++ RESET ++ ['\n'] ++ u =
          (BLACK ++ BRIGHT_RED_BACKGROUND) ++ ((chars!" > " ++ rjust w [' '] ++ [' ']) ++ (RESET ++ ([' '] ++ (BOLD ++ ((c :: cs) ++ (RESET ++ (['\n'] ++ u))))))) := by simp
      simp only
      rw [e, k1, shown_plain, shown_reset, shown_plain (by simp [escape]), k2, shown_plain hf, shown_reset, shown_plain (by simp [escape])]
      · simp [sourceShown, cells]
      · intro hm
        simp only [List.mem_append] at hm
        rcases hm with (hm | hm) | hm
        · simp [escape] at hm
        · exact rjust_calm (by simp [escape]) hm
        · simp [escape] at hm

/-- What the reporter prints is shown as the rows of the text reporter, in colours. -/
theorem print_shown {s : Snippet} {n : Nat} {out : Str} (P : Paintable input index) (hs : ∀ s, o.source = some s → escape ∉ s)
    (hp : TerminalReporter.print o n input index s = .ok out) :
    screen out = sourceShown (padding n) o.source ++ below ((shown s).map fun x => (termRow index x).shown input (padding n)) := by
  unfold TerminalReporter.print printLines at hp
  cases hl : allOk ((shown s).map fun x => TerminalReporter.line (padding n) input index x.1 x.2) with
  | error e =>
    rw [hl] at hp; cases hp
  | ok ls =>
    rw [hl] at hp
    have hp : (.ok (header o (padding n) ++ joinLines ls) : Except PyExc Str) = .ok out := hp
    injection hp with hp
    subst hp
    unfold screen
    rw [header_shown hs, lines_shown P _ _ hl]

/-! ## Contexts -/

variable {ctx' : Ctx}

/-- A context of an input that could be analyzed, as resolving leaves it. -/
structure Reported (input : Str) (ctx ctx' : Ctx) : Prop where
  analysed : analyze input = .ok ctx
  shadow : Shadow ctx.heap ctx'.heap
  source : ctx'.input = input
  metas : ctx'.metas = ctx.metas
  lineCount : ctx'.lineCount = ctx.lineCount

theorem reported_load (hl : load input = .ok ctx') : ∃ ctx, Reported input ctx ctx' := by
  obtain ⟨ctx, ha, _⟩ := load_ok_analyze hl
  obtain ⟨_, _, hin⟩ := complete_analyze ha
  rcases load_cases ha with ⟨c, e1, _, e3, e4, e5, _⟩ | ⟨x, e1, _⟩
  · rw [e1] at hl; injection hl with hl; subst hl
    exact ⟨ctx, ha, load_shadow ha e1, by rw [e3, hin], e4, e5⟩
  · rw [e1] at hl; cases hl

theorem Reported.indexed (R : Reported input ctx ctx') :
    ∃ index, buildIndex ctx' = .ok index ∧ Indexed ctx' index ∧ ∀ n r, index.getD n none = some r → RangesOk input r.toBase ∧ Apart r.toBase ∧ Dressed r := by
  obtain ⟨C, ok, hin⟩ := complete_analyze R.analysed
  obtain ⟨B, K⟩ := C.chart
  have g := grown ok R.shadow
  have K' := K.shadow ok R.shadow
  obtain ⟨index, e, I⟩ := buildIndex_ok (ctx := { ctx with heap := ctx'.heap }) g K'
  have e' : buildIndex ctx' = .ok index := by
    rw [← e]
    unfold buildIndex
    simp only [R.metas, R.lineCount]
  have hins : ({ ctx with heap := ctx'.heap } : Ctx).instructions = ctx'.instructions := by simp only [Ctx.instructions, R.metas]
  refine ⟨index, e', ⟨by rw [I.length, R.lineCount], fun n r h => by have := I.sound n r h; rwa [hins] at this, fun b hb => I.complete b (by rw [hins]; exact hb)⟩, ?_⟩
  intro n r hr
  have hm := (shadow_instructions ok R.shadow _).1 (I.sound n r hr).2
  exact ⟨C10_ranges R.analysed _ hm, C10_apart R.analysed _ hm, index_dressed R.analysed R.shadow e hr⟩

theorem paints_deep {lb : Nat} : ∀ (rs : Ranges) (c : Str), (∃ x ∈ rs, x.1 = RangeName.deepCopyOperator) → ∃ e, rs.foldlM (paint input lb) c = .error e
  | [], _, ⟨_, h, _⟩ => by cases h
  | x :: rs, c, ⟨y, hy, e⟩ => by
    rw [List.foldlM_cons]
    cases hp : paint input lb c x with
    | error e' => exact ⟨e', rfl⟩
    | ok c' =>
      rcases List.mem_cons.1 hy with rfl | hy
      · exfalso
        unfold paint at hp
        rw [e] at hp
        cases hp
      · exact paints_deep rs c' ⟨y, hy, e⟩

theorem content_deep (hD : Dressed r) (h : RangeName.deepCopyOperator ∈ r.ranges.map Prod.fst) : ∃ e, TerminalReporter.content input (some r) = .error e := by
  rcases hD with ⟨_, _, h1⟩ | ⟨ty, h1, h2, h3, h4⟩
  · exact absurd h h1
  · unfold TerminalReporter.content
    simp only [h1, h2, h3, or_self, if_false]
    obtain ⟨x, hx, e⟩ := List.mem_map.1 h
    exact paints_deep _ _ ⟨x, (painted_mem (b := r.toBase)).2 ⟨hx, by rw [e]; simp⟩, e⟩

theorem line_deep {w n : Nat} {t : Tag} (hD : ∀ r, index.getD n none = some r → Dressed r) :
    (∃ s, TerminalReporter.line w input index n t = .ok s) ↔ ¬ (termRow index (n, t)).Deep := by
  unfold TerminalReporter.line termRow
  by_cases ht : t = .omission
  · subst ht
    simp only [if_true]
    exact ⟨fun _ h => h, fun _ => ⟨_, rfl⟩⟩
  · simp only [if_neg ht]
    obtain ⟨style, h1⟩ : ∃ s, gutterStyle t = .ok s := by cases t <;> first | exact ⟨_, rfl⟩ | exact absurd rfl ht
    obtain ⟨c, h2⟩ : ∃ s, indicator t = .ok s := by cases t <;> first | exact ⟨_, rfl⟩ | exact absurd rfl ht
    cases hx : index.getD n none with
    | none =>
      refine ⟨fun _ h => h, fun _ => ?_⟩
      rw [h1, h2]
      exact ⟨_, rfl⟩
    | some r =>
      have hd := hD r hx
      simp only [Option.map_some, TermRow.Deep]
      by_cases hq : RangeName.deepCopyOperator ∈ r.ranges.map Prod.fst
      · refine ⟨?_, fun h => absurd hq h⟩
        rintro ⟨s, hs⟩
        obtain ⟨e, he⟩ := content_deep (input := input) hd hq
        rw [he] at hs; cases hs
      · refine ⟨fun _ => hq, fun _ => ?_⟩
        obtain ⟨cc, hc⟩ := terminal_content (input := input) hd hq
        rw [hc, h1, h2]
        exact ⟨_, rfl⟩

theorem allOk_iff {α : Type} : ∀ (l : List (Except PyExc α)), (∃ ys, allOk l = .ok ys) ↔ ∀ x ∈ l, ∃ y, x = .ok y
  | [] => ⟨fun _ => by simp, fun _ => ⟨[], rfl⟩⟩
  | .error e :: t => by
    constructor
    · rintro ⟨ys, h⟩; cases h
    · intro h
      obtain ⟨y, h⟩ := h (.error e) (by simp)
      cases h
  | .ok a :: t => by
    have ih := allOk_iff t
    constructor
    · rintro ⟨ys, h⟩ x hx
      rcases List.mem_cons.1 hx with rfl | hx
      · exact ⟨a, rfl⟩
      · refine ih.1 ?_ x hx
        simp only [allOk] at h
        split at h
        · cases h
        · exact ⟨_, by assumption⟩
    · intro h
      obtain ⟨ys, hy⟩ := ih.2 (fun x hx => h x (by simp [hx]))
      exact ⟨a :: ys, by simp [allOk, hy]⟩

/-- It depends on the operators of deep copies in the rows whether anything is printed. -/
theorem print_deep {s : Snippet} {n : Nat} (hD : ∀ n r, index.getD n none = some r → Dressed r) :
    (∃ out, TerminalReporter.print o n input index s = .ok out) ↔ ∀ x ∈ (shown s).map (termRow index), ¬ x.Deep := by
  have key := allOk_iff ((shown s).map fun x => TerminalReporter.line (padding n) input index x.1 x.2)
  have e : (∃ out, TerminalReporter.print o n input index s = .ok out) ↔ ∃ ys, allOk ((shown s).map fun x => TerminalReporter.line (padding n) input index x.1 x.2) = .ok ys := by
    unfold TerminalReporter.print printLines
    have e2 : ((shown s).map fun x : Nat × Tag => match x with | (n_1, t) => TerminalReporter.line (padding n) input index n_1 t) =
      (shown s).map fun x => TerminalReporter.line (padding n) input index x.1 x.2 := rfl
    rw [e2]
    cases allOk ((shown s).map fun x => TerminalReporter.line (padding n) input index x.1 x.2) with
    | error e => simp [Except.map]
    | ok ls => simp [Except.map]
  rw [e, key]
  constructor
  · intro h x hx
    obtain ⟨y, hy, rfl⟩ := List.mem_map.1 hx
    exact (line_deep (fun r => hD _ r)).1 (h _ (List.mem_map_of_mem hy))
  · intro h x hx
    obtain ⟨y, hy, rfl⟩ := List.mem_map.1 hx
    exact (line_deep (fun r => hD _ r)).2 (h _ (List.mem_map_of_mem hy))

/-- The whole of it: what the text reporter prints, when the terminal reporter prints anything, and what is shown then. -/
theorem Reported.terminal (R : Reported input ctx ctx') {report : Snippet → Except PyExc Snippet} {s : Snippet}
    (hr : report (List.replicate ctx'.lineCount none) = .ok s) : ∃ rows,
    makeSnippet { o with reporter := .text } ctx' report = .ok (plainSnippet o (rows.map (TermRow.row input))) ∧ AboutLines ctx' rows ∧
    ((∃ out, makeSnippet { o with reporter := .terminal } ctx' report = .ok out) ↔ ∀ x ∈ rows, ¬ x.Deep) ∧
    (escape ∉ input → (∀ s, o.source = some s → escape ∉ s) → ∀ out, makeSnippet { o with reporter := .terminal } ctx' report = .ok out →
      screen out = sourceShown (max 4 (decimal ctx'.lineCount).length) o.source ++ below (rows.map (TermRow.shown input (max 4 (decimal ctx'.lineCount).length)))) := by
  obtain ⟨index, hi, I, hP⟩ := R.indexed
  refine ⟨(shown (window s)).map (termRow index), ?_, ?_, ?_, ?_⟩
  · unfold makeSnippet
    simp only [hi, hr, text_print, R.source]
    rw [List.map_map]
    simp only [rowsOf, Function.comp_def, termRow_row]
    rfl
  · intro m n b hm
    obtain ⟨x, hx, e⟩ := List.mem_map.1 hm
    unfold termRow at e
    split at e
    · cases e
    · injection e with e1 e2 e3
      subst e2
      cases hq : index.getD x.1 none with
      | none =>
        rw [hq] at e3; subst e3
        intro b hb hn
        obtain ⟨r, hr, _⟩ := I.complete b hb
        rw [show b.line = x.1 by omega, hq] at hr
        cases hr
      | some r =>
        rw [hq] at e3; subst e3
        obtain ⟨h1, h2⟩ := I.sound _ _ hq
        exact ⟨h2, by omega⟩
  · unfold makeSnippet
    simp only [hi, hr]
    exact print_deep fun n r h => (hP n r h).2.2
  · intro hE hs out ho
    unfold makeSnippet at ho
    simp only [hi, hr, R.source] at ho
    have := print_shown (o := { o with reporter := .terminal }) ⟨hE, hP⟩ hs ho
    rw [this, List.map_map]
    rfl

theorem print_fails {s : Snippet} {n : Nat} {e : PyExc} (h : TerminalReporter.print o n input index s = .error e) : e = .keyError := by
  unfold TerminalReporter.print printLines at h
  have key : ∀ (l : List (Nat × Tag)) (e : PyExc), allOk (l.map fun x => TerminalReporter.line (padding n) input index x.1 x.2) = .error e → e = .keyError := by
    intro l
    induction l with
    | nil => intro e h; cases h
    | cons x l ih =>
      intro e h
      rw [List.map_cons] at h
      cases hl : TerminalReporter.line (padding n) input index x.1 x.2 with
      | error y =>
        rw [hl] at h
        injection h with h; subst h
        exact terminal_line_fails hl
      | ok c =>
        rw [hl] at h
        cases hr : allOk (l.map fun x => TerminalReporter.line (padding n) input index x.1 x.2) with
        | error y =>
          simp only [allOk, hr] at h
          injection h with h; subst h
          exact ih _ hr
        | ok ys => simp only [allOk, hr] at h; cases h
  cases hl : allOk ((shown s).map fun x => TerminalReporter.line (padding n) input index x.1 x.2) with
  | error y =>
    rw [hl] at h
    injection h with h; subst h
    exact key _ _ hl
  | ok ys => rw [hl] at h; cases h

end Eno
