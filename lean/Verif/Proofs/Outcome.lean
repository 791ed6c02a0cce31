import Verif.Proofs.Flat

/-! # What an analysis returns -/

namespace Eno

open Spec

variable {input : Str} {es : List Event} {r : Ending} {ctx : Ctx}

/-- Everything known about a successful analysis. -/
theorem analyze_facts (h : analyze input = .ok ctx) : ∃ es n s, Trace input 0 0 es (.finished n) ∧ AllLegal es ∧ Inv s ∧ Layout es s ∧
    ctx = ctxOf input n s := by
  obtain ⟨es, n, s, ht, hr, hc⟩ := analyze_ok h
  have hsh := trace_shaped ht
  obtain ⟨inv, lay⟩ := layout_runEvents es hsh hr
  rcases runEvents_legal es hsh with ⟨hL, _⟩ | ⟨pre, ev, post, s', f, _, _, _, _, he, _⟩
  · exact ⟨es, n, s, ht, hL, inv, lay, hc⟩
  · rw [he] at hr; simp at hr

/-- Every input has exactly one of these readings. -/
theorem verdict_exists (input : Str) : ∃ es r, Trace input 0 0 es r ∧
    (AllLegal es ∨ ∃ pre ev post, es = pre ++ ev :: post ∧ AllLegal pre ∧ ¬ Legal pre ev) := by
  obtain ⟨es, r, ht⟩ := trace_exists input
  refine ⟨es, r, ht, ?_⟩
  rcases runEvents_legal es (trace_shaped ht) with ⟨hL, _⟩ | ⟨pre, ev, post, _, _, h1, h2, h3, _⟩
  · exact .inl hL
  · exact .inr ⟨pre, ev, post, h1, h2, h3⟩

theorem splitNl_head (w : Str) : ∃ ls, splitNl w = lineOf w :: ls := by
  induction w with
  | nil => exact ⟨[], rfl⟩
  | cons c t ih =>
    obtain ⟨ls, h⟩ := ih
    unfold splitNl
    by_cases hc : c = '\n'
    · rw [if_pos hc]; exact ⟨splitNl t, by simp [lineOf, hc]⟩
    · rw [if_neg hc, h]; exact ⟨ls, by simp [lineOf, hc]⟩

/-- The instruction an error about a line is reported with. -/
def Spec.errorLine (input : Str) (index line : Nat) : Base := ⟨line, [(.line, (index, index + (lineOf (input.drop index)).length))]⟩

/-- A line of an error context. -/
def Spec.rawBase (p : Spot) : Base := ⟨p.1, [(.line, p.2)]⟩

/-- The context an error about the line at `index` leaves behind: the remaining lines are added as they are. -/
def Spec.errorCtx (input : Str) (s : AS) (index line : Nat) : Ctx :=
  let ls := place line index (splitNl (input.drop index))
  { input := input, heap := s.heap
    metas := s.metas ++ ls.zipIdx.map fun (p, k) => .raw (rawBase p) (if k = 0 then none else some .unparsed)
    lineCount := line + ls.length, copySections := s.copySections, copyNonSections := s.copyNonSections }

theorem zipIdx_map_pos {α β} (f : α → Nat → β) (g : α → β) (hg : ∀ a k, 0 < k → f a k = g a) (l : List α) :
    ∀ k, 0 < k → (l.zipIdx k).map (fun (p, k) => f p k) = l.map g := by
  induction l with
  | nil => intro k _; rfl
  | cons a t ih =>
    intro k hk
    simp only [List.zipIdx_cons, List.map_cons, hg a k hk]
    rw [ih (k + 1) (by omega)]

theorem tokenize_eq (s : AS) {index : Nat} (h : index ≤ input.length) (line : Nat) :
    tokenizeErrorContext input s index line = some (errorCtx input s index line, errorLine input index line) := by
  unfold tokenizeErrorContext errorCtx errorLine
  rw [pieces_eq (Nat.le_refl _) _ _ _ h (by omega), List.take_length]
  obtain ⟨ls, hl⟩ := splitNl_head (input.drop index)
  rw [hl]
  simp only [place, List.zipIdx_cons, List.map_cons, List.length_cons]
  rw [zipIdx_map_pos (fun p k => Meta.raw (rawBase p) (if k = 0 then none else some .unparsed)) (fun p => Meta.raw (rawBase p) (some .unparsed))
    (by intro a k hk; simp [Nat.pos_iff_ne_zero.1 hk]) _ _ (by omega)]
  rfl

theorem failAt_eq (s : AS) {index : Nat} (h : index ≤ input.length) (line : Nat) (k : FailKind) :
    failAt input s index line k = .parse k (errorCtx input s index line) (errorLine input index line) := by
  unfold failAt
  rw [tokenize_eq s h]

theorem lineFail_eq (s : AS) {index : Nat} (h : index ≤ input.length) (line : Nat) {f : LineFail} {k : FailKind} (hf : failName f = some k) :
    lineFail input s index line f = .parse k (errorCtx input s index line) (errorLine input index line) := by
  cases f <;> simp [failName] at hf <;> subst hf <;> exact failAt_eq s h line _

theorem event_at_le {ev : Event} (h : EventIn input ev) : ev.at.2 ≤ input.length := by
  cases ev with
  | line => exact Nat.le_of_lt h.1
  | multi => exact Nat.le_of_lt h.1

/-- The first illegal event decides. -/
theorem analyze_illegal {pre post : List Event} {ev : Event} (ht : Trace input 0 0 (pre ++ ev :: post) r) (hp : AllLegal pre) (hL : ¬ Legal pre ev) :
    ∃ k s, rejection pre ev = some k ∧ runEvents AS.init pre = .ok s ∧
      analyze input = .error (.parse k (errorCtx input s ev.at.2 ev.at.1) (errorLine input ev.at.2 ev.at.1)) := by
  have hsh := trace_shaped ht
  rcases runEvents_legal _ hsh with ⟨h, _⟩ | ⟨pre', ev', post', s, f, h1, h2, h3, h4, h5, h6, h7⟩
  · exact absurd (h pre ev post rfl) hL
  · have : pre' = pre ∧ ev' = ev := by
      rcases List.append_eq_append_iff.1 h1 with ⟨a, ha, hb⟩ | ⟨a, ha, hb⟩
      · cases a with
        | nil => simp at ha hb; exact ⟨ha, hb.1.symm⟩
        | cons x a =>
          simp at hb
          obtain ⟨rfl, _⟩ := hb
          exact absurd (h2 pre ev a ha) hL
      · cases a with
        | nil => simp at ha hb; exact ⟨ha.symm, hb.1⟩
        | cons x a =>
          simp at hb
          obtain ⟨rfl, _⟩ := hb
          exact absurd (hp pre' ev' a ha) h3
    obtain ⟨rfl, rfl⟩ := this
    obtain ⟨k, hk⟩ := Option.isSome_iff_exists.1 h7
    have hin := trace_events ht ev' (by simp)
    exact ⟨k, s, hk, h4, by rw [analyze_eq ht, h5]; simp only [lineFail_eq s (event_at_le hin) ev'.at.1 (h6.trans hk)]⟩

/-- If all events are legal, the ending decides. -/
theorem analyze_finished {n : Nat} (ht : Trace input 0 0 es (.finished n)) (hL : AllLegal es) : ∃ ctx, analyze input = .ok ctx := by
  rcases runEvents_legal es (trace_shaped ht) with ⟨_, s, hs⟩ | ⟨pre, ev, post, _, _, h1, _, h3, _⟩
  · exact ⟨ctxOf input n s, by rw [analyze_eq ht, hs]; rfl⟩
  · exact absurd (hL pre ev post h1) h3

theorem trace_invalid_le {i n m b : Nat} (ht : Trace input i n es (.invalid m b)) : b ≤ input.length := by
  generalize hr : Ending.invalid m b = r at ht
  induction ht with
  | done => simp at hr
  | bad h => simp at hr; omega
  | unterminated => simp at hr
  | line _ _ _ _ ih => exact ih hr
  | multi _ _ _ _ ih => exact ih hr

theorem trace_unterminated {i n m b fin : Nat} {op key : Cap} (ht : Trace input i n es (.unterminated m b fin op key)) :
    scan b (input.drop b) = some ⟨fin, .multiline op key⟩ ∧ findTerminator op.text key.text fin (input.drop fin) = none := by
  generalize hr : Ending.unterminated m b fin op key = r at ht
  induction ht with
  | done => simp at hr
  | bad h => simp at hr
  | unterminated _ h1 h2 => simp at hr; obtain ⟨rfl, rfl, rfl, rfl, rfl⟩ := hr; exact ⟨h1, h2⟩
  | line _ _ _ _ ih => exact ih hr
  | multi _ _ _ _ ih => exact ih hr

theorem analyze_invalid {n b : Nat} (ht : Trace input 0 0 es (.invalid n b)) (hL : AllLegal es) :
    ∃ s, runEvents AS.init es = .ok s ∧ analyze input = .error (.parse .invalidLine (errorCtx input s b n) (errorLine input b n)) := by
  rcases runEvents_legal es (trace_shaped ht) with ⟨_, s, hs⟩ | ⟨pre, ev, post, _, _, h1, _, h3, _⟩
  · exact ⟨s, hs, by rw [analyze_eq ht, hs]; simp only [finish, failAt_eq s (trace_invalid_le ht)]⟩
  · exact absurd (hL pre ev post h1) h3

theorem analyze_unterminated {n b fin : Nat} {op key : Cap} (ht : Trace input 0 0 es (.unterminated n b fin op key)) (hL : AllLegal es) :
    ∃ s ctx x, runEvents AS.init es = .ok s ∧ tokenizeErrorContext input (openMultiline s n b fin op key) (fin + 1) (n + 1) = some (ctx, x) ∧
      analyze input = .error (.parse (.unterminatedMultilineField ((blocks es).length + 1)) ctx (pieceOf n b ⟨fin, .multiline op key⟩).toBase) := by
  rcases runEvents_legal es (trace_shaped ht) with ⟨_, s, hs⟩ | ⟨pre, ev, post, _, _, h1, _, h3, _⟩
  · obtain ⟨inv, lay⟩ := layout_runEvents es (trace_shaped ht) hs
    have hlen : s.heap.length = (blocks es).length + 1 := by
      have := congrArg List.length lay.kinds
      have := inv.heap.pos
      simp at *; omega
    have e : (openMultiline s n b fin op key).heap.length - 1 = s.heap.length := by
      simp [openMultiline, append_length]
    obtain ⟨ctx, x, hx⟩ : ∃ ctx x, tokenizeErrorContext input (openMultiline s n b fin op key) (fin + 1) (n + 1) = some (ctx, x) := by
      obtain ⟨p, ps, hp⟩ := pieces_total (input := input) (fin + 1) (n + 1)
      unfold tokenizeErrorContext
      rw [hp]; exact ⟨_, _, rfl⟩
    refine ⟨s, ctx, x, hs, hx, ?_⟩
    rw [analyze_eq ht, hs]
    simp only [finish, hx]
    rw [e, hlen]
    have e2 : ((openMultiline s n b fin op key).heap.at s.heap.length).toBase = (pieceOf n b ⟨fin, .multiline op key⟩).toBase := by
      simp only [openMultiline, at_AS_append_last]
      rfl
    rw [hlen] at e2
    rw [e2]
  · exact absurd (hL pre ev post h1) h3

/-! ## Membership -/

theorem splitBefore_mem {α : Type} {p : α → Bool} (l : List α) : ∀ g ∈ splitBefore p l, ∀ a ∈ g, a ∈ l := by
  induction l using snoc_induction with
  | h0 => simp [splitBefore]
  | h1 l x ih =>
    intro g hg a ha
    rw [splitBefore_snoc_eq] at hg
    split at hg
    · simp at hg
      rcases hg with hg | rfl
      · simp [ih g hg a ha]
      · simp at ha; simp [ha]
    · simp only [List.mem_append] at hg
      rcases hg with hg | hg
      · simp [ih g (List.dropLast_subset _ hg) a ha]
      · cases hl : (splitBefore p l).getLast? with
        | none => rw [hl] at hg; simp at hg
        | some y =>
          rw [hl] at hg; simp at hg; subst hg
          simp at ha
          rcases ha with ha | rfl
          · simp [ih y (List.mem_of_getLast? hl) a ha]
          · simp

theorem blocks_mem {b : List Event} (hb : b ∈ blocks es) {ev : Event} (h : ev ∈ b) : ev ∈ es ∧ ev.role.content = true := by
  have := splitBefore_mem _ b hb ev h
  simpa using this

theorem groups_mem {g : List Event} (hg : g ∈ groups es) {ev : Event} (h : ev ∈ g) : ev ∈ es ∧ ev.role ≠ .comment := by
  unfold groups at hg
  simp at hg
  obtain ⟨b, hb, hg⟩ := hg
  have := blocks_mem hb (splitBefore_mem _ g hg ev h)
  refine ⟨this.1, ?_⟩
  intro e; rw [e] at this; exact absurd this.2 (by decide)

/-- Everything recorded in elements apart from comments is faithful. -/
theorem parts_faithful {s : AS} {n : Nat} {i : Nat} (ht : Trace input i n es r) (lay : Layout es s) {e : Elem} (he : e ∈ s.heap.tail) :
    ∀ g ∈ e.parts, ∀ p ∈ g, PieceOk input p := by
  intro g hg p hp
  have h1 : e.parts ∈ s.heap.tail.map Elem.parts := List.mem_map_of_mem he
  rw [lay.trees] at h1
  simp at h1
  obtain ⟨b, hb, hpb⟩ := h1
  rw [← hpb] at hg
  simp at hg
  obtain ⟨q, hq, rfl⟩ := hg
  simp at hp
  obtain ⟨ev, hev, hp⟩ := hp
  have hgm : q ∈ groups es := by unfold groups; simp; exact ⟨b, hb, hq⟩
  have := groups_mem hgm hev
  exact pieces_ok (trace_events ht ev this.1) this.2 p hp

theorem commentRun_mem {ev : Event} (h : ev ∈ commentRun es) : ev ∈ es := by
  unfold commentRun at h
  have := (List.takeWhile_sublist _).subset (List.mem_reverse.1 h)
  simpa using this

theorem owned_mem {o : List Event × Event} : ∀ {pre es : List Event}, o ∈ owned pre es → (∀ ev ∈ o.1, ev ∈ pre ++ es) ∧ o.2 ∈ es := by
  intro pre es
  induction es generalizing pre with
  | nil => simp [owned]
  | cons e es ih =>
    intro h
    simp only [owned, List.mem_append] at h
    rcases h with h | h
    · split at h
      · simp at h; subst h
        exact ⟨fun ev hev => List.mem_append_left _ (commentRun_mem hev), by simp⟩
      · simp at h
    · have := ih h
      simp at this ⊢
      exact ⟨fun ev hev => this.1 ev hev, .inr this.2⟩

theorem loose_mem {ev : Event} : ∀ {pre es : List Event}, ev ∈ loose pre es → ev ∈ pre ++ es := by
  intro pre es
  induction es generalizing pre with
  | nil => simp [loose]
  | cons e es ih =>
    intro h
    simp only [loose, List.mem_append] at h
    rcases h with h | h
    · split at h
      · exact List.mem_append_left _ (commentRun_mem h)
      · simp at h
    · have := ih h
      simpa using this

theorem owner_comments_faithful {s : AS} {n i : Nat} (ht : Trace input i n es r) (lay : Layout es s) {o : List Comment × Piece}
    (ho : o ∈ s.heap.tail.flatMap Elem.owners) : ∀ c ∈ o.1, RangesOk input c.toBase ∧ TextAt input c.toBase .comment c.comment := by
  intro c hc
  rw [lay.owners] at ho
  simp only [List.mem_map] at ho
  obtain ⟨q, hq, rfl⟩ := ho
  simp at hc
  obtain ⟨ev, hev, hc⟩ := hc
  have := (owned_mem hq).1 ev hev
  exact comments_ok (trace_events ht ev (by simpa using this)) c hc

theorem meta_comments_faithful {s : AS} {n i : Nat} (ht : Trace input i n es r) (lay : Layout es s) {m : Meta}
    (hm : m ∈ flushed s.metas s.comments) : ∃ c, m = .comment c ∧ RangesOk input c.toBase ∧ TextAt input c.toBase .comment c.comment := by
  rw [flushed_eq, lay.metas, lay.comments] at hm
  simp only [List.mem_append, List.mem_map, List.mem_flatMap] at hm
  rcases hm with ⟨c, ⟨ev, hev, hc⟩, rfl⟩ | ⟨c, ⟨ev, hev, hc⟩, rfl⟩
  · exact ⟨c, rfl, comments_ok (trace_events ht ev (by simpa using loose_mem hev)) c hc⟩
  · exact ⟨c, rfl, comments_ok (trace_events ht ev (commentRun_mem hev)) c hc⟩

end Eno

namespace Eno

open Spec

variable {input : Str}

/-- Which errors can come from which reading. -/
theorem analyze_error_cases {k : FailKind} {ctx : Ctx} {b : Base} (h : analyze input = .error (.parse k ctx b)) :
    (∃ pre ev post r s, Trace input 0 0 (pre ++ ev :: post) r ∧ AllLegal pre ∧ ¬ Legal pre ev ∧ rejection pre ev = some k ∧
      runEvents AS.init pre = .ok s ∧ ctx = errorCtx input s ev.at.2 ev.at.1 ∧ b = errorLine input ev.at.2 ev.at.1) ∨
    (∃ es n i s, Trace input 0 0 es (.invalid n i) ∧ AllLegal es ∧ k = .invalidLine ∧ runEvents AS.init es = .ok s ∧
      ctx = errorCtx input s i n ∧ b = errorLine input i n) ∨
    (∃ es n i fin op key s x, Trace input 0 0 es (.unterminated n i fin op key) ∧ AllLegal es ∧
      k = .unterminatedMultilineField ((blocks es).length + 1) ∧ runEvents AS.init es = .ok s ∧
      tokenizeErrorContext input (openMultiline s n i fin op key) (fin + 1) (n + 1) = some (ctx, x) ∧
      b = (pieceOf n i ⟨fin, .multiline op key⟩).toBase) := by
  obtain ⟨es, r, ht, hv⟩ := verdict_exists input
  rcases hv with hL | ⟨pre, ev, post, rfl, h1, h2⟩
  · cases r with
    | finished n =>
      obtain ⟨ctx', h'⟩ := analyze_finished ht hL
      rw [h'] at h; simp at h
    | invalid n i =>
      obtain ⟨s, hs, h'⟩ := analyze_invalid ht hL
      rw [h'] at h; simp at h
      obtain ⟨rfl, rfl, rfl⟩ := h
      exact .inr (.inl ⟨es, n, i, s, ht, hL, rfl, hs, rfl, rfl⟩)
    | unterminated n i fin op key =>
      obtain ⟨s, ctx', x, hs, hx, h'⟩ := analyze_unterminated ht hL
      rw [h'] at h; simp at h
      obtain ⟨rfl, rfl, rfl⟩ := h
      exact .inr (.inr ⟨es, n, i, fin, op, key, s, x, ht, hL, rfl, hs, hx, rfl⟩)
  · obtain ⟨k', s, hk, hs, h'⟩ := analyze_illegal ht h1 h2
    rw [h'] at h; simp at h
    obtain ⟨rfl, rfl, rfl⟩ := h
    exact .inl ⟨pre, ev, post, r, s, ht, h1, h2, hk, hs, rfl, rfl⟩

/-! ## Terminators -/

theorem findTerminator_none {op key : Str} (s : Str) : ∀ pos, findTerminator op key pos s = none ↔
    ∀ a b, s = a ++ '\n' :: b → terminatorLine op key (lineOf b) = none := by
  induction s with
  | nil => intro pos; simp [findTerminator]
  | cons c t ih =>
    intro pos
    unfold findTerminator
    constructor
    · intro h a b e
      split at h
      · simp at h
      · rename_i hn
        cases a with
        | nil =>
          simp at e; obtain ⟨rfl, rfl⟩ := e
          simpa using hn
        | cons x a =>
          simp at e; obtain ⟨rfl, rfl⟩ := e
          exact (ih _).1 h a b rfl
    · intro h
      split
      · rename_i x y hx
        split at hx
        · rename_i hc
          rw [h [] t (by simp [hc])] at hx; simp at hx
        · simp at hx
      · exact (ih _).2 fun a b e => h (c :: a) b (by simp [e])

theorem findTerminator_first {op key : Str} (s : Str) : ∀ (pos : Nat) (T : Term), findTerminator op key pos s = some T →
    ∃ a b, s = a ++ '\n' :: b ∧ T.start = pos + a.length ∧ T.fin = T.start + 1 + (lineOf b).length ∧
      (terminatorLine op key (lineOf b)).isSome ∧
      ∀ a' b', s = a' ++ '\n' :: b' → a'.length < a.length → terminatorLine op key (lineOf b') = none := by
  induction s with
  | nil => intro pos T h; simp [findTerminator] at h
  | cons c t ih =>
    intro pos T h
    unfold findTerminator at h
    split at h
    · rename_i x y hx
      split at hx
      · rename_i hc; subst hc
        simp at h; subst h
        exact ⟨[], t, rfl, by simp, rfl, by rw [hx]; rfl, by intro a' b' _ h; simp at h⟩
      · simp at hx
    · rename_i hn
      obtain ⟨a, b, rfl, h2, h3, h4, h5⟩ := ih _ _ h
      refine ⟨c :: a, b, rfl, by simp; omega, h3, h4, ?_⟩
      intro a' b' e hlt
      cases a' with
      | nil => simp at e; obtain ⟨rfl, rfl⟩ := e; simpa using hn
      | cons x a' =>
        simp at e; obtain ⟨rfl, e⟩ := e
        exact h5 a' b' e (by simpa using hlt)

theorem takeWhile_blank (s : Str) : Blank (s.take (runLen isHs s)) := runLen_take_all (q := isHs) s

theorem runLen_stop {w : Str} (h : ∃ c t, w = c :: t ∧ isHs c = false) (r : Str) : runLen isHs (w ++ r) = 0 := by
  obtain ⟨c, t, rfl, hc⟩ := h
  simp [runLen, hc]

theorem terminatorLine_iff {op key : Str} (ho : ∃ c u, op = c :: u ∧ isHs c = false) (hk : ∃ c u, key = c :: u ∧ isHs c = false) (line : Str) :
    (terminatorLine op key line).isSome ↔ IsTerminator op key line := by
  constructor
  · intro h
    unfold terminatorLine at h
    simp only at h
    split at h
    · rename_i h1
      split at h
      · rename_i h2
        obtain ⟨u, hu⟩ := List.isPrefixOf_iff_prefix.1 h1.1
        obtain ⟨v, hv⟩ := List.isPrefixOf_iff_prefix.1 h2.1
        have hu' : (line.drop (runLen isHs line)).drop op.length = u := by rw [← hu]; simp
        have hnd := h1.2
        rw [hu'] at hnd
        have hv' : u.drop (runLen isHs u) = key ++ v := by
          rw [hv, ← List.drop_drop, hu']
        have hb : Blank v := by
          have := h2.2
          rw [← List.drop_drop, hu', hv'] at this
          simpa [Blank] using this
        refine ⟨line.take (runLen isHs line), u.take (runLen isHs u), v, takeWhile_blank _, takeWhile_blank _, hb, ?_, ?_⟩
        · rw [← hv', List.take_append_drop, hu, List.take_append_drop]
        · intro e hd
          have hz : runLen isHs u = 0 := by
            have := congrArg List.length e
            simp at this
            rcases this with h | h
            · exact h
            · rw [h]; rfl
          rw [hz] at hv'
          simp at hv'
          rw [hv'] at hnd
          obtain ⟨c, w, rfl, _⟩ := hk
          simp at hnd hd
          exact hnd hd
      · simp at h
    · simp at h
  · rintro ⟨p0, p1, p2, b0, b1, b2, rfl, hd⟩
    unfold terminatorLine
    have e1 : runLen isHs (p0 ++ (op ++ (p1 ++ (key ++ p2)))) = p0.length := by
      rw [runLen_blank b0, runLen_stop ho]; rfl
    have e2 : runLen isHs (p1 ++ (key ++ p2)) = p1.length := by
      rw [runLen_blank b1, runLen_stop hk]; rfl
    simp only [e1, List.drop_left, e2]
    have e3 : (op ++ (p1 ++ (key ++ p2))).drop (op.length + p1.length) = key ++ p2 := by
      rw [← List.drop_drop]; simp
    rw [e3]
    have c1 : op.isPrefixOf (op ++ (p1 ++ (key ++ p2))) = true := List.isPrefixOf_iff_prefix.2 (List.prefix_append _ _)
    have c2 : key.isPrefixOf (key ++ p2) = true := List.isPrefixOf_iff_prefix.2 (List.prefix_append _ _)
    have c3 : (p1 ++ (key ++ p2)).head? ≠ some '-' := by
      cases p1 with
      | nil =>
        obtain ⟨c, w, rfl, _⟩ := hk
        simpa using hd rfl
      | cons a t =>
        intro e
        simp at e; subst e
        exact absurd (b1 '-' (by simp)) (by decide)
    have c4 : ((key ++ p2).drop key.length).all isHs = true := by simp; exact b2
    rw [if_pos ⟨c1, c3⟩, if_pos ⟨c2, c4⟩]; rfl

end Eno
