import Verif.Proofs.ReadCache

/-! # Comments are dedented by their common indent -/

namespace Eno

open Spec

/-- A comment line has a range for its text. -/
def Comment.Ok (c : Comment) : Prop := c.comment.isSome → c.indent = .ok (c.column : Int)

variable {cs ds : List Comment} {c : Comment} {k f l m : Nat} {shared : Int}

/-- The last non-empty line. -/
def lastIdx : List Comment → Nat → Nat → Nat
  | [], _, l => l
  | c :: cs, k, l => lastIdx cs (k + 1) (if c.comment.isSome then k else l)

theorem lastIdx_snoc (hc : c.comment.isSome) : ∀ (cs : List Comment) (k l : Nat), lastIdx (cs ++ [c]) k l = k + cs.length := by
  intro cs
  induction cs with
  | nil => intro k l; simp [lastIdx, hc]
  | cons d cs ih => intro k l; simp only [List.cons_append, lastIdx, ih, List.length_cons]; omega

/-- The columns of the non-empty lines. -/
def columns (cs : List Comment) : List Nat := (cs.filter fun c => c.comment.isSome).map Comment.column

theorem scan_some (hok : ∀ c ∈ cs, c.Ok) : ∀ (k f l m : Nat), scanComments cs k (some f, some (m : Int), some l) =
    .ok (some f, some (((columns cs).foldl min m : Nat) : Int), some (lastIdx cs k l)) := by
  induction cs with
  | nil => intro k f l m; rfl
  | cons c cs ih =>
    intro k f l m
    have ih := ih (fun d hd => hok d (by simp [hd]))
    simp only [scanComments, lastIdx]
    by_cases hc : c.comment.isSome = true
    · rw [if_pos hc, hok c (by simp) hc]
      simp only [if_pos hc, Option.getD_some]
      have e : (if (c.column : Int) < (m : Int) then some (c.column : Int) else some (m : Int)) = some ((min m c.column : Nat) : Int) := by
        split
        · rename_i h; congr 1; omega
        · rename_i h; congr 1; omega
      rw [e, ih]
      simp [columns, hc]
    · rw [if_neg hc, if_neg hc, ih]
      simp [columns, hc]

theorem scan_blank (hb : ∀ c ∈ cs, c.comment = none) : ∀ (ds : List Comment) (k : Nat) (r : Option Nat × Option Int × Option Nat), scanComments (cs ++ ds) k r =
    scanComments ds (k + cs.length) r := by
  induction cs with
  | nil => intro ds k r; rfl
  | cons c cs ih =>
    intro ds k r
    simp only [List.cons_append, scanComments, hb c (by simp), Option.isSome_none, Bool.false_eq_true, if_false, List.length_cons]
    rw [ih (fun d hd => hb d (by simp [hd]))]
    congr 1; omega

theorem scan_append : ∀ (cs ds : List Comment) (k : Nat) (r r' : Option Nat × Option Int × Option Nat), scanComments cs k r = .ok r' →
    scanComments (cs ++ ds) k r = scanComments ds (k + cs.length) r' := by
  intro cs
  induction cs with
  | nil => intro ds k r r' h; simp [scanComments] at h; subst h; rfl
  | cons c cs ih =>
    intro ds k r r' h
    obtain ⟨a, b, d⟩ := r
    simp only [List.cons_append, scanComments, List.length_cons] at h ⊢
    split
    · rename_i hc
      rw [if_pos hc] at h
      split at h
      · simp at h
      · rw [ih _ _ _ _ h]; congr 1; omega
    · rename_i hc
      rw [if_neg hc] at h
      rw [ih _ _ _ _ h]; congr 1; omega

theorem mem_takeWhile' {α} {p : α → Bool} {l : List α} {a : α} (h : a ∈ l.takeWhile p) : p a = true := by
  induction l with
  | nil => simp at h
  | cons b l ih =>
    rw [List.takeWhile_cons] at h
    split at h
    · rename_i hb
      rcases List.mem_cons.1 h with rfl | h
      · exact hb
      · exact ih h
    · simp at h

/-- Split off the empty lines at both ends. -/
theorem split_blank {α} (p : α → Bool) (l : List α) : (∀ a ∈ l, p a = true) ∨ ∃ pre mid post, l = pre ++ mid ++ post ∧ (∀ a ∈ pre, p a = true) ∧ (∀ a ∈ post, p a = true) ∧
    (∃ x t, mid = x :: t ∧ p x = false) ∧ (∃ y t, mid = t ++ [y] ∧ p y = false) := by
  by_cases hall : ∀ a ∈ l, p a = true
  · exact .inl hall
  · right
    have e1 : l = l.takeWhile p ++ l.dropWhile p := List.takeWhile_append_dropWhile.symm
    have hpre : ∀ a ∈ l.takeWhile p, p a = true := by
      intro a ha; exact mem_takeWhile' ha
    cases hd : l.dropWhile p with
    | nil => rw [hd] at e1; simp at e1; exact absurd (fun a ha => hpre a (e1 ▸ ha)) hall
    | cons x t =>
      have hx : p x = false := by
        have := List.head?_dropWhile_not p l
        rw [hd] at this; simpa using this
      have e2 : (x :: t).reverse = (x :: t).reverse.takeWhile p ++ (x :: t).reverse.dropWhile p := List.takeWhile_append_dropWhile.symm
      have e3 : x :: t = ((x :: t).reverse.dropWhile p).reverse ++ ((x :: t).reverse.takeWhile p).reverse := by
        have := congrArg List.reverse e2
        rw [List.reverse_reverse, List.reverse_append] at this
        exact this
      have hpost : ∀ a ∈ ((x :: t).reverse.takeWhile p).reverse, p a = true := by
        intro a ha; exact mem_takeWhile' (List.mem_reverse.1 ha)
      refine ⟨l.takeWhile p, ((x :: t).reverse.dropWhile p).reverse, ((x :: t).reverse.takeWhile p).reverse, ?_, hpre, hpost, ?_, ?_⟩
      · rw [List.append_assoc, ← e3, ← hd]; exact e1
      · cases hm : ((x :: t).reverse.dropWhile p).reverse with
        | nil =>
          rw [hm] at e3
          have := hpost x (by rw [List.nil_append] at e3; rw [← e3]; simp)
          rw [hx] at this; simp at this
        | cons y u => rw [hm] at e3; simp at e3; exact ⟨y, u, rfl, e3.1 ▸ hx⟩
      · cases hm : (x :: t).reverse.dropWhile p with
        | nil =>
          rw [hm] at e3
          have := hpost x (by rw [List.reverse_nil, List.nil_append] at e3; rw [← e3]; simp)
          rw [hx] at this; simp at this
        | cons y u =>
          refine ⟨y, u.reverse, by simp, ?_⟩
          have := List.head?_dropWhile_not p (x :: t).reverse
          rw [hm] at this; simpa using this

theorem trimBlank_split {pre mid post : List (Nat × Option Str)} (h1 : ∀ a ∈ pre, a.2.isNone = true) (h2 : ∀ a ∈ post, a.2.isNone = true)
    (h3 : ∃ x t, mid = x :: t ∧ x.2.isNone = false) (h4 : ∃ y t, mid = t ++ [y] ∧ y.2.isNone = false) : trimBlank (pre ++ mid ++ post) = mid := by
  unfold trimBlank
  obtain ⟨x, t, e1, e2⟩ := h3
  obtain ⟨y, u, e3, e4⟩ := h4
  have : (pre ++ mid ++ post).dropWhile (fun c => c.2.isNone) = mid ++ post := by
    rw [List.append_assoc, List.dropWhile_append_of_pos h1, e1]
    rw [List.cons_append, List.dropWhile_cons, if_neg (by simp [e2])]
  rw [this, List.reverse_append, List.dropWhile_append_of_pos (by intro a ha; exact h2 a (List.mem_reverse.1 ha)), e3]
  simp [e4]

theorem joinLines_eq (l : List Str) : joinLines l = ['\n'].intercalate l := by
  induction l with
  | nil => rfl
  | cons a l ih =>
    cases l with
    | nil => simp [joinLines, List.intercalate]
    | cons b l =>
      simp only [joinLines, ih]
      simp [List.intercalate]

theorem allOk_map {α β} (g : α → Except PyExc β) (f : α → β) (l : List α) (h : ∀ a ∈ l, g a = .ok (f a)) : allOk (l.map g) = .ok (l.map f) := by
  induction l with
  | nil => rfl
  | cons a l ih => simp only [List.map_cons, h a (by simp), allOk, ih (fun b hb => h b (by simp [hb]))]

theorem columns_append (cs ds : List Comment) : columns (cs ++ ds) = columns cs ++ columns ds := by simp [columns]

theorem columns_blank (hb : ∀ c ∈ cs, c.comment = none) : columns cs = [] := by
  unfold columns
  rw [List.filter_eq_nil_iff.2]; rfl
  intro c hc; simp [hb c hc]

theorem commonIndent_eq (cs : List Comment) : commonIndent (commentLines cs) = (columns cs).min?.getD 0 := by
  unfold commonIndent commentLines columns
  rw [List.filter_map, List.map_map]; rfl

theorem foldl_min_le : ∀ (l : List Nat) (m : Nat), l.foldl min m ≤ m ∧ ∀ x ∈ l, l.foldl min m ≤ x := by
  intro l
  induction l with
  | nil => intro m; simp
  | cons a l ih =>
    intro m
    simp only [List.foldl_cons]
    have := ih (min m a)
    refine ⟨by omega, ?_⟩
    intro x hx
    rcases List.mem_cons.1 hx with rfl | hx
    · omega
    · exact this.2 x hx

/-- Reading a comment computes the specified text, except that a single empty line raises. -/
theorem computeComment_eq (hok : ∀ c ∈ cs, c.Ok) (hn : ∀ c, cs = [c] → c.comment.isSome) : computeComment (some cs) = .ok (commentText (commentLines cs)) := by
  by_cases h1 : ∃ c, cs = [c]
  · obtain ⟨c, rfl⟩ := h1
    have := hn c rfl
    obtain ⟨x, hx⟩ := Option.isSome_iff_exists.1 this
    simp [computeComment, hx, commentText, commentLines, trimBlank, commonIndent, List.intercalate]
  · have hform : computeComment (some cs) = match scanComments cs 0 (none, none, none) with
        | .error e => .error e
        | .ok (some first, some shared, some last) =>
          match allOk (((cs.take (last + 1)).drop first).map (indented shared)) with
          | .error e => .error e
          | .ok ls => .ok (some (joinLines ls))
        | .ok _ => .ok none := by
      match cs, h1 with
      | [], _ => rfl
      | [c], h1 => exact absurd ⟨c, rfl⟩ h1
      | a :: b :: l, _ => rfl
    rw [hform]
    rcases split_blank (fun c : Comment => c.comment.isNone) cs with hb | ⟨pre, mid, post, e, hpre, hpost, ⟨x, t, ex, hx⟩, ⟨y, u, ey, hy⟩⟩
    · have := scan_blank (cs := cs) (by intro c hc; simpa using hb c hc) [] 0 (none, none, none)
      rw [List.append_nil] at this
      rw [this]
      simp only [scanComments, commentText]
      rw [if_pos]
      simp only [commentLines, List.all_map, List.all_eq_true, Function.comp]
      exact fun c hc => hb c hc
    · have hx' : x.comment.isSome = true := by simpa [Option.isNone_eq_false_iff] using hx
      have hy' : y.comment.isSome = true := by simpa [Option.isNone_eq_false_iff] using hy
      have bpre : ∀ c ∈ pre, c.comment = none := by intro c hc; simpa using hpre c hc
      have bpost : ∀ c ∈ post, c.comment = none := by intro c hc; simpa using hpost c hc
      have hmid : ∀ c ∈ mid, c.Ok := fun c hc => hok c (by rw [e]; simp [hc])
      have hlen : 0 < mid.length := by rw [ex]; simp
      have hcols : columns cs = columns mid := by
        rw [e, columns_append, columns_append, columns_blank bpre, columns_blank bpost]; simp
      have hcm : columns mid = x.column :: columns t := by rw [ex]; simp [columns, hx']
      have hmin : (columns cs).min?.getD 0 = (columns t).foldl min x.column := by
        rw [hcols, hcm]; rfl
      have hscanmid : scanComments mid pre.length (none, none, none) =
          .ok (some pre.length, some (((columns t).foldl min x.column : Nat) : Int), some (pre.length + mid.length - 1)) := by
        rw [ex]
        simp only [scanComments]
        rw [if_pos hx', hmid x (by rw [ex]; simp) hx']
        simp only [Option.getD_none]
        rw [scan_some (fun c hc => hmid c (by rw [ex]; simp [hc]))]
        congr 4
        have : lastIdx mid pre.length 0 = pre.length + u.length := by rw [ey]; exact lastIdx_snoc hy' u _ _
        rw [ex] at this
        simp only [lastIdx, if_pos hx'] at this
        rw [this]
        have : mid.length = u.length + 1 := by rw [ey]; simp
        rw [← ex, this]; omega
      have hscan : scanComments cs 0 (none, none, none) =
          .ok (some pre.length, some (((columns t).foldl min x.column : Nat) : Int), some (pre.length + mid.length - 1)) := by
        rw [e, List.append_assoc, scan_blank bpre, Nat.zero_add, scan_append _ _ _ _ _ hscanmid]
        have := scan_blank bpost [] (pre.length + mid.length) (some pre.length, some (((columns t).foldl min x.column : Nat) : Int), some (pre.length + mid.length - 1))
        rw [List.append_nil] at this
        rw [this]; rfl
      rw [hscan]
      simp only
      have hslice : (cs.take (pre.length + mid.length - 1 + 1)).drop pre.length = mid := by
        rw [e, show pre.length + mid.length - 1 + 1 = (pre ++ mid).length by simp; omega, List.take_left, List.drop_left]
      rw [hslice]
      have hind : ∀ c ∈ mid, indented (((columns t).foldl min x.column : Nat) : Int) c =
          .ok (match c.comment with | none => [] | some s => List.replicate (c.column - (columns t).foldl min x.column) ' ' ++ s) := by
        intro c hc
        unfold indented
        cases hcc : c.comment with
        | none => rfl
        | some s =>
          simp only
          rw [hmid c hc (by rw [hcc]; rfl)]
          simp only
          have hle : (columns t).foldl min x.column ≤ c.column := by
            have hmem : c.column ∈ columns mid := by
              unfold columns
              exact List.mem_map.2 ⟨c, List.mem_filter.2 ⟨hc, by rw [hcc]; rfl⟩, rfl⟩
            rw [hcm] at hmem
            rcases List.mem_cons.1 hmem with q | q
            · rw [q]; exact (foldl_min_le _ _).1
            · exact (foldl_min_le _ _).2 _ q
          split
          · rename_i heq
            have : c.column - (columns t).foldl min x.column = 0 := by omega
            rw [this]; rfl
          · congr 3
            omega
      rw [allOk_map _ _ _ hind]
      simp only
      have hnot : ¬ ((commentLines cs).all fun c => c.2.isNone) = true := by
        simp only [commentLines, List.all_map, List.all_eq_true, Function.comp]
        intro hh
        have := hh x (by rw [e, ex]; simp)
        rw [hx] at this; simp at this
      unfold commentText
      rw [if_neg hnot, commonIndent_eq, hmin]
      have htrim : trimBlank (commentLines cs) = commentLines mid := by
        rw [e]
        simp only [commentLines, List.map_append]
        apply trimBlank_split
        · intro a ha; obtain ⟨c, hc, rfl⟩ := List.mem_map.1 ha; exact hpre c hc
        · intro a ha; obtain ⟨c, hc, rfl⟩ := List.mem_map.1 ha; exact hpost c hc
        · exact ⟨(x.column, x.comment), t.map fun c => (c.column, c.comment), by rw [ex]; rfl, hx⟩
        · exact ⟨(y.column, y.comment), u.map fun c => (c.column, c.comment), by rw [ey]; simp, hy⟩
      rw [htrim, joinLines_eq]
      simp only [commentLines, List.map_map]
      rfl

end Eno
