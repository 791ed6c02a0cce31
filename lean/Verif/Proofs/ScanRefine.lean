import Verif.Proofs.GrammarLemmas

/-! # The regular expression agrees with the scanner specification -/

set_option linter.unusedSimpArgs false

namespace Eno
open Re Grammar Spec

/-- The tail of the pattern. -/
abbrev eolK : St → Option St := fun st => run EOL st some

theorem some_total : ∀ st : St, (some st).isSome := fun _ => rfl

variable {pos : Nat} {rest t : Str} {caps : Nat → Option Cap} {c : Char} {k : St → Option St}

theorem run_op_cons (n : Nat) (d : Char) : run (grp n (lit d)) ⟨pos, c :: t, caps⟩ k =
    if c = d then k ⟨pos + 1, t, setCap caps n ⟨pos, pos + 1, [d]⟩⟩ else none := by
  rw [run_grp, run_lit_cons]
  split
  · rename_i h; subst h
    simp
  · rfl

theorem run_op_nil (n : Nat) (d : Char) : run (grp n (lit d)) ⟨pos, [], caps⟩ k = none := rfl

/-- `(op)[^\S\n]*OPTIONAL` followed by the end of the line. -/
theorem run_op_optional (n i : Nat) (d : Char) :
    run (seq (grp n (lit d)) (seq HS (OPTIONAL i))) ⟨pos, c :: t, caps⟩ eolK =
      if c = d then some (afterLine (pos + 1) t (setCap caps n ⟨pos, pos + 1, [d]⟩) i) else none := by
  rw [run_seq, run_op_cons]
  split
  · rw [run_seq, run_HS_OPTIONAL i some_total]
  · rfl

theorem run_op_optional_nil (n i : Nat) (d : Char) :
    run (seq (grp n (lit d)) (seq HS (OPTIONAL i))) ⟨pos, [], caps⟩ eolK = none := rfl

/-- Only the key groups are set. -/
def OnlyKey (caps : Nat → Option Cap) (k : KeyTok) : Prop :=
  keyOf caps 19 = some k ∧ ∀ i, i < 19 ∨ 22 < i → caps i = none

abbrev OPS : Re := alt ELEMENT_OR_FIELD (alt FIELDSET_ENTRY COPY)

theorem keyOf_setCap_gt {n : Nat} {v : Cap} (h : 22 < n) : keyOf (setCap caps n v) 19 = keyOf caps 19 := by
  simp only [keyOf, setCap]
  rw [if_neg (by omega), if_neg (by omega), if_neg (by omega), if_neg (by omega)]

theorem run_COPY_cons : run COPY ⟨pos, c :: t, caps⟩ eolK =
    if c = '<' then
      match valueAt (pos + 1 + runLen isSp t) (t.drop (runLen isSp t)) with
      | none => none
      | some _ => some (afterLine (pos + 1 + runLen isSp t) (t.drop (runLen isSp t))
          (setCap caps 27 ⟨pos, pos + 1, ['<']⟩) 28)
    else none := by
  rw [COPY, run_seq, run_op_cons]
  split
  · rw [run_seq, SP, run_starG_det]
    · simp only [runLen, drop_takeWhile]
      cases h : t.dropWhile isSp with
      | nil => simp [run_REQUIRED_nil, valueAt_eq]
      | cons c' t' =>
        have hh := dropWhile_head h
        have hc' : c' ≠ '\n' := by rintro rfl; simp at hh
        have hs : isHs c' = false := by simp [isHs, hh]
        rw [run_REQUIRED_cons 28 hh some_total]
        simp [valueAt_eq, hs, hc', afterLine, eolAt]
    · intro pos' c t h; exact run_REQUIRED_sp 28 h
  · rfl

theorem run_COPY_nil : run COPY ⟨pos, [], caps⟩ eolK = none := rfl

theorem isSp_not_op (h : isSp c = true) : c ≠ ':' ∧ c ≠ '=' ∧ c ≠ '<' := by
  refine ⟨?_, ?_, ?_⟩ <;> (rintro rfl; revert h; decide)

theorem run_OPS_other (h : c ≠ ':' ∧ c ≠ '=' ∧ c ≠ '<') : run OPS ⟨pos, c :: t, caps⟩ eolK = none := by
  simp only [OPS, run_alt, ELEMENT_OR_FIELD, FIELDSET_ENTRY, run_op_optional, run_COPY_cons, h, if_false]
  rfl

theorem run_OPS_nil : run OPS ⟨pos, [], caps⟩ eolK = none := rfl

/-- Everything after a non-section key. -/
theorem run_afterKey {kt : KeyTok} (hc : OnlyKey caps kt) :
    (run SP ⟨pos, rest, caps⟩ (fun st => run OPS st eolK)).map tokOf = (afterKey pos rest kt).map some := by
  obtain ⟨hk, hn⟩ := hc
  have h1 : caps 1 = none := hn 1 (by omega)
  have h23 : caps 23 = none := hn 23 (by omega)
  have h24 : caps 24 = none := hn 24 (by omega)
  have h8 : caps 8 = none := hn 8 (by omega)
  have h25 : caps 25 = none := hn 25 (by omega)
  have h26 : caps 26 = none := hn 26 (by omega)
  have h4 : caps 4 = none := hn 4 (by omega)
  have h2 : caps 2 = none := hn 2 (by omega)
  have h12 : caps 12 = none := hn 12 (by omega)
  have h10 : caps 10 = none := hn 10 (by omega)
  have h6 : caps 6 = none := hn 6 (by omega)
  rw [SP, run_starG_det]
  · unfold afterKey runLen
    simp only [drop_takeWhile]
    cases h : rest.dropWhile isSp with
    | nil => simp [run_OPS_nil]
    | cons c t =>
      by_cases c1 : c = ':'
      · subst c1
        simp only [OPS, run_alt, ELEMENT_OR_FIELD, run_op_optional, if_true, orElse_some, Option.map_some, tokOf,
          afterLine]
        cases hv : valueAt (pos + (rest.takeWhile isSp).length + 1) t <;>
          simp [bodyOf, setCap, h1, h24, hv, keyOf] <;> simpa [keyOf] using hk
      · by_cases c2 : c = '='
        · subst c2
          simp only [OPS, run_alt, ELEMENT_OR_FIELD, FIELDSET_ENTRY, run_op_optional, if_true, orElse_some,
            orElse_none, reduceCtorEq, Char.reduceEq, if_false, Option.map_some, tokOf, afterLine]
          cases hv : valueAt (pos + (rest.takeWhile isSp).length + 1) t <;>
            simp [bodyOf, setCap, h1, h23, h8, h26, keyOf] <;> simpa [keyOf] using hk
        · by_cases c3 : c = '<'
          · subst c3
            simp only [OPS, run_alt, ELEMENT_OR_FIELD, FIELDSET_ENTRY, run_op_optional, run_COPY_cons]
            simp only [runLen, drop_takeWhile]
            cases hv : valueAt (pos + (rest.takeWhile isSp).length + 1 + (t.takeWhile isSp).length) (t.dropWhile isSp) with
            | none => simp
            | some v =>
              simp only [afterLine, hv]
              simp [tokOf, bodyOf, setCap, h1, h23, h8, h25, h4, h2, h12, h10, h6, keyOf]
              simp only [keyOf] at hk
              rw [hk]
          · rw [run_OPS_other ⟨c1, c2, c3⟩]
            split <;> simp_all
  · intro pos' c t h
    exact run_OPS_other (isSp_not_op h)

theorem map_eq_none {α β} {f : α → β} {o : Option α} (h : o.map f = none) : o = none := by
  cases o <;> simp_all

/-- Inside the untrimmed part of `u` there is still a non-blank character ahead. -/
theorem exists_stop {u : Str} {j : Nat} (h : j < (trimEnd u).length) :
    ∃ m c' w, u.drop j = (u.drop j).take m ++ c' :: w ∧ ((u.drop j).take m).all isHs = true ∧ isHs c' = false ∧
      m ≤ (u.drop j).length ∧ c' ∈ u := by
  have hn : ¬ (u.drop j).all isHs = true := by
    rw [← trimEnd_length_le_iff]; omega
  cases hd : (u.drop j).dropWhile isHs with
  | nil =>
    exfalso; apply hn
    have := takeWhile_append_dropWhile' isHs (u.drop j)
    rw [hd, List.append_nil] at this
    rw [this, List.all_eq_true]
    intro x hx; exact mem_takeWhile_imp hx
  | cons c' w =>
    have e := takeWhile_append_dropWhile' isHs (u.drop j)
    refine ⟨((u.drop j).takeWhile isHs).length, c', w, ?_, ?_, dropWhile_head hd, length_takeWhile_le _ _, ?_⟩
    · rw [take_takeWhile, ← hd]; exact e
    · rw [take_takeWhile, List.all_eq_true]; intro x hx; exact mem_takeWhile_imp hx
    · have : c' ∈ u.drop j := by rw [e, hd]; simp
      exact List.mem_of_mem_drop this

section keys

variable (T : St → Option St) (after : Nat → Str → KeyTok → Option Tok) (Ok : (Nat → Option Cap) → KeyTok → Prop)

/-- What a key is followed by, as the specification sees it. -/
structure Follow : Prop where
  refine : ∀ {q r caps kt}, Ok caps kt → (T ⟨q, r, caps⟩).map tokOf = (after q r kt).map some
  skip : ∀ {q : Nat} {w r : Str} {kt}, w.all isHs = true → after q (w ++ r) kt = after (q + w.length) r kt
  indep : ∀ {q r kt q' kt'}, after q r kt = none → after q' r kt' = none

variable {T after Ok}

theorem run_plainKey (F : Follow T after Ok) (n : Nat) (start cls : Char → Bool)
    (hstop : ∀ {q c t kt}, cls c = true → isHs c = false → after q (c :: t) kt = none)
    (hOk : ∀ cap, Ok (setCap caps n cap) (.plain cap))
    (hs : start c = true) (hcls : cls c = true) (hh : isHs c = false) :
    (run (grp n (seq (chr start) (star false (chr cls)))) ⟨pos, c :: t, caps⟩ T).map tokOf =
      (plainKey cls after pos (c :: t)).map some := by
  rw [run_grp, run_seq, run_chr_cons, if_pos hs]
  have hu := takeWhile_append_dropWhile' cls t
  generalize hU : t.takeWhile cls = u at hu
  generalize t.dropWhile cls = v at hu
  have hbody : (c :: t).takeWhile cls = c :: u := by simp [hcls, hU]
  have htrim : trimEnd (c :: u) = c :: trimEnd u := by rw [trimEnd_cons, if_neg (by simp [hh])]
  have hdrop : ∀ j, j ≤ u.length → t.drop j = u.drop j ++ v := by
    intro j hj; rw [hu, List.drop_append_of_le_length hj]
  have hn := trimEnd_length_le u
  -- the continuation at each candidate end of the key
  have hK : ∀ j, ((fun st' : St => T { st' with caps := setCap st'.caps n ⟨pos, st'.pos, (c :: t).take (st'.pos - pos)⟩ })
      ⟨pos + 1 + j, t.drop j, caps⟩).map tokOf =
      (after (pos + 1 + j) (t.drop j) (.plain ⟨pos, pos + 1 + j, (c :: t).take (j + 1)⟩)).map some := by
    intro j
    have e : pos + 1 + j - pos = j + 1 := by omega
    simp only [e]
    exact F.refine (hOk _)
  have hlow : ∀ j, j < (trimEnd u).length → ∀ kt, after (pos + 1 + j) (t.drop j) kt = none := by
    intro j hj kt
    obtain ⟨m, c', w, h1, h2, h3, _, h5⟩ := exists_stop hj
    rw [hdrop j (by omega), h1, List.append_assoc, F.skip h2, List.cons_append]
    apply hstop _ h3
    rw [← hU] at h5; exact mem_takeWhile_imp h5
  have hhigh : ∀ j, (trimEnd u).length ≤ j → j ≤ u.length → ∀ kt,
      after (pos + 1 + j) (t.drop j) kt = after (pos + 1 + u.length) v kt := by
    intro j h1 h2 kt
    rw [hdrop j h2, F.skip ((trimEnd_length_le_iff u j).mp h1)]
    congr 1; simp; omega
  have hplain : plainKey cls after pos (c :: t) =
      after (pos + 1 + u.length) v (.plain ⟨pos, pos + 1 + (trimEnd u).length, c :: trimEnd u⟩) := by
    unfold plainKey
    have hv := hdrop u.length (Nat.le_refl _)
    simp only [List.drop_length, List.nil_append] at hv
    simp only [hbody, htrim, List.length_cons, List.drop_succ_cons, hv]
    congr 1
    · omega
    · congr 2; omega
  have htake : (c :: t).take ((trimEnd u).length + 1) = c :: trimEnd u := by
    rw [List.take_succ_cons, hu, List.take_append_of_le_length hn, ← trimEnd_prefix]
  rw [hplain]
  cases hA : after (pos + 1 + u.length) v (.plain ⟨pos, pos + 1 + (trimEnd u).length, c :: trimEnd u⟩) with
  | none =>
    rw [run_starL_none]; rfl
    intro j hj
    rw [hU] at hj
    apply map_eq_none
    rw [hK j]
    by_cases hjn : j < (trimEnd u).length
    · rw [hlow j hjn]; rfl
    · rw [hhigh j (by omega) hj, F.indep hA]; rfl
  | some tk =>
    have hKn := hK (trimEnd u).length
    rw [hhigh _ (Nat.le_refl _) hn, htake, hA] at hKn
    rw [run_starL_first (trimEnd u).length, hKn]
    · rw [hU]; exact hn
    · intro j hj
      apply map_eq_none
      rw [hK j, hlow j hj]; rfl
    · left
      have := congrArg Option.isSome hKn
      simpa only [Option.isSome_map, Option.isSome_some] using this

/-- A maximal run of one character, guarded by a negative look-ahead. -/
theorem run_plus_nla (n : Nat) (d : Char) :
    run (grp n (plus (lit d))) ⟨pos, d :: t, caps⟩ (fun st => run (nla (lit d)) st k) =
      k ⟨pos + runLen (· == d) (d :: t), (d :: t).drop (runLen (· == d) (d :: t)),
        setCap caps n ⟨pos, pos + runLen (· == d) (d :: t), (d :: t).take (runLen (· == d) (d :: t))⟩⟩ := by
  rw [run_grp, plus, run_seq, run_lit_cons, if_pos rfl, lit, run_starG_det]
  · have hr : runLen (· == d) (d :: t) = (t.takeWhile (· == d)).length + 1 := by simp [runLen]
    rw [hr]
    have e : pos + 1 + (t.takeWhile (· == d)).length - pos = (t.takeWhile (· == d)).length + 1 := by omega
    have e2 : pos + 1 + (t.takeWhile (· == d)).length = pos + ((t.takeWhile (· == d)).length + 1) := by omega
    simp only [e]
    rw [List.drop_succ_cons, drop_takeWhile, e2]
    cases h : t.dropWhile (· == d) with
    | nil => rfl
    | cons c' t' =>
      have := dropWhile_head h
      show run (nla (lit d)) _ _ = _
      rw [run_nla_lit_cons, if_neg (by simpa using this)]
  · intro pos' c t h
    have : c = d := by simpa using h
    show run (nla (lit d)) _ _ = _
    rw [run_nla_lit_cons, if_pos this]

theorem run_starL_findSome {p : Char → Bool} (rest : Str) (pos : Nat) :
    run (star false (chr p)) ⟨pos, rest, caps⟩ k =
      (List.range ((rest.takeWhile p).length + 1)).findSome? fun j => k ⟨pos + j, rest.drop j, caps⟩ := by
  induction rest generalizing pos with
  | nil => simp [run_star_nil, List.range_succ]
  | cons c t ih =>
    by_cases hp : p c = true
    · rw [run_starL_cons hp, ih, List.takeWhile_cons_of_pos hp, List.length_cons]
      conv => rhs; rw [List.range_succ_eq_map]
      rw [List.findSome?_cons]
      simp only [Nat.add_zero, List.drop_zero]
      cases hk : k ⟨pos, c :: t, caps⟩ with
      | some x => rfl
      | none =>
        simp only [orElse_none, List.findSome?_map]
        congr 1
        funext j
        simp [Nat.add_assoc, Nat.add_comm 1 j]
    · rw [run_star_stop (by simpa using hp)]
      simp [hp, List.range_succ]

theorem map_findSome? {α β γ} (f : β → γ) (g : α → Option β) (l : List α) :
    (l.findSome? g).map f = l.findSome? fun x => (g x).map f := by
  induction l with
  | nil => rfl
  | cons a t ih =>
    simp only [List.findSome?_cons]
    cases g a with
    | none => simpa using ih
    | some b => rfl

theorem runLen_le (p : Char → Bool) (s : Str) : runLen p s ≤ s.length := length_takeWhile_le _ _

theorem run_closing (F : Follow T after Ok) (b : Nat) (tk : Str) (ht : ∃ m, tk = '`' :: m) (c1 c2 : Cap) (hc1 : c1.text = tk)
    (hcb : caps b = some c1) (hOk : ∀ c3, Ok (setCap caps (b + 2) c3) (.escaped c1 c2 c3)) :
    (run (seq HS (grp (b + 2) (bref b))) ⟨pos, rest, caps⟩ T).map tokOf =
      (if (rest.drop (runLen isHs rest)).take tk.length = tk then
        after (pos + runLen isHs rest + tk.length) ((rest.drop (runLen isHs rest)).drop tk.length)
          (.escaped c1 c2 ⟨pos + runLen isHs rest, pos + runLen isHs rest + tk.length, tk⟩)
      else none).map some := by
  have pre : ∀ r : Str, (c1.text.isPrefixOf r = true ↔ r.take tk.length = tk) := by
    intro r
    rw [hc1, List.isPrefixOf_iff_prefix, List.prefix_iff_eq_take]
    exact eq_comm
  rw [run_seq, HS, run_starG_det]
  · rw [run_grp, run_bref hcb]
    simp only [runLen, drop_takeWhile]
    by_cases hp : (rest.dropWhile isHs).take tk.length = tk
    · rw [if_pos ((pre _).mpr hp), if_pos hp, hc1]
      have e : ∀ q, q + tk.length - q = tk.length := by intro q; omega
      simp only [e, hp]
      exact F.refine (hOk _)
    · rw [if_neg (mt (pre _).mp hp), if_neg hp]; rfl
  · intro pos' c t h
    rw [run_grp, run_bref hcb, if_neg]
    rw [pre]
    obtain ⟨m, rfl⟩ := ht
    simp only [List.length_cons, List.take_succ_cons, List.cons.injEq, not_and]
    rintro rfl
    exact absurd h (by decide)

theorem run_escapedKey (F : Follow T after Ok) (b : Nat)
    (hOk : ∀ c1 c2 c3, Ok (setCap (setCap (setCap caps b c1) (b + 1) c2) (b + 2) c3) (.escaped c1 c2 c3)) :
    (run (ESCAPED b) ⟨pos, '`' :: t, caps⟩ T).map tokOf = (escapedKey after pos ('`' :: t)).map some := by
  rw [ESCAPED, run_seq]
  simp only [run_seq (nla (lit '`'))]
  rw [run_plus_nla]
  unfold escapedKey
  have hlen : (('`' :: t).take (runLen (· == '`') ('`' :: t))).length = runLen (· == '`') ('`' :: t) := by
    rw [List.length_take, Nat.min_eq_left (runLen_le _ _)]
  have htick : ∃ m, ('`' :: t).take (runLen (· == '`') ('`' :: t)) = '`' :: m := by
    simp [runLen]
  generalize htk : ('`' :: t).take (runLen (· == '`') ('`' :: t)) = tk at hlen htick ⊢
  generalize ('`' :: t) = s at hlen htk ⊢
  generalize runLen (· == '`') s = n at hlen htk ⊢
  subst hlen
  rw [run_seq, HS, run_starG_det]
  · have hr : s.drop (tk.length + runLen isHs (s.drop tk.length)) = (s.drop tk.length).dropWhile isHs := by
      rw [← List.drop_drop]; exact drop_takeWhile _ _
    simp only [hr, htk]
    cases h : (s.drop tk.length).dropWhile isHs with
    | nil => rfl
    | cons c t' =>
      have hh := dropWhile_head h
      by_cases hc : c = '\n'
      · subst hc
        rw [run_seq, run_REQUIRED_sp _ (by decide)]
        simp [lineOf_nl]
      · have hs : isSp c = false := by simpa [isHs, hc] using hh
        rw [run_seq, REQUIRED, run_grp, run_seq, run_chr_cons, if_pos (by simp [hs]), run_starL_findSome, map_findSome?,
          map_findSome?]
        have hl : (lineOf (c :: t')).length = (t'.takeWhile notNl).length + 1 := by
          rw [lineOf_cons_ne hc]; rfl
        rw [hl]
        congr 1
        funext j
        have e : pos + tk.length + ((s.drop tk.length).takeWhile isHs).length + 1 + j -
          (pos + tk.length + ((s.drop tk.length).takeWhile isHs).length) = j + 1 := by omega
        simp only [e, List.drop_succ_cons]
        have e3 : ∀ g, (c :: t').drop (j + 1 + g) = (t'.drop j).drop g := by
          intro g
          rw [show j + 1 + g = (j + g) + 1 by omega, List.drop_succ_cons, List.drop_drop]
        simp only [e3]
        show (run (seq HS (grp (b + 2) (bref b))) _ T).map tokOf = _
        rw [run_closing F b tk htick ⟨pos, pos + tk.length, tk⟩ _ rfl (by simp [setCap]) (fun c3 => hOk _ _ c3)]
        simp only [runLen]
        have e2 : pos + tk.length + ((s.drop tk.length).takeWhile isHs).length + 1 + j =
          pos + tk.length + ((s.drop tk.length).takeWhile isHs).length + (j + 1) := by omega
        rw [e2]
  · intro pos' c t h
    rw [run_seq, run_REQUIRED_sp _ (isHs_isSp h)]

end keys

/-! ### Instances -/

theorem runLen_append_hs {p : Char → Bool} (hp : ∀ c, isHs c = true → p c = true) {w r : Str} (hw : w.all isHs = true) :
    runLen p (w ++ r) = w.length + runLen p r := by
  unfold runLen
  rw [List.takeWhile_append_of_pos, List.length_append]
  intro a ha
  exact hp a (List.all_eq_true.mp hw a ha)

theorem drop_append_add {α} (w r : List α) (n : Nat) : (w ++ r).drop (w.length + n) = r.drop n := by
  simp

theorem follow_key : Follow (fun st => run SP st (fun st => run OPS st eolK)) afterKey OnlyKey where
  refine := run_afterKey
  skip := by
    intro q w r kt hw
    unfold afterKey
    simp only [runLen_append_hs (fun c h => isHs_isSp h) hw, drop_append_add, Nat.add_assoc]
  indep := by
    intro q r kt q' kt'
    unfold afterKey
    simp only
    split <;> simp
    unfold valueAt; simp

/-- Only the heading operator and the heading key groups are set. -/
def OnlyHeading (op : Cap) (caps : Nat → Option Cap) (k : KeyTok) : Prop :=
  caps 12 = some op ∧ keyOf caps 13 = some k ∧ ∀ i, i < 12 ∨ 16 < i → caps i = none

abbrev headingTail : St → Option St := fun st => run HS st (fun st => run SECTION_TEMPLATE st eolK)

theorem run_TEMPLATE_none (h : ∀ t, rest ≠ '<' :: t) :
    run SECTION_TEMPLATE ⟨pos, rest, caps⟩ k = k ⟨pos, rest, caps⟩ := by
  rw [SECTION_TEMPLATE, opt, run_alt, run_seq, run_grp, run_alt, run_seq, run_seq]
  cases rest with
  | nil => rfl
  | cons c t =>
    have : c ≠ '<' := by rintro rfl; exact h t rfl
    simp [run_lit_cons, this, run_eps]

theorem run_TEMPLATE_one (h : ∀ u, t ≠ '<' :: u) :
    run SECTION_TEMPLATE ⟨pos, '<' :: t, caps⟩ eolK =
      match valueAt (pos + 1) t with
      | none => none
      | some _ => some (afterLine (pos + 1) t (setCap caps 17 ⟨pos, pos + 1, ['<']⟩) 18) := by
  have hop : ∀ K, run (grp 17 (alt (seq (lit '<') (nla (lit '<'))) (seq (lit '<') (lit '<')))) ⟨pos, '<' :: t, caps⟩ K =
      K ⟨pos + 1, t, setCap caps 17 ⟨pos, pos + 1, ['<']⟩⟩ := by
    intro K
    rw [run_grp, run_alt, run_seq, run_seq, run_lit_cons, run_lit_cons, if_pos rfl, if_pos rfl]
    cases t with
    | nil => rw [run_nla_lit_nil, run_lit_nil]; simp [orElse]; split <;> simp_all
    | cons c u =>
      have : c ≠ '<' := by rintro rfl; exact h u rfl
      rw [run_nla_lit_cons, run_lit_cons, if_neg this, if_neg this]; simp [orElse]; split <;> simp_all
  rw [SECTION_TEMPLATE, opt, run_alt, run_seq, hop, run_seq, run_HS_REQUIRED 18 some_total]
  cases valueAt (pos + 1) t with
  | none => simp [run_eps, run_EOL, atEol, isHs, isSp]
  | some v => rfl

theorem run_TEMPLATE_two :
    run SECTION_TEMPLATE ⟨pos, '<' :: '<' :: t, caps⟩ eolK =
      match valueAt (pos + 2) t with
      | none => none
      | some _ => some (afterLine (pos + 2) t (setCap caps 17 ⟨pos, pos + 2, ['<', '<']⟩) 18) := by
  have hop : ∀ K, run (grp 17 (alt (seq (lit '<') (nla (lit '<'))) (seq (lit '<') (lit '<')))) ⟨pos, '<' :: '<' :: t, caps⟩ K =
      K ⟨pos + 2, t, setCap caps 17 ⟨pos, pos + 2, ['<', '<']⟩⟩ := by
    intro K
    rw [run_grp, run_alt, run_seq, run_seq, run_lit_cons, run_lit_cons, if_pos rfl, if_pos rfl, run_nla_lit_cons, run_lit_cons]
    simp [orElse, Nat.add_assoc]
  rw [SECTION_TEMPLATE, opt, run_alt, run_seq, hop, run_seq, run_HS_REQUIRED 18 some_total]
  cases valueAt (pos + 2) t with
  | none => simp [run_eps, run_EOL, atEol, isHs, isSp]
  | some v => rfl

theorem keyOf_setCap_gt13 {n : Nat} {v : Cap} (h : 16 < n) : keyOf (setCap caps n v) 13 = keyOf caps 13 := by
  simp only [keyOf, setCap]
  rw [if_neg (by omega), if_neg (by omega), if_neg (by omega), if_neg (by omega)]

theorem tokOf_heading {op : Cap} {kt : KeyTok} (hc : OnlyHeading op caps kt) (p : Nat) (r : Str) :
    tokOf ⟨p, r, caps⟩ = some ⟨p, .heading op kt none⟩ := by
  obtain ⟨h12, hk, hn⟩ := hc
  have h1 : caps 1 = none := hn 1 (by omega)
  have h23 : caps 23 = none := hn 23 (by omega)
  have h8 : caps 8 = none := hn 8 (by omega)
  have h25 : caps 25 = none := hn 25 (by omega)
  have h4 : caps 4 = none := hn 4 (by omega)
  have h2 : caps 2 = none := hn 2 (by omega)
  have h18 : caps 18 = none := hn 18 (by omega)
  simp [tokOf, bodyOf, h1, h23, h8, h25, h4, h2, h12, hk, h18]

theorem tokOf_heading_copy {op c1 c2 : Cap} {kt : KeyTok} (hc : OnlyHeading op caps kt) (p : Nat) (r : Str) :
    tokOf ⟨p, r, setCap (setCap caps 17 c1) 18 c2⟩ = some ⟨p, .heading op kt (some (c1, c2))⟩ := by
  obtain ⟨h12, hk, hn⟩ := hc
  have h1 : caps 1 = none := hn 1 (by omega)
  have h23 : caps 23 = none := hn 23 (by omega)
  have h8 : caps 8 = none := hn 8 (by omega)
  have h25 : caps 25 = none := hn 25 (by omega)
  have h4 : caps 4 = none := hn 4 (by omega)
  have h2 : caps 2 = none := hn 2 (by omega)
  have hk' : keyOf (setCap (setCap caps 17 c1) 18 c2) 13 = some kt := by
    rw [keyOf_setCap_gt13 (by omega), keyOf_setCap_gt13 (by omega), hk]
  simp only [tokOf, bodyOf, hk']
  simp [setCap, h1, h23, h8, h25, h4, h2, h12]

theorem run_afterHeadingKey {op : Cap} {kt : KeyTok} (hc : OnlyHeading op caps kt) :
    (headingTail ⟨pos, rest, caps⟩).map tokOf = (afterHeadingKey op pos rest kt).map some := by
  have hblank : ∀ q c u, isHs c = true → run SECTION_TEMPLATE ⟨q, c :: u, caps⟩ eolK =
      if atEol (u.dropWhile isHs) then some ⟨q + 1 + (u.takeWhile isHs).length, u.dropWhile isHs, caps⟩ else none := by
    intro q c u h
    rw [run_TEMPLATE_none]
    · show run EOL _ _ = _
      rw [run_EOL]; simp [h, Nat.add_assoc, Nat.add_comm 1]
    · intro t ht; simp at ht; rw [ht.1] at h; exact absurd h (by decide)
  unfold headingTail
  rw [HS, run_starG_full]
  · unfold afterHeadingKey runLen
    simp only [drop_takeWhile]
    have hfree : ∀ r p, (∀ t, r ≠ '<' :: t) → atEol r = true →
        run SECTION_TEMPLATE ⟨p, r, caps⟩ eolK = some ⟨p, r, caps⟩ := by
      intro r p h1 h2
      rw [run_TEMPLATE_none h1]
      show run EOL _ _ = _
      rw [run_EOL]
      cases r with
      | nil => simp [atEol]
      | cons c t => simp [atEol] at h2; subst h2; simp [atEol]
    cases h : rest.dropWhile isHs with
    | nil => rw [hfree _ _ (by simp) rfl]; simp [tokOf_heading hc]
    | cons c t =>
      have hh := dropWhile_head h
      by_cases h1 : c = '\n'
      · subst h1; rw [hfree _ _ (by simp) (by simp [atEol])]; simp [tokOf_heading hc]
      · by_cases h2 : c = '<'
        · subst h2
          by_cases h3 : ∃ u, t = '<' :: u
          · obtain ⟨u, rfl⟩ := h3
            rw [run_TEMPLATE_two]
            simp only [afterLine]
            cases hv : valueAt (pos + (rest.takeWhile isHs).length + 2) u with
            | none => rfl
            | some v => simp [tokOf_heading_copy hc]
          · rw [run_TEMPLATE_one (fun u hu => h3 ⟨u, hu⟩)]
            simp only [afterLine]
            cases hv : valueAt (pos + (rest.takeWhile isHs).length + 1) t with
            | none =>
              cases t with
              | nil => simp [hv]
              | cons d u =>
                have : d ≠ '<' := by rintro rfl; exact h3 ⟨u, rfl⟩
                split <;> simp_all
            | some v =>
              simp only [Option.map_some, tokOf_heading_copy hc]
              cases t with
              | nil => simp [hv]
              | cons d u =>
                have : d ≠ '<' := by rintro rfl; exact h3 ⟨u, rfl⟩
                split <;> simp_all
        · rw [run_TEMPLATE_none (by intro t ht; simp at ht; exact h2 ht.1)]
          show (run EOL _ _).map _ = _
          rw [run_EOL]
          have e : (c :: t).dropWhile isHs = c :: t := by simp [hh]
          rw [e]
          simp [atEol, h1]
          split <;> simp_all
  · intro j hj hnone
    obtain ⟨c, t, he, hcc⟩ := drop_lt_run hj
    rw [he, hblank _ _ _ hcc]
    have hd : t.dropWhile isHs = rest.dropWhile isHs := by
      have := dropWhile_drop (p := isHs) (l := rest) (j := j) (by omega)
      rw [he] at this
      simpa [hcc] using this
    rw [hd]
    split
    · rename_i hat
      rw [run_TEMPLATE_none] at hnone
      · change run EOL _ _ = _ at hnone
        rw [run_EOL] at hnone
        cases hq : rest.dropWhile isHs with
        | nil => rw [hq] at hnone; simp [atEol] at hnone
        | cons x y =>
          rw [hq] at hnone hat
          have : x = '\n' := by simpa [atEol] using hat
          subst this
          simp [atEol] at hnone
      · intro t ht; rw [ht] at hat; simp [atEol] at hat
    · rfl

theorem follow_heading (op : Cap) : Follow headingTail (afterHeadingKey op) (OnlyHeading op) where
  refine := run_afterHeadingKey
  skip := by
    intro q w r kt hw
    unfold afterHeadingKey
    simp only [runLen_append_hs (fun c h => h) hw, drop_append_add, Nat.add_assoc]
  indep := by
    intro q r kt q' kt'
    unfold afterHeadingKey
    simp only
    split <;> simp <;> (unfold valueAt; simp)

/-! ### Failing alternatives -/

theorem run_ESCAPED_other (b : Nat) (h : c ≠ '`') : run (ESCAPED b) ⟨pos, c :: t, caps⟩ k = none := by
  rw [ESCAPED, run_seq, run_grp, plus, run_seq, run_lit_cons, if_neg h]
theorem run_ESCAPED_nil (b : Nat) : run (ESCAPED b) ⟨pos, [], caps⟩ k = none := rfl

theorem run_LIST_ITEM_other (h : c ≠ '-') : run LIST_ITEM ⟨pos, c :: t, caps⟩ k = none := by
  rw [LIST_ITEM, run_seq, run_grp, run_lit_cons, if_neg h]
theorem run_MULTILINE_other (h : c ≠ '-') : run MULTILINE_FIELD ⟨pos, c :: t, caps⟩ k = none := by
  rw [MULTILINE_FIELD, run_seq, run_grp, run_seq, run_lit_cons, if_neg h]
theorem run_SECTION_other (h : c ≠ '#') : run SECTION ⟨pos, c :: t, caps⟩ k = none := by
  rw [SECTION, run_seq, SECTION_OPERATOR, run_seq, run_grp, plus, run_seq, run_lit_cons, if_neg h]
theorem run_LATE_other (h : keyStart c = false) (h' : c ≠ '`') : run LATE_DETERMINED ⟨pos, c :: t, caps⟩ k = none := by
  rw [LATE_DETERMINED, run_seq, KEY, run_alt, run_ESCAPED_other 20 h', KEY_UNESCAPED, run_grp, run_seq, run_chr_cons, h]
  rfl

/-! ### Headings -/

abbrev noCaps : Nat → Option Cap := fun _ => none

theorem onlyHeading_escaped (op c1 c2 c3 : Cap) :
    OnlyHeading op (setCap (setCap (setCap (setCap noCaps 12 op) 14 c1) (14 + 1) c2) (14 + 2) c3) (.escaped c1 c2 c3) := by
  refine ⟨by simp [setCap], by simp [keyOf, setCap], ?_⟩
  intro i hi
  simp only [setCap]
  rw [if_neg (by omega), if_neg (by omega), if_neg (by omega), if_neg (by omega)]

theorem onlyHeading_plain (op cap : Cap) : OnlyHeading op (setCap (setCap noCaps 12 op) 13 cap) (.plain cap) := by
  refine ⟨by simp [setCap], by simp [keyOf, setCap], ?_⟩
  intro i hi
  simp only [setCap]
  rw [if_neg (by omega), if_neg (by omega)]

theorem run_SECTION : (run SECTION ⟨pos, '#' :: t, noCaps⟩ eolK).map tokOf = (headingAt pos ('#' :: t)).map some := by
  rw [SECTION, run_seq, SECTION_OPERATOR, run_seq, run_plus_nla]
  unfold headingAt
  generalize hop : (⟨pos, pos + runLen (· == '#') ('#' :: t), ('#' :: t).take (runLen (· == '#') ('#' :: t))⟩ : Cap) = op
  generalize hd : runLen (· == '#') ('#' :: t) = d
  generalize hs : ('#' :: t) = s
  simp only [hd, hs] at hop
  simp only [hop]
  show (run SP _ (fun st => run SECTION_KEY st headingTail)).map tokOf = _
  rw [SP, run_starG_det]
  · rw [← List.drop_drop]
    have hr : (s.drop d).drop (runLen isSp (s.drop d)) = (s.drop d).dropWhile isSp := drop_takeWhile _ _
    rw [hr]
    simp only [runLen]
    cases h : (s.drop d).dropWhile isSp with
    | nil => rfl
    | cons c u =>
      have hh := dropWhile_head h
      rw [SECTION_KEY, run_alt]
      by_cases h1 : c = '<'
      · subst h1
        rw [SECTION_KEY_UNESCAPED, run_grp, run_seq, run_chr_cons, run_ESCAPED_other 14 (by decide)]
        rfl
      · by_cases h2 : c = '`'
        · subst h2
          have hun : ∀ K, run SECTION_KEY_UNESCAPED ⟨pos + d + ((s.drop d).takeWhile isSp).length, '`' :: u, setCap noCaps 12 op⟩ K = none := by
            intro K
            rw [SECTION_KEY_UNESCAPED, run_grp, run_seq, run_chr_cons, if_neg (by decide)]
          rw [hun, orElse_none]
          have := run_escapedKey (pos := pos + d + ((s.drop d).takeWhile isSp).length) (t := u) (caps := setCap noCaps 12 op)
            (follow_heading op) 14 (onlyHeading_escaped op)
          rw [this]
          split <;> simp_all
        · have hcls : (fun c => c != '<' && c != '\n') = (fun c : Char => !(c == '<' || c == '\n')) := by
            funext c; simp [bne]
          rw [run_ESCAPED_other 14 h2, hcls]
          have hnl : c ≠ '\n' := by rintro rfl; simp at hh
          have := run_plainKey (pos := pos + d + ((s.drop d).takeWhile isSp).length) (t := u) (c := c) (caps := setCap noCaps 12 op)
            (follow_heading op) 13 (fun c => !(isSp c || c == '`' || c == '<'))
            (fun c : Char => !(c == '<' || c == '\n'))
            (by
              intro q c t kt hc hhs
              have : c ≠ '<' ∧ c ≠ '\n' := by simpa using hc
              unfold afterHeadingKey
              simp only [runLen, List.takeWhile_cons, hhs]
              split <;> simp_all)
            (onlyHeading_plain op)
            (by simp [hh, h1, h2]) (by simp [h1, hnl]) (by simp [isHs, hh])
          have e : ∀ o : Option St, orElse o (fun _ => none) = o := by intro o; cases o <;> rfl
          rw [e, SECTION_KEY_UNESCAPED, this]
          split <;> simp_all
  · intro pos' c t h
    have h1 : c ≠ '`' := by rintro rfl; exact absurd h (by decide)
    rw [SECTION_KEY, run_alt, run_ESCAPED_other 14 h1, SECTION_KEY_UNESCAPED, run_grp, run_seq, run_chr_cons]
    simp [h]

/-! ### Dashes -/

theorem run_dashes : (orElse (run LIST_ITEM ⟨pos, '-' :: t, noCaps⟩ eolK)
    (fun _ => run MULTILINE_FIELD ⟨pos, '-' :: t, noCaps⟩ eolK)).map tokOf = (dashAt pos ('-' :: t)).map some := by
  have hd : runLen (· == '-') ('-' :: t) = runLen (· == '-') t + 1 := by simp [runLen]
  unfold dashAt
  rw [hd]
  by_cases h1 : ∃ u, t = '-' :: u
  · obtain ⟨u, rfl⟩ := h1
    have hL : run LIST_ITEM ⟨pos, '-' :: '-' :: u, noCaps⟩ eolK = none := by
      rw [LIST_ITEM, run_seq, run_grp, run_lit_cons, if_pos rfl, run_seq, run_nla_lit_cons, if_pos rfl]
    rw [hL, orElse_none, MULTILINE_FIELD, run_seq]
    have hop : ∀ K, run (grp 10 (seq (lit '-') (plus (lit '-')))) ⟨pos, '-' :: '-' :: u, noCaps⟩
        (fun st => run (nla (lit '-')) st K) =
        K ⟨pos + (runLen (· == '-') ('-' :: u) + 1), u.drop (runLen (· == '-') u),
          setCap noCaps 10 ⟨pos, pos + (runLen (· == '-') ('-' :: u) + 1),
            '-' :: '-' :: u.take (runLen (· == '-') u)⟩⟩ := by
      intro K
      rw [run_grp, run_seq, run_lit_cons, if_pos rfl, plus, run_seq, run_lit_cons, if_pos rfl, lit, run_starG_det]
      · have hr : runLen (· == '-') ('-' :: u) = (u.takeWhile (· == '-')).length + 1 := by simp [runLen]
        rw [hr]
        have e : pos + 1 + 1 + (u.takeWhile (· == '-')).length - pos = (u.takeWhile (· == '-')).length + 1 + 1 := by omega
        have e2 : pos + 1 + 1 + (u.takeWhile (· == '-')).length = pos + ((u.takeWhile (· == '-')).length + 1 + 1) := by omega
        simp only [e, runLen]
        rw [drop_takeWhile, e2, List.take_succ_cons, List.take_succ_cons]
        cases h : u.dropWhile (· == '-') with
        | nil => rfl
        | cons c' t' =>
          have := dropWhile_head h
          show run (nla (lit '-')) _ _ = _
          rw [run_nla_lit_cons, if_neg (by simpa using this)]
      · intro pos' c t h
        have : c = '-' := by simpa using h
        show run (nla (lit '-')) _ _ = _
        rw [run_nla_lit_cons, if_pos this]
    show (run _ _ (fun st => run (nla (lit '-')) st (fun st => run (seq HS (REQUIRED 11)) st eolK))).map tokOf = _
    rw [hop, run_seq, run_HS_REQUIRED 11 some_total]
    have hr : runLen (· == '-') ('-' :: u) = runLen (· == '-') u + 1 := by simp [runLen]
    rw [hr, if_neg (by omega)]
    simp only [List.drop_succ_cons, List.take_succ_cons, afterLine]
    cases hv : valueAt (pos + (runLen (· == '-') u + 1 + 1)) (u.drop (runLen (· == '-') u)) with
    | none => rfl
    | some v => simp [tokOf, bodyOf, setCap]
  · have hr : runLen (· == '-') t = 0 := by
      cases t with
      | nil => rfl
      | cons c u =>
        have : c ≠ '-' := by rintro rfl; exact h1 ⟨u, rfl⟩
        simp [runLen, this]
    have hL : run LIST_ITEM ⟨pos, '-' :: t, noCaps⟩ eolK =
        some (afterLine (pos + 1) t (setCap noCaps 8 ⟨pos, pos + 1, ['-']⟩) 9) := by
      rw [LIST_ITEM, run_seq, run_op_cons, if_pos rfl, run_seq]
      cases t with
      | nil => rw [run_nla_lit_nil, run_seq, run_HS_OPTIONAL 9 some_total]
      | cons c u =>
        have : c ≠ '-' := by rintro rfl; exact h1 ⟨u, rfl⟩
        rw [run_nla_lit_cons, if_neg this, run_seq, run_HS_OPTIONAL 9 some_total]
    rw [hL, orElse_some, hr]
    simp only [afterLine, Option.map_some]
    cases hv : valueAt (pos + 1) t <;> simp [tokOf, bodyOf, setCap, hv]

/-! ### Whole lines -/

theorem orElse_none_right (o : Option St) : orElse o (fun _ => none) = o := by cases o <;> rfl

theorem run_LATE_plain (h : keyStart c = true) :
    (run LATE_DETERMINED ⟨pos, c :: t, noCaps⟩ eolK).map tokOf =
      (plainKey (fun c => c != '\n' && c != ':' && c != '=' && c != '<') afterKey pos (c :: t)).map some := by
  have hk : c ≠ '`' ∧ c ≠ '\n' ∧ c ≠ ':' ∧ c ≠ '=' ∧ c ≠ '<' ∧ isSp c = false := by
    simp [keyStart] at h
    refine ⟨by simp_all, ?_, by simp_all, by simp_all, by simp_all, by simp_all⟩
    rintro rfl; simp at h
  have hcls : (fun c => c != '\n' && c != ':' && c != '=' && c != '<') = keyChar := by
    funext c; simp [keyChar, bne]
  rw [LATE_DETERMINED, run_seq, KEY, run_alt, run_ESCAPED_other 20 hk.1, orElse_none_right, hcls, KEY_UNESCAPED]
  apply run_plainKey follow_key 19 keyStart keyChar
  · intro q c t kt hc hhs
    have hc' : ((¬c = '\n' ∧ ¬c = ':') ∧ ¬c = '=') ∧ ¬c = '<' := by simpa [keyChar] using hc
    have hsp : isSp c = false := by simpa [isHs, hc'] using hhs
    unfold afterKey
    simp only [runLen, List.takeWhile_cons, hsp]
    split <;> simp_all
  · intro cap
    refine ⟨by simp [setCap, keyOf], ?_⟩
    intro i hi
    simp only [setCap]
    rw [if_neg (by omega)]
  · exact h
  · simp [keyChar, hk]
  · simp [isHs, hk]

theorem run_LATE_tick :
    (run LATE_DETERMINED ⟨pos, '`' :: t, noCaps⟩ eolK).map tokOf = (escapedKey afterKey pos ('`' :: t)).map some := by
  rw [LATE_DETERMINED, run_seq, KEY, run_alt, KEY_UNESCAPED, run_grp, run_seq, run_chr_cons, if_neg (by decide), orElse_none]
  apply run_escapedKey follow_key
  intro c1 c2 c3
  refine ⟨by simp [keyOf, setCap], ?_⟩
  intro i hi
  simp only [setCap]
  rw [if_neg (by omega), if_neg (by omega), if_neg (by omega)]

theorem orElse_map (a : Option St) (b : Unit → Option St) :
    (orElse a b).map tokOf = match a.map tokOf with
      | some x => some x
      | none => (b ()).map tokOf := by
  cases a <;> rfl

theorem tokOf_line {op : Cap} {n i : Nat} {p : Nat} {s : Str} (f : Option Cap → Body)
    (hb : bodyOf (setCap noCaps n op) = some (f none))
    (hb' : ∀ v, bodyOf (setCap (setCap noCaps n op) i v) = some (f (some v))) :
    tokOf (afterLine p s (setCap noCaps n op) i) = some ⟨eolAt p s, f (valueAt p s)⟩ := by
  unfold tokOf afterLine
  cases valueAt p s with
  | none => simp [hb]
  | some v => simp [hb']

theorem run_NOT_EMPTY_nil : run NOT_EMPTY ⟨pos, [], caps⟩ k = none := rfl

/-- `scan` on a line that starts with a non-blank character. -/
theorem run_NOT_EMPTY (hc : isSp c = false) :
    (run NOT_EMPTY ⟨pos, c :: t, noCaps⟩ eolK).map tokOf = (scan pos (c :: t)).map some := by
  have hhs : isHs c = false := by simp [isHs, hc]
  have hnl : c ≠ '\n' := by rintro rfl; simp at hc
  have hscan : runLen isHs (c :: t) = 0 := by simp [runLen, hhs]
  unfold scan
  simp only [hscan, Nat.add_zero, List.drop_zero, hnl, if_false]
  rw [NOT_EMPTY, run_alt, EARLY_DETERMINED, run_alt, CONTINUATION, run_alt, DIRECT_LINE_CONTINUATION,
    SPACED_LINE_CONTINUATION, run_op_optional, run_op_optional]
  by_cases h1 : c = '|'
  · subst h1
    simp only [if_true, orElse_some, Option.map_some]
    rw [tokOf_line (fun v => .continuation false ⟨pos, pos + 1, ['|']⟩ v) (by simp [bodyOf, setCap]) (by simp [bodyOf, setCap])]
  simp only [h1, if_false, orElse_none]
  by_cases h2 : c = '\\'
  · subst h2
    simp only [if_true, orElse_some, Option.map_some]
    rw [tokOf_line (fun v => .continuation true ⟨pos, pos + 1, ['\\']⟩ v) (by simp [bodyOf, setCap]) (by simp [bodyOf, setCap])]
  simp only [h2, if_false, orElse_none]
  rw [run_alt, COMMENT, run_op_optional]
  by_cases h3 : c = '>'
  · subst h3
    simp only [if_true, orElse_some, Option.map_some]
    rw [tokOf_line (fun v => .comment ⟨pos, pos + 1, ['>']⟩ v) (by simp [bodyOf, setCap]) (by simp [bodyOf, setCap])]
  simp only [h3, if_false, orElse_none]
  rw [run_alt, run_alt]
  by_cases h4 : c = '-'
  · subst h4
    rw [run_SECTION_other (by decide), run_LATE_other (by decide) (by decide)]
    simp only [if_true, orElse_none_right]
    exact run_dashes
  rw [run_LIST_ITEM_other h4, run_MULTILINE_other h4, orElse_none, orElse_none]
  simp only [h4, if_false]
  by_cases h5 : c = '#'
  · subst h5
    rw [run_LATE_other (by decide) (by decide), orElse_none_right]
    simp only [if_true]
    exact run_SECTION
  rw [run_SECTION_other h5, orElse_none]
  simp only [h5, if_false]
  by_cases h6 : c = '`'
  · subst h6
    simp only [if_true]
    exact run_LATE_tick
  simp only [h6, if_false]
  by_cases h7 : c = ':' ∨ c = '=' ∨ c = '<'
  · rw [run_LATE_other _ h6, if_pos h7]
    · rfl
    · rcases h7 with rfl | rfl | rfl <;> decide
  · rw [if_neg h7]
    apply run_LATE_plain
    simp only [not_or] at h7
    simp [keyStart, hc, h1, h2, h3, h4, h5, h6, h7]

theorem run_NOT_EMPTY_hs (hc : isHs c = true) : run NOT_EMPTY ⟨pos, c :: t, noCaps⟩ eolK = none := by
  have hne : ∀ d, isHs d = false → c ≠ d := by rintro d hd rfl; rw [hc] at hd; cases hd
  have hks : keyStart c = false := by simp [keyStart, isHs_isSp hc]
  rw [NOT_EMPTY, run_alt, EARLY_DETERMINED, run_alt, CONTINUATION, run_alt, DIRECT_LINE_CONTINUATION,
    SPACED_LINE_CONTINUATION, run_op_optional, run_op_optional, if_neg (hne _ (by decide)), if_neg (hne _ (by decide)),
    run_alt, COMMENT, run_op_optional, if_neg (hne _ (by decide)), run_alt, run_alt, run_LIST_ITEM_other (hne _ (by decide)),
    run_MULTILINE_other (hne _ (by decide)), run_SECTION_other (hne _ (by decide)), run_LATE_other hks (hne _ (by decide))]
  rfl

theorem run_NOT_EMPTY_nl : run NOT_EMPTY ⟨pos, '\n' :: t, noCaps⟩ eolK = none := by
  have hks : keyStart '\n' = false := by decide
  rw [NOT_EMPTY, run_alt, EARLY_DETERMINED, run_alt, CONTINUATION, run_alt, DIRECT_LINE_CONTINUATION,
    SPACED_LINE_CONTINUATION, run_op_optional, run_op_optional, if_neg (by decide), if_neg (by decide),
    run_alt, COMMENT, run_op_optional, if_neg (by decide), run_alt, run_alt, run_LIST_ITEM_other (by decide),
    run_MULTILINE_other (by decide), run_SECTION_other (by decide), run_LATE_other hks (by decide)]
  rfl

theorem scan_skip (pos : Nat) (s : Str) :
    scan pos s = scan (pos + runLen isHs s) (s.drop (runLen isHs s)) := by
  have h0 : runLen isHs (s.drop (runLen isHs s)) = 0 := by
    unfold runLen
    rw [drop_takeWhile]
    cases h : s.dropWhile isHs with
    | nil => rfl
    | cons c t => simp [dropWhile_head h]
  conv => rhs; unfold scan
  rw [h0]
  conv => lhs; unfold scan
  simp only [Nat.add_zero, List.drop_zero]

/-- The compiled pattern and the scanner describe the same line. -/
theorem matchAt_REGEX (pos : Nat) (s : Str) :
    (matchAt REGEX pos s).map tokOf = (scan pos s).map some := by
  have hbody : ∀ q r, run (seq (alt EMPTY NOT_EMPTY) EOL) ⟨q, r, noCaps⟩ some =
      orElse (if atEol (r.dropWhile isHs) then
        some ⟨q + (r.takeWhile isHs).length, r.dropWhile isHs, setCap noCaps 1 ⟨q, q, []⟩⟩ else none)
        fun _ => run NOT_EMPTY ⟨q, r, noCaps⟩ eolK := by
    intro q r
    rw [run_seq, run_alt, EMPTY, run_grp, run_eps]
    simp only [Nat.sub_self, List.take_zero]
    rw [run_EOL]
  rw [matchAt, REGEX, run_seq, HS, run_starG_full]
  · rw [scan_skip]
    unfold runLen
    rw [drop_takeWhile, hbody]
    cases h : s.dropWhile isHs with
    | nil =>
      simp [atEol, scan, runLen, tokOf, bodyOf, setCap]
    | cons c t =>
      have hh := dropWhile_head h
      have e : (c :: t).dropWhile isHs = c :: t := by simp [hh]
      by_cases hc : c = '\n'
      · subst hc
        simp [atEol, scan, runLen, tokOf, bodyOf, setCap]
      · have hs : isSp c = false := by simpa [isHs, hc] using hh
        rw [e, ← run_NOT_EMPTY hs]
        simp [atEol, hc]
  · intro j hj hnone
    obtain ⟨c, t, he, hcc⟩ := drop_lt_run hj
    rw [he, hbody, run_NOT_EMPTY_hs hcc, orElse_none_right]
    rw [hbody] at hnone
    have hd : (c :: t).dropWhile isHs = s.dropWhile isHs := by
      rw [← he]; exact dropWhile_drop (by omega)
    have hdd : (s.dropWhile isHs).dropWhile isHs = s.dropWhile isHs := by
      cases h : s.dropWhile isHs with
      | nil => rfl
      | cons x y => simp [dropWhile_head h]
    rw [hd]
    rw [hdd] at hnone
    by_cases ha : atEol (s.dropWhile isHs) = true
    · rw [if_pos ha] at hnone; simp at hnone
    · rw [if_neg ha]

theorem search_start (r : Re) (pos : Nat) (s : Str) :
    (match Re.search r pos s with
      | some (start, st) => if start = pos then some st else none
      | none => none) = matchAt r pos s := by
  have hge : ∀ (s : Str) (q p st), Re.search r q s = some (p, st) → q ≤ p := by
    intro s
    induction s with
    | nil =>
      intro q p st h
      simp only [Re.search, Option.map_eq_some_iff] at h
      obtain ⟨_, _, h⟩ := h
      simp at h; omega
    | cons c t ih =>
      intro q p st h
      simp only [Re.search] at h
      split at h
      · simp at h; omega
      · have := ih _ _ _ h; omega
  cases s with
  | nil =>
    simp only [Re.search]
    cases matchAt r pos [] <;> simp
  | cons c t =>
    simp only [Re.search]
    cases h : matchAt r pos (c :: t) with
    | some st => simp
    | none =>
      simp only
      cases h2 : Re.search r (pos + 1) t with
      | none => rfl
      | some x =>
        obtain ⟨p, st⟩ := x
        have := hge _ _ _ _ h2
        simp only
        rw [if_neg (by omega)]

theorem recognise_eq (pos : Nat) (s : Str) : recognise pos s = matchAt REGEX pos s := search_start REGEX pos s

/-- The groups the analyzer reads from a match are always the ones set. -/
theorem tokAt_eq (pos : Nat) (s : Str) : tokAt pos s = scan pos s := by
  unfold tokAt
  rw [recognise_eq]
  have h := matchAt_REGEX pos s
  cases hm : matchAt REGEX pos s with
  | none => rw [hm] at h; cases hs : scan pos s with
    | none => rfl
    | some t => rw [hs] at h; simp at h
  | some st =>
    rw [hm] at h
    cases hs : scan pos s with
    | none => rw [hs] at h; simp at h
    | some t => rw [hs] at h; simpa using h

end Eno
