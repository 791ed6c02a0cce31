import Verif.Proofs.CopiedReads

/-! # What objects of documents with copies read like -/

namespace Eno.El

open Spec

variable {E : Env} {w3 : World} {y i : Nat} {input : Str} {ctx0 : Ctx} {c : Option (Option Str)} {k : Option Str} {zs : List Raw}

theorem field_reads {t : Ty} {v : Option Str} (W : Grasped input E ctx0) (hr3 : Reach E w3) (hi : i < ctx0.heap.length) (href3 : (w3.at y).ref = .elem i) (hy3 : IsA w3 y (.of .field))
    (hr : RawOf input ctx0.heap (.elem i) (.leaf t c k (some v))) : Gives E w3 y v ∧ Notes E w3 y c.join := by
  obtain ⟨c', g1, g2, g3, g4, g5⟩ := RawOf.text hr
  constructor
  · refine gives_known W hr3 hy3.1 (.inl hy3.2) fun v' hv' => ?_
    rw [href3] at hv'
    cases hv' with
    | value h => exact h.det g4
    | subValue h => simp [Heap.sub?] at h
  · rw [g5]
    exact notes_elem W hr3 hi href3 g1

theorem list_reads (W : Grasped input E ctx0) (hr3 : Reach E w3) (hi : i < ctx0.heap.length) (href3 : (w3.at y).ref = .elem i) (hy3 : IsA w3 y (.of .list))
    (hr : RawOf input ctx0.heap (.elem i) (.node .list c k zs)) : ReadsAs E w3 y (.node .list c k zs) := by
  obtain ⟨c', js, g1, g2, g3, g4, g5⟩ := RawOf.list' hr
  have hl := W.loaded
  have hd := W.depth
  have V := envOk_load hl
  have hty := W.kind hi g2 (by decide)
  have hit : Items E (w3.at y) js := by
    obtain ⟨j, rs, e1, e2, e3⟩ := C69_contents W.analyzed hl (by omega) hr3 hy3
    rw [href3] at e1
    cases e1
    rcases e3 with ⟨_, e3⟩ | ⟨e3, _⟩
    · rw [e3.det g3] at e2; exact e2
    · rw [hty] at e3; cases e3
  obtain ⟨ps, p1, p2, p3⟩ := RawsOf.paired g4
  have hsub : ∀ r ∈ js, (ctx0.heap.sub? r).isSome := g3.sub
  have hlen : js.length = zs.length := by rw [p1, p2]; simp
  refine ⟨by rw [g5]; exact notes_elem W hr3 hi href3 g1, ?_, ?_, ?_⟩
  · rw [(C69_length hl hr3 hy3 hit).1, hlen]
  · intro f
    obtain ⟨qs, q1, q2, q3⟩ := C45_values (f := fun t => .ok (f t)) (required := false) W.analyzed hl hd hr3 hy3 hit
    rw [q3, outcomes_ok]
    have e : (qs.map fun p => Val.opt (p.2.map f)) = zs.map fun z => Val.opt ((rawText z).map f) := by
      have hl1 : qs.length = zs.length := by rw [← hlen, ← q1]; simp
      refine List.ext_getElem (by simp [hl1]) fun n n1 n2 => ?_
      have nq : n < qs.length := by simpa using n1
      have np : n < ps.length := by rw [p2] at hl1; simp at hl1; omega
      have e1 : qs[n].1 = ps[n].1 := by
        have := q1.trans p1
        have := congrArg (·[n]?) this
        simpa [nq, np] using this
      have e2 := q2 qs[n] (List.getElem_mem nq)
      have e3 := p3 ps[n] (List.getElem_mem np)
      rw [e1] at e2
      have hm : ps[n].1 ∈ js := by rw [p1]; exact List.mem_map_of_mem (List.getElem_mem np)
      obtain ⟨s, hs⟩ := Option.isSome_iff_exists.1 (hsub _ hm)
      have e4 : qs[n].2 = rawText ps[n].2 := by
        rw [(RawOf.subText e3 hs).1]
        generalize ps[n].1 = r at e2 hs
        generalize qs[n].2 = v at e2
        cases e2 with
        | value => cases hs
        | subValue h => rw [hs] at h; cases h; rfl
      subst p2
      simp [e4]
    rw [e]; rfl
  · obtain ⟨os, z1, z2, z3, _⟩ := C69_items hl hr3 hy3 hit
    have hol : os.length = js.length := by rw [← z2]; simp
    refine ⟨os, z1, by omega, fun p hp w4 hw4 => ?_⟩
    obtain ⟨n, hn1, hn2⟩ := List.mem_iff_getElem.1 hp
    have no : n < os.length := by simp at hn1; omega
    have nz : n < zs.length := by omega
    have nj : n < js.length := by omega
    have np : n < ps.length := by rw [p2] at nz; simpa using nz
    have ep : p = (os[n], zs[n]) := by rw [← hn2, List.getElem_zip]
    have hr' : Reach E (run E y .items w3).2 := hr3.leads (Leads.one (by exact trivial) y)
    have K' := hw4.keeps V (hr'.inv V)
    have hz := (z3 os[n] (List.getElem_mem no)).1
    have hz4 := hz.later K'.later
    have ej : js[n] = ps[n].1 := by simp only [p1, List.getElem_map]
    have ez : zs[n] = ps[n].2 := by simp only [p2, List.getElem_map]
    have href4 : (w4.at os[n]).ref = js[n] := by
      rw [(K'.later.obj _ hz.1).ref]
      have := congrArg (·[n]?) z2
      simpa [no, nj] using this
    rw [ep, ez]
    rw [ej] at href4
    exact says_sub W (hr'.leads hw4) hz4.1 (.inr (.inr hz4.2)) href4 (p3 _ (List.getElem_mem np)) (hsub _ (by rw [← ej]; exact List.getElem_mem nj))

theorem fieldset_reads (W : Grasped input E ctx0) (hr3 : Reach E w3) (hi : i < ctx0.heap.length) (href3 : (w3.at y).ref = .elem i) (hy3 : IsA w3 y (.of .fieldset))
    (hr : RawOf input ctx0.heap (.elem i) (.node .fieldset c k zs)) : ReadsAs E w3 y (.node .fieldset c k zs) := by
  obtain ⟨c', js, g1, g2, g3, g4, g5⟩ := RawOf.fieldset' hr
  have hl := W.loaded
  have hd := W.depth
  have V := envOk_load hl
  have hty := W.kind hi g2 (by decide)
  have hit : Entries E (w3.at y) js := by
    obtain ⟨j, rs, e1, e2, e3⟩ := C61_contents W.analyzed hl (by omega) hr3 hy3
    rw [href3] at e1
    cases e1
    rcases e3 with ⟨_, e3⟩ | ⟨e3, _⟩
    · rw [e3.det g3] at e2; exact e2
    · rw [hty] at e3; cases e3
  refine ⟨by rw [g5]; exact notes_elem W hr3 hi href3 g1, fun k' z hz => ?_⟩
  have L := Eno.loaded W.analyzed W.loaded
  obtain ⟨ps, rfl, rfl, p3⟩ := RawsOf.paired g4
  obtain ⟨r, r1, r2⟩ := key_one (f := fun r => decide (entryKey ctx0.heap r = some k')) (fun p hp => by
    have := p3 p hp
    rw [RawOf.entryKey' this (entriesOf_entry g3 _ (List.mem_map_of_mem hp))]) hz.2
  have hone : entriesWithKey E.ctx.heap (some k') (ps.map (·.1)) = [r] := by
    rw [← r2]
    unfold entriesWithKey
    have hk' := hz.1
    cases k' with
    | nil => exact absurd rfl hk'
    | cons a b =>
      dsimp only
      refine List.filter_congr fun r _ => ?_
      rw [L.non.sub_eq r]; rfl
  obtain ⟨e, e1, e2, e3, _⟩ := C61_one (required := some true) hl hr3 hy3 hit hone
  have hr : run E y (.entry (some k') (some true)) w3 = (.ok (.obj e), (run E y (.entry (some k') (some true)) w3).2) := by rw [← e1]
  refine ⟨e, _, hr, fun w5 hw5 => ?_⟩
  have hr' : Reach E (run E y (.entry (some k') (some true)) w3).2 := hr3.leads (Leads.one (by exact trivial) y)
  have K' := hw5.keeps V (hr'.inv V)
  have hz5 := e2.later K'.later
  have href5 : (w5.at e).ref = r := by rw [(K'.later.obj _ e2.1).ref]; exact e3
  exact says_sub W (hr'.leads hw5) hz5.1 (.inr (.inl hz5.2)) href5 (p3 _ r1) (g3.sub _ (List.mem_map_of_mem r1))

theorem section_reads (W : Grasped input E ctx0) (hr3 : Reach E w3) (hi : i < ctx0.heap.length) (href3 : (w3.at y).ref = .elem i)
    (hr : RawOf input ctx0.heap (.elem i) (.node .section c k zs)) : ReadsAs E w3 y (.node .section c k zs) := by
  obtain ⟨c', js, g1, _, _, _, g5⟩ := RawOf.sec hr
  show Notes E w3 y c.join
  rw [g5]
  exact notes_elem W hr3 hi href3 g1

/-! ## Several objects -/

theorem Grasped.fits (W : Grasped input E ctx0) (hi : i < ctx0.heap.length) {z : Raw} (hr : RawOf input ctx0.heap (.elem i) z) {kd : Kind} (hz : rawKind z = some kd) :
    ∀ k', Fits k' (E.ctx.heap.at i).type ↔ k' = kd := by
  have L := Eno.loaded W.analyzed W.loaded
  intro k'
  unfold rawKind at hz
  split at hz
  · cases hz
    obtain ⟨_, _, g2, _⟩ := RawOf.text hr
    rw [W.kind hi g2 (by decide)]
    exact ⟨fun h => by cases h; rfl, fun h => by subst h; exact .field⟩
  · cases hz
    obtain ⟨_, _, g2, _⟩ := RawOf.text hr
    rw [W.kind hi g2 (by decide)]
    exact ⟨fun h => by cases h; rfl, fun h => by subst h; exact .multilineField⟩
  · cases hz
    obtain ⟨_, _, _, g2, _⟩ := RawOf.list' hr
    rw [W.kind hi g2 (by decide)]
    exact ⟨fun h => by cases h; rfl, fun h => by subst h; exact .list⟩
  · cases hz
    obtain ⟨_, _, _, g2, _⟩ := RawOf.fieldset' hr
    rw [W.kind hi g2 (by decide)]
    exact ⟨fun h => by cases h; rfl, fun h => by subst h; exact .fieldset⟩
  · cases hz
    obtain ⟨_, _, _, g2, _⟩ := RawOf.sec hr
    rw [L.secType i hi g2]
    exact ⟨fun h => by cases h; rfl, fun h => by subst h; exact .section⟩
  · cases hz

theorem Grasped.reads (W : Grasped input E ctx0) (hr3 : Reach E w3) (hi : i < ctx0.heap.length) (href3 : (w3.at y).ref = .elem i) {kd : Kind} (hy3 : IsA w3 y (.of kd)) {z : Raw}
    (hr : RawOf input ctx0.heap (.elem i) z) (hz : rawKind z = some kd) : ReadsAs E w3 y z := by
  unfold rawKind at hz
  split at hz
  · cases hz; exact field_reads W hr3 hi href3 hy3 hr
  · cases hz; exact field_reads W hr3 hi href3 hy3 hr
  · cases hz; exact list_reads W hr3 hi href3 hy3 hr
  · cases hz; exact fieldset_reads W hr3 hi href3 hy3 hr
  · cases hz; exact section_reads W hr3 hi href3 hr
  · cases hz

variable {w : World} {o : Nat} {rs : List Raw}

/-- All elements with a key, if they are of one kind. -/
theorem Standing.many (W : Grasped input E ctx0) (S : Standing input E ctx0 w o rs) {k : Str} (hk : k ≠ []) {kd : Kind} (he : kd ≠ .empty) (hz : ∀ z ∈ keyedRaws rs k, rawKind z = some kd) :
    ∃ os w1, ∃ ps : List (Nat × Raw), run E o (.many (.kind kd) (some k)) w = (.ok (.objs os), w1) ∧ Reach E w1 ∧ keyedRaws rs k = ps.map (·.2) ∧
      os.map (fun z => (w1.at z).ref) = ps.map (fun p => .elem p.1) ∧ (∀ z ∈ os, IsA w1 z (.of kd)) ∧
      ∀ p ∈ ps, p.1 < ctx0.heap.length ∧ p.1 ≠ 0 ∧ RawOf input ctx0.heap (.elem p.1) p.2 := by
  obtain ⟨is, ps, h1, h2, h3, h4⟩ := S.keyed W hk
  have fits : ∀ i ∈ withKey E.ctx.heap (some k) is, ∀ k', Fits k' (E.ctx.heap.at i).type ↔ k' = kd := by
    intro i hi
    rw [h2] at hi
    obtain ⟨p, hp, rfl⟩ := List.mem_map.1 hi
    obtain ⟨p1, _, p3⟩ := h4 p hp
    exact W.fits p1 p3 (hz _ (by unfold keyedRaws; rw [h3]; exact List.mem_map_of_mem hp))
  obtain ⟨os, e1, e2, e3⟩ := C43_kinds W.loaded S.reach S.isA h1 he (fun i hi => (fits i hi kd).2 rfl)
    (.inr fun i hi => freeFor (envOk_load W.loaded) S.reach fun k' => (fits i hi k').1)
  refine ⟨os, _, ps, Prod.ext e1 rfl, S.reach.leads (Leads.one (by exact trivial) o), h3, ?_, e3, h4⟩
  rw [e2, h2, List.map_map]
  rfl

/-- One of several sections. -/
theorem Standing.choose (W : Grasped input E ctx0) (S : Standing input E ctx0 w o rs) {k : Str} {n : Nat} {ys : List Raw} (hk : k ≠ [])
    (hz : ∀ z ∈ keyedRaws rs k, rawKind z = some .section) {k' : Option Str} (hn : (keyedRaws rs k)[n]? = some (.node .section c k' ys)) :
    ∃ os w1 y, run E o (.many (.kind .section) (some k)) w = (.ok (.objs os), w1) ∧ os[n]? = some y ∧ Standing input E ctx0 w1 y ys := by
  obtain ⟨os, w1, ps, h1, h2, h3, h4, h5, h6⟩ := S.many W hk (by decide) hz
  rw [h3, List.getElem?_map] at hn
  cases hp : ps[n]? with
  | none => rw [hp] at hn; cases hn
  | some p =>
    rw [hp] at hn
    injection hn with hn
    have hn : p.2 = _ := hn
    obtain ⟨p1, p2, p3⟩ := h6 p (List.mem_of_getElem? hp)
    rw [hn] at p3
    have ho := congrArg (·[n]?) h4
    simp only [List.getElem?_map, hp, Option.map_some] at ho
    cases hy : os[n]? with
    | none => rw [hy] at ho; cases ho
    | some y =>
      rw [hy] at ho
      injection ho with ho
      obtain ⟨c', js, g1, g2, g3, g4, _⟩ := RawOf.sec p3
      obtain ⟨ls, j1, j2, j2', j3⟩ := W.elements ho p1 (.inl g2) g3
      exact ⟨os, w1, y, h1, hy, ⟨h2, h5 y (List.mem_of_getElem? hy), ls, _, j1, j2, j2', g4, j3⟩⟩

/-- Any number of times. -/
theorem Standing.chosen (W : Grasped input E ctx0) {ks : List (Str × Nat)} {ys : List Raw} (d : Chooses rs ks ys) : ∀ {w : World} {o : Nat},
    Standing input E ctx0 w o rs → ∃ o' w', Choosing E o w ks o' w' ∧ Standing input E ctx0 w' o' ys := by
  induction d with
  | here => intro w o S; exact ⟨o, w, .here, S⟩
  | down h1 h2 h3 _ ih =>
    intro w o S
    obtain ⟨os, w1, y, hr, hn, S1⟩ := S.choose W h1 h2 h3
    obtain ⟨o', w', h4, S2⟩ := ih S1
    exact ⟨o', w', .down hr hn h4, S2⟩

end Eno.El
