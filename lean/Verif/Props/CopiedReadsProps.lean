import Verif.Proofs.CopiedObjects
import Verif.Props.CopiedProps

/-!
# C85: programs read what documents with copies mean

C70 for documents with copies, in any layout. The hypotheses: `input` says the document `T`, which means `xs` (C84), `E` is what `parse` made of it, `w` is anything that a program has made
of that since. What is meant under some keys is what is read under them.
-/

namespace Eno.El

open Spec

variable {E : Env} {w : World} {T : Doc} {input k : Str} {ks : List Str} {xs ys zs : List Raw} {c : Option (Option Str)}

/-- Fields. -/
theorem C85_field {t : Ty} {v : Option Str} (ht : Conveys input T xs) (hl : load input = .ok E.ctx) (hd : E.ctx.heap.length + 1 ≤ E.depth) (hw : AfterParse E w)
    (d : Goes xs ks ys) (hx : Once ys k (.leaf t c (some k) (some v))) :
    ∃ o w1 y w2, Sections E 0 w ks o w1 ∧ run E o (.one (.kind .field) (some k) (some true)) w1 = (.ok (.obj y), w2) ∧
      ∀ w3, Leads E w2 w3 → Gives E w3 y v ∧ Notes E w3 y c.join := by
  obtain ⟨ctx0, W, hR⟩ := known ht hl hd
  obtain ⟨o, w1, h1, S⟩ := (W.document hw hR).descend W d
  obtain ⟨i, hi, _, hr, hk⟩ := S.element W hx
  obtain ⟨c', g1, g2, g3, g4, g5⟩ := RawOf.text hr
  have hty := W.kind hi g2 (by rcases g3 with rfl | rfl <;> decide)
  obtain ⟨y, w2, h2, hr2, hy, href⟩ := hk .field (by
    intro k'
    rw [hty]
    constructor
    · intro h; rcases g3 with rfl | rfl <;> cases h <;> rfl
    · rintro rfl; rcases g3 with rfl | rfl <;> constructor)
  refine ⟨o, w1, y, w2, h1, h2, fun w3 hw3 => ?_⟩
  have V := envOk_load hl
  have K := hw3.keeps V (hr2.inv V)
  have hr3 := hr2.leads hw3
  have hy3 := hy.later K.later
  have href3 : (w3.at y).ref = .elem i := by rw [(K.later.obj y hy.1).ref]; exact href
  exact field_reads W hr3 hi href3 hy3 hr

/-- Lists. -/
theorem C85_list (ht : Conveys input T xs) (hl : load input = .ok E.ctx) (hd : E.ctx.heap.length + 1 ≤ E.depth) (hw : AfterParse E w)
    (d : Goes xs ks ys) (hx : Once ys k (.node .list c (some k) zs)) :
    ∃ o w1 y w2, Sections E 0 w ks o w1 ∧ run E o (.one (.kind .list) (some k) (some true)) w1 = (.ok (.obj y), w2) ∧
      ∀ w3, Leads E w2 w3 → Notes E w3 y c.join ∧ (run E y .length w3).1 = .ok (.nat zs.length) ∧
        (∀ f : Str → Val, (run E y (.values false fun t w => (.ok (f t), w)) w3).1 = .ok (.list (zs.map fun z => Val.opt ((rawText z).map f)))) ∧
        ∃ os, (run E y .items w3).1 = .ok (.objs os) ∧ os.length = zs.length ∧
          ∀ p ∈ os.zip zs, ∀ w4, Leads E (run E y .items w3).2 w4 → Gives E w4 p.1 (rawText p.2) ∧ Notes E w4 p.1 (rawNote p.2) := by
  obtain ⟨ctx0, W, hR⟩ := known ht hl hd
  obtain ⟨o, w1, h1, S⟩ := (W.document hw hR).descend W d
  obtain ⟨i, hi, _, hr, hk⟩ := S.element W hx
  obtain ⟨c', js, g1, g2, g3, g4, g5⟩ := RawOf.list' hr
  have hty := W.kind hi g2 (by decide)
  obtain ⟨y, w2, h2, hr2, hy, href⟩ := hk .list (by
    intro k'
    rw [hty]
    constructor
    · intro h; cases h; rfl
    · rintro rfl; constructor)
  refine ⟨o, w1, y, w2, h1, h2, fun w3 hw3 => ?_⟩
  have V := envOk_load hl
  have K := hw3.keeps V (hr2.inv V)
  have hr3 := hr2.leads hw3
  have hy3 := hy.later K.later
  have href3 : (w3.at y).ref = .elem i := by rw [(K.later.obj y hy.1).ref]; exact href
  exact list_reads W hr3 hi href3 hy3 hr

/-- Fieldsets. -/
theorem C85_fieldset {k' : Str} {z : Raw} (ht : Conveys input T xs) (hl : load input = .ok E.ctx) (hd : E.ctx.heap.length + 1 ≤ E.depth) (hw : AfterParse E w)
    (d : Goes xs ks ys) (hx : Once ys k (.node .fieldset c (some k) zs)) (hz : Once zs k' z) :
    ∃ o w1 y w2, Sections E 0 w ks o w1 ∧ run E o (.one (.kind .fieldset) (some k) (some true)) w1 = (.ok (.obj y), w2) ∧
      ∀ w3, Leads E w2 w3 → Notes E w3 y c.join ∧ ∃ e w4, run E y (.entry (some k') (some true)) w3 = (.ok (.obj e), w4) ∧
        ∀ w5, Leads E w4 w5 → Gives E w5 e (rawText z) ∧ Notes E w5 e (rawNote z) := by
  obtain ⟨ctx0, W, hR⟩ := known ht hl hd
  obtain ⟨o, w1, h1, S⟩ := (W.document hw hR).descend W d
  obtain ⟨i, hi, _, hr, hk⟩ := S.element W hx
  obtain ⟨c', js, g1, g2, g3, g4, g5⟩ := RawOf.fieldset' hr
  have hty := W.kind hi g2 (by decide)
  obtain ⟨y, w2, h2, hr2, hy, href⟩ := hk .fieldset (by
    intro k'
    rw [hty]
    constructor
    · intro h; cases h; rfl
    · rintro rfl; constructor)
  refine ⟨o, w1, y, w2, h1, h2, fun w3 hw3 => ?_⟩
  have V := envOk_load hl
  have K := hw3.keeps V (hr2.inv V)
  have hr3 := hr2.leads hw3
  have hy3 := hy.later K.later
  have href3 : (w3.at y).ref = .elem i := by rw [(K.later.obj y hy.1).ref]; exact href
  have F := fieldset_reads W hr3 hi href3 hy3 hr
  exact ⟨F.1, F.2 k' z hz⟩

/-- Sections. -/
theorem C85_section (ht : Conveys input T xs) (hl : load input = .ok E.ctx) (hd : E.ctx.heap.length + 1 ≤ E.depth) (hw : AfterParse E w)
    (d : Goes xs ks ys) (hx : Once ys k (.node .section c (some k) zs)) :
    ∃ o w1 y w2, Sections E 0 w ks o w1 ∧ run E o (.one (.kind .section) (some k) (some true)) w1 = (.ok (.obj y), w2) ∧
      ∀ w3, Leads E w2 w3 → Notes E w3 y c.join := by
  obtain ⟨ctx0, W, hR⟩ := known ht hl hd
  obtain ⟨o, w1, h1, S⟩ := (W.document hw hR).descend W d
  obtain ⟨y, w2, i, c', h2, S2, hr, hi, hc, e⟩ := S.down W hx
  have V := envOk_load hl
  refine ⟨o, w1, y, w2, h1, h2, fun w3 hw3 => ?_⟩
  have K := hw3.keeps V (S2.reach.inv V)
  rw [e]
  exact notes_elem W (S2.reach.leads hw3) hi (by rw [(K.later.obj y S2.isA.1).ref]; exact hr) hc

/-- What is not there: optional access gives nothing and required access raises. -/
theorem C85_missing {want : Want} (ht : Conveys input T xs) (hl : load input = .ok E.ctx) (hd : E.ctx.heap.length + 1 ≤ E.depth) (hw : AfterParse E w)
    (d : Goes xs ks ys) (hk : k ≠ []) (hx : ∀ y ∈ ys, rawKey y ≠ some k) :
    ∃ o w1, Sections E 0 w ks o w1 ∧ ((w1.at o).required = false → (run E o (.one want (some k) (some false)) w1).1 = .ok .none) ∧
      ∃ e, (run E o (.one want (some k) (some true)) w1).1 = .error e := by
  obtain ⟨ctx0, W, hR⟩ := known ht hl hd
  obtain ⟨o, w1, h1, S⟩ := (W.document hw hR).descend W d
  obtain ⟨is, ps, hel, h2, h3, _⟩ := S.keyed W hk
  have hn : withKey E.ctx.heap (some k) is = [] := by
    have : ys.filter (fun y => decide (rawKey y = some k)) = [] := by
      rw [List.filter_eq_nil_iff]; intro y hy; simpa using hx y hy
    rw [this] at h3
    have : ps = [] := by simpa using h3.symm
    subst this
    exact h2
  refine ⟨o, w1, h1, fun hq => ?_, ?_⟩
  · rw [C42_none hl S.reach S.isA hel hn, if_neg (by simp [hq]), if_neg (by simp)]
  · rw [C42_none hl S.reach S.isA hel hn, if_pos (.inl rfl)]
    unfold raised
    split <;> exact ⟨_, rfl⟩

/-- What is there more than once: access to a single element raises, required or not. -/
theorem C85_several {want : Want} {required : Option Bool} (ht : Conveys input T xs) (hl : load input = .ok E.ctx) (hd : E.ctx.heap.length + 1 ≤ E.depth) (hw : AfterParse E w)
    (d : Goes xs ks ys) (hk : k ≠ []) (hx : 2 ≤ (ys.filter fun y => decide (rawKey y = some k)).length) :
    ∃ o w1, Sections E 0 w ks o w1 ∧ ∃ e, (run E o (.one want (some k) required) w1).1 = .error e := by
  obtain ⟨ctx0, W, hR⟩ := known ht hl hd
  obtain ⟨o, w1, h1, S⟩ := (W.document hw hR).descend W d
  obtain ⟨is, ps, hel, h2, h3, _⟩ := S.keyed W hk
  have hn : 2 ≤ (withKey E.ctx.heap (some k) is).length := by
    rw [h2, List.length_map]
    rw [h3, List.length_map] at hx
    exact hx
  refine ⟨o, w1, h1, ?_⟩
  rw [C42_several hl S.reach S.isA hel hn]
  unfold raised
  split <;> exact ⟨_, rfl⟩

/-! ## Several elements with one key -/

/-- If everything with a key is of one kind, then `fields(key)`, `lists(key)`, `fieldsets(key)` and `sections(key)` give an object for each of these, in the order in which `raw` shows
them, and each of them reads like what is shown. On the way there, any of the sections with a key can be chosen by its number. -/
theorem C85_all {kd : Kind} {ns : List (Str × Nat)} (ht : Conveys input T xs) (hl : load input = .ok E.ctx) (hd : E.ctx.heap.length + 1 ≤ E.depth) (hw : AfterParse E w)
    (d : Chooses xs ns ys) (hk : k ≠ []) (he : kd ≠ .empty) (hz : ∀ z ∈ keyedRaws ys k, rawKind z = some kd) :
    ∃ o w1 os w2, Choosing E 0 w ns o w1 ∧ run E o (.many (.kind kd) (some k)) w1 = (.ok (.objs os), w2) ∧ os.length = (keyedRaws ys k).length ∧
      ∀ p ∈ os.zip (keyedRaws ys k), ∀ w3, Leads E w2 w3 → ReadsAs E w3 p.1 p.2 := by
  obtain ⟨ctx0, W, hR⟩ := known ht hl hd
  obtain ⟨o, w1, h1, S⟩ := (W.document hw hR).chosen W d
  obtain ⟨os, w2, ps, h2, h3, h4, h5, h6, h7⟩ := S.many W hk he hz
  have hlen : os.length = ps.length := by simpa using congrArg List.length h5
  refine ⟨o, w1, os, w2, h1, h2, by rw [h4, List.length_map]; exact hlen, fun p hp w3 hw3 => ?_⟩
  obtain ⟨n, hn1, hn2⟩ := List.mem_iff_getElem.1 hp
  have no : n < os.length := by simp at hn1; omega
  have np : n < ps.length := by omega
  have ep : p = (os[n], ps[n].2) := by
    rw [← hn2, List.getElem_zip]
    simp only [h4, List.getElem_map]
  obtain ⟨p1, _, p3⟩ := h7 _ (List.getElem_mem np)
  have V := envOk_load hl
  have K := hw3.keeps V (h3.inv V)
  have hy := h6 _ (List.getElem_mem no)
  have href : (w3.at os[n]).ref = .elem ps[n].1 := by
    rw [(K.later.obj _ hy.1).ref]
    have := congrArg (·[n]?) h5
    simpa [no, np] using this
  rw [ep]
  exact W.reads (h3.leads hw3) p1 href (hy.later K.later) p3 (hz ps[n].2 (by rw [h4]; exact List.mem_map.2 ⟨ps[n], List.getElem_mem np, rfl⟩))

/-- If something with the key is of another kind, and nothing is empty, these raise. -/
theorem C85_all_other {kd : Kind} {ns : List (Str × Nat)} (ht : Conveys input T xs) (hl : load input = .ok E.ctx) (hd : E.ctx.heap.length + 1 ≤ E.depth) (hw : AfterParse E w)
    (d : Chooses xs ns ys) (hk : k ≠ []) (he : kd ≠ .empty) (hs : ∀ z ∈ keyedRaws ys k, (rawKind z).isSome) (hz : ∃ z ∈ keyedRaws ys k, rawKind z ≠ some kd) :
    ∃ o w1 e, Choosing E 0 w ns o w1 ∧ (run E o (.many (.kind kd) (some k)) w1).1 = .error e := by
  obtain ⟨ctx0, W, hR⟩ := known ht hl hd
  obtain ⟨o, w1, h1, S⟩ := (W.document hw hR).chosen W d
  obtain ⟨is, ps, hel, h2, h3, h4⟩ := S.keyed W hk
  have h3 : keyedRaws ys k = ps.map (·.2) := h3
  have split : ∀ qs : List (Nat × Raw), (∃ q ∈ qs, rawKind q.2 ≠ some kd) → ∃ pre q post, qs = pre ++ q :: post ∧ (∀ p ∈ pre, rawKind p.2 = some kd) ∧ rawKind q.2 ≠ some kd := by
    intro qs
    induction qs with
    | nil => rintro ⟨q, hq, _⟩; cases hq
    | cons a qs ih =>
      rintro ⟨q, hq, hn⟩
      by_cases ha : rawKind a.2 = some kd
      · rcases List.mem_cons.1 hq with rfl | hq
        · exact absurd ha hn
        · obtain ⟨pre, q', post, e, e1, e2⟩ := ih ⟨q, hq, hn⟩
          refine ⟨a :: pre, q', post, by rw [e]; rfl, fun p hp => ?_, e2⟩
          rcases List.mem_cons.1 hp with rfl | hp
          · exact ha
          · exact e1 p hp
      · exact ⟨[], a, qs, rfl, by simp, ha⟩
  obtain ⟨z, hz1, hz2⟩ := hz
  rw [h3] at hz1
  obtain ⟨q, hq, rfl⟩ := List.mem_map.1 hz1
  obtain ⟨pre, q, post, rfl, e1, e2⟩ := split ps ⟨q, hq, hz2⟩
  have fits : ∀ p ∈ pre ++ q :: post, ∀ kd', rawKind p.2 = some kd' → ∀ k', Fits k' (E.ctx.heap.at p.1).type ↔ k' = kd' :=
    fun p hp kd' hkd => W.fits (h4 p hp).1 (h4 p hp).2.2 hkd
  rw [List.map_append, List.map_cons] at h2
  have fpre : ∀ i ∈ pre.map (·.1), ∀ k', Fits k' (E.ctx.heap.at i).type ↔ k' = kd := by
    intro i hi
    obtain ⟨p, hp, rfl⟩ := List.mem_map.1 hi
    exact fits p (by simp [hp]) kd (e1 p hp)
  obtain ⟨kd', hkd⟩ := Option.isSome_iff_exists.1 (hs q.2 (by rw [h3]; exact List.mem_map_of_mem (by simp)))
  have := C43_other_kind hl S.reach S.isA hel he h2 (fun i hi => (fpre i hi kd).2 rfl)
    (.inr fun i hi => freeFor (envOk_load hl) S.reach fun k' => (fpre i hi k').1)
    (fun hf => e2 (by rw [hkd, ((fits q (by simp) kd' hkd) kd).1 hf]))
  unfold raised at this
  split at this <;> exact ⟨o, w1, _, h1, this⟩

/-! ## Concrete cases -/

/-- A list and a copy with one more item, a fieldset and a copy with an entry redefined, a section, a copy with an element redefined, and a copy without anything of its own in another
section. -/
def readsSample : Doc :=
  ⟨[.plain ⟨[(2, some (chars!"c"))], chars!"a", .items ⟨[], some (chars!"1"), []⟩ []⟩, .copy [] (chars!"b") (chars!"a") (.items ⟨[], some (chars!"2"), []⟩ []),
      .plain ⟨[], chars!"f", .entries ⟨[], chars!"p", some (chars!"1"), []⟩ [⟨[], chars!"q", some (chars!"2"), []⟩]⟩,
      .copy [] (chars!"g") (chars!"f") (.entries ⟨[], chars!"p", some (chars!"3"), []⟩ [])],
    [.mk [] (chars!"s") none [.plain ⟨[], chars!"x", .parts ⟨some (chars!"1"), []⟩⟩, .plain ⟨[], chars!"y", .parts ⟨some (chars!"2"), []⟩⟩] [],
      .mk [] (chars!"t") (some (false, chars!"s")) [.plain ⟨[], chars!"x", .parts ⟨some (chars!"3"), []⟩⟩] [],
      .mk [] (chars!"v") none [.plain ⟨[], chars!"z", .parts ⟨none, []⟩⟩, .plain ⟨[], chars!"z", .parts ⟨none, []⟩⟩] [.mk [] (chars!"u") (some (false, chars!"t")) [] []]]⟩

/-- What the section `t` means. -/
def readsT : List Raw := [.leaf .field none (some (chars!"y")) (some (some (chars!"2"))), .leaf .field none (some (chars!"x")) (some (some (chars!"3")))]

/-- What the section `v` means. -/
def readsV : List Raw :=
  [.leaf .empty none (some (chars!"z")) none, .leaf .empty none (some (chars!"z")) none, .node .section none (some (chars!"u")) readsT]

/-- What it means. -/
def readsRaw : List Raw :=
  [.node .list (some (chars!"c")) (some (chars!"a")) [.leaf .listItem none none (some (some (chars!"1")))],
    .node .list (some (chars!"c")) (some (chars!"b")) [.leaf .listItem none none (some (some (chars!"1"))), .leaf .listItem none none (some (some (chars!"2")))],
    .node .fieldset none (some (chars!"f")) [.leaf .fieldsetEntry none (some (chars!"p")) (some (some (chars!"1"))), .leaf .fieldsetEntry none (some (chars!"q")) (some (some (chars!"2")))],
    .node .fieldset none (some (chars!"g")) [.leaf .fieldsetEntry none (some (chars!"q")) (some (some (chars!"2"))), .leaf .fieldsetEntry none (some (chars!"p")) (some (some (chars!"3")))],
    .node .section none (some (chars!"s")) [.leaf .field none (some (chars!"x")) (some (some (chars!"1"))), .leaf .field none (some (chars!"y")) (some (some (chars!"2")))],
    .node .section none (some (chars!"t")) readsT,
    .node .section none (some (chars!"v")) readsV]

theorem readsSample_means : readsSample.Means (.node .document none none readsRaw) := by
  have h1 : ThingsMean readsSample.nodes readsSample.things [⟨[(2, some (chars!"c"))], chars!"a", .items [⟨[], some (chars!"1"), []⟩]⟩,
      ⟨[(2, some (chars!"c"))], chars!"b", .items [⟨[], some (chars!"1"), []⟩, ⟨[], some (chars!"2"), []⟩]⟩,
      ⟨[], chars!"f", .entries [⟨[], chars!"p", some (chars!"1"), []⟩, ⟨[], chars!"q", some (chars!"2"), []⟩]⟩,
      ⟨[], chars!"g", .entries [⟨[], chars!"q", some (chars!"2"), []⟩, ⟨[], chars!"p", some (chars!"3"), []⟩]⟩] :=
    .cons .plain (.cons (.copy (r := []) (x := .plain ⟨[(2, some (chars!"c"))], chars!"a", .items ⟨[], some (chars!"1"), []⟩ []⟩) rfl .plain rfl) (.cons .plain
      (.cons (.copy (r := []) (x := .plain ⟨[], chars!"f", .entries ⟨[], chars!"p", some (chars!"1"), []⟩ [⟨[], chars!"q", some (chars!"2"), []⟩]⟩) rfl .plain rfl) .nil)))
  have hs : Part.Means readsSample.nodes (.mk [] (chars!"s") none [.plain ⟨[], chars!"x", .parts ⟨some (chars!"1"), []⟩⟩, .plain ⟨[], chars!"y", .parts ⟨some (chars!"2"), []⟩⟩] []) []
      [.leaf .field none (some (chars!"x")) (some (some (chars!"1"))), .leaf .field none (some (chars!"y")) (some (some (chars!"2")))] :=
    .own (.cons .plain (.cons .plain .nil)) .nil
  have ht : Part.Means readsSample.nodes (.mk [] (chars!"t") (some (false, chars!"s")) [.plain ⟨[], chars!"x", .parts ⟨some (chars!"3"), []⟩⟩] []) [] readsT :=
    Part.Means.copy (ns := readsSample.nodes) (r := []) (k := chars!"t") (d := false) (t := chars!"s") (ts := [.plain ⟨[], chars!"x", .parts ⟨some (chars!"3"), []⟩⟩]) rfl hs
      (.cons .plain .nil) .nil
  have hu : Part.Means readsSample.nodes (.mk [] (chars!"u") (some (false, chars!"t")) [] []) [] readsT :=
    Part.Means.copy (ns := readsSample.nodes) (r := []) (k := chars!"u") (d := false) (t := chars!"t") (ts := []) (ms := []) rfl ht .nil .nil
  exact .mk h1 (.cons hs (.cons ht (.cons (.own (.cons .plain (.cons .plain .nil)) (.cons hu .nil)) .nil)))

theorem readsSample_ok : readsSample.Ok ∧ readsSample.Shown ∧ (∀ x ∈ readsSample.nodes, x.NoDeep) := by
  refine ⟨?_, ?_, ?_⟩
  · simp [readsSample, Doc.Ok, Thing.Ok, Content.Ok, Inner.Ok, Remark.Ok, PartsOk, Part.Ok]
  · simp [readsSample, Doc.Shown, Thing.Shown, Element.Shown, Content.Shown, Inner.Shown, Remark.Shown, PartsShown, Part.Shown]
  · simp [readsSample, Doc.nodes, partsNodes, Part.nodes, Node.NoDeep]

/-- There are a text, an environment and a world for it. -/
theorem readsSample_there : ∃ input E w, Conveys input readsSample readsRaw ∧ load input = .ok E.ctx ∧ E.ctx.heap.length + 1 ≤ E.depth ∧ AfterParse E w := by
  have hv : readsSample.Valid := by
    have t1 : Trimmed (chars!"a") := trimmed_of (by decide)
    have t2 : Trimmed (chars!"b") := trimmed_of (by decide)
    have t3 : Trimmed (chars!"c") := trimmed_of (by decide)
    have t4 : Trimmed (chars!"f") := trimmed_of (by decide)
    have t5 : Trimmed (chars!"g") := trimmed_of (by decide)
    have t6 : Trimmed (chars!"p") := trimmed_of (by decide)
    have t7 : Trimmed (chars!"q") := trimmed_of (by decide)
    have t8 : Trimmed (chars!"s") := trimmed_of (by decide)
    have t9 : Trimmed (chars!"t") := trimmed_of (by decide)
    have t10 : Trimmed (chars!"u") := trimmed_of (by decide)
    have t11 : Trimmed (chars!"v") := trimmed_of (by decide)
    have t12 : Trimmed (chars!"x") := trimmed_of (by decide)
    have t13 : Trimmed (chars!"y") := trimmed_of (by decide)
    have t14 : Trimmed (chars!"z") := trimmed_of (by decide)
    have t15 : Trimmed (chars!"1") := trimmed_of (by decide)
    have t16 : Trimmed (chars!"2") := trimmed_of (by decide)
    have t17 : Trimmed (chars!"3") := trimmed_of (by decide)
    simp [readsSample, Doc.Valid, Thing.Valid, Element.Valid, Content.Valid, Inner.Valid, Parts.Valid, Item.Valid, Entry.Valid, Remark.Valid, Part.Valid, PartsValid, *]
  obtain ⟨input, hi⟩ := C84_expressible hv
  obtain ⟨es, S, ht⟩ := C84_written hi
  obtain ⟨ctx, hl⟩ := (C84_loads_iff S ht readsSample_ok.1).2 ⟨_, readsSample_means⟩
  exact ⟨input, ⟨{}, ctx, ctx.heap.length + 1⟩, World.start, ⟨⟨es, S, ht⟩, readsSample_ok.1, readsSample_ok.2.1, readsSample_ok.2.2, readsSample_means⟩, hl, Nat.le_refl _, 0, .done⟩

theorem reads_t : Goes readsRaw [chars!"t"] readsT := .down ⟨by decide, rfl⟩ .here
theorem reads_u : Goes readsRaw [chars!"v", chars!"u"] readsT := .down (ys := readsV) ⟨by decide, rfl⟩ (.down ⟨by decide, rfl⟩ .here)
theorem reads_v : Goes readsRaw [chars!"v"] readsV := .down ⟨by decide, rfl⟩ .here

/-- The field that comes from the template of the template of a section without anything of its own. -/
example : ∃ input E w, Conveys input readsSample readsRaw ∧ load input = .ok E.ctx ∧ ∃ o w1 y w2, Sections E 0 w [chars!"v", chars!"u"] o w1 ∧
    run E o (.one (.kind .field) (some (chars!"y")) (some true)) w1 = (.ok (.obj y), w2) ∧ Gives E w2 y (some (chars!"2")) := by
  obtain ⟨input, E, w, h1, h2, h3, h4⟩ := readsSample_there
  obtain ⟨o, w1, y, w2, g1, g2, g3⟩ := C85_field (k := chars!"y") h1 h2 h3 h4 reads_u ⟨by decide, rfl⟩
  exact ⟨input, E, w, h1, h2, o, w1, y, w2, g1, g2, (g3 w2 (.refl _)).1⟩

/-- The items of a copied list. -/
example : ∃ input E w, Conveys input readsSample readsRaw ∧ load input = .ok E.ctx ∧ ∃ o w1 y w2, Sections E 0 w [] o w1 ∧
    run E o (.one (.kind .list) (some (chars!"b")) (some true)) w1 = (.ok (.obj y), w2) ∧
    (∀ f : Str → Val, (run E y (.values false fun t w => (.ok (f t), w)) w2).1 = .ok (.list [f (chars!"1"), f (chars!"2")])) ∧ Notes E w2 y (some (chars!"c")) := by
  obtain ⟨input, E, w, h1, h2, h3, h4⟩ := readsSample_there
  obtain ⟨o, w1, y, w2, g1, g2, g3⟩ := C85_list (k := chars!"b") h1 h2 h3 h4 .here ⟨by decide, rfl⟩
  exact ⟨input, E, w, h1, h2, o, w1, y, w2, g1, g2, (g3 w2 (.refl _)).2.2.1, (g3 w2 (.refl _)).1⟩

/-- The redefined entry of a copied fieldset. -/
example : ∃ input E w, Conveys input readsSample readsRaw ∧ load input = .ok E.ctx ∧ ∃ o w1 y w2, Sections E 0 w [] o w1 ∧
    run E o (.one (.kind .fieldset) (some (chars!"g")) (some true)) w1 = (.ok (.obj y), w2) ∧
    ∃ e w4, run E y (.entry (some (chars!"p")) (some true)) w2 = (.ok (.obj e), w4) ∧ Gives E w4 e (some (chars!"3")) := by
  obtain ⟨input, E, w, h1, h2, h3, h4⟩ := readsSample_there
  obtain ⟨o, w1, y, w2, g1, g2, g3⟩ := C85_fieldset (k := chars!"g") (k' := chars!"p") h1 h2 h3 h4 .here ⟨by decide, rfl⟩ ⟨by decide, rfl⟩
  obtain ⟨e, w4, g4, g5⟩ := (g3 w2 (.refl _)).2
  exact ⟨input, E, w, h1, h2, o, w1, y, w2, g1, g2, e, w4, g4, (g5 w4 (.refl _)).1⟩

/-- A section, something that is not there, and something that is there twice. -/
example : ∃ input E w, Conveys input readsSample readsRaw ∧ load input = .ok E.ctx ∧ (∃ o w1 y w2, Sections E 0 w [chars!"v"] o w1 ∧
    run E o (.one (.kind .section) (some (chars!"u")) (some true)) w1 = (.ok (.obj y), w2) ∧ Notes E w2 y none) ∧
    (∃ o w1, Sections E 0 w [chars!"v", chars!"u"] o w1 ∧ ∃ e, (run E o (.one (.kind .field) (some (chars!"z")) (some true)) w1).1 = .error e) ∧
    ∃ o w1, Sections E 0 w [chars!"v"] o w1 ∧ ∃ e, (run E o (.one (.kind .field) (some (chars!"z")) (some false)) w1).1 = .error e := by
  obtain ⟨input, E, w, h1, h2, h3, h4⟩ := readsSample_there
  refine ⟨input, E, w, h1, h2, ?_, ?_, ?_⟩
  · obtain ⟨o, w1, y, w2, g1, g2, g3⟩ := C85_section (k := chars!"u") h1 h2 h3 h4 reads_v ⟨by decide, rfl⟩
    exact ⟨o, w1, y, w2, g1, g2, g3 w2 (.refl _)⟩
  · obtain ⟨o, w1, g1, _, g2⟩ := C85_missing (k := chars!"z") h1 h2 h3 h4 reads_u (by decide) (by simp [readsT, rawKey])
    exact ⟨o, w1, g1, g2⟩
  · exact C85_several (k := chars!"z") h1 h2 h3 h4 reads_v (by decide) (by simp [readsV, rawKey, readsT])

/-- Two sections with the same key, one of them a copy. -/
def manySample : Doc :=
  ⟨[], [.mk [] (chars!"t") none [.plain ⟨[], chars!"x", .parts ⟨some (chars!"1"), []⟩⟩, .plain ⟨[], chars!"x", .parts ⟨some (chars!"2"), []⟩⟩] [],
    .mk [] (chars!"s") (some (false, chars!"t")) [.plain ⟨[], chars!"y", .parts ⟨some (chars!"3"), []⟩⟩] [],
    .mk [] (chars!"s") none [.plain ⟨[], chars!"x", .parts ⟨some (chars!"4"), []⟩⟩, .plain ⟨[], chars!"x", .items ⟨[], some (chars!"5"), []⟩ []⟩] []]⟩

/-- What its sections mean. -/
def manyT : List Raw := [.leaf .field none (some (chars!"x")) (some (some (chars!"1"))), .leaf .field none (some (chars!"x")) (some (some (chars!"2")))]
def manyS : List Raw := manyT ++ [.leaf .field none (some (chars!"y")) (some (some (chars!"3")))]
def manyR : List Raw :=
  [.leaf .field none (some (chars!"x")) (some (some (chars!"4"))), .node .list none (some (chars!"x")) [.leaf .listItem none none (some (some (chars!"5")))]]

/-- What it means. -/
def manyRaw : List Raw := [.node .section none (some (chars!"t")) manyT, .node .section none (some (chars!"s")) manyS, .node .section none (some (chars!"s")) manyR]

theorem manySample_means : manySample.Means (.node .document none none manyRaw) := by
  have ht : Part.Means manySample.nodes (.mk [] (chars!"t") none [.plain ⟨[], chars!"x", .parts ⟨some (chars!"1"), []⟩⟩, .plain ⟨[], chars!"x", .parts ⟨some (chars!"2"), []⟩⟩] []) []
      manyT := .own (.cons .plain (.cons .plain .nil)) .nil
  have hs : Part.Means manySample.nodes (.mk [] (chars!"s") (some (false, chars!"t")) [.plain ⟨[], chars!"y", .parts ⟨some (chars!"3"), []⟩⟩] []) [] manyS :=
    Part.Means.copy (ns := manySample.nodes) (r := []) (k := chars!"s") (d := false) (t := chars!"t") (ts := [.plain ⟨[], chars!"y", .parts ⟨some (chars!"3"), []⟩⟩]) rfl ht
      (.cons .plain .nil) .nil
  have hr : Part.Means manySample.nodes (.mk [] (chars!"s") none [.plain ⟨[], chars!"x", .parts ⟨some (chars!"4"), []⟩⟩, .plain ⟨[], chars!"x", .items ⟨[], some (chars!"5"), []⟩ []⟩] []) []
      manyR := .own (.cons .plain (.cons .plain .nil)) .nil
  have h0 : ThingsMean manySample.nodes manySample.things [] := .nil
  exact .mk h0 (.cons ht (.cons hs (.cons hr .nil)))

/-- There are a text, an environment and a world for it. -/
theorem manySample_there : ∃ input E w, Conveys input manySample manyRaw ∧ load input = .ok E.ctx ∧ E.ctx.heap.length + 1 ≤ E.depth ∧ AfterParse E w := by
  have ho : manySample.Ok := by simp [manySample, Doc.Ok, Thing.Ok, Content.Ok, Inner.Ok, Remark.Ok, PartsOk, Part.Ok]
  have hs : manySample.Shown := by
    simp [manySample, Doc.Shown, Thing.Shown, Element.Shown, Content.Shown, Remark.Shown, PartsShown, Part.Shown]
  have hn : ∀ x ∈ manySample.nodes, x.NoDeep := by simp [manySample, Doc.nodes, partsNodes, Part.nodes, Node.NoDeep]
  have hv : manySample.Valid := by
    have t1 : Trimmed (chars!"s") := trimmed_of (by decide)
    have t2 : Trimmed (chars!"t") := trimmed_of (by decide)
    have t3 : Trimmed (chars!"x") := trimmed_of (by decide)
    have t4 : Trimmed (chars!"y") := trimmed_of (by decide)
    have t5 : Trimmed (chars!"1") := trimmed_of (by decide)
    have t6 : Trimmed (chars!"2") := trimmed_of (by decide)
    have t7 : Trimmed (chars!"3") := trimmed_of (by decide)
    have t8 : Trimmed (chars!"4") := trimmed_of (by decide)
    have t9 : Trimmed (chars!"5") := trimmed_of (by decide)
    simp [manySample, Doc.Valid, Thing.Valid, Element.Valid, Content.Valid, Parts.Valid, Item.Valid, Remark.Valid, Part.Valid, PartsValid, *]
  obtain ⟨input, hi⟩ := C84_expressible hv
  obtain ⟨es, S, ht⟩ := C84_written hi
  obtain ⟨ctx, hl⟩ := (C84_loads_iff S ht ho).2 ⟨_, manySample_means⟩
  exact ⟨input, ⟨{}, ctx, ctx.heap.length + 1⟩, World.start, ⟨⟨es, S, ht⟩, ho, hs, hn, manySample_means⟩, hl, Nat.le_refl _, 0, .done⟩

/-- In the first of the two sections, the two copied fields with the same key; in the second one, one of two things is no field. -/
example : ∃ input E w, Conveys input manySample manyRaw ∧ load input = .ok E.ctx ∧
    (∃ o w1 a b w2, Choosing E 0 w [(chars!"s", 0)] o w1 ∧ run E o (.many (.kind .field) (some (chars!"x"))) w1 = (.ok (.objs [a, b]), w2) ∧
      Gives E w2 a (some (chars!"1")) ∧ Gives E w2 b (some (chars!"2"))) ∧
    ∃ o w1 e, Choosing E 0 w [(chars!"s", 1)] o w1 ∧ (run E o (.many (.kind .field) (some (chars!"x"))) w1).1 = .error e := by
  obtain ⟨input, E, w, h1, h2, h3, h4⟩ := manySample_there
  have all : ∀ y ∈ keyedRaws manyRaw (chars!"s"), rawKind y = some .section := by simp [keyedRaws, manyRaw, rawKey, rawKind]
  refine ⟨input, E, w, h1, h2, ?_, ?_⟩
  · obtain ⟨o, w1, os, w2, g1, g2, g3, g4⟩ := C85_all (k := chars!"x") (kd := .field) h1 h2 h3 h4 (.down (n := 0) (ys := manyS) (by decide) all rfl .here) (by decide) (by decide)
      (by simp [keyedRaws, manyS, manyT, rawKey, rawKind])
    have hk : keyedRaws manyS (chars!"x") = manyT := rfl
    rw [hk] at g3 g4
    obtain ⟨a, b, rfl⟩ : ∃ a b, os = [a, b] := by
      match os, g3 with
      | [a, b], _ => exact ⟨a, b, rfl⟩
    exact ⟨o, w1, a, b, w2, g1, g2, (g4 (a, manyT[0]) (by simp [manyT]) w2 (.refl _)).1, (g4 (b, manyT[1]) (by simp [manyT]) w2 (.refl _)).1⟩
  · exact C85_all_other (k := chars!"x") (kd := .field) h1 h2 h3 h4 (.down (n := 1) (ys := manyR) (by decide) all rfl .here) (by decide) (by decide)
      (by simp [keyedRaws, manyR, rawKey, rawKind]) ⟨.node .list none (some (chars!"x")) [.leaf .listItem none none (some (some (chars!"5")))], by simp [keyedRaws, manyR, rawKey], by simp [rawKind]⟩

end Eno.El
