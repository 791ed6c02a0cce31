import Verif.Proofs.WorldDocument
import Verif.Props.DocumentProps

/-!
# Properties of whole programs: what is written under some keys is what is read under them

The hypotheses: `input` is a way of writing the document `D`, `E` is what `parse` made of it, `w` is anything that a program has made of that since.
-/

namespace Eno.El

open Spec

variable {E : Env} {w : World} {D : Document} {input : Str} {ks : List Str} {es : List Element} {ss : List Sec} {e : Element} {s : Sec}

/-! ## C70 -/

/-- Fields. -/
theorem C70_field {v : Option Str} (ht : D.Text input) (hl : load input = .ok E.ctx) (hd : E.ctx.heap.length + 1 ≤ E.depth) (hw : AfterParse E w)
    (d : Descends D.elements D.sections ks es ss) (he : OnlyElement es ss e) (hv : e.content.text = some v) :
    ∃ o w1 y w2, Sections E 0 w ks o w1 ∧ run E o (.one (.kind .field) (some e.key) (some true)) w1 = (.ok (.obj y), w2) ∧
      ∀ w3, Leads E w2 w3 → Gives E w3 y v ∧ Notes E w3 y (commentText e.remark) := by
  have W := written ht hl hd
  obtain ⟨o, w1, h1, S⟩ := (W.document hw).descend W d
  obtain ⟨i, hi, hE, hk⟩ := S.element W he
  have hty : (E.ctx.heap.at i).type = .field ∨ (E.ctx.heap.at i).type = .mlBegin := by
    have hc := hE.content
    cases hq : e.content with
    | parts p =>
      rw [hq] at hc hv
      obtain ⟨f, m⟩ := p
      left
      rw [hc.1, if_neg]
      rintro ⟨e1, e2⟩
      simp only at e1 e2
      subst e1; subst e2
      simp [Content.text] at hv
    | verbatim ls => rw [hq] at hc; exact .inr hc.1
    | items x xs => rw [hq] at hv; simp [Content.text] at hv
    | entries x xs => rw [hq] at hv; simp [Content.text] at hv
  have hval : ownValue input (E.ctx.heap.at i) = v := by
    have hc := hE.content
    cases hq : e.content with
    | parts p =>
      rw [hq] at hc hv
      obtain ⟨f, m⟩ := p
      obtain ⟨c1, c2, c3, _⟩ := hc
      simp only at c1 c2 c3
      have hne : ¬ (f = none ∧ m = []) := by rintro ⟨rfl, rfl⟩; simp [Content.text] at hv
      rw [if_neg hne] at c1
      have : Content.text (.parts ⟨f, m⟩) = some (Parts.text ⟨f, m⟩) := by
        unfold Content.text
        cases f <;> cases m <;> simp_all
      rw [this] at hv
      rw [← Option.some.inj hv]
      unfold ownValue
      rw [if_neg (by rw [c1]; simp)]
      show joined (valueParts _ _) = joined _
      unfold valueParts
      rw [c2, ← c3]; rfl
    | verbatim ls =>
      rw [hq] at hc hv
      simp only [Content.text, Option.some.injEq] at hv
      rw [hc.2.1, hv]
    | items x xs => rw [hq] at hv; simp [Content.text] at hv
    | entries x xs => rw [hq] at hv; simp [Content.text] at hv
  obtain ⟨y, w2, h2, hr2, hy, href⟩ := hk .field (by
    intro k'
    constructor
    · intro h; rcases hty with q | q <;> rw [q] at h <;> cases h <;> rfl
    · rintro rfl; rcases hty with q | q <;> rw [q] <;> constructor)
  refine ⟨o, w1, y, w2, h1, h2, fun w3 hw3 => ?_⟩
  have V := envOk_load hl
  have K := hw3.keeps V (hr2.inv V)
  have L := K.later.obj y hy.1
  have hr3 := hr2.leads hw3
  have href3 : (w3.at y).ref = .elem i := by rw [L.ref]; exact href
  constructor
  · refine gives_of W hr3 (hy.later K.later).1 (.inl (hy.later K.later).2) fun v' hv' => ?_
    rw [href3] at hv'
    cases hv' with
    | value h => rw [h.det (.own (W.doc.fine i hi).1), hval]
    | subValue h => simp [Heap.sub?] at h
  · refine notes_of W hr3 ?_
    rw [href3]
    exact hE.remark

/-- Lists. -/
theorem C70_list {x : Item} {xs : List Item} (ht : D.Text input) (hl : load input = .ok E.ctx) (hd : E.ctx.heap.length + 1 ≤ E.depth) (hw : AfterParse E w)
    (d : Descends D.elements D.sections ks es ss) (he : OnlyElement es ss e) (hv : e.content = .items x xs) :
    ∃ o w1 y w2, Sections E 0 w ks o w1 ∧ run E o (.one (.kind .list) (some e.key) (some true)) w1 = (.ok (.obj y), w2) ∧
      ∀ w3, Leads E w2 w3 → Notes E w3 y (commentText e.remark) ∧ (run E y .length w3).1 = .ok (.nat (x :: xs).length) ∧
        (∀ f : Str → Val, (run E y (.values false fun t w => (.ok (f t), w)) w3).1 = .ok (.list ((x :: xs).map fun z => Val.opt (z.parts.text.map f)))) ∧
        ∃ zs, (run E y .items w3).1 = .ok (.objs zs) ∧ zs.length = (x :: xs).length ∧
          ∀ p ∈ zs.zip (x :: xs), ∀ w4, Leads E (run E y .items w3).2 w4 → Gives E w4 p.1 p.2.parts.text ∧ Notes E w4 p.1 (commentText p.2.remark) := by
  have W := written ht hl hd
  obtain ⟨o, w1, h1, S⟩ := (W.document hw).descend W d
  obtain ⟨i, hi, hE, hk⟩ := S.element W he
  have hc := hE.content
  rw [hv] at hc
  obtain ⟨hty, _, ys, hys, hmap, hfine⟩ := hc
  obtain ⟨y, w2, h2, hr2, hy, href⟩ := hk .list (by
    intro k'
    constructor
    · intro h; rw [hty] at h; cases h; rfl
    · rintro rfl; rw [hty]; constructor)
  refine ⟨o, w1, y, w2, h1, h2, fun w3 hw3 => ?_⟩
  have V := envOk_load hl
  have K := hw3.keeps V (hr2.inv V)
  have hr3 := hr2.leads hw3
  have hy3 := hy.later K.later
  have href3 : (w3.at y).ref = .elem i := by rw [(K.later.obj y hy.1).ref]; exact href
  have hit : Items E (w3.at y) (itemsAt E.ctx.heap i) := by
    obtain ⟨j, rs, e1, e2, e3⟩ := C69_contents W.doc.analyzed hl (by omega) hr3 hy3
    rw [href3] at e1
    cases e1
    rcases e3 with ⟨_, e3⟩ | ⟨e3, _⟩
    · rw [e3.det (.own (W.doc.fine i hi).1)] at e2; exact e2
    · rw [hty] at e3; cases e3
  have hlen : (itemsAt E.ctx.heap i).length = (x :: xs).length := by
    rw [← hmap]; simp [itemsAt, hys]
  refine ⟨notes_of W hr3 (by rw [href3]; exact hE.remark), ?_, ?_, ?_⟩
  · rw [(C69_length hl hr3 hy3 hit).1, hlen]
  · intro f
    obtain ⟨ps, p1, p2, p3⟩ := C45_values (f := fun t => .ok (f t)) (required := false) W.doc.analyzed hl hd hr3 hy3 hit
    rw [p3, outcomes_ok]
    have := item_texts hys p1 p2
    have e : (ps.map fun p => Val.opt (p.2.map f)) = (x :: xs).map fun z => Val.opt (z.parts.text.map f) := by
      rw [← hmap, List.map_map]
      have := congrArg (List.map fun v : Option Str => Val.opt (v.map f)) this
      rw [List.map_map, List.map_map] at this
      exact this
    rw [e]; rfl
  · obtain ⟨zs, z1, z2, z3, _⟩ := C69_items hl hr3 hy3 hit
    have hzl : zs.length = ys.length := by
      have := congrArg List.length z2
      simpa [itemsAt, hys] using this
    have hyl : ys.length = (x :: xs).length := by rw [← hmap]; simp
    refine ⟨zs, z1, by omega, fun p hp w4 hw4 => ?_⟩
    obtain ⟨k, hk1, hk2⟩ := List.mem_iff_getElem.1 hp
    have kz : k < zs.length := by simp at hk1; omega
    have ky : k < ys.length := by omega
    have kx : k < (x :: xs).length := by omega
    have ep : p = (zs[k], (x :: xs)[k]) := by rw [← hk2, List.getElem_zip]
    have ex : (x :: xs)[k] = ys[k].toItem := by simp only [← hmap, List.getElem_map]
    rw [ep, ex]
    have hr' : Reach E (run E y .items w3).2 := hr3.leads (Leads.one (by exact trivial) y)
    have K' := hw4.keeps V (hr'.inv V)
    have hz := (z3 zs[k] (List.getElem_mem kz)).1
    have hz4 := hz.later K'.later
    have href4 : (w4.at zs[k]).ref = .item i k := by
      rw [(K'.later.obj _ hz.1).ref]
      have : (zs.map fun z => ((run E y .items w3).2.at z).ref)[k]'(by simpa using kz) = (itemsAt E.ctx.heap i)[k]'(by simp [itemsAt, hys]; exact ky) := by simp only [z2]
      simpa [itemsAt] using this
    constructor
    · refine gives_of W (hr'.leads hw4) hz4.1 (.inr (.inr hz4.2)) fun v hv => ?_
      rw [href4] at hv
      exact item_text hys ky hv
    · refine notes_of W (hr'.leads hw4) ?_
      rw [href4]
      have := hfine _ (List.getElem_mem ky)
      have hs : E.ctx.heap.comments (.item i k) = ys[k].comments := by simp [Heap.comments, Heap.sub?, hys, ky]
      rw [hs]
      exact this

/-- Fieldsets. -/
theorem C70_fieldset {x t : Entry} {xs : List Entry} (ht : D.Text input) (hl : load input = .ok E.ctx) (hd : E.ctx.heap.length + 1 ≤ E.depth) (hw : AfterParse E w)
    (d : Descends D.elements D.sections ks es ss) (he : OnlyElement es ss e) (hv : e.content = .entries x xs) (hk : t.key ≠ []) (hx : (x :: xs).filter (fun z => z.key = t.key) = [t]) :
    ∃ o w1 y w2, Sections E 0 w ks o w1 ∧ run E o (.one (.kind .fieldset) (some e.key) (some true)) w1 = (.ok (.obj y), w2) ∧
      ∀ w3, Leads E w2 w3 → Notes E w3 y (commentText e.remark) ∧ ∃ z w4, run E y (.entry (some t.key) (some true)) w3 = (.ok (.obj z), w4) ∧
        ∀ w5, Leads E w4 w5 → Gives E w5 z t.parts.text ∧ Notes E w5 z (commentText t.remark) := by
  have W := written ht hl hd
  obtain ⟨o, w1, h1, S⟩ := (W.document hw).descend W d
  obtain ⟨i, hi, hE, hkind⟩ := S.element W he
  have hc := hE.content
  rw [hv] at hc
  obtain ⟨hty, _, ys, hys, hmap, hfine⟩ := hc
  obtain ⟨y, w2, h2, hr2, hy, href⟩ := hkind .fieldset (by
    intro k'
    constructor
    · intro h; rw [hty] at h; cases h; rfl
    · rintro rfl; rw [hty]; constructor)
  refine ⟨o, w1, y, w2, h1, h2, fun w3 hw3 => ?_⟩
  have V := envOk_load hl
  have K := hw3.keeps V (hr2.inv V)
  have hr3 := hr2.leads hw3
  have hy3 := hy.later K.later
  have href3 : (w3.at y).ref = .elem i := by rw [(K.later.obj y hy.1).ref]; exact href
  have hit : Entries E (w3.at y) (entriesAt E.ctx.heap i) := by
    obtain ⟨j, rs, e1, e2, e3⟩ := C61_contents W.doc.analyzed hl (by omega) hr3 hy3
    rw [href3] at e1
    cases e1
    rcases e3 with ⟨_, e3⟩ | ⟨e3, _⟩
    · rw [e3.det (.own (W.doc.fine i hi).1)] at e2; exact e2
    · rw [hty] at e3; cases e3
  refine ⟨notes_of W hr3 (by rw [href3]; exact hE.remark), ?_⟩
  obtain ⟨k, ky, hone, htk⟩ := one_entry hys (fun y hy => (hfine y hy).2) hmap hk hx
  obtain ⟨z, e1, e2, e3, _⟩ := C61_one (required := some true) hl hr3 hy3 hit hone
  have hr : run E y (.entry (some t.key) (some true)) w3 = (.ok (.obj z), (run E y (.entry (some t.key) (some true)) w3).2) := by rw [← e1]
  refine ⟨z, _, hr, fun w5 hw5 => ?_⟩
  have hr' : Reach E (run E y (.entry (some t.key) (some true)) w3).2 := hr3.leads (Leads.one (by exact trivial) y)
  have K' := hw5.keeps V (hr'.inv V)
  have hz5 := e2.later K'.later
  have href5 : (w5.at z).ref = .entry i k := by rw [(K'.later.obj _ e2.1).ref]; exact e3
  constructor
  · refine gives_of W (hr'.leads hw5) hz5.1 (.inr (.inl hz5.2)) fun v hv => ?_
    rw [href5] at hv
    rw [← htk]
    exact entry_text hys ky hv
  · refine notes_of W (hr'.leads hw5) ?_
    rw [href5, ← htk]
    have := (hfine _ (List.getElem_mem ky)).1
    have hs : E.ctx.heap.comments (.entry i k) = ys[k].comments := by simp [Heap.comments, Heap.sub?, hys, ky]
    rw [hs]
    exact this

/-- Sections. -/
theorem C70_section (ht : D.Text input) (hl : load input = .ok E.ctx) (hd : E.ctx.heap.length + 1 ≤ E.depth) (hw : AfterParse E w)
    (d : Descends D.elements D.sections ks es ss) (hs : OnlySection es ss s) :
    ∃ o w1 y w2, Sections E 0 w ks o w1 ∧ run E o (.one (.kind .section) (some s.key) (some true)) w1 = (.ok (.obj y), w2) ∧
      ∀ w3, Leads E w2 w3 → Notes E w3 y (commentText s.remark) := by
  have W := written ht hl hd
  obtain ⟨o, w1, h1, S⟩ := (W.document hw).descend W d
  obtain ⟨y, w2, h2, S2, hr⟩ := S.down W hs
  have V := envOk_load hl
  refine ⟨o, w1, y, w2, h1, h2, fun w3 hw3 => ?_⟩
  have K := hw3.keeps V (S2.reach.inv V)
  refine notes_of W (S2.reach.leads hw3) ?_
  rw [(K.later.obj y S2.isA.1).ref]
  exact hr

/-- What is not there: optional access gives nothing and required access raises. -/
theorem C70_missing {k : Str} {want : Want} (ht : D.Text input) (hl : load input = .ok E.ctx) (hd : E.ctx.heap.length + 1 ≤ E.depth) (hw : AfterParse E w)
    (d : Descends D.elements D.sections ks es ss) (hk : NothingWith es ss k) :
    ∃ o w1, Sections E 0 w ks o w1 ∧ ((w1.at o).required = false → (run E o (.one want (some k) (some false)) w1).1 = .ok .none) ∧
      ∃ e, (run E o (.one want (some k) (some true)) w1).1 = .error e := by
  have W := written ht hl hd
  obtain ⟨o, w1, h1, S⟩ := (W.document hw).descend W d
  obtain ⟨a, b, hel, ha, hb⟩ := S.tree
  obtain ⟨k1, k2, k3⟩ := hk
  have hn : withKey E.ctx.heap (some k) (a ++ b) = [] := by rw [withKey_append k1, ha.none k2, hb.none k3]; rfl
  refine ⟨o, w1, h1, fun hq => ?_, ?_⟩
  · rw [C42_none hl S.reach S.isA hel hn, if_neg (by simp [hq]), if_neg (by simp)]
  · rw [C42_none hl S.reach S.isA hel hn, if_pos (.inl rfl)]
    unfold raised
    split <;> exact ⟨_, rfl⟩

/-- A document with a field, a list, a fieldset and a section in a section. -/
def routeSample : Document where
  elements := []
  sections := [.mk [] (chars!"s")
    [⟨[(2, some (chars!"note"))], chars!"color", .parts ⟨some (chars!"red"), [(true, some (chars!"dark"))]⟩⟩,
     ⟨[], chars!"l", .items ⟨[], ⟨some (chars!"a"), []⟩⟩ [⟨[], ⟨none, []⟩⟩]⟩,
     ⟨[], chars!"f", .entries ⟨[], chars!"x", ⟨some (chars!"1"), []⟩⟩ []⟩]
    [.mk [] (chars!"t") [] []]]

example : ∃ E input w es ss e1 e2 e3 s x xs t ts v, routeSample.Text input ∧ load input = .ok E.ctx ∧ E.ctx.heap.length + 1 ≤ E.depth ∧ AfterParse E w ∧
    Descends routeSample.elements routeSample.sections [chars!"s"] es ss ∧ (OnlyElement es ss e1 ∧ e1.content.text = some v) ∧ (OnlyElement es ss e2 ∧ e2.content = .items x xs) ∧
    (OnlyElement es ss e3 ∧ e3.content = .entries t ts ∧ t.key ≠ [] ∧ (t :: ts).filter (fun z => z.key = t.key) = [t]) ∧ OnlySection es ss s ∧ NothingWith es ss (chars!"z") := by
  have hv : routeSample.Valid := by
    have t1 : Trimmed (chars!"s") := trimmed_of (by decide)
    have t2 : Trimmed (chars!"note") := trimmed_of (by decide)
    have t3 : Trimmed (chars!"color") := trimmed_of (by decide)
    have t4 : Trimmed (chars!"red") := trimmed_of (by decide)
    have t5 : Trimmed (chars!"dark") := trimmed_of (by decide)
    have t6 : Trimmed (chars!"l") := trimmed_of (by decide)
    have t7 : Trimmed (chars!"a") := trimmed_of (by decide)
    have t8 : Trimmed (chars!"f") := trimmed_of (by decide)
    have t9 : Trimmed (chars!"x") := trimmed_of (by decide)
    have t10 : Trimmed (chars!"1") := trimmed_of (by decide)
    have t11 : Trimmed (chars!"t") := trimmed_of (by decide)
    simp [routeSample, Document.Valid, Element.Valid, Content.Valid, Parts.Valid, Item.Valid, Entry.Valid, Remark.Valid, Sec.Valid, SecsValid, t1, t2, t3, t4, t5, t6, t7, t8, t9, t10, t11]
  obtain ⟨input, hi⟩ := C68_expressible hv
  obtain ⟨ctx, H⟩ := written_document hi
  refine ⟨⟨{}, ctx, ctx.heap.length + 1⟩, input, World.start, _, _,
    ⟨[(2, some (chars!"note"))], chars!"color", .parts ⟨some (chars!"red"), [(true, some (chars!"dark"))]⟩⟩, ⟨[], chars!"l", .items ⟨[], ⟨some (chars!"a"), []⟩⟩ [⟨[], ⟨none, []⟩⟩]⟩,
    ⟨[], chars!"f", .entries ⟨[], chars!"x", ⟨some (chars!"1"), []⟩⟩ []⟩, .mk [] (chars!"t") [] [], _, _, _, _, _, hi, H.loaded, Nat.le_refl _, ⟨0, .done⟩,
    .down (s := .mk [] (chars!"s") _ _) ⟨by decide, by simp [routeSample], rfl⟩ .here, ⟨⟨?_, rfl, ?_⟩, rfl⟩, ⟨⟨?_, rfl, ?_⟩, rfl⟩, ⟨⟨?_, rfl, ?_⟩, rfl, ?_, rfl⟩, ⟨?_, ?_, rfl⟩, ?_, ?_, ?_⟩
  all_goals first | decide | simp [Sec.elements, Sec.sections, Sec.key]

end Eno.El
