import Verif.Proofs.WrittenDocument
import Verif.Props.ElementProps
import Verif.Props.ElementListProps
import Verif.Props.ElementMoreProps
import Verif.Spec.Navigation

/-! # Objects of written documents -/

namespace Eno

open Spec

variable {input : Str} {h : Heap}

/-! ## Keys -/

theorem ElemsAt.paired {lo : Nat} {is : List Nat} {es : List Element} (H : ElemsAt input h lo is es) :
    ∃ ps : List (Nat × Element), is = ps.map (·.1) ∧ es = ps.map (·.2) ∧ ∀ p ∈ ps, p.1 < h.length ∧ ElemIs input p.2 (h.at p.1) := by
  induction H with
  | nil => exact ⟨[], rfl, rfl, by simp⟩
  | @cons i is e es _ h2 h3 _ ih =>
    obtain ⟨ps, rfl, rfl, h⟩ := ih
    refine ⟨(i, e) :: ps, rfl, rfl, ?_⟩
    intro p hp
    rcases List.mem_cons.1 hp with rfl | hp
    · exact ⟨h2, h3⟩
    · exact h p hp

theorem SecsAt.paired {lo : Nat} {is : List Nat} {ss : List Sec} (H : SecsAt input h lo is ss) :
    ∃ ps : List (Nat × Sec), is = ps.map (·.1) ∧ ss = ps.map (·.2) ∧ ∀ p ∈ ps, SecAt input h lo p.1 p.2 := by
  induction ss generalizing is with
  | nil => cases H; exact ⟨[], rfl, rfl, by simp⟩
  | cons s ss ih =>
    cases H with
    | @cons i is _ _ h1 h2 =>
      obtain ⟨ps, rfl, rfl, h⟩ := ih h2
      refine ⟨(i, s) :: ps, rfl, rfl, ?_⟩
      intro p hp
      rcases List.mem_cons.1 hp with rfl | hp
      · exact h1
      · exact h p hp

theorem SecAt.key {lo i : Nat} {s : Sec} (H : SecAt input h lo i s) : (h.at i).key = s.key := by
  cases H with | mk _ _ _ h4 => exact h4

theorem filter_pairs {β} {ps : List (Nat × β)} {f : Nat → Str} {g : β → Str} (H : ∀ p ∈ ps, f p.1 = g p.2) (k : Str) :
    (ps.map (·.1)).filter (fun i => f i = k) = (ps.filter fun p => g p.2 = k).map (·.1) ∧ (ps.map (·.2)).filter (fun x => g x = k) = (ps.filter fun p => g p.2 = k).map (·.2) := by
  constructor
  · rw [List.filter_map]
    congr 1
    refine List.filter_congr fun p hp => ?_
    simp [H p hp]
  · rw [List.filter_map]; rfl

theorem single_pair {β} {ps : List (Nat × β)} {f : Nat → Str} {g : β → Str} (H : ∀ p ∈ ps, f p.1 = g p.2) {k : Str} {x : β} (h1 : (ps.map (·.2)).filter (fun x => g x = k) = [x]) :
    ∃ i, (i, x) ∈ ps ∧ (ps.map (·.1)).filter (fun i => f i = k) = [i] := by
  obtain ⟨e1, e2⟩ := filter_pairs H k
  rw [e2] at h1
  rw [e1]
  have hl := congrArg List.length h1
  rw [List.length_map] at hl
  obtain ⟨p, hq⟩ := List.length_eq_one_iff.1 hl
  have hm : p ∈ ps := (List.mem_filter.1 (hq ▸ List.mem_singleton.2 rfl : p ∈ ps.filter _)).1
  rw [hq] at h1 ⊢
  have : p.2 = x := by simpa using h1
  subst this
  exact ⟨p.1, hm, rfl⟩

theorem none_pair {β} {ps : List (Nat × β)} {f : Nat → Str} {g : β → Str} (H : ∀ p ∈ ps, f p.1 = g p.2) {k : Str} (h1 : ∀ x ∈ ps.map (·.2), g x ≠ k) :
    (ps.map (·.1)).filter (fun i => f i = k) = [] := by
  rw [(filter_pairs H k).1]
  simp only [List.map_eq_nil_iff, List.filter_eq_nil_iff]
  intro p hp
  simpa using h1 p.2 (List.mem_map_of_mem hp)

theorem ElemsAt.one {lo : Nat} {is : List Nat} {es : List Element} (H : ElemsAt input h lo is es) {k : Str} {e : Element} (he : es.filter (fun x => x.key = k) = [e]) :
    ∃ i, is.filter (fun i => (h.at i).key = k) = [i] ∧ i < h.length ∧ ElemIs input e (h.at i) := by
  obtain ⟨ps, rfl, rfl, hp⟩ := H.paired
  obtain ⟨i, h1, h2⟩ := single_pair (f := fun i => (h.at i).key) (g := Element.key) (fun p q => (hp p q).2.key) he
  exact ⟨i, h2, hp _ h1⟩

theorem ElemsAt.none {lo : Nat} {is : List Nat} {es : List Element} (H : ElemsAt input h lo is es) {k : Str} (he : ∀ e ∈ es, e.key ≠ k) :
    is.filter (fun i => (h.at i).key = k) = [] := by
  obtain ⟨ps, rfl, rfl, hp⟩ := H.paired
  exact none_pair (f := fun i => (h.at i).key) (g := Element.key) (fun p q => (hp p q).2.key) he

theorem SecsAt.one {lo : Nat} {is : List Nat} {ss : List Sec} (H : SecsAt input h lo is ss) {k : Str} {s : Sec} (he : ss.filter (fun x => x.key = k) = [s]) :
    ∃ i, is.filter (fun i => (h.at i).key = k) = [i] ∧ SecAt input h lo i s := by
  obtain ⟨ps, rfl, rfl, hp⟩ := H.paired
  obtain ⟨i, h1, h2⟩ := single_pair (f := fun i => (h.at i).key) (g := Sec.key) (fun p q => (hp p q).key) he
  exact ⟨i, h2, hp _ h1⟩

theorem SecsAt.none {lo : Nat} {is : List Nat} {ss : List Sec} (H : SecsAt input h lo is ss) {k : Str} (he : ∀ s ∈ ss, s.key ≠ k) :
    is.filter (fun i => (h.at i).key = k) = [] := by
  obtain ⟨ps, rfl, rfl, hp⟩ := H.paired
  exact none_pair (f := fun i => (h.at i).key) (g := Sec.key) (fun p q => (hp p q).key) he

namespace El

variable {E : Env} {w w' : World} {o : Nat} {D : Document} {es : List Element} {ss : List Sec}

/-! ## Sections -/

/-- The object is made of the document or section with these elements and sections. -/
structure Stands (input : Str) (E : Env) (w : World) (o : Nat) (es : List Element) (ss : List Sec) : Prop where
  reach : Reach E w
  isA : IsA w o (.of .section)
  tree : ∃ a b, Elements E (w.at o) (a ++ b) ∧ ElemsAt input E.ctx.heap 1 a es ∧ SecsAt input E.ctx.heap 1 b ss

/-- What is known of the environment. -/
structure Written (input : Str) (E : Env) (D : Document) : Prop where
  doc : DocAt input D E.ctx
  depth : E.ctx.heap.length + 1 ≤ E.depth

theorem written (ht : D.Text input) (hl : load input = .ok E.ctx) (hd : E.ctx.heap.length + 1 ≤ E.depth) : Written input E D := by
  obtain ⟨ctx, H⟩ := written_document ht
  have := H.loaded
  rw [hl] at this
  injection this with this
  subst this
  exact ⟨H, hd⟩

theorem Written.noDeep (W : Written input E D) : NoDeepCopies E.ctx.heap := by
  intro i
  by_cases hi : i < E.ctx.heap.length
  · exact (W.doc.fine i hi).2.1
  · rw [heap_outside hi]; rfl

theorem Written.own (W : Written input E D) {x : Obj} {i : Nat} (hr : x.ref = .elem i) (hi : i < E.ctx.heap.length) (hs : (E.ctx.heap.at i).type = .section ∨ i = 0) :
    Elements E x (E.ctx.heap.at i).elements := by
  unfold Elements
  rw [hr]
  exact C33_own W.doc.analyzed W.doc.loaded W.noDeep hi hs (W.doc.fine i hi).1 (by have := W.depth; omega)

theorem Written.document (W : Written input E D) (hw : AfterParse E w) : Stands input E w 0 D.elements D.sections := by
  have R := hw.root (envOk_load W.doc.loaded)
  obtain ⟨a, b, h1, h2, h3⟩ := W.doc.tree
  refine ⟨hw.reach, ⟨R.1, R.2.1⟩, a, b, ?_, h2, h3⟩
  rw [← h1]
  exact W.own R.2.2.1 (envOk_load W.doc.loaded).present (.inr rfl)

theorem withKey_append {h : Heap} {k : Str} (hk : k ≠ []) (a b : List Nat) :
    withKey h (some k) (a ++ b) = a.filter (fun i => (h.at i).key = k) ++ b.filter (fun i => (h.at i).key = k) := by
  cases k with
  | nil => exact absurd rfl hk
  | cons c k => simp [withKey, List.filter_append]

/-- One section down. -/
theorem Stands.down (W : Written input E D) (S : Stands input E w o es ss) {s : Sec} (hs : OnlySection es ss s) :
    ∃ y w1, run E o (.one (.kind .section) (some s.key) (some true)) w = (.ok (.obj y), w1) ∧ Stands input E w1 y s.elements s.sections ∧
      Remarked s.remark (E.ctx.heap.comments (w1.at y).ref) := by
  obtain ⟨a, b, hel, ha, hb⟩ := S.tree
  obtain ⟨h1, h2, h3⟩ := hs
  obtain ⟨i, hi, hsec⟩ := hb.one h3
  have hk : withKey E.ctx.heap (some s.key) (a ++ b) = [i] := by rw [withKey_append h1, ha.none h2, hi]; rfl
  obtain ⟨r, k, es', ss'⟩ := s
  cases hsec with
  | @mk _ _ _ _ _ a' b' g1 g2 g3 g4 g5 g6 g7 g8 g9 =>
    obtain ⟨z, e1, e2, e3, _⟩ := C42_partial (required := some true) W.doc.loaded S.reach S.isA hel hk (k := .section) (by rw [g3]; exact .section) (.inl rfl)
    have hr : run E o (.one (.kind .section) (some (Sec.mk r k es' ss').key) (some true)) w =
        (.ok (.obj z), (run E o (.one (.kind .section) (some (Sec.mk r k es' ss').key) (some true)) w).2) := by rw [← e1]
    refine ⟨z, _, hr, ⟨S.reach.leads (Leads.one (by exact trivial) o), e2, a', b', ?_, g8, g9⟩, ?_⟩
    · rw [← g7]
      exact W.own e3 g2 (.inl g3)
    · rw [e3]; exact g5

/-- Any number of sections down. -/
theorem Stands.descend (W : Written input E D) {ks : List Str} {es' : List Element} {ss' : List Sec} (d : Descends es ss ks es' ss') : ∀ {w : World} {o : Nat},
    Stands input E w o es ss → ∃ o' w', Sections E o w ks o' w' ∧ Stands input E w' o' es' ss' := by
  induction d with
  | here => intro w o S; exact ⟨o, w, .here, S⟩
  | down h1 _ ih =>
    intro w o S
    obtain ⟨y, w1, hr, S1, _⟩ := S.down W h1
    obtain ⟨o', w', h2, S2⟩ := ih S1
    exact ⟨o', w', .down hr h2, S2⟩

/-- What an element that is not empty was yielded as. -/
theorem freeFor {i : Nat} {k : Kind} (V : EnvOk E) (hw : Reach E w) (hu : ∀ k', Fits k' (E.ctx.heap.at i).type → k' = k) : FreeFor w o i k := by
  intro y k' hy hk
  have I := hw.inv V
  have O := I.objs y hy.isA.1
  obtain ⟨z, hz⟩ := Option.isSome_iff_exists.1 ((O.yielded k').1 hk)
  have M := (O.made k' z hz).2
  have R := (I.objs z M.known).ref
  have hpos : 0 < i := by
    have := O.ref
    rw [hy.isA.2, hy.ref] at this
    exact this.1
  rw [M.cls, M.ref, hy.ref] at R
  exact hu k' (fits_iff.2 (R.2.2 hpos))

/-- An element. -/
theorem Stands.element (W : Written input E D) (S : Stands input E w o es ss) {e : Element} (he : OnlyElement es ss e) :
    ∃ i, i < E.ctx.heap.length ∧ ElemIs input e (E.ctx.heap.at i) ∧ ∀ k, (∀ k', Fits k' (E.ctx.heap.at i).type ↔ k' = k) →
      ∃ y w1, run E o (.one (.kind k) (some e.key) (some true)) w = (.ok (.obj y), w1) ∧ Reach E w1 ∧ IsA w1 y (.of k) ∧ (w1.at y).ref = .elem i := by
  obtain ⟨a, b, hel, ha, hb⟩ := S.tree
  obtain ⟨h1, h2, h3⟩ := he
  obtain ⟨i, hi, hlt, hE⟩ := ha.one h2
  have hk : withKey E.ctx.heap (some e.key) (a ++ b) = [i] := by rw [withKey_append h1, hb.none h3, hi]; rfl
  refine ⟨i, hlt, hE, fun k hu => ?_⟩
  obtain ⟨z, e1, e2, e3, _⟩ := C42_partial (required := some true) W.doc.loaded S.reach S.isA hel hk (k := k) ((hu k).2 rfl)
    (.inr (freeFor (envOk_load W.doc.loaded) S.reach fun k' => (hu k').1))
  have hr : run E o (.one (.kind k) (some e.key) (some true)) w = (.ok (.obj z), (run E o (.one (.kind k) (some e.key) (some true)) w).2) := by rw [← e1]
  exact ⟨z, _, hr, S.reach.leads (Leads.one (by exact trivial) o), e2, e3⟩

/-! ## Values and comments -/

theorem gives_of (W : Written input E D) (hw : Reach E w) (ho : o < w.objs.length) (hv : HasValue (w.at o).cls) {v : Option Str}
    (hq : ∀ v', AnswerOf input E.ctx.heap (.value (w.at o).ref) (.text v') → v' = v) : Gives E w o v := by
  obtain ⟨v', w1, h1, _, h2⟩ := C45_value W.doc.analyzed W.doc.loaded W.depth hw ho hv
  have := hq v' h1
  subst this
  cases v' with
  | none => intro loader; rw [h2]; rfl
  | some t =>
    intro required loader v hl
    rw [h2]
    have := hl w1
    dsimp only
    cases hq : loader t w1 with
    | mk x w2 =>
      rw [hq] at this
      cases this
      rfl

theorem notes_of (W : Written input E D) (hw : Reach E w) {r : Remark} (hr : Remarked r (E.ctx.heap.comments (w.at o).ref)) : Notes E w o (commentText r) := by
  obtain ⟨w1, _, h2⟩ := C45_comment_partial (o := o) W.doc.analyzed W.doc.loaded hw (fun x hx => remarked_single hr x hx)
  have hc : Spec.commentOf (E.ctx.heap.comments (w.at o).ref) = commentText r := by
    have := hr.said
    obtain ⟨g1, g2⟩ := this
    unfold Spec.commentOf
    rw [← g2]
    cases E.ctx.heap.comments (w.at o).ref <;> rfl
  rw [hc] at h2
  generalize commentText r = q at h2
  rcases q with _ | _ | ⟨c, t⟩
  · intro loader; rw [h2]; rfl
  · intro loader; rw [h2]; rfl
  · intro required loader v hl
    rw [h2]
    have := hl w1
    dsimp only
    cases hq : loader (c :: t) w1 with
    | mk x w2 =>
      rw [hq] at this
      cases this
      rfl

/-! ## Items and entries -/

theorem item_text {h : Heap} {i k : Nat} {ys : List Sub} (hy : (h.at i).items = some ys) (hk : k < ys.length) {v : Option Str}
    (hq : AnswerOf input h (.value (.item i k)) (.text v)) : v = ys[k].toItem.parts.text := by
  cases hq with
  | @subValue _ x hx =>
    have : x = ys[k] := by simp [Heap.sub?, hy, hk] at hx; exact hx.symm
    subst this
    rfl

theorem entry_text {h : Heap} {i k : Nat} {ys : List Sub} (hy : (h.at i).entries = some ys) (hk : k < ys.length) {v : Option Str}
    (hq : AnswerOf input h (.value (.entry i k)) (.text v)) : v = ys[k].toEntry.parts.text := by
  cases hq with
  | @subValue _ x hx =>
    have : x = ys[k] := by simp [Heap.sub?, hy, hk] at hx; exact hx.symm
    subst this
    rfl

theorem item_texts {h : Heap} {i : Nat} {ys : List Sub} (hy : (h.at i).items = some ys) {ps : List (Ref × Option Str)} (h1 : ps.map (·.1) = itemsAt h i)
    (h2 : ∀ p ∈ ps, AnswerOf input h (.value p.1) (.text p.2)) : ps.map (·.2) = ys.map fun y => y.toItem.parts.text := by
  have hl : ps.length = ys.length := by
    have := congrArg List.length h1
    simpa [itemsAt, hy] using this
  refine List.ext_getElem (by simp [hl]) fun k k1 k2 => ?_
  have kp : k < ps.length := by simpa using k1
  have ky : k < ys.length := by simpa using k2
  have e : ps[k].1 = .item i k := by
    have : (ps.map (·.1))[k]'(by simpa using kp) = (itemsAt h i)[k]'(by simp [itemsAt, hy]; exact ky) := by simp only [h1]
    simpa [itemsAt] using this
  have := h2 ps[k] (List.getElem_mem kp)
  rw [e] at this
  simpa using item_text hy ky this

theorem outcomes_ok {g : Str → Val} : ∀ (ps : List (Ref × Option Str)), outcomes E false (fun t => .ok (g t)) ps = .ok (ps.map fun p => Val.opt (p.2.map g))
  | [] => rfl
  | (r, v) :: ps => by
    unfold outcomes
    rw [outcomes_ok ps]
    cases v <;> rfl

theorem one_entry {h : Heap} {i : Nat} {ys : List Sub} {xs : List Entry} {t : Entry} (hy : (h.at i).entries = some ys) (hf : ∀ y ∈ ys, y.key.isSome)
    (hm : ys.map Sub.toEntry = xs) (hk : t.key ≠ []) (hx : xs.filter (fun z => z.key = t.key) = [t]) :
    ∃ k, ∃ hk : k < ys.length, entriesWithKey h (some t.key) (entriesAt h i) = [.entry i k] ∧ ys[k].toEntry = t := by
  have e1 : entriesAt h i = ((List.range ys.length).zip ys).map fun p => .entry i p.1 := by
    unfold entriesAt
    rw [hy, Option.getD_some]
    have : List.range ys.length = ((List.range ys.length).zip ys).map (·.1) := by rw [List.map_fst_zip]; simp
    conv => lhs; rw [this]
    rw [List.map_map]; rfl
  have e2 : xs = ((List.range ys.length).zip ys).map fun p => p.2.toEntry := by
    rw [← hm]
    have : ys = ((List.range ys.length).zip ys).map (·.2) := by rw [List.map_snd_zip]; simp
    conv => lhs; rw [this]
    rw [List.map_map]; rfl
  have hp : ∀ p ∈ (List.range ys.length).zip ys, ∃ hk : p.1 < ys.length, ys[p.1] = p.2 := by
    intro p hp
    obtain ⟨k, k1, k2⟩ := List.mem_iff_getElem.1 hp
    have kl : k < ys.length := by simpa using k1
    rw [List.getElem_zip] at k2
    subst k2
    exact ⟨by simpa using kl, by simp⟩
  have e3 : entriesWithKey h (some t.key) (entriesAt h i) = (((List.range ys.length).zip ys).filter fun p => p.2.toEntry.key = t.key).map fun p => .entry i p.1 := by
    unfold entriesWithKey
    cases hq : t.key with
    | nil => exact absurd hq hk
    | cons c u =>
      dsimp only
      rw [e1, List.filter_map]
      congr 1
      refine List.filter_congr fun p hp' => ?_
      obtain ⟨kl, ke⟩ := hp p hp'
      have hs : h.sub? (.entry i p.1) = some p.2 := by simp [Heap.sub?, hy, kl, ke]
      obtain ⟨key, hkey⟩ := Option.isSome_iff_exists.1 (hf p.2 (by rw [← ke]; exact List.getElem_mem kl))
      simp [hs, hkey, Sub.toEntry]
  rw [e2, List.filter_map] at hx
  have hl := congrArg List.length hx
  rw [List.length_map] at hl
  obtain ⟨p, hq⟩ := List.length_eq_one_iff.1 hl
  rw [hq] at hx
  have hq' : ((List.range ys.length).zip ys).filter (fun p => p.2.toEntry.key = t.key) = [p] := hq
  obtain ⟨kl, ke⟩ := hp p (List.mem_filter.1 (hq' ▸ List.mem_singleton.2 rfl : p ∈ List.filter _ _)).1
  refine ⟨p.1, kl, by rw [e3, hq']; rfl, ?_⟩
  rw [ke]
  simpa using hx

end El

end Eno
