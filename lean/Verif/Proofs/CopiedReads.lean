import Verif.Proofs.AlikeRaw
import Verif.Proofs.CopiedText
import Verif.Proofs.WorldDocument
import Verif.Props.ResolverProps
import Verif.Spec.CopiedReads

/-! # Objects of documents with copies -/

namespace Eno

open Spec

variable {input : Str} {h : Heap} {T : Doc}

theorem DocIn.noDeep (D : DocIn input T h) (hs : ∀ x ∈ T.nodes, x.NoDeep) : NoDeepCopies h := by
  intro i
  by_cases hi : i < h.length
  · by_cases h0 : i = 0
    · subst h0; exact D.root_copy.2.2.2.2.2
    · obtain ⟨n, n1, n2⟩ := D.node hi h0
      cases n with
      | thing t =>
        cases t with
        | plain e => exact n2.2.2.deep
        | copy => exact n2.2.2.deep
      | part p =>
        have := hs _ n1
        obtain ⟨r, k, c, ts, ps⟩ := p
        cases n2 with
        | mk h1 h2 h3 h4 h5 h6 =>
          rw [h3.deep]
          cases c with
          | none => rfl
          | some c => obtain ⟨d, t⟩ := c; exact this
  · rw [heap_outside hi]; rfl

/-! ## Keys -/

theorem RawsOf.paired {is : List Ref} {rs : List Raw} (H : RawsOf input h is rs) : ∃ ps : List (Ref × Raw), is = ps.map (·.1) ∧ rs = ps.map (·.2) ∧ ∀ p ∈ ps, RawOf input h p.1 p.2 := by
  induction rs generalizing is with
  | nil => cases H; exact ⟨[], rfl, rfl, by simp⟩
  | cons r rs ih =>
    cases H with
    | @cons a as _ _ h1 h2 =>
      obtain ⟨ps, rfl, rfl, hp⟩ := ih h2
      refine ⟨(a, r) :: ps, rfl, rfl, fun p hm => ?_⟩
      rcases List.mem_cons.1 hm with rfl | hm
      · exact h1
      · exact hp p hm

theorem key_filter {α β : Type} {ps : List (α × β)} {f : α → Bool} {g : β → Bool} (H : ∀ p ∈ ps, f p.1 = g p.2) :
    (ps.map (·.1)).filter f = (ps.filter fun p => g p.2).map (·.1) ∧ (ps.map (·.2)).filter g = (ps.filter fun p => g p.2).map (·.2) := by
  constructor
  · rw [List.filter_map]
    congr 1
    exact List.filter_congr fun p hp => H p hp
  · rw [List.filter_map]; rfl

theorem key_one {α β : Type} {ps : List (α × β)} {f : α → Bool} {g : β → Bool} {x : β} (H : ∀ p ∈ ps, f p.1 = g p.2) (h1 : (ps.map (·.2)).filter g = [x]) :
    ∃ a, (a, x) ∈ ps ∧ (ps.map (·.1)).filter f = [a] := by
  obtain ⟨e1, e2⟩ := key_filter H
  rw [e2] at h1
  rw [e1]
  have hl := congrArg List.length h1
  rw [List.length_map] at hl
  obtain ⟨p, hq⟩ := List.length_eq_one_iff.1 hl
  have hm : p ∈ ps := (List.mem_filter.1 (hq ▸ List.mem_singleton.2 rfl : p ∈ ps.filter _)).1
  rw [hq] at h1 ⊢
  have : p.2 = x := by simpa using h1
  subst this
  exact ⟨p.1, hm, rfl⟩

/-- The key of what is shown of an element is its key. -/
theorem RawOf.key {i : Nat} {x : Raw} (H : RawOf input h (.elem i) x) (hi : i ≠ 0) : rawKey x = some (h.at i).key := by
  cases H with
  | document => exact absurd rfl hi
  | _ => rfl

/-- The key of what is shown of an entry is its key. -/
theorem RawOf.entryKey' {r : Ref} {x : Raw} (H : RawOf input h r x) (hr : ∃ i k, r = .entry i k) : rawKey x = Spec.entryKey h r := by
  obtain ⟨i, k, rfl⟩ := hr
  cases H with
  | entry hx => simp [rawKey, Spec.entryKey, hx]

theorem entriesOf_entry {i : Nat} {rs : List Ref} (H : EntriesOf h i rs) : ∀ r ∈ rs, ∃ j k, r = .entry j k := by
  have own : ∀ i, ∀ r ∈ entriesAt h i, ∃ j k, r = .entry j k := by
    intro i r hr
    unfold entriesAt at hr
    obtain ⟨k, _, rfl⟩ := List.mem_map.1 hr
    exact ⟨i, k, rfl⟩
  induction H with
  | own => exact own _
  | copy _ _ ih =>
    intro r hr
    rcases List.mem_append.1 hr with hr | hr
    · exact ih r (List.mem_filter.1 hr).1
    · exact own _ r hr

/-- What is shown of items and entries has their texts. -/
theorem RawOf.subText {r : Ref} {x : Raw} (H : RawOf input h r x) {y : Sub} (hy : h.sub? r = some y) :
    rawText x = joined (valueParts y.value y.continuations) ∧ rawNote x = Spec.commentOf y.comments := by
  cases H with
  | item hx =>
    rw [hx] at hy; cases hy
    exact ⟨rfl, by simp only [rawNote]; cases y.comments <;> rfl⟩
  | entry hx =>
    rw [hx] at hy; cases hy
    exact ⟨rfl, by simp only [rawNote]; cases y.comments <;> rfl⟩
  | _ => cases hy

theorem noted (c : Option (List Comment)) : (c.map fun _ => Spec.commentOf c).join = Spec.commentOf c := by cases c <;> rfl

/-- What is shown of a section. -/
theorem RawOf.sec {i : Nat} {c : Option (Option Str)} {k : Option Str} {ys : List Raw} (H : RawOf input h (.elem i) (.node .section c k ys)) :
    ∃ c' js, CommentsOf h i c' ∧ (h.at i).type = .section ∧ CopiedFirst h i js ∧ RawsOf input h (js.map .elem) ys ∧ c.join = Spec.commentOf c' := by
  cases H with
  | «section» g1 g2 g3 g4 g5 => exact ⟨_, _, g2, g3, g4, g5, noted _⟩

/-- What is shown of a field. -/
theorem RawOf.text {i : Nat} {t : Ty} {c : Option (Option Str)} {k v : Option Str} (H : RawOf input h (.elem i) (.leaf t c k (some v))) :
    ∃ c', CommentsOf h i c' ∧ KindOf h i t ∧ (t = .field ∨ t = .mlBegin) ∧ ValueOf input h i v ∧ c.join = Spec.commentOf c' := by
  cases H with
  | field g1 g2 g3 g4 g5 => exact ⟨_, g2, g3, g4, g5, noted _⟩

/-- What is shown of a list. -/
theorem RawOf.list' {i : Nat} {c : Option (Option Str)} {k : Option Str} {ys : List Raw} (H : RawOf input h (.elem i) (.node .list c k ys)) :
    ∃ c' js, CommentsOf h i c' ∧ KindOf h i .list ∧ ItemsOf h i js ∧ RawsOf input h js ys ∧ c.join = Spec.commentOf c' := by
  cases H with
  | list g1 g2 g3 g4 g5 => exact ⟨_, _, g2, g3, g4, g5, noted _⟩

/-- What is shown of a fieldset. -/
theorem RawOf.fieldset' {i : Nat} {c : Option (Option Str)} {k : Option Str} {ys : List Raw} (H : RawOf input h (.elem i) (.node .fieldset c k ys)) :
    ∃ c' js, CommentsOf h i c' ∧ KindOf h i .fieldset ∧ EntriesOf h i js ∧ RawsOf input h js ys ∧ c.join = Spec.commentOf c' := by
  cases H with
  | fieldset g1 g2 g3 g4 g5 => exact ⟨_, _, g2, g3, g4, g5, noted _⟩

/-- Own elements first or copied ones first, those of one key are in the same order: they are all own ones or all copied ones. -/
theorem Spec.ElementsOf.keyed {s : Nat} {xs ys : List Nat} (k : Str) (h1 : ElementsOf h s xs) (h2 : CopiedFirst h s ys) :
    xs.filter (fun i => decide ((h.at i).key = k)) = ys.filter fun i => decide ((h.at i).key = k) := by
  induction h1 generalizing ys with
  | own hc => rw [h2.det (.own hc)]
  | @copy s t xs ht _ ih =>
    cases h2 with
    | own hc => exact (copy_none_not hc ht).elim
    | copy ht' h' =>
      have := ht.det ht'; subst this
      rename_i ys
      have e : (notOverridden h s xs).filter (fun i => decide ((h.at i).key = k)) = (notOverridden h s ys).filter fun i => decide ((h.at i).key = k) := by
        unfold notOverridden
        rw [List.filter_filter, List.filter_filter]
        have : ∀ l : List Nat, (l.filter fun a => decide ((h.at a).key = k) && decide (∀ o ∈ (h.at s).elements, (h.at o).key ≠ (h.at a).key)) =
            (l.filter fun a => decide ((h.at a).key = k)).filter fun a => decide (∀ o ∈ (h.at s).elements, (h.at o).key ≠ (h.at a).key) := by
          intro l
          rw [List.filter_filter]
          exact List.filter_congr fun a _ => Bool.and_comm _ _
        rw [this, this, ih h']
      rw [List.filter_append, List.filter_append, e]
      by_cases ho : ∃ o ∈ (h.at s).elements, (h.at o).key = k
      · obtain ⟨o, ho1, ho2⟩ := ho
        have : (notOverridden h s ys).filter (fun i => decide ((h.at i).key = k)) = [] := by
          rw [List.filter_eq_nil_iff]
          intro a ha
          have := (List.mem_filter.1 ha).2
          simp only [decide_eq_true_eq] at this ⊢
          intro hk
          exact this o ho1 (ho2.trans hk.symm)
        rw [this]; simp
      · have : (h.at s).elements.filter (fun i => decide ((h.at i).key = k)) = [] := by
          rw [List.filter_eq_nil_iff]
          intro a ha
          simp only [decide_eq_true_eq]
          exact fun hk => ho ⟨a, ha, hk⟩
        rw [this]; simp

namespace El

variable {E : Env} {w w' : World} {o : Nat} {ctx0 : Ctx} {rs : List Raw}

/-- What is known of the environment. -/
structure Grasped (input : Str) (E : Env) (ctx0 : Ctx) : Prop where
  analyzed : analyze input = .ok ctx0
  loaded : load input = .ok E.ctx
  depth : E.ctx.heap.length + 1 ≤ E.depth
  noDeep : NoDeepCopies ctx0.heap
  readable : CommentsReadable ctx0.heap

theorem known {xs : List Raw} (ht : Conveys input T xs) (hl : load input = .ok E.ctx) (hd : E.ctx.heap.length + 1 ≤ E.depth) :
    ∃ ctx0, Grasped input E ctx0 ∧ RawOf input ctx0.heap (.elem 0) (.node .document none none xs) := by
  obtain ⟨es, S, he⟩ := ht.says
  have hv : T.Valid := doc_valid ht.ok ht.shown fun e he' => says_trim S e (mem_told (he ▸ he'))
  obtain ⟨i', hx⟩ := doc_of hv
  obtain ⟨es', S', he'⟩ := doc_says hx
  obtain ⟨ctx1, ha1, D⟩ := written_doc hx
  obtain ⟨ctx1', hl1⟩ := (C53_loads_iff ha1).2 (D.wellCopied ht.means)
  have A := same_analysis S' S (he'.trans he.symm)
  rw [ha1] at A
  cases ha : analyze input with
  | error x => rw [ha] at A; cases A
  | ok ctx =>
    rw [ha] at A
    cases A with
    | ok C =>
      refine ⟨ctx, ⟨ha, hl, hd, fun a => ?_, same_readable C.heap D.readable⟩, same_rawOf ha1 hl1 (D.noDeep ht.noDeep) D.readable ha hl C.heap (D.rawOf ht.means)⟩
      rw [(C.heap.at a).deepCopy]
      exact D.noDeep ht.noDeep a

/-- The object is made of the document or a section which means this. -/
structure Standing (input : Str) (E : Env) (ctx0 : Ctx) (w : World) (o : Nat) (rs : List Raw) : Prop where
  reach : Reach E w
  isA : IsA w o (.of .section)
  tree : ∃ is js : List Nat, Elements E (w.at o) is ∧ (∀ k, is.filter (fun i => decide ((ctx0.heap.at i).key = k)) = js.filter fun i => decide ((ctx0.heap.at i).key = k)) ∧
    (∀ i ∈ is, i ∈ js) ∧ RawsOf input ctx0.heap (js.map .elem) rs ∧ ∀ j ∈ js, j < ctx0.heap.length ∧ j ≠ 0

theorem Grasped.elements (W : Grasped input E ctx0) {x : Obj} {i : Nat} {js : List Nat} (hr : x.ref = .elem i) (hi : i < ctx0.heap.length) (hs : (ctx0.heap.at i).type = .section ∨ i = 0)
    (hj : CopiedFirst ctx0.heap i js) : ∃ is, Elements E x is ∧ (∀ k, is.filter (fun i => decide ((ctx0.heap.at i).key = k)) = js.filter fun i => decide ((ctx0.heap.at i).key = k)) ∧
      (∀ i ∈ is, i ∈ js) ∧ ∀ j ∈ js, j < ctx0.heap.length ∧ j ≠ 0 := by
  have L := Eno.loaded W.analyzed W.loaded
  obtain ⟨is, h1, h2⟩ := C32_terminates_partial W.analyzed W.loaded hi hs (W.noDeep.undisturbed i) (fuel := E.depth) (by have := W.depth; rw [L.non.len] at this; omega)
  refine ⟨is, by unfold Elements; rw [hr]; exact h1, fun k => h2.keyed k hj, fun i hi => (h2.perm hj).mem_iff.1 hi, ?_⟩
  obtain ⟨ys, y1, y2⟩ := L.hasRaw_sec (input := input) hi hs
  rw [← y1.det hj]
  exact fun j hj => ⟨(y2 j hj).1, (y2 j hj).2.1⟩

theorem Grasped.document (W : Grasped input E ctx0) (hw : AfterParse E w) (hR : RawOf input ctx0.heap (.elem 0) (.node .document none none rs)) : Standing input E ctx0 w 0 rs := by
  have R := hw.root (envOk_load W.loaded)
  have L := Eno.loaded W.analyzed W.loaded
  cases hR with
  | document h1 h2 =>
    obtain ⟨is, e1, e2, e2', e3⟩ := W.elements R.2.2.1 L.non.ok.pos (.inr rfl) h1
    exact ⟨hw.reach, ⟨R.1, R.2.1⟩, is, _, e1, e2, e2', h2, e3⟩

/-- The elements with a key. -/
theorem Standing.keyed (W : Grasped input E ctx0) (S : Standing input E ctx0 w o rs) {k : Str} (hk : k ≠ []) :
    ∃ is, ∃ ps : List (Nat × Raw), Elements E (w.at o) is ∧ withKey E.ctx.heap (some k) is = ps.map (·.1) ∧ rs.filter (fun y => decide (rawKey y = some k)) = ps.map (·.2) ∧
      ∀ p ∈ ps, p.1 < ctx0.heap.length ∧ p.1 ≠ 0 ∧ RawOf input ctx0.heap (.elem p.1) p.2 := by
  obtain ⟨is, js, h1, h2, h2', h3, h4⟩ := S.tree
  have L := Eno.loaded W.analyzed W.loaded
  obtain ⟨qs, q1, rfl, q3⟩ := RawsOf.paired h3
  have hq : ∀ q ∈ qs, q.1 = .elem q.1.idx ∧ q.1.idx < ctx0.heap.length ∧ q.1.idx ≠ 0 := by
    intro q hq
    have : q.1 ∈ js.map Ref.elem := by rw [q1]; exact List.mem_map_of_mem hq
    obtain ⟨j, hj, e⟩ := List.mem_map.1 this
    rw [← e]
    exact ⟨rfl, h4 j hj⟩
  have hjs : js = qs.map fun q => q.1.idx := by
    have := congrArg (List.map Ref.idx) q1
    rw [List.map_map, List.map_map] at this
    simpa [Function.comp_def, Ref.idx] using this
  refine ⟨is, (qs.filter fun q => decide (rawKey q.2 = some k)).map fun q => (q.1.idx, q.2), h1, ?_, ?_, ?_⟩
  · have e : withKey E.ctx.heap (some k) is = is.filter fun i => decide ((E.ctx.heap.at i).key = k) := by
      cases k with
      | nil => exact absurd rfl hk
      | cons => rfl
    have e' : (is.filter fun i => decide ((E.ctx.heap.at i).key = k)) = is.filter fun i => decide ((ctx0.heap.at i).key = k) :=
      List.filter_congr fun i hi => by rw [(L.non.items_eq (h4 i (h2' i hi)).1).2.2.2]
    rw [e, e', h2, hjs, List.filter_map, List.map_map]
    have : qs.filter ((fun i => decide ((ctx0.heap.at i).key = k)) ∘ fun q => q.1.idx) = qs.filter fun q => decide (rawKey q.2 = some k) := by
      refine List.filter_congr fun q hm => ?_
      obtain ⟨e1, e2, e3⟩ := hq q hm
      have hr := q3 q hm
      rw [e1] at hr
      rw [RawOf.key hr e3]
      simp
    rw [this]
    rfl
  · rw [List.filter_map, List.map_map]; rfl
  · intro p hp
    obtain ⟨q, hm, rfl⟩ := List.mem_map.1 hp
    have hm := (List.mem_filter.1 hm).1
    obtain ⟨e1, e2, e3⟩ := hq q hm
    have hr := q3 q hm
    rw [e1] at hr
    exact ⟨e2, e3, hr⟩

theorem Standing.found (W : Grasped input E ctx0) (S : Standing input E ctx0 w o rs) {k : Str} {x : Raw} (hx : Once rs k x) :
    ∃ is i, Elements E (w.at o) is ∧ withKey E.ctx.heap (some k) is = [i] ∧ i < ctx0.heap.length ∧ i ≠ 0 ∧ RawOf input ctx0.heap (.elem i) x := by
  obtain ⟨is, ps, h1, h2, h3, h4⟩ := S.keyed W hx.1
  rw [hx.2] at h3
  obtain ⟨p, rfl⟩ : ∃ p, ps = [p] := List.length_eq_one_iff.1 (by simpa using (congrArg List.length h3).symm)
  have e : x = p.2 := by simpa using h3
  obtain ⟨p1, p2, p3⟩ := h4 p (by simp)
  exact ⟨is, p.1, h1, h2, p1, p2, by rw [e]; exact p3⟩

/-- One section down. -/
theorem Standing.down (W : Grasped input E ctx0) (S : Standing input E ctx0 w o rs) {k : Str} {c : Option (Option Str)} {ys : List Raw} (hx : Once rs k (.node .section c (some k) ys)) :
    ∃ y w1 i c', run E o (.one (.kind .section) (some k) (some true)) w = (.ok (.obj y), w1) ∧ Standing input E ctx0 w1 y ys ∧ (w1.at y).ref = .elem i ∧ i < ctx0.heap.length ∧
      CommentsOf ctx0.heap i c' ∧ c.join = Spec.commentOf c' := by
  obtain ⟨is, i, h1, h2, h3, h4, h5⟩ := S.found W hx
  have L := Eno.loaded W.analyzed W.loaded
  obtain ⟨c', js, g2, g3, g4, g5, g6⟩ := RawOf.sec h5
  · obtain ⟨z, e1, e2, e3, _⟩ := C42_partial (required := some true) W.loaded S.reach S.isA h1 h2 (k := .section) (by rw [L.secType i h3 g3]; exact .section) (.inl rfl)
    have hr : run E o (.one (.kind .section) (some k) (some true)) w = (.ok (.obj z), (run E o (.one (.kind .section) (some k) (some true)) w).2) := by rw [← e1]
    obtain ⟨ls, j1, j2, j2', j3⟩ := W.elements e3 h3 (.inl g3) g4
    exact ⟨z, _, i, _, hr, ⟨S.reach.leads (Leads.one (by exact trivial) o), e2, ls, _, j1, j2, j2', g5, j3⟩, e3, h3, g2, g6⟩

/-- Any number of sections down. -/
theorem Standing.descend (W : Grasped input E ctx0) {ks : List Str} {ys : List Raw} (d : Goes rs ks ys) : ∀ {w : World} {o : Nat},
    Standing input E ctx0 w o rs → ∃ o' w', Sections E o w ks o' w' ∧ Standing input E ctx0 w' o' ys := by
  induction d with
  | here => intro w o S; exact ⟨o, w, .here, S⟩
  | down h1 _ ih =>
    intro w o S
    obtain ⟨y, w1, _, _, hr, S1, _⟩ := S.down W h1
    obtain ⟨o', w', h2, S2⟩ := ih S1
    exact ⟨o', w', .down hr h2, S2⟩

/-- An element that is not a section. -/
theorem Standing.element (W : Grasped input E ctx0) (S : Standing input E ctx0 w o rs) {k : Str} {x : Raw} (hx : Once rs k x) :
    ∃ i, i < ctx0.heap.length ∧ i ≠ 0 ∧ RawOf input ctx0.heap (.elem i) x ∧ ∀ kd, (∀ k', Fits k' (E.ctx.heap.at i).type ↔ k' = kd) →
      ∃ y w1, run E o (.one (.kind kd) (some k) (some true)) w = (.ok (.obj y), w1) ∧ Reach E w1 ∧ IsA w1 y (.of kd) ∧ (w1.at y).ref = .elem i := by
  obtain ⟨is, i, h1, h2, h3, h4, h5⟩ := S.found W hx
  refine ⟨i, h3, h4, h5, fun kd hu => ?_⟩
  obtain ⟨z, e1, e2, e3, _⟩ := C42_partial (required := some true) W.loaded S.reach S.isA h1 h2 (k := kd) ((hu kd).2 rfl)
    (.inr (freeFor (envOk_load W.loaded) S.reach fun k' => (hu k').1))
  have hr : run E o (.one (.kind kd) (some k) (some true)) w = (.ok (.obj z), (run E o (.one (.kind kd) (some k) (some true)) w).2) := by rw [← e1]
  exact ⟨z, _, hr, S.reach.leads (Leads.one (by exact trivial) o), e2, e3⟩

theorem Grasped.kind (W : Grasped input E ctx0) {i : Nat} {t : Ty} (hi : i < ctx0.heap.length) (hk : KindOf ctx0.heap i t) (ht : t ≠ .section) : (E.ctx.heap.at i).type = t :=
  ((Eno.loaded W.analyzed W.loaded).kind i hi (hk.nonsec ht)).det hk

/-! ## Values and comments -/

theorem gives_known (W : Grasped input E ctx0) (hw : Reach E w) (ho : o < w.objs.length) (hv : HasValue (w.at o).cls) {v : Option Str}
    (hq : ∀ v', AnswerOf input ctx0.heap (.value (w.at o).ref) (.text v') → v' = v) : Gives E w o v := by
  obtain ⟨v', w1, h1, _, h2⟩ := C45_value W.analyzed W.loaded W.depth hw ho hv
  have := hq v' h1
  subst this
  cases v' with
  | none => intro loader; rw [h2]; rfl
  | some t =>
    intro required loader v hl
    rw [h2]
    have := hl w1
    dsimp only
    cases hq : loader t w1 with
    | mk x w2 =>
      rw [hq] at this
      cases this
      rfl

theorem notes_known (W : Grasped input E ctx0) (hw : Reach E w) {c : Option (List Comment)} (hr : E.ctx.heap.comments (w.at o).ref = c) (hc : Readable c) : Notes E w o (Spec.commentOf c) := by
  obtain ⟨w1, _, h2⟩ := C45_comment_partial (o := o) W.analyzed W.loaded hw (by rw [hr]; exact hc)
  rw [hr] at h2
  generalize Spec.commentOf c = q at h2
  rcases q with _ | _ | ⟨c, t⟩
  · intro loader; rw [h2]; rfl
  · intro loader; rw [h2]; rfl
  · intro required loader v hl
    rw [h2]
    have := hl w1
    dsimp only
    cases hq : loader (c :: t) w1 with
    | mk x w2 =>
      rw [hq] at this
      cases this
      rfl

/-- The comment of an element. -/
theorem notes_elem (W : Grasped input E ctx0) (hw : Reach E w) {i : Nat} (hi : i < ctx0.heap.length) (hr : (w.at o).ref = .elem i) {c : Option (List Comment)} (hc : CommentsOf ctx0.heap i c) :
    Notes E w o (Spec.commentOf c) := by
  refine notes_known W hw (by rw [hr]; exact C54_inherited W.analyzed W.loaded hi (.inr (W.noDeep.undisturbed i)) hc) ?_
  exact (commentsOf_legible W.analyzed W.loaded W.noDeep W.readable hi hc).2

/-- The text and the comment of an item or entry. -/
theorem says_sub (W : Grasped input E ctx0) (hw : Reach E w) (ho : o < w.objs.length) (hv : HasValue (w.at o).cls) {r : Ref} (hr : (w.at o).ref = r) {x : Raw} (hx : RawOf input ctx0.heap r x)
    (hs : (ctx0.heap.sub? r).isSome) : Gives E w o (rawText x) ∧ Notes E w o (rawNote x) := by
  obtain ⟨y, hy⟩ := Option.isSome_iff_exists.1 hs
  obtain ⟨e1, e2⟩ := RawOf.subText hx hy
  rw [e1, e2]
  constructor
  · refine gives_known W hw ho hv fun v hq => ?_
    rw [hr] at hq
    cases hq with
    | value => cases hy
    | subValue h => rw [hy] at h; cases h; rfl
  · refine notes_known W hw ?_ (legible_sub W.analyzed W.loaded W.readable hy).2
    rw [hr]
    have := (Eno.loaded W.analyzed W.loaded).non.sub_eq r
    cases r with
    | elem => cases hy
    | item => simp [Heap.comments, this, hy]
    | entry => simp [Heap.comments, this, hy]

end El

end Eno
