import Verif.Proofs.CommentFlow
import Verif.Proofs.ReadTyped
import Verif.Spec.Answers

/-! # Untyped representation; everything about a loaded document in one place -/

namespace Eno

open Spec

variable {h h' h0 : Heap} {i j n t s fuel : Nat} {input : Str} {ctx ctx' : Ctx} {c : Cache} {r : Ref}

/-- What is known about a loaded document. -/
structure Loaded (h0 h : Heap) : Prop where
  non : Final h0 h
  sec : SFinal h0 h
  kind : ∀ i, i < h0.length → (h0.at i).type ≠ .section → KindOf h0 i (h.at i).type
  secType : ∀ i, i < h0.length → (h0.at i).type = .section → (h.at i).type = .section
  docType : (h.at 0).type = .document
  deep : DeepOk h0
  resolvable : ∀ i, i < h0.length → (h0.at i).type = .section → (h0.at i).copy.isSome → Resolvable h0 i
  written : ∀ j, ∃ i, (h.at j).comments = (h0.at i).comments
  readable : ∀ r cs, h.comments r = some cs → ∀ c ∈ cs, c.Ok

theorem loaded (ha : analyze input = .ok ctx) (hl : load input = .ok ctx') : Loaded ctx.heap ctx'.heap := by
  have a := analyze_analysed ha
  obtain ⟨c, hc', r, _, hlen⟩ := load_ok_analyze hl
  rw [ha] at hc'; injection hc' with hc'; subst hc'
  have hsecs := r.secs
  obtain ⟨h1, n1, n2, s1⟩ := r.mid
  refine ⟨final_of_load ha hl, sfinal_of_load ha hl, ?_, ?_, ?_, a.deep, fun i hi hs hc => (hsecs i hi hs hc).2, comments_written ha hl,
    fun r cs hr => loaded_comments_ok ha hl r cs hr⟩
  · intro i hi hs
    rw [s1.non i hs]
    exact n1.kind hi (n2 i hi hs)
  · intro i hi hs
    have hk := s1.kept i hs
    unfold Kept at hk
    rw [hk]; exact hs
  · have F := final_of_load ha hl
    have docc : (ctx.heap.at 0).copy = none := by
      cases hq : (ctx.heap.at 0).copy with
      | none => rfl
      | some k =>
        have ok := a.heap.elem 0 a.heap.pos
        have := ok.template (by rw [← ok.copy, hq]; rfl)
        rw [a.heap.doc.1] at this; simp at this
    rw [F.plain 0 a.heap.pos (by rw [a.heap.doc.1]; decide) docc]
    exact a.heap.doc.1

/-! ## Running -/

theorem Spec.KindOf.not_empty {k : Ty} (hk : KindOf h i k) (hn : (h.at i).type ≠ .empty) : k = (h.at i).type := by
  cases hk with
  | own => rfl
  | empty _ _ he => exact absurd he hn
  | extended => rfl

theorem Spec.KindOf.nonsec {k : Ty} (hk : KindOf h i k) (hn : k ≠ .section) : (h.at i).type ≠ .section := by
  intro q
  exact hn ((hk.not_empty (by rw [q]; decide)).trans q)

theorem returns_mono {α} {f : Nat → Read α} {x : α} (hf : ∃ N, ∀ fuel, N ≤ fuel → Returns input h0 h (f fuel) (.ok x)) (M : Nat) :
    ∃ N, M ≤ N ∧ ∀ fuel, N ≤ fuel → Returns input h0 h (f fuel) (.ok x) := by
  obtain ⟨N, hN⟩ := hf
  exact ⟨max M N, by omega, fun fuel hl => hN fuel (by omega)⟩

section

variable (L : Loaded h0 h)
include L

theorem Loaded.shown (cr : CommentsReadable h0) (r : Ref) : ∀ cs, h.comments r = some cs → ∀ c, cs = [c] → c.comment.isSome := by
  intro cs hc c e
  cases r with
  | elem j =>
    obtain ⟨i, hi⟩ := L.written j
    exact cr (.elem i) cs (by simpa [Heap.comments, ← hi] using hc) c e
  | item a b => exact cr (.item a b) cs (by simpa [Heap.comments, L.non.sub_eq] using hc) c e
  | entry a b => exact cr (.entry a b) cs (by simpa [Heap.comments, L.non.sub_eq] using hc) c e

theorem Loaded.comment (r : Ref) (cr : ∀ cs, h.comments r = some cs → ∀ c, cs = [c] → c.comment.isSome) :
    Returns input h0 h (readComment h r) (.ok (commentOf (h.comments r))) := by
  have := readComment_spec (input := input) (h0 := h0) (h := h) r
  cases hc : h.comments r with
  | none => rw [hc] at this; exact this
  | some cs => rw [hc, computeComment_eq (L.readable r cs hc) (cr cs hc)] at this; exact this

theorem Loaded.commentKey (cr : CommentsReadable h0) (r : Ref) :
    Returns input h0 h (readCommentKey h r) (.ok ((h.comments r).map fun _ => commentOf (h.comments r))) := by
  intro c co
  unfold readCommentKey
  have := L.comment (input := input) r (L.shown cr r)
  cases hc : h.comments r with
  | none => exact ⟨c, by simp, co⟩
  | some cs =>
    obtain ⟨c', h1, h2⟩ := this c co
    refine ⟨c', ?_, h2⟩
    simp only [Option.isSome_some, if_true, h1, Option.map_some, hc]

theorem Loaded.depth (hi : i < h0.length) : ∃ n, n < h0.length ∧ GroundedIn h0 n i := by
  by_cases hs : (h0.at i).type = .section
  · exact (L.sec.grounded i hi (.inl hs)).bounded hi
  · exact (L.non.grounded i hi hs).bounded hi

theorem Loaded.value {v : Option Str} (hi : i < h0.length) (hs : (h0.at i).type ≠ .section) (hv : ValueOf input h0 i v) (hf : h0.length ≤ fuel) :
    Returns input h0 h (readValue input h fuel (.elem i)) (.ok v) := by
  obtain ⟨n, hn, g⟩ := L.depth hi
  exact readValue_spec L.non n i fuel g (by omega) hi hs v hv

theorem Loaded.items {xs : List Ref} (hi : i < h0.length) (hs : (h0.at i).type ≠ .section) (ht : (h.at i).type = .list) (hv : ItemsOf h0 i xs) (hf : h0.length ≤ fuel) :
    Returns input h0 h (readItems h fuel i) (.ok xs) := by
  obtain ⟨n, hn, g⟩ := L.depth hi
  exact readItems_spec L.non n i fuel g (by omega) hi hs ht xs hv

theorem Loaded.entries {xs : List Ref} (hi : i < h0.length) (hs : (h0.at i).type ≠ .section) (ht : (h.at i).type = .fieldset) (hv : EntriesOf h0 i xs) (hf : h0.length ≤ fuel) :
    Returns input h0 h (readEntries h fuel i) (.ok xs) := by
  obtain ⟨n, hn, g⟩ := L.depth hi
  intro c co
  obtain ⟨E, h1, h2⟩ := readEntries_spec L.non n i fuel g (by omega) hi hs ht xs hv (fun _ => False) (by simp) c co.entries
  exact ⟨_, h1, co.comment, co.value, co.subs, co.items, h2, co.elements⟩

theorem Loaded.elements {xs : List Nat} (hi : s < h0.length) (hs : (h0.at s).type = .section ∨ s = 0) (st : Straight h0 s) (hv : CopiedFirst h0 s xs) (hf : h0.length ≤ fuel) :
    Returns input h0 h (readElements h fuel s) (.ok (some xs)) := by
  obtain ⟨n, hn, g⟩ := L.depth hi
  intro c co
  obtain ⟨E, h1, h2⟩ := readElements_spec L.non L.sec n s fuel g (by omega) hi hs st xs hv (fun _ => False) (by simp) c co.elements
  exact ⟨_, h1, co.comment, co.value, co.subs, co.items, co.entries, h2⟩

end

theorem Loaded.runRaw_item (L : Loaded h0 h) (cr : CommentsReadable h0) {i k : Nat} {y : Sub} (hx : h0.sub? (.item i k) = some y) (hf : 2 ≤ fuel) :
    Returns input h0 h (readRaw input h fuel (.item i k))
      (.ok (.leaf .listItem (y.comments.map fun _ => commentOf y.comments) none (some (joined (valueParts y.value y.continuations))))) := by
  obtain ⟨fuel, rfl⟩ : ∃ f, fuel = f + 1 + 1 := ⟨fuel - 2, by omega⟩
  intro c co
  obtain ⟨c1, h1, co1⟩ := L.commentKey (input := input) cr (.item i k) c co
  obtain ⟨c2, h2, co2⟩ := readValue_sub (input := input) L.non (.item i k) (by simp) fuel c1 co1
  refine ⟨c2, ?_, co2⟩
  have hcm : h.comments (.item i k) = y.comments := by simp [Heap.comments, L.non.sub_eq, hx]
  rw [hcm] at h1
  have hk : h.key? (.item i k) = none := by
    simp only [Heap.key?, L.non.sub_eq, hx, Option.bind_some]
    have hm : y ∈ (h0.at i).items.getD [] := List.mem_of_getElem? hx
    cases hq : (h0.at i).items with
    | none => rw [hq] at hm; simp at hm
    | some ys =>
      have hi : i < h0.length := by
        refine Classical.byContradiction fun hn => ?_
        rw [Heap.at_ge (by omega)] at hq; simp [Elem.document] at hq
      have := (((L.non.ok.elem i hi).items ys hq).2.2 y (by simpa [hq] using hm)).key
      cases hk : y.key with
      | none => rfl
      | some k => rw [hk] at this; simp at this
  rw [readRaw]
  simp only [h1, h2, hk, Heap.type, subValue, hx, Option.bind_some]

theorem Loaded.runRaw_entry (L : Loaded h0 h) (cr : CommentsReadable h0) {i k : Nat} {y : Sub} (hx : h0.sub? (.entry i k) = some y) (hf : 2 ≤ fuel) :
    Returns input h0 h (readRaw input h fuel (.entry i k))
      (.ok (.leaf .fieldsetEntry (y.comments.map fun _ => commentOf y.comments) y.key (some (joined (valueParts y.value y.continuations))))) := by
  obtain ⟨fuel, rfl⟩ : ∃ f, fuel = f + 1 + 1 := ⟨fuel - 2, by omega⟩
  intro c co
  obtain ⟨c1, h1, co1⟩ := L.commentKey (input := input) cr (.entry i k) c co
  obtain ⟨c2, h2, co2⟩ := readValue_sub (input := input) L.non (.entry i k) (by simp) fuel c1 co1
  refine ⟨c2, ?_, co2⟩
  have hcm : h.comments (.entry i k) = y.comments := by simp [Heap.comments, L.non.sub_eq, hx]
  rw [hcm] at h1
  have hk : h.key? (.entry i k) = y.key := by simp only [Heap.key?, L.non.sub_eq, hx, Option.bind_some]
  rw [readRaw]
  simp only [h1, h2, hk, Heap.type, subValue, hx, Option.bind_some]

mutual

theorem Loaded.runRaw (L : Loaded h0 h) (cr : CommentsReadable h0) {r : Ref} (st : Plain h0 r ∨ AllStraight h0) {x : Raw} :
    RawOf input h0 r x → ∃ N, ∀ fuel, N ≤ fuel → Returns input h0 h (readRaw input h fuel r) (.ok x)
  | .empty hi hc hk => by
    rename_i i cm
    refine ⟨1, fun fuel hf => ?_⟩
    obtain ⟨fuel, rfl⟩ : ∃ f, fuel = f + 1 := ⟨fuel - 1, by omega⟩
    have hns := hk.nonsec (by decide)
    have hty : (h.at i).type = .empty := (L.kind i hi hns).det hk
    intro c co
    obtain ⟨c1, h1, co1⟩ := L.commentKey (input := input) cr (.elem i) c co
    have hcm : h.comments (.elem i) = cm := L.non.comments hc hi hns
    rw [hcm] at h1
    refine ⟨c1, ?_, co1⟩
    simp only [readRaw, h1, hty, Heap.key?, (L.non.items_all i).2.2.2]
    simp
  | .field hi hc hk hty hv => by
    rename_i i cm k v
    refine ⟨h0.length + 1, fun fuel hf => ?_⟩
    obtain ⟨fuel, rfl⟩ : ∃ f, fuel = f + 1 := ⟨fuel - 1, by omega⟩
    have hns := hk.nonsec (by rcases hty with rfl | rfl <;> decide)
    have hty' : (h.at i).type = k := (L.kind i hi hns).det hk
    intro c co
    obtain ⟨c1, h1, co1⟩ := L.commentKey (input := input) cr (.elem i) c co
    have hcm : h.comments (.elem i) = cm := L.non.comments hc hi hns
    rw [hcm] at h1
    obtain ⟨c2, h2, co2⟩ := L.value (fuel := fuel) hi hns hv (by omega) c1 co1
    refine ⟨c2, ?_, co2⟩
    rcases hty with rfl | rfl <;>
    · simp only [readRaw, h1, hty', h2, Heap.key?, (L.non.items_all i).2.2.2]
      simp
  | .list hi hc hk hx hr => by
    rename_i i cm xs rs
    obtain ⟨N, hN⟩ := Loaded.runRaws L cr (.inl fun r hr => by obtain ⟨a, b, rfl⟩ := hx.refs r hr; trivial) hr
    refine ⟨max N h0.length + 1, fun fuel hf => ?_⟩
    obtain ⟨fuel, rfl⟩ : ∃ f, fuel = f + 1 := ⟨fuel - 1, by omega⟩
    have hns := hk.nonsec (by decide)
    have hty' : (h.at i).type = .list := (L.kind i hi hns).det hk
    intro c co
    obtain ⟨c1, h1, co1⟩ := L.commentKey (input := input) cr (.elem i) c co
    have hcm : h.comments (.elem i) = cm := L.non.comments hc hi hns
    rw [hcm] at h1
    obtain ⟨c2, h2, co2⟩ := L.items (fuel := fuel) hi hns hty' hx (by omega) c1 co1
    obtain ⟨c3, h3, co3⟩ := hN fuel (by omega) c2 co2
    refine ⟨c3, ?_, co3⟩
    simp only [readRaw, h1, hty', h2, h3, Heap.key?, Heap.type, (L.non.items_all i).2.2.2]
    simp
  | .fieldset hi hc hk hx hr => by
    rename_i i cm xs rs
    obtain ⟨N, hN⟩ := Loaded.runRaws L cr (.inl fun r hr => by obtain ⟨a, b, rfl⟩ := hx.refs r hr; trivial) hr
    refine ⟨max N h0.length + 1, fun fuel hf => ?_⟩
    obtain ⟨fuel, rfl⟩ : ∃ f, fuel = f + 1 := ⟨fuel - 1, by omega⟩
    have hns := hk.nonsec (by decide)
    have hty' : (h.at i).type = .fieldset := (L.kind i hi hns).det hk
    intro c co
    obtain ⟨c1, h1, co1⟩ := L.commentKey (input := input) cr (.elem i) c co
    have hcm : h.comments (.elem i) = cm := L.non.comments hc hi hns
    rw [hcm] at h1
    obtain ⟨c2, h2, co2⟩ := L.entries (fuel := fuel) hi hns hty' hx (by omega) c1 co1
    obtain ⟨c3, h3, co3⟩ := hN fuel (by omega) c2 co2
    refine ⟨c3, ?_, co3⟩
    simp only [readRaw, h1, hty', h2, h3, Heap.key?, Heap.type, (L.non.items_all i).2.2.2]
    simp
  | .section hi hc hs hx hr => by
    rename_i i cm xs rs
    have st : AllStraight h0 := st.resolve_left fun q => q.1 hs
    obtain ⟨N, hN⟩ := Loaded.runRaws L cr (.inr st) hr
    refine ⟨max N h0.length + 1, fun fuel hf => ?_⟩
    obtain ⟨fuel, rfl⟩ : ∃ f, fuel = f + 1 := ⟨fuel - 1, by omega⟩
    have hty' : (h.at i).type = .section := L.secType i hi hs
    intro c co
    obtain ⟨c1, h1, co1⟩ := L.commentKey (input := input) cr (.elem i) c co
    have hcm : h.comments (.elem i) = cm := L.sec.comments_of hc hi (.inl hs) (st i hi (.inl hs)).1
    rw [hcm] at h1
    obtain ⟨c2, h2, co2⟩ := L.elements (fuel := fuel) hi (.inl hs) (st i hi (.inl hs)) hx (by omega) c1 co1
    obtain ⟨c3, h3, co3⟩ := hN fuel (by omega) c2 co2
    refine ⟨c3, ?_, co3⟩
    simp only [readRaw, h1, hty', h2, h3, Heap.key?, Heap.type, (L.non.items_all i).2.2.2]
    simp
  | .document hx hr => by
    rename_i xs rs
    have st : AllStraight h0 := st.resolve_left fun q => q.2 rfl
    obtain ⟨N, hN⟩ := Loaded.runRaws L cr (.inr st) hr
    refine ⟨max N h0.length + 1, fun fuel hf => ?_⟩
    obtain ⟨fuel, rfl⟩ : ∃ f, fuel = f + 1 := ⟨fuel - 1, by omega⟩
    have hty' : (h.at 0).type = .document := L.docType
    have hi := L.non.ok.pos
    intro c co
    obtain ⟨c1, h1, co1⟩ := L.commentKey (input := input) cr (.elem 0) c co
    have hcm : h.comments (.elem 0) = none := by
      have docc : (h0.at 0).copy = none := by
        cases hq : (h0.at 0).copy with
        | none => rfl
        | some k =>
          have ok := L.non.ok.elem 0 hi
          have := ok.template (by rw [← ok.copy, hq]; rfl)
          rw [L.non.ok.doc.1] at this; simp at this
      have := L.sec.comments_of (.own docc) hi (.inr rfl) (st 0 hi (.inr rfl)).1
      simp only [Heap.comments]
      rw [this]; exact L.non.ok.doc.2.2
    rw [hcm] at h1
    obtain ⟨c2, h2, co2⟩ := L.elements (fuel := fuel) hi (.inr rfl) (st 0 hi (.inr rfl)) hx (by omega) c1 co1
    obtain ⟨c3, h3, co3⟩ := hN fuel (by omega) c2 co2
    refine ⟨c3, ?_, co3⟩
    simp only [readRaw, h1, hty', h2, h3, Heap.key?, Heap.type, (L.non.items_all 0).2.2.2]
    simp
  | .item hx => ⟨2, fun _ hf => L.runRaw_item cr hx hf⟩
  | .entry hx => ⟨2, fun _ hf => L.runRaw_entry cr hx hf⟩

theorem Loaded.runRaws (L : Loaded h0 h) (cr : CommentsReadable h0) {rs : List Ref} (st : (∀ r ∈ rs, Plain h0 r) ∨ AllStraight h0) {xs : List Raw} :
    RawsOf input h0 rs xs → ∃ N, ∀ fuel, N ≤ fuel → Returns input h0 h (readAll (readRaw input h fuel) rs) (.ok xs)
  | .nil => ⟨0, fun fuel _ c co => ⟨c, rfl, co⟩⟩
  | .cons a as => by
    obtain ⟨N, hN⟩ := Loaded.runRaw L cr (st.imp (fun q => q _ (by simp)) id) a
    obtain ⟨M, hM⟩ := Loaded.runRaws L cr (st.imp (fun q r hr => q r (by simp [hr])) id) as
    refine ⟨max N M, fun fuel hf c co => ?_⟩
    obtain ⟨c1, h1, co1⟩ := hN fuel (by omega) c co
    obtain ⟨c2, h2, co2⟩ := hM fuel (by omega) c1 co1
    refine ⟨c2, ?_, co2⟩
    simp only [readAll, h1, h2]

end

/-! ## Existence -/

theorem Spec.KindOf.types {k : Ty} (hk : KindOf h i k) (ok : HeapOk h) (hi : i < h.length) (h0 : i ≠ 0) (hs : (h.at i).type ≠ .section) :
    k ∈ [Ty.field, .empty, .list, .fieldset, .mlBegin] := by
  have hd := (ok.par i (by omega) hi).1
  have ht := (ok.elem i hi).types
  have own : (h.at i).type ∈ [Ty.field, .empty, .list, .fieldset, .mlBegin] := by
    revert hd ht hs
    cases (h.at i).type <;> simp
  cases hk with
  | own => exact own
  | @empty _ t k _ _ _ => cases k <;> simp [copyKind]
  | extended => exact own

theorem hasRaws {rs : List Ref} (hr : ∀ r ∈ rs, ∃ x, RawOf input h r x) : ∃ xs, RawsOf input h rs xs := by
  induction rs with
  | nil => exact ⟨[], .nil⟩
  | cons r rs ih =>
    obtain ⟨x, hx⟩ := hr r (by simp)
    obtain ⟨xs, hxs⟩ := ih fun r h => hr r (by simp [h])
    exact ⟨x :: xs, .cons hx hxs⟩

theorem hasRaw_sub (hr : (h.sub? r).isSome) : ∃ x, RawOf input h r x := by
  obtain ⟨x, hx⟩ := Option.isSome_iff_exists.1 hr
  cases r with
  | elem i => simp [Heap.sub?] at hx
  | item i k => exact ⟨_, .item hx⟩
  | entry i k => exact ⟨_, .entry hx⟩

theorem itemsAt_sub (hr : r ∈ itemsAt h i) : (h.sub? r).isSome := by
  simp only [itemsAt, List.mem_map, List.mem_range] at hr
  obtain ⟨k, hk, rfl⟩ := hr
  simp [Heap.sub?, hk]

theorem entriesAt_sub (hr : r ∈ entriesAt h i) : (h.sub? r).isSome := by
  simp only [entriesAt, List.mem_map, List.mem_range] at hr
  obtain ⟨k, hk, rfl⟩ := hr
  simp [Heap.sub?, hk]

theorem Spec.ItemsOf.sub {xs : List Ref} (hx : ItemsOf h i xs) : ∀ r ∈ xs, (h.sub? r).isSome := by
  induction hx with
  | own _ => intro r hr; exact itemsAt_sub hr
  | copy _ _ ih =>
    intro r hr
    simp at hr
    rcases hr with hr | hr
    · exact ih r hr
    · exact itemsAt_sub hr

theorem Spec.EntriesOf.sub {xs : List Ref} (hx : EntriesOf h i xs) : ∀ r ∈ xs, (h.sub? r).isSome := by
  induction hx with
  | own _ => intro r hr; exact entriesAt_sub hr
  | copy _ _ ih =>
    intro r hr
    simp only [List.mem_append, notRedefined, List.mem_filter] at hr
    rcases hr with hr | hr
    · exact ih r hr.1
    · exact entriesAt_sub hr

theorem Loaded.hasRaw_non (L : Loaded h0 h) (hi : i < h0.length) (hz : i ≠ 0) (hs : (h0.at i).type ≠ .section) : ∃ x, RawOf input h0 (.elem i) x := by
  have g := L.non.grounded i hi hs
  have hk := L.kind i hi hs
  have ht := hk.types L.non.ok hi hz hs
  obtain ⟨c, hc⟩ := g.comments
  generalize (h.at i).type = k at hk ht
  simp only [List.mem_cons, List.not_mem_nil, or_false] at ht
  rcases ht with rfl | rfl | rfl | rfl | rfl
  · obtain ⟨v, hv⟩ := g.value (input := input); exact ⟨_, .field hi hc hk (.inl rfl) hv⟩
  · exact ⟨_, .empty hi hc hk⟩
  · obtain ⟨xs, hx⟩ := g.items
    obtain ⟨rs, hr⟩ := hasRaws (input := input) fun r hr => hasRaw_sub (hx.sub r hr)
    exact ⟨_, .list hi hc hk hx hr⟩
  · obtain ⟨xs, hx⟩ := g.entries
    obtain ⟨rs, hr⟩ := hasRaws (input := input) fun r hr => hasRaw_sub (hx.sub r hr)
    exact ⟨_, .fieldset hi hc hk hx hr⟩
  · obtain ⟨v, hv⟩ := g.value (input := input); exact ⟨_, .field hi hc hk (.inr rfl) hv⟩

/-- `c` is a subsection of `s` or its template. -/
def Below (h : Heap) (c s : Nat) : Prop := (h.at c).type = .section ∧ s < h.length ∧ (c ∈ (h.at s).elements ∨ TemplateIs h s c)

theorem Loaded.acc_plain (L : Loaded h0 h) : ∀ (k s : Nat), h0.length - s = k → (h0.at s).type = .section → (h0.at s).pending = false → Acc (Below h0) s := by
  intro k
  induction k using Nat.strongRecOn with
  | ind k ih =>
    intro s hk hs hp
    constructor
    rintro c ⟨hc, hl, hm | ht⟩
    · obtain ⟨h1, h2⟩ := (mem_elements L.non.ok hl).1 hm
      have hlt : s < c := by
        by_cases hz : 0 < c
        · obtain ⟨_, p, hp, hlt, _⟩ := L.non.ok.par c hz h1
          rw [hp] at h2; injection h2 with h2; omega
        · have : c = 0 := by omega
          subst this; rw [L.non.ok.doc.2.1] at h2; simp at h2
      refine ih _ ?_ c rfl hc ?_
      · omega
      · cases hq : (h0.at c).pending with
        | false => rfl
        | true =>
          have hz : s ≠ 0 := by rintro rfl; rw [L.non.ok.doc.1] at hs; simp at hs
          have := L.deep c s h1 hc hq h2 hz
          simp [Elem.pending, this] at hp
    · have := ht.cand.2.2.1
      simp [Elem.pending, this] at hp

theorem Loaded.acc_resolvable (L : Loaded h0 h) (r : Resolvable h0 s) (hs : (h0.at s).type = .section) : Acc (Below h0) s := by
  induction r with
  | @mk s h1 _ ih =>
    constructor
    rintro c ⟨hc, hl, hm⟩
    cases hq : (h0.at c).pending with
    | false => exact L.acc_plain _ c rfl hc hq
    | true =>
      refine ih c ⟨hc, by simpa [Elem.pending] using hq, ?_⟩ hc
      rcases hm with hm | ht
      · obtain ⟨h1, h2⟩ := (mem_elements L.non.ok hl).1 hm
        have hz : s ≠ 0 := by rintro rfl; rw [L.non.ok.doc.1] at hs; simp at hs
        exact .inl ⟨L.deep c s h1 hc hq h2 hz, hm⟩
      · exact .inr ht

theorem Loaded.acc (L : Loaded h0 h) : ∀ (k s : Nat), h0.length - s = k → (h0.at s).type = .section ∨ s = 0 → Acc (Below h0) s := by
  intro k
  induction k using Nat.strongRecOn with
  | ind k ih =>
    intro s hk hs
    by_cases hc : (h0.at s).type = .section ∧ (h0.at s).copy.isSome ∧ s < h0.length
    · exact L.acc_resolvable (L.resolvable s hc.2.2 hc.1 hc.2.1) hc.1
    · constructor
      rintro c ⟨hcs, hl, hm | ht⟩
      · obtain ⟨h1, h2⟩ := (mem_elements L.non.ok hl).1 hm
        have hlt : s < c := by
          by_cases hz : 0 < c
          · obtain ⟨_, p, hp, hlt, _⟩ := L.non.ok.par c hz h1
            rw [hp] at h2; injection h2 with h2; omega
          · have : c = 0 := by omega
            subst this; rw [L.non.ok.doc.2.1] at h2; simp at h2
        exact ih _ (by omega) c rfl (.inl hcs)
      · obtain ⟨q1, _, _⟩ := L.sec.holder s c hs ht
        exact absurd ⟨q1, by rw [ht.cand.2.2.1]; rfl, hl⟩ hc

theorem Loaded.hasRaw_sec (L : Loaded h0 h) (hl : s < h0.length) (hs : (h0.at s).type = .section ∨ s = 0) :
    ∃ xs, CopiedFirst h0 s xs ∧ ∀ i ∈ xs, i < h0.length ∧ i ≠ 0 ∧ ∃ x, RawOf input h0 (.elem i) x := by
  have a := L.acc _ s rfl hs
  induction a with
  | intro s _ ih =>
    have own : ∀ i ∈ (h0.at s).elements, i < h0.length ∧ i ≠ 0 ∧ ∃ x, RawOf input h0 (.elem i) x := by
      intro i hi
      obtain ⟨h1, h2⟩ := (mem_elements L.non.ok hl).1 hi
      have hz : i ≠ 0 := by rintro rfl; rw [L.non.ok.doc.2.1] at h2; simp at h2
      refine ⟨h1, hz, ?_⟩
      by_cases hsec : (h0.at i).type = .section
      · obtain ⟨xs, hx, hr⟩ := ih i ⟨hsec, hl, .inl hi⟩ h1 (.inl hsec)
        obtain ⟨c, hc⟩ := (L.sec.grounded i h1 (.inl hsec)).comments
        obtain ⟨rs, hrs⟩ := hasRaws (input := input) (h := h0) (rs := xs.map .elem) (by
          intro r hr'
          simp only [List.mem_map] at hr'
          obtain ⟨j, hj, rfl⟩ := hr'
          exact (hr j hj).2.2)
        exact ⟨_, .section h1 hc hsec hx hrs⟩
      · exact L.hasRaw_non h1 hz hsec
    cases hc : (h0.at s).copy with
    | none => exact ⟨_, .own hc, own⟩
    | some k =>
      cases L.sec.grounded s hl hs with
      | own hq => rw [hc] at hq; simp at hq
      | @copy _ t ht g =>
        obtain ⟨q1, q2, q3⟩ := L.sec.holder s t hs ht
        obtain ⟨xs, hx, hr⟩ := ih t ⟨q3, hl, .inr ht⟩ q2 (.inl q3)
        refine ⟨_, .copy ht hx, ?_⟩
        intro i hi
        simp only [List.mem_append, notOverridden, List.mem_filter] at hi
        rcases hi with hi | hi
        · exact hr i hi.1
        · exact own i hi

/-- Everything has an untyped representation. -/
theorem Loaded.hasRaw (L : Loaded h0 h) (hi : i < h0.length) : ∃ x, RawOf input h0 (.elem i) x := by
  have sec : (h0.at i).type = .section ∨ i = 0 → ∃ xs rs, CopiedFirst h0 i xs ∧ RawsOf input h0 (xs.map .elem) rs := by
    intro hs
    obtain ⟨xs, hx, hr⟩ := L.hasRaw_sec (input := input) hi hs
    obtain ⟨rs, hrs⟩ := hasRaws (input := input) (h := h0) (rs := xs.map .elem) (by
      intro r hr'
      simp only [List.mem_map] at hr'
      obtain ⟨j, hj, rfl⟩ := hr'
      exact (hr j hj).2.2)
    exact ⟨xs, rs, hx, hrs⟩
  by_cases hz : i = 0
  · subst hz
    obtain ⟨xs, rs, hx, hr⟩ := sec (.inr rfl)
    exact ⟨_, .document hx hr⟩
  · by_cases hs : (h0.at i).type = .section
    · obtain ⟨xs, rs, hx, hr⟩ := sec (.inl hs)
      obtain ⟨c, hc⟩ := (L.sec.grounded i hi (.inl hs)).comments
      exact ⟨_, .section hi hc hs hx hr⟩
    · exact L.hasRaw_non hi hz hs

theorem uniform_bound {P : Nat → Nat → Prop} (n : Nat) (hp : ∀ i, i < n → ∃ N, ∀ fuel, N ≤ fuel → P i fuel) : ∃ N, ∀ i, i < n → ∀ fuel, N ≤ fuel → P i fuel := by
  induction n with
  | zero => exact ⟨0, fun i hi => by omega⟩
  | succ n ih =>
    obtain ⟨N, hN⟩ := ih fun i hi => hp i (by omega)
    obtain ⟨M, hM⟩ := hp n (by omega)
    refine ⟨max N M, fun i hi fuel hf => ?_⟩
    by_cases e : i = n
    · subst e; exact hM fuel (by omega)
    · exact hN i (by omega) fuel (by omega)

end Eno
