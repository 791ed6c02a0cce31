import Verif.Spec.Represent
import Verif.Proofs.WorldRead
import Verif.Proofs.WorldMarks
import Verif.Proofs.ElementSample
import Verif.Proofs.WorldReach

/-!
# C77: `repr` of elements
-/

namespace Eno.El

open Spec

variable {E : Env} {w w1 : World} {o : Nat} {input : Str} {ctx0 : Ctx}

theorem inDecimal_eq (n : Nat) : decimal n = inDecimal n := by
  unfold decimal inDecimal Nat.repr
  simp

theorem shortened_eq (v : Option Str) : shortened v = match v with
    | none | some [] => chars!"None"
    | some v => if v.length > 14 then v.take 11 ++ chars!"..." else v := by
  rcases v with _ | _ | ⟨a, v⟩
  · rfl
  · rfl
  · simp only [shortened, List.length_cons, Nat.add_eq_zero_iff, Nat.succ_ne_self, and_false, if_false]
    split <;> split <;> first | rfl | omega

theorem ownKey_run {k : Str} (V : EnvOk E) (I : Inv E w) (ho : o < w.objs.length) (hk : KeyIs E.ctx.heap (w.at o).ref k) (hi : ∀ i j, (w.at o).ref ≠ .item i j) :
    ownKey E o w = (.ok k, w) := by
  unfold ownKey
  rw [bind_ok obj_run]
  cases hq : (w.at o).ref with
  | elem i =>
    rw [hq] at hk
    obtain ⟨h1, rfl⟩ := hk
    have hi : i < E.ctx.heap.length := elem_lt I ho hq h1
    have : E.ctx.heap.key? (.elem i) = some (E.ctx.heap.at i).key := if_neg (V.types i h1 hi)
    rw [this]
    rfl
  | item i j => exact absurd hq (hi i j)
  | entry i j =>
    rw [hq] at hk
    obtain ⟨x, h1, h2⟩ := hk
    have : E.ctx.heap.key? (.entry i j) = some k := by unfold Heap.key?; dsimp only; rw [h1]; exact h2
    rw [this]
    rfl

theorem printValue_run (ha : analyze input = .ok ctx0) (hl : load input = .ok E.ctx) (hd : E.ctx.heap.length + 1 ≤ E.depth) (I : Inv E w) (ho : o < w.objs.length)
    (hv : HasValue (w.at o).cls) : ∃ v w1, AnswerOf input ctx0.heap (.value (w.at o).ref) (.text v) ∧ printValue E o w = (.ok (shortened v), w1) := by
  obtain ⟨v, h1, h2⟩ := value_said ha hl hd I ho hv
  have hread := reading_run (w := w) (h2 _ I.cache)
  rw [show reading _ w = valueOf E o w by unfold valueOf; rw [bind_ok obj_run]] at hread
  refine ⟨v, { w with cache := (readValue E.ctx.input E.ctx.heap E.depth (w.at o).ref w.cache).2 }, h1, ?_⟩
  unfold printValue
  rw [bind_ok hread, shortened_eq]
  rcases v with _ | _ | ⟨a, v⟩ <;> rfl

theorem unfolded_ownKey : Unfolded w (ownKey E o w).2 := by
  unfold ownKey
  rw [bind_ok obj_run]
  cases E.ctx.heap.key? (w.at o).ref <;> exact .refl w

theorem unfolded_objs {w' : World} (h : w'.objs = w.objs) : Unfolded w w' := by
  have hat : ∀ q, w'.at q = w.at q := fun q => by unfold World.at; rw [h]
  refine ⟨⟨by rw [h]; exact Nat.le_refl _, fun q hq => ?_⟩, fun q hq => ?_, fun q hq hn ys hys => ?_, fun q hq => ?_⟩
  · rw [hat]; exact (Later.refl w).obj q hq
  · rw [hat]; exact ⟨rfl, rfl, rfl, rfl⟩
  · rw [hat, hn] at hys; cases hys
  · rw [hat, at_out hq]; exact ⟨rfl, rfl⟩

theorem unfolded_printValue : Unfolded w (printValue E o w).2 := by
  refine unfolded_objs ?_
  have hv : (valueOf E o w).2.objs = w.objs := by
    unfold valueOf
    rw [bind_ok obj_run]
    unfold reading
    generalize readValue E.ctx.input E.ctx.heap E.depth (w.at o).ref w.cache = p
    obtain ⟨a, c⟩ := p
    cases a <;> rfl
  unfold printValue
  rw [bind_run]
  generalize valueOf E o w = p at hv
  obtain ⟨a, w2⟩ := p
  cases a with
  | error e => exact hv
  | ok v => rcases v with _ | _ | ⟨a, v⟩ <;> exact hv

theorem unfolded_bind {α β} {m : Api α} {f : α → Api β} (h : Unfolded w (m w).2) (hf : ∀ a w1, m w = (.ok a, w1) → Unfolded w1 (f a w1).2) : Unfolded w ((m >>= f) w).2 := by
  rw [bind_run]
  cases hm : m w with
  | mk r w1 =>
    rw [hm] at h
    cases r with
    | error e => exact h
    | ok a => exact h.trans (hf a w1 hm)

theorem ownKey_world {r : Except Exc Str} (h : ownKey E o w = (r, w1)) : w1 = w := by
  unfold ownKey at h
  rw [bind_ok obj_run] at h
  cases hk : E.ctx.heap.key? (w.at o).ref <;> rw [hk] at h <;> cases h <;> rfl

theorem unfolded_repr (V : EnvOk E) (I : Inv E w) (ho : o < w.objs.length) : Unfolded w (repr E (w.at o).cls o w).2 := by
  unfold repr
  rw [bind_ok obj_run]
  have hx : IsA w o (w.at o).cls := ⟨ho, rfl⟩
  generalize (w.at o).cls = c at hx
  have key : ∀ {g : Str → Api Str}, (∀ k, Unfolded w (g k w).2) → Unfolded w ((ownKey E o >>= g) w).2 := fun h =>
    unfolded_bind unfolded_ownKey fun k w1 e => by rw [ownKey_world e]; exact h k
  cases c with
  | of k =>
    cases k with
    | empty => exact key fun _ => .refl w
    | field => exact key fun _ => unfolded_bind unfolded_printValue fun _ w2 _ => .refl w2
    | fieldset => exact key fun _ => unfolded_bind (fieldsetEntries_unfolded V I hx) fun _ w2 _ => .refl w2
    | list => exact key fun _ => unfolded_bind (listItems_unfolded ho) fun _ w2 _ => .refl w2
    | «section» =>
      dsimp only
      split
      · exact unfolded_bind (sectionElements_unfolded ho) fun _ w2 _ => .refl w2
      · exact key fun _ => unfolded_bind (sectionElements_unfolded ho) fun _ w2 _ => .refl w2
  | sectionElement => exact key fun _ => .refl w
  | element => exact key fun _ => .refl w
  | entry => exact key fun _ => unfolded_bind unfolded_printValue fun _ w2 _ => .refl w2
  | item => exact unfolded_bind unfolded_printValue fun _ w2 _ => .refl w2

theorem repr_call : run E o .repr w = (Val.text <$> repr E (w.at o).cls o) w := by
  unfold run
  rw [bind_ok obj_run]

/-- **C77**: `repr` of any object, whether it returns or raises, touches nothing and changes nothing else that a program could notice. -/
theorem C77_quiet (hl : load input = .ok E.ctx) (hw : Reach E w) (ho : o < w.objs.length) : SameToPrograms w (run E o .repr w).2 := by
  have V := envOk_load hl
  have U := unfolded_repr V (hw.inv V) ho
  have e : (run E o .repr w).2 = (repr E (w.at o).cls o w).2 := by
    rw [repr_call, map_run]
    generalize repr E (w.at o).cls o w = p
    obtain ⟨a, b⟩ := p
    cases a <;> rfl
  rw [e]
  intro q hq
  have L := U.later.obj q hq
  have O := U.obj q hq
  exact ⟨L.cls, L.ref, L.parent, O.1, O.2.1, O.2.2.1, O.2.2.2⟩

/-- **C77**, partial: the elements for items and for the document that `lookup` and the message function of `assert_all_touched` get are left out, for them `repr` raises (`C77_raises`), and so are
documents in which a section is, in the end, merged with itself (C73). `repr` returns what it should say. -/
theorem C77_partial (ha : analyze input = .ok ctx0) (hl : load input = .ok E.ctx) (hd : E.ctx.heap.length + 1 ≤ E.depth) (nc : NoCircles ctx0.heap) (hw : Reach E w)
    (ho : o < w.objs.length) (hi : (w.at o).cls = .element → (w.at o).ref ≠ .elem 0 ∧ ∀ i j, (w.at o).ref ≠ .item i j) :
    ∃ s, (run E o .repr w).1 = .ok (.text s) ∧ Described E input ctx0.heap (w.at o) s := by
  have V := envOk_load hl
  have I := hw.inv V
  have N := noFail_load ha hl (Nat.le_of_succ_le hd) (finite_load ha hl (Nat.le_of_succ_le hd) nc)
  have O := (I.objs o ho).ref
  suffices ∃ s w1, repr E (w.at o).cls o w = (.ok s, w1) ∧ Described E input ctx0.heap (w.at o) s by
    obtain ⟨s, w1, h1, h2⟩ := this
    refine ⟨s, ?_, h2⟩
    rw [repr_call, map_run, h1]
  have key : (w.at o).ref ≠ .elem 0 → (∀ i j, (w.at o).ref ≠ .item i j) → ∃ k, KeyIs E.ctx.heap (w.at o).ref k ∧ ownKey E o w = (.ok k, w) := fun h0 hn => by
    obtain ⟨k, hk⟩ := key_there V I ho h0
    exact ⟨k, hk, ownKey_run V I ho hk hn⟩
  have value := printValue_run ha hl hd I ho
  have hx : IsA w o (w.at o).cls := ⟨ho, rfl⟩
  unfold repr
  rw [bind_ok obj_run]
  cases hc : (w.at o).cls with
  | of k =>
    rw [hc] at O hx value
    obtain ⟨i, hr⟩ : ∃ i, (w.at o).ref = .elem i := by
      cases hr : (w.at o).ref with
      | elem i => exact ⟨i, rfl⟩
      | item i j => rw [hr] at O; exact O.elim
      | entry i j => rw [hr] at O; exact O.elim
    have hni : ∀ i j, (w.at o).ref ≠ .item i j := fun _ _ h => by rw [hr] at h; cases h
    have hn0 : k ≠ .section → (w.at o).ref ≠ .elem 0 := fun h1 h2 => by rw [h2] at O; exact h1 (O.2.1 rfl)
    cases k with
    | empty =>
      obtain ⟨k, hk, h⟩ := key (hn0 (by simp)) hni
      exact ⟨_, _, bind_ok h, .empty hc hk⟩
    | field =>
      obtain ⟨k, hk, h⟩ := key (hn0 (by simp)) hni
      obtain ⟨v, w1, hv, h'⟩ := value (.inl rfl)
      exact ⟨_, _, (bind_ok h).trans (bind_ok h'), .field hc hk hv⟩
    | fieldset =>
      obtain ⟨k, hk, h⟩ := key (hn0 (by simp)) hni
      obtain ⟨⟨is, rs⟩, hrs⟩ := N.entries w o I hx
      obtain ⟨ys, w1, h', _, _, _, _, _, hys⟩ := entries_found (rs := rs) V I hx ⟨is, hrs⟩
      have hlen : ys.length = rs.length := by rw [← hys, List.length_map]
      refine ⟨_, _, (bind_ok h).trans (bind_ok h'), ?_⟩
      rw [hlen, inDecimal_eq]
      exact .fieldset hc hk ⟨is, hrs⟩
    | list =>
      obtain ⟨k, hk, h⟩ := key (hn0 (by simp)) hni
      obtain ⟨rs, hrs⟩ := N.items w o I hx
      obtain ⟨ys, w1, h', _, _, _, _, _, hys⟩ := items_found (rs := rs) I hx hrs
      have hlen : ys.length = rs.length := by rw [← hys, List.length_map]
      refine ⟨_, _, (bind_ok h).trans (bind_ok h'), ?_⟩
      rw [hlen, inDecimal_eq]
      exact .list hc hk hrs
    | «section» =>
      obtain ⟨xs, hel⟩ : ∃ xs, Elements E (w.at o) xs := by
        have := N.elements w o I hx
        unfold Elements
        rw [madeElements_ok]
        generalize madeElements E.ctx.heap E.depth (w.at o).ref.idx [] = p at this
        obtain ⟨a, b⟩ := p
        cases this
        exact ⟨b, rfl⟩
      obtain ⟨ys, w1, h', _, _, _, _, _, hys⟩ := elements_found V I hx hel
      have hlen : ys.length = xs.length := by
        have := congrArg List.length hys
        simpa using this
      have hbool : E.ctx.heap.type (w.at o).ref = .document ↔ (w.at o).ref = .elem 0 := by
        rw [hr] at O ⊢
        constructor
        · intro ht
          by_cases h0 : i = 0
          · rw [h0]
          · exact absurd ht (V.types i (Nat.pos_of_ne_zero h0) O.1)
        · intro h0; cases h0; exact V.doc
      dsimp only
      by_cases h0 : (w.at o).ref = .elem 0
      · rw [if_pos (hbool.2 h0)]
        refine ⟨_, _, bind_ok h', ?_⟩
        rw [hlen, inDecimal_eq]
        exact .document hc h0 hel
      · rw [if_neg fun h => h0 (hbool.1 h)]
        obtain ⟨k, hk, h⟩ := key h0 hni
        refine ⟨_, _, (bind_ok h).trans (bind_ok h'), ?_⟩
        rw [hlen, inDecimal_eq]
        exact .section hc hk hel
  | sectionElement =>
    rw [hc] at O
    obtain ⟨k, hk, h⟩ := key (fun h => by rw [h] at O; exact absurd O.1 (Nat.lt_irrefl _)) (fun _ _ h => by rw [h] at O; exact O)
    exact ⟨_, _, bind_ok h, .sectionElement hc hk⟩
  | element =>
    rw [hc] at O
    obtain ⟨k, hk, h⟩ := key (hi hc).1 (hi hc).2
    exact ⟨_, _, bind_ok h, .element hc hk⟩
  | entry =>
    rw [hc] at O value
    obtain ⟨k, hk, h⟩ := key (fun h => by rw [h] at O; exact O) (fun _ _ h => by rw [h] at O; exact O)
    obtain ⟨v, w1, hv, h'⟩ := value (.inr (.inl rfl))
    exact ⟨_, _, (bind_ok h).trans (bind_ok h'), .entry hc hk hv⟩
  | item =>
    rw [hc] at value
    obtain ⟨v, w1, hv, h'⟩ := value (.inr (.inr rfl))
    exact ⟨_, _, bind_ok h', .item hc hv⟩

example : ∃ E input ctx0 w o, analyze input = .ok ctx0 ∧ load input = .ok E.ctx ∧ E.ctx.heap.length + 1 ≤ E.depth ∧ NoCircles ctx0.heap ∧ Reach E w ∧ o < w.objs.length ∧
    (w.at o).cls = .of .list := by
  obtain ⟨E, S⟩ := sample
  obtain ⟨c, hc, nd⟩ := sample_analyzed
  exact ⟨E, _, c, sampleList E, 6, hc, S.loaded, S.depth, nd.no_circle hc S.loaded, list_reach, S.list.2.1, S.list.1⟩

/-- **C77**: what is shown of a value is at most 14 characters long. -/
theorem C77_short (v : Option Str) : (shortened v).length ≤ 14 := by
  rcases v with _ | v
  · decide
  · show (if v.length = 0 then chars!"None" else if v.length ≤ 14 then v else v.take 11 ++ chars!"...").length ≤ 14
    split
    · decide
    · split
      · assumption
      · simp only [List.length_append, List.length_take, List.length_cons, List.length_nil]; omega

/-- The text that a call returns. -/
def textOf : Except Exc Val → Option Str
  | .ok (.text s) => some s
  | _ => none

/-- **C77**, what is false: `repr` of the object that stands for an item in the message function of `assert_all_touched` raises a `KeyError`, and line breaks in a value
are shown as line breaks. -/
theorem C77_refuted :
    (∃ E, load (chars!"l:\n- x\n") = .ok E.ctx ∧
      (let w1 := (run E 0 (.many (.kind .list) none) World.start).2
       let w2 := (run E 2 .items w1).2
       (match (run E 0 (.assertAllTouched (some (.fn fun y w => match run E y .repr w with
          | (.ok (.text s), w) => (.ok s, w)
          | (.ok _, w) => (.ok [], w)
          | (.error e, w) => (.error e, w))) [] []) w2).1 with
        | .error e => some e
        | .ok _ => none) = some (.py .keyError))) ∧
    (∃ E, load (chars!"-- f\na\nb\n-- f\n") = .ok E.ctx ∧
      textOf (run E 2 .repr (run E 0 (.one (.kind .field) (some (chars!"f")) none) World.start).2).1 = some (chars!"<class Field key=f value=a\nb>")) := by
  constructor
  · obtain ⟨ctx, h, h'⟩ : ∃ ctx, load (chars!"l:\n- x\n") = .ok ctx ∧
      (let E : Env := ⟨{}, ctx, 99⟩
       let w1 := (run E 0 (.many (.kind .list) none) World.start).2
       let w2 := (run E 2 .items w1).2
       (match (run E 0 (.assertAllTouched (some (.fn fun y w => match run E y .repr w with
          | (.ok (.text s), w) => (.ok s, w)
          | (.ok _, w) => (.ok [], w)
          | (.error e, w) => (.error e, w))) [] []) w2).1 with
        | .error e => some e
        | .ok _ => none) = some (.py .keyError)) := by
      refine ⟨_, rfl, ?_⟩
      decide +kernel
    exact ⟨⟨{}, ctx, 99⟩, h, h'⟩
  · obtain ⟨ctx, h, h'⟩ : ∃ ctx, load (chars!"-- f\na\nb\n-- f\n") = .ok ctx ∧
      textOf (run ⟨{}, ctx, 99⟩ 2 .repr (run ⟨{}, ctx, 99⟩ 0 (.one (.kind .field) (some (chars!"f")) none) World.start).2).1
        = some (chars!"<class Field key=f value=a\nb>") := by
      refine ⟨_, rfl, ?_⟩
      decide +kernel
    exact ⟨⟨{}, ctx, 99⟩, h, h'⟩

end Eno.El
