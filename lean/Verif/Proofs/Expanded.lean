import Verif.Proofs.CopiedText
import Verif.Spec.Expanded
import Verif.PyTexts

/-! # Writing out copies -/

namespace Eno

open Spec

/-! ## Dictionaries -/

/-- Dictionaries of things with contents show the name of the type and the contents. -/
theorem node_dict_inj {t t' : Ty} {c c' : Option (Option Str)} {k k' : Option Str} {xs ys : List Raw} (e : (Raw.node t c k xs).dict = (Raw.node t' c' k' ys).dict) :
    t.pretty = t'.pretty ∧ dicts xs = dicts ys := by
  simp only [Raw.dict, Py.dict.injEq] at e
  have h1 := congrArg List.getLast? e
  simp only [List.getLast?_append, List.getLast?_singleton, Option.some_or, Option.some.injEq, Prod.mk.injEq, Py.list.injEq] at h1
  have h2 := congrArg List.head? e
  simp only [rawHead, List.cons_append, List.head?_cons, Option.some.injEq, Prod.mk.injEq, true_and] at h2
  refine ⟨?_, h1.2⟩
  cases ht : t.pretty <;> cases ht' : t'.pretty <;> rw [ht, ht'] at h2 <;> simp [Py.ofOption] at h2 ⊢
  exact h2

theorem rawType_pretty {x y : Raw} (e : x.dict = y.dict) : (rawType x).pretty = (rawType y).pretty := by
  have head : ∀ z : Raw, ∃ ps, z.dict = .dict ((chars!"type", .ofOption (rawType z).pretty) :: ps) := by
    intro z
    cases z <;> exact ⟨_, by simp only [Raw.dict, rawHead, List.cons_append, rawType]; rfl⟩
  obtain ⟨ps, hp⟩ := head x
  obtain ⟨qs, hq⟩ := head y
  rw [hp, hq] at e
  simp only [Py.dict.injEq, List.cons.injEq, Prod.mk.injEq, true_and] at e
  have h2 := e.1
  cases ht : (rawType x).pretty <;> cases ht' : (rawType y).pretty <;> rw [ht, ht'] at h2 <;> simp [Py.ofOption] at h2 ⊢
  exact h2

theorem section_pretty {t : Ty} : t.pretty = Ty.section.pretty ↔ t = .section := by
  cases t <;> decide

theorem rawType_section {x y : Raw} (e : x.dict = y.dict) : rawType x = .section ↔ rawType y = .section := by
  rw [← section_pretty, rawType_pretty e, section_pretty]

/-- Nothing with contents has the dictionary of something without. -/
theorem leaf_node {t t' : Ty} {c c' : Option (Option Str)} {k k' : Option Str} {v : Option (Option Str)} {xs : List Raw} : (Raw.leaf t c k v).dict ≠ (Raw.node t' c' k' xs).dict := by
  intro e
  simp only [Raw.dict, Py.dict.injEq] at e
  have P : ∀ v : Option Str, ∀ ys, Py.ofOption v ≠ .list ys := by intro v ys; cases v <;> simp [Py.ofOption]
  have no : ∀ p ∈ rawHead t' c' k' ++ [(childrenKey t', Py.list (dicts xs))], ∀ ys, p.2 ≠ .list ys := by
    rw [← e]
    cases c <;> cases k <;> cases v <;> simp [rawHead, P]
  exact no (childrenKey t', Py.list (dicts xs)) (by simp) _ rfl

theorem dicts_map (xs : List Raw) : dicts xs = xs.map Raw.dict := by
  induction xs with
  | nil => rfl
  | cons x xs ih => rw [dicts, ih]; rfl

/-- Whether sections come last can be seen from the dictionary. -/
theorem orderly_dict {x y : Raw} (H : Orderly x) (e : x.dict = y.dict) : Orderly y := by
  induction H generalizing y with
  | leaf =>
    cases y with
    | leaf => exact .leaf
    | node => exact absurd e leaf_node
  | @node t c k a b ha hb hab ih =>
    cases y with
    | leaf => exact absurd e.symm leaf_node
    | node t' c' k' ys =>
      have hd := (node_dict_inj e).2
      rw [dicts_map, dicts_map, List.map_append] at hd
      obtain ⟨a', b', rfl, h1, h2⟩ := List.map_eq_append_iff.1 hd.symm
      have back : ∀ {l l' : List Raw}, l'.map Raw.dict = l.map Raw.dict → ∀ z ∈ l', ∃ w ∈ l, w.dict = z.dict := by
        intro l l' q z hz
        have : z.dict ∈ l.map Raw.dict := q ▸ List.mem_map_of_mem hz
        obtain ⟨w, hw, q⟩ := List.mem_map.1 this
        exact ⟨w, hw, q⟩
      refine .node (fun z hz => ?_) (fun z hz => ?_) (fun z hz => ?_)
      · obtain ⟨w, hw, q⟩ := back h1 z hz
        exact fun s => ha w hw ((rawType_section q).2 s)
      · obtain ⟨w, hw, q⟩ := back h2 z hz
        exact (rawType_section q).1 (hb w hw)
      · rcases List.mem_append.1 hz with hz | hz
        · obtain ⟨w, hw, q⟩ := back h1 z hz
          exact ih w (List.mem_append_left _ hw) q
        · obtain ⟨w, hw, q⟩ := back h2 z hz
          exact ih w (List.mem_append_right _ hw) q

/-! ## Documents without copies -/

theorem element_type (e : Element) : rawType e.raw ≠ .section := by
  obtain ⟨r, k, c⟩ := e
  unfold Element.raw
  dsimp only
  split <;> simp [rawType]

theorem meant_type (m : Meant) : rawType m.raw ≠ .section := by
  obtain ⟨r, k, c⟩ := m
  cases c <;> simp [Meant.raw, rawType]

theorem orderly_leaves {t : Ty} {c : Option (Option Str)} {k : Option Str} {xs : List Raw} (H : ∀ x ∈ xs, rawType x ≠ .section ∧ Orderly x) : Orderly (.node t c k xs) := by
  have := Orderly.node (t := t) (c := c) (k := k) (a := xs) (b := []) (fun x hx => (H x hx).1) (by simp) (fun x hx => (H x (by simpa using hx)).2)
  simpa using this

theorem meant_orderly (m : Meant) : Orderly m.raw := by
  obtain ⟨r, k, c⟩ := m
  cases c with
  | items xs =>
    refine orderly_leaves fun x hx => ?_
    obtain ⟨y, _, rfl⟩ := List.mem_map.1 hx
    exact ⟨by simp [Item.raw, rawType], .leaf⟩
  | entries xs =>
    refine orderly_leaves fun x hx => ?_
    obtain ⟨y, _, rfl⟩ := List.mem_map.1 hx
    exact ⟨by simp [Entry.raw, rawType], .leaf⟩
  | _ => exact .leaf

theorem orderly_more {t : Ty} {c : Option (Option Str)} {k : Option Str} {ms : List Meant} {rs : List Raw} (H : ∀ x ∈ rs, rawType x = .section ∧ Orderly x) :
    Orderly (.node t c k (ms.map Meant.raw ++ rs)) := by
  refine .node (fun x hx => ?_) (fun x hx => (H x hx).1) (fun x hx => ?_)
  · obtain ⟨m, _, rfl⟩ := List.mem_map.1 hx
    exact meant_type m
  · rcases List.mem_append.1 hx with hx | hx
    · obtain ⟨m, _, rfl⟩ := List.mem_map.1 hx
      exact meant_orderly m
    · exact (H x hx).2

mutual

theorem part_orderly {ns : List Node} : ∀ {p : Part} {r : Remark} {xs : List Raw}, p.Means ns r xs → (∀ x ∈ p.nodes, x.NoSectionCopy) → ∀ {c k}, Orderly (.node .section c k xs)
  | _, _, _, .own _ h2, hn, _, _ => orderly_more (parts_orderly h2 fun x hx => hn x (by rw [Part.nodes]; simp [hx]))
  | .mk _ _ _ _ _, _, _, .copy _ _ _ _, hn, _, _ => by
    have := hn _ (by rw [Part.nodes]; exact List.mem_cons_self)
    cases this

theorem parts_orderly {ns : List Node} : ∀ {ps : List Part} {xs : List Raw}, PartsMean ns ps xs → (∀ x ∈ partsNodes ps, x.NoSectionCopy) → ∀ x ∈ xs, rawType x = .section ∧ Orderly x
  | _, _, .nil, _, x, hx => by simp at hx
  | _, _, .cons h1 h2, hn, x, hx => by
    rcases List.mem_cons.1 hx with rfl | hx
    · exact ⟨rfl, part_orderly h1 fun y hy => hn y (by rw [partsNodes]; simp [hy])⟩
    · exact parts_orderly h2 (fun y hy => hn y (by rw [partsNodes]; simp [hy])) x hx

end

/-! ## Writing out -/

/-- The node can be written. -/
def NodeValid : Node → Prop
  | .thing t => t.Valid
  | .part p => p.Valid

mutual

theorem part_nodes_valid : ∀ {p : Part}, p.Valid → ∀ x ∈ p.nodes, NodeValid x
  | .mk r k c ts ps, h, x, hx => by
    rw [Part.nodes] at hx
    have h' := h
    unfold Part.Valid at h'
    rcases List.mem_cons.1 hx with rfl | hx
    · exact h
    · rcases List.mem_append.1 hx with hx | hx
      · obtain ⟨t, ht, rfl⟩ := List.mem_map.1 hx
        exact h'.2.2.2.1 t ht
      · exact parts_nodes_valid h'.2.2.2.2 x hx

theorem parts_nodes_valid : ∀ {ps : List Part}, PartsValid ps → ∀ x ∈ partsNodes ps, NodeValid x
  | [], _, x, hx => by simp [partsNodes] at hx
  | p :: ps, h, x, hx => by
    rw [partsNodes] at hx
    unfold PartsValid at h
    rcases List.mem_append.1 hx with hx | hx
    · exact part_nodes_valid h.1 x hx
    · exact parts_nodes_valid h.2 x hx

end

theorem nodes_valid {T : Doc} (h : T.Valid) : ∀ x ∈ T.nodes, NodeValid x := by
  intro x hx
  rcases List.mem_append.1 hx with hx | hx
  · obtain ⟨t, ht, rfl⟩ := List.mem_map.1 hx
    exact h.1 t ht
  · exact parts_nodes_valid h.2 x hx

/-- `e` says, without copies, what `m` means. -/
structure Spelled (e : Element) (m : Meant) : Prop where
  valid : e.Valid
  remark : e.remark = m.remark
  key : e.key = m.key
  held : e.content.held = m.held ∨ ∃ v, e.content.held = .verbatim v ∧ m.held = .text v

theorem Spelled.dict {e : Element} {m : Meant} (S : Spelled e m) : e.raw.dict = m.raw.dict := by
  rw [← meant_plain, S.remark, S.key]
  obtain ⟨r, k, b⟩ := m
  rcases S.held with q | ⟨v, q, q'⟩
  · rw [q]
  · rw [q]
    dsimp only at q'
    subst q'
    rfl

/-- What a copy of something that can be spelled out contains can be spelled out. -/
theorem content_extend {c : Content} {b b' : Held} {inner : Inner} (hc : c.Valid) (hi : inner.Valid) (h : c.held = b ∨ ∃ v, c.held = .verbatim v ∧ b = .text v) (he : b.extend inner = some b') :
    ∃ c' : Content, c'.Valid ∧ (c'.held = b' ∨ ∃ v, c'.held = .verbatim v ∧ b' = .text v) := by
  have items_of : ∀ {ys : List Item}, c.held = .items ys → ∃ y zs, c = .items y zs ∧ ys = y :: zs := by
    intro ys q
    cases c with
    | parts p =>
      obtain ⟨f, m⟩ := p
      cases f <;> cases m <;> simp [Content.held] at q
    | items y zs => simp only [Content.held, Held.items.injEq] at q; exact ⟨y, zs, rfl, q.symm⟩
    | entries => simp [Content.held] at q
    | verbatim => simp [Content.held] at q
  have entries_of : ∀ {ys : List Entry}, c.held = .entries ys → ∃ y zs, c = .entries y zs ∧ ys = y :: zs := by
    intro ys q
    cases c with
    | parts p =>
      obtain ⟨f, m⟩ := p
      cases f <;> cases m <;> simp [Content.held] at q
    | items => simp [Content.held] at q
    | entries y zs => simp only [Content.held, Held.entries.injEq] at q; exact ⟨y, zs, rfl, q.symm⟩
    | verbatim => simp [Content.held] at q
  cases inner with
  | nothing =>
    refine ⟨c, hc, ?_⟩
    cases b <;> simp only [Held.extend, Option.some.injEq] at he <;> subst he
    case verbatim v =>
      rcases h with q | ⟨w, _, q⟩
      · exact .inr ⟨v, q, rfl⟩
      · cases q
    all_goals exact h
  | items x xs =>
    cases b <;> simp only [Held.extend, Option.some.injEq, reduceCtorEq] at he <;> subst he
    · exact ⟨.items x xs, hi, .inl rfl⟩
    · rename_i ys
      have q : c.held = .items ys := by
        rcases h with q | ⟨w, _, q⟩
        · exact q
        · cases q
      obtain ⟨y, zs, rfl, rfl⟩ := items_of q
      refine ⟨.items y (zs ++ x :: xs), ?_, .inl rfl⟩
      intro u hu
      rw [← List.cons_append] at hu
      rcases List.mem_append.1 hu with hu | hu
      · exact hc u hu
      · exact hi u hu
  | entries x xs =>
    cases b <;> simp only [Held.extend, Option.some.injEq, reduceCtorEq] at he <;> subst he
    · exact ⟨.entries x xs, hi, .inl rfl⟩
    · rename_i ys
      have q : c.held = .entries ys := by
        rcases h with q | ⟨w, _, q⟩
        · exact q
        · cases q
      obtain ⟨y, zs, rfl, rfl⟩ := entries_of q
      have V : ∀ u ∈ ((y :: zs).filter fun y => decide (∀ o ∈ x :: xs, o.key ≠ y.key)) ++ x :: xs, u.Valid := by
        intro u hu
        rcases List.mem_append.1 hu with hu | hu
        · exact hc u (List.mem_filter.1 hu).1
        · exact hi u hu
      generalize ((y :: zs).filter fun y => decide (∀ o ∈ x :: xs, o.key ≠ y.key)) = l at V
      cases l with
      | nil => exact ⟨.entries x xs, hi, .inl rfl⟩
      | cons u us => exact ⟨.entries u (us ++ x :: xs), V, .inl rfl⟩

theorem thing_spelled {ns : List Node} (hn : ∀ x ∈ ns, NodeValid x) {t : Thing} {m : Meant} (h : t.Means ns m) (hv : t.Valid) : ∃ e, Spelled e m := by
  induction h with
  | @plain e => exact ⟨e, hv, rfl, rfl, .inl rfl⟩
  | @copy r k t inner x m b h0 h1 h2 ih =>
    obtain ⟨v1, v2, _, v4⟩ := hv
    have hx : Node.thing x ∈ ns := (List.mem_filter.1 (h0 ▸ List.mem_singleton_self _ : Node.thing x ∈ ns.filter (Node.serves false t))).1
    obtain ⟨e, S⟩ := ih (hn _ hx)
    obtain ⟨c, w1, w2⟩ := content_extend S.valid.2.2 v4 S.held h2
    refine ⟨⟨if r = [] then m.remark else r, k, c⟩, ⟨?_, v2, w1⟩, rfl, rfl, w2⟩
    dsimp only
    split
    · rw [← S.remark]; exact S.valid.1
    · exact v1

/-- What can be spelled out if sections come last. -/
inductive Spellable : Raw → Prop where
  | elem {e : Element} {m : Meant} : Spelled e m → Spellable m.raw
  | sec {r k xs} : Remark.Valid r → Trimmed k → (∀ x ∈ xs, Spellable x) → Spellable (.node .section (Remark.raw r) (some k) xs)

theorem things_spellable {ns : List Node} (hn : ∀ x ∈ ns, NodeValid x) {ts : List Thing} {ms : List Meant} (h : ThingsMean ns ts ms) (hv : ∀ t ∈ ts, t.Valid) : ∀ x ∈ ms.map Meant.raw, Spellable x := by
  induction h with
  | nil => simp
  | cons h1 _ ih =>
    intro x hx
    rcases List.mem_cons.1 hx with rfl | hx
    · obtain ⟨e, S⟩ := thing_spelled hn h1 (hv _ (by simp))
      exact .elem S
    · exact ih (fun t ht => hv t (by simp [ht])) x hx

mutual

theorem part_spellable {ns : List Node} (hn : ∀ x ∈ ns, NodeValid x) : ∀ {p : Part} {r : Remark} {xs : List Raw}, p.Means ns r xs → p.Valid → Remark.Valid r ∧ ∀ x ∈ xs, Spellable x
  | _, _, _, .own h1 h2, hv => by
    unfold Part.Valid at hv
    obtain ⟨v1, _, _, v4, v5⟩ := hv
    refine ⟨v1, fun x hx => ?_⟩
    rcases List.mem_append.1 hx with hx | hx
    · exact things_spellable hn h1 v4 x hx
    · exact parts_spellable hn h2 v5 x hx
  | _, _, _, .copy (r := r) (q := q) (t := t) h0 h1 h2 h3, hv => by
    unfold Part.Valid at hv
    obtain ⟨v1, _, _, v4, v5⟩ := hv
    have hq : Node.part q ∈ ns := (List.mem_filter.1 (h0 ▸ List.mem_singleton_self _ : Node.part q ∈ ns.filter (Node.serves true t))).1
    obtain ⟨w1, w2⟩ := part_spellable hn h1 (hn _ hq)
    refine ⟨by split <;> assumption, fun x hx => ?_⟩
    rcases List.mem_append.1 hx with hx | hx
    · exact w2 x (List.mem_filter.1 hx).1
    · rcases List.mem_append.1 hx with hx | hx
      · exact things_spellable hn h2 v4 x hx
      · exact parts_spellable hn h3 v5 x hx

theorem parts_spellable {ns : List Node} (hn : ∀ x ∈ ns, NodeValid x) : ∀ {ps : List Part} {xs : List Raw}, PartsMean ns ps xs → PartsValid ps → ∀ x ∈ xs, Spellable x
  | _, _, .nil, _, x, hx => by simp at hx
  | .mk _ _ _ _ _ :: _, _, .cons h1 h2, hv, x, hx => by
    unfold PartsValid at hv
    rcases List.mem_cons.1 hx with rfl | hx
    · obtain ⟨w1, w2⟩ := part_spellable hn h1 hv.1
      have := hv.1
      unfold Part.Valid at this
      exact .sec w1 this.2.1 w2
    · exact parts_spellable hn h2 hv.2 x hx

end

/-- What is no section is spelled out by elements. -/
theorem elements_spelled : ∀ {a : List Raw}, (∀ x ∈ a, Spellable x) → (∀ x ∈ a, rawType x ≠ .section) → ∃ es : List Element, (∀ e ∈ es, e.Valid) ∧ dicts (es.map Element.raw) = dicts a
  | [], _, _ => ⟨[], by simp, rfl⟩
  | x :: a, h, ht => by
    obtain ⟨es, h1, h2⟩ := elements_spelled (a := a) (fun y hy => h y (by simp [hy])) (fun y hy => ht y (by simp [hy]))
    have hx := h x (by simp)
    have hs := ht x (by simp)
    cases hx with
    | @elem e m S =>
      refine ⟨e :: es, ?_, ?_⟩
      · intro y hy
        rcases List.mem_cons.1 hy with rfl | hy
        · exact S.valid
        · exact h1 y hy
      · simp only [List.map_cons, dicts, S.dict, h2]
    | sec => exact absurd rfl hs

theorem dicts_append (a b : List Raw) : dicts (a ++ b) = dicts a ++ dicts b := by
  simp only [dicts_map, List.map_append]

theorem secs_spelled {b : List Raw} (h : ∀ x ∈ b, ∃ s : Sec, s.Valid ∧ s.raw.dict = x.dict) : ∃ ss, SecsValid ss ∧ dicts (secsRaw ss) = dicts b := by
  induction b with
  | nil => exact ⟨[], by unfold SecsValid; trivial, rfl⟩
  | cons x b ih =>
    obtain ⟨ss, h1, h2⟩ := ih fun y hy => h y (by simp [hy])
    obtain ⟨s, h3, h4⟩ := h x (by simp)
    exact ⟨s :: ss, by unfold SecsValid; exact ⟨h3, h1⟩, by simp only [secsRaw, dicts, h4, h2]⟩

theorem sec_spelled {x : Raw} (S : Spellable x) (O : Orderly x) (hx : rawType x = .section) : ∃ s : Sec, s.Valid ∧ s.raw.dict = x.dict := by
  induction S with
  | elem => exact absurd hx (meant_type _)
  | @sec r k xs hr hk hs ih =>
    cases O with
    | @node _ _ _ a b ha hb hab =>
      obtain ⟨es, e1, e2⟩ := elements_spelled (fun y hy => hs y (List.mem_append_left _ hy)) ha
      obtain ⟨ss, s1, s2⟩ := secs_spelled fun y hy => ih y (List.mem_append_right _ hy) (hab y (List.mem_append_right _ hy)) (hb y hy)
      refine ⟨.mk r k es ss, by unfold Sec.Valid; exact ⟨hr, hk, e1, s1⟩, ?_⟩
      simp only [Sec.raw, Raw.dict, dicts_append, e2, s2]

/-- What a document means can be written without copies if sections come last. -/
theorem document_spelled {T : Doc} {R : Raw} (hv : T.Valid) (M : T.Means R) (O : Orderly R) : ∃ D : Document, D.Valid ∧ D.raw.dict = R.dict := by
  obtain ⟨m1, m2⟩ := M
  rename_i ms rs
  have hn := nodes_valid hv
  have sp : ∀ x ∈ ms.map Meant.raw ++ rs, Spellable x := by
    intro x hx
    rcases List.mem_append.1 hx with hx | hx
    · exact things_spellable hn m1 hv.1 x hx
    · exact parts_spellable hn m2 hv.2 x hx
  generalize ms.map Meant.raw ++ rs = xs at *
  cases O with
  | @node _ _ _ a b ha hb hab =>
    obtain ⟨es, e1, e2⟩ := elements_spelled (fun y hy => sp y (List.mem_append_left _ hy)) ha
    obtain ⟨ss, s1, s2⟩ := secs_spelled fun y hy => sec_spelled (sp y (List.mem_append_right _ hy)) (hab y (List.mem_append_right _ hy)) (hb y hy)
    refine ⟨⟨es, ss⟩, ⟨e1, s1⟩, ?_⟩
    simp only [Document.raw, Raw.dict, dicts_append, e2, s2]

theorem orderly_elements {t : Ty} {c : Option (Option Str)} {k : Option Str} {es : List Element} {rs : List Raw} (H : ∀ x ∈ rs, rawType x = .section ∧ Orderly x) :
    Orderly (.node t c k (es.map Element.raw ++ rs)) := by
  have := orderly_more (t := t) (c := c) (k := k) (ms := es.map fun e => ⟨e.remark, e.key, e.content.held⟩) H
  rw [List.map_map] at this
  rwa [show es.map Element.raw = es.map (Meant.raw ∘ fun e => ⟨e.remark, e.key, e.content.held⟩) from List.map_congr_left fun e _ => (meant_plain e).symm]

mutual

theorem sec_orderly : ∀ s : Sec, rawType s.raw = .section ∧ Orderly s.raw
  | .mk r k es ss => by
    rw [Sec.raw]
    exact ⟨rfl, orderly_elements (secs_orderly ss)⟩

theorem secs_orderly : ∀ ss : List Sec, ∀ x ∈ secsRaw ss, rawType x = .section ∧ Orderly x
  | [], x, hx => by simp [secsRaw] at hx
  | s :: ss, x, hx => by
    rw [secsRaw] at hx
    rcases List.mem_cons.1 hx with rfl | hx
    · exact sec_orderly s
    · exact secs_orderly ss x hx

end

/-- A document without copies shows sections last. -/
theorem document_orderly (D : Document) : Orderly D.raw := orderly_elements (secs_orderly D.sections)

end Eno
