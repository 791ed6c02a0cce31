import Verif.Proofs.Legal
import Verif.Proofs.LineNumbers

/-! # All instructions of a document -/

namespace Eno

open Spec

/-! ## In the events -/

/-- Everything recorded about events. -/
def Spec.basesOf (es : List Event) : List Base := es.flatMap fun ev => ev.pieces.map Piece.toBase

/-- Everything recorded about comments. -/
def Spec.commentBases (es : List Event) : List Base := es.flatMap fun ev => ev.comments.map Comment.toBase

/-- The owners with what follows them. -/
def Spec.groups (es : List Event) : List (List Event) := (blocks es).flatMap parts

/-- Everything that is recorded in elements. -/
def Spec.flat (es : List Event) : List Base :=
  (List.zipWith (fun o g => commentBases o.1 ++ basesOf g) (owned [] es) (groups es)).flatten

theorem comment_bases {ev : Event} (h : ev.role = .comment) : ev.comments.map Comment.toBase = ev.pieces.map Piece.toBase := by
  match ev, h with
  | .line n b ⟨fin, .comment op v⟩, _ => simp [Event.comments, Event.pieces, pieceOf]

theorem commentRun_role (es : List Event) : ∀ ev ∈ commentRun es, ev.role = .comment := by
  intro ev h
  unfold commentRun at h
  have := mem_takeWhile_imp (List.mem_reverse.1 h)
  simpa using this

theorem commentBases_run (es : List Event) : commentBases (commentRun es) = basesOf (commentRun es) := by
  unfold commentBases basesOf
  have := commentRun_role es
  generalize commentRun es = l at this
  induction l with
  | nil => rfl
  | cons a t ih =>
    rw [List.flatMap_cons, List.flatMap_cons, comment_bases (this a (by simp)), ih (fun x hx => this x (by simp [hx]))]

theorem basesOf_append (a b : List Event) : basesOf (a ++ b) = basesOf a ++ basesOf b := by simp [basesOf]
theorem commentBases_append (a b : List Event) : commentBases (a ++ b) = commentBases a ++ commentBases b := by simp [commentBases]

theorem starts_owns {ev : Event} (h : ev.role.starts = true) : ev.role.owns = true := by
  cases hr : ev.role <;> rw [hr] at h <;> simp [Role.starts] at h <;> rfl

theorem parts_ne_nil {es b : List Event} (hb : b ∈ blocks es) : parts b ≠ [] := by
  obtain ⟨e, r, rfl, h2, h3⟩ := blocks_spec hb
  clear hb h3
  induction r using snoc_induction with
  | h0 => rw [parts_single (starts_owns h2)]; simp
  | h1 l a ih =>
    rw [← List.cons_append]
    by_cases ha : a.role.owns = true
    · rw [parts_snoc_owns ha]; simp
    · obtain ⟨gs, g, hg⟩ : ∃ gs g, parts (e :: l) = gs ++ [g] := by
        rcases List.eq_nil_or_concat (parts (e :: l)) with h | ⟨gs, g, h⟩
        · exact absurd h ih
        · exact ⟨gs, g, by rw [h, List.concat_eq_append]⟩
      rw [parts_snoc_joins (by simpa using ha) hg]; simp

theorem groups_starts {es : List Event} {ev : Event} (h : ev.role.starts = true) : groups (es ++ [ev]) = groups es ++ [[ev]] := by
  unfold groups
  rw [blocks_snoc_starts h]
  simp [parts_single (starts_owns h)]

theorem groups_owns {es : List Event} {ev : Event} (h : ev.role.starts = false) (ho : ev.role.owns = true) (hne : blocks es ≠ []) :
    groups (es ++ [ev]) = groups es ++ [[ev]] := by
  unfold groups
  rcases List.eq_nil_or_concat (blocks es) with hb | ⟨gs, g, hb⟩
  · exact absurd hb hne
  · rw [List.concat_eq_append] at hb
    have hc : ev.role.content = true := by
      cases hr : ev.role <;> rw [hr] at ho <;> simp [Role.owns, Role.starts] at ho <;> rfl
    rw [blocks_snoc_joins hc h hb, hb]
    simp [parts_snoc_owns ho]

theorem groups_cont {es : List Event} {ev : Event} (h : ev.role = .continuation) (hne : blocks es ≠ []) :
    ∃ gs g, groups es = gs ++ [g] ∧ groups (es ++ [ev]) = gs ++ [g ++ [ev]] := by
  unfold groups
  rcases List.eq_nil_or_concat (blocks es) with hb | ⟨gs, g, hb⟩
  · exact absurd hb hne
  · rw [List.concat_eq_append] at hb
    have hp : parts g ≠ [] := parts_ne_nil (es := es) (by rw [hb]; simp)
    rcases List.eq_nil_or_concat (parts g) with hq | ⟨ps, p, hq⟩
    · exact absurd hq hp
    · rw [List.concat_eq_append] at hq
      refine ⟨gs.flatMap parts ++ ps, p, by rw [hb]; simp [hq], ?_⟩
      rw [blocks_snoc_joins (by rw [h]; rfl) (by rw [h]; rfl) hb]
      simp [parts_snoc_joins (by rw [h]; rfl) hq]

theorem groups_skip {es : List Event} {ev : Event} (h : ev.role.content = false) : groups (es ++ [ev]) = groups es := by
  unfold groups; rw [blocks_snoc_skip h]

theorem allLegal_snoc {es : List Event} {ev : Event} (h : AllLegal (es ++ [ev])) : AllLegal es ∧ Legal es ev := by
  refine ⟨?_, h es ev [] (by simp)⟩
  intro pre x post e
  exact h pre x (post ++ [ev]) (by rw [e]; simp)

theorem blocks_of_legal {es : List Event} {ev : Event} (h : Legal es ev) (hr : ev.role = .item ∨ ev.role = .entry ∨ ev.role = .continuation) :
    blocks es ≠ [] := by
  unfold Legal at h
  intro hb
  rcases hr with hr | hr | hr <;> rw [hr] at h <;> simp [hb] at h

theorem flat_snoc_owns {es : List Event} {ev : Event} (hl : (owned [] es).length = (groups es).length) (ho : ev.role.owns = true)
    (hg : groups (es ++ [ev]) = groups es ++ [[ev]]) :
    flat (es ++ [ev]) = flat es ++ basesOf (commentRun es) ++ basesOf [ev] := by
  unfold flat
  rw [hg, owned_snoc, if_pos ho, List.zipWith_append hl]
  simp [commentBases_run]

structure FlatOk (es : List Event) : Prop where
  len : (owned [] es).length = (groups es).length
  sub : (flat es ++ basesOf (commentRun es)).Sublist (basesOf es)
  subLoose : (commentBases (loose [] es) ++ basesOf (commentRun es)).Sublist (basesOf es)
  perm : (flat es ++ commentBases (loose [] es) ++ basesOf (commentRun es)).Perm (basesOf es)

theorem flat_ok (es : List Event) (h : AllLegal es) : FlatOk es := by
  induction es using snoc_induction with
  | h0 => exact ⟨rfl, by simp [flat, groups, owned, basesOf, commentRun], by simp [loose, commentBases, basesOf, commentRun],
      by simp [flat, groups, owned, basesOf, commentRun, loose, commentBases]⟩
  | h1 es ev ih =>
    obtain ⟨hA, hL⟩ := allLegal_snoc h
    have ih := ih hA
    by_cases ho : ev.role.owns = true
    · have hg : groups (es ++ [ev]) = groups es ++ [[ev]] := by
        by_cases hs : ev.role.starts = true
        · exact groups_starts hs
        · refine groups_owns (by simpa using hs) ho (blocks_of_legal hL ?_)
          cases hr : ev.role <;> rw [hr] at ho hs <;> simp [Role.owns, Role.starts] at ho hs <;> simp
      have hne : ¬ ev.role = .comment := by intro e; rw [e] at ho; exact absurd ho (by decide)
      have hnl : ¬ (ev.role = .blank ∨ ev.role = .continuation) := by
        rintro (e | e) <;> rw [e] at ho <;> exact absurd ho (by decide)
      have hf := flat_snoc_owns ih.len ho hg
      have hcr : commentRun (es ++ [ev]) = [] := by rw [commentRun_snoc, if_neg hne]
      have hlo : loose [] (es ++ [ev]) = loose [] es := by rw [loose_snoc, if_neg hnl]; simp
      refine ⟨by rw [hg, owned_snoc, if_pos ho]; simp [ih.len], ?_, ?_, ?_⟩
      · rw [hf, hcr, basesOf_append es]
        simp only [basesOf, List.flatMap_nil, List.append_nil]
        exact List.Sublist.append ih.sub (List.Sublist.refl _)
      · rw [hlo, hcr, basesOf_append es]
        simp only [basesOf, List.flatMap_nil, List.append_nil]
        refine List.Sublist.trans ?_ (List.sublist_append_left _ _)
        exact List.Sublist.trans (List.sublist_append_left _ _) ih.subLoose
      · rw [hf, hlo, hcr, basesOf_append es]
        have := List.Perm.append_right (basesOf [ev]) ih.perm
        refine List.Perm.trans ?_ this
        simp only [basesOf, List.flatMap_nil, List.append_nil, List.append_assoc]
        refine List.Perm.append_left _ ?_
        rw [← List.append_assoc]
        refine List.Perm.trans List.perm_append_comm ?_
        exact List.Perm.refl _
    · have ho' : ev.role.owns = false := by simpa using ho
      have how : owned [] (es ++ [ev]) = owned [] es := by rw [owned_snoc, if_neg ho]; simp
      by_cases hc : ev.role = .continuation
      · obtain ⟨gs, g, h1, h2⟩ := groups_cont hc (blocks_of_legal hL (by simp [hc]))
        have hf : flat (es ++ [ev]) = flat es ++ basesOf [ev] := by
          unfold flat
          rw [how, h1, h2]
          have hlen := ih.len
          rw [h1] at hlen
          rcases List.eq_nil_or_concat (owned [] es) with ho | ⟨os, o, ho⟩
          · rw [ho] at hlen; simp at hlen
          · rw [List.concat_eq_append] at ho
            rw [ho] at hlen ⊢
            have : os.length = gs.length := by simp at hlen; exact hlen
            rw [List.zipWith_append this, List.zipWith_append this]
            simp [basesOf_append]
        have hcr : commentRun (es ++ [ev]) = [] := by rw [commentRun_snoc, if_neg (by rw [hc]; simp)]
        have hlo : loose [] (es ++ [ev]) = loose [] es ++ commentRun es := by rw [loose_snoc, if_pos (.inr hc)]; simp
        refine ⟨by rw [how, h2, ih.len, h1]; simp, ?_, ?_, ?_⟩
        · rw [hf, hcr, basesOf_append es]
          simp only [basesOf, List.flatMap_nil, List.append_nil]
          exact List.Sublist.append (List.Sublist.trans (List.sublist_append_left _ _) ih.sub) (List.Sublist.refl _)
        · rw [hlo, hcr, basesOf_append es, commentBases_append, commentBases_run]
          simp only [basesOf, List.flatMap_nil, List.append_nil]
          exact List.Sublist.trans ih.subLoose (List.sublist_append_left _ _)
        · rw [hf, hlo, hcr, basesOf_append es, commentBases_append, commentBases_run]
          have := List.Perm.append_right (basesOf [ev]) ih.perm
          refine List.Perm.trans ?_ this
          simp only [basesOf, List.flatMap_nil, List.append_nil, List.append_assoc]
          refine List.Perm.append_left _ ?_
          refine List.Perm.trans List.perm_append_comm ?_
          simp
      · have hcon : ev.role.content = false := by
          cases hr : ev.role <;> rw [hr] at ho' hc <;> simp [Role.owns, Role.starts] at ho' hc <;> rfl
        have hg := groups_skip (es := es) hcon
        have hf : flat (es ++ [ev]) = flat es := by unfold flat; rw [how, hg]
        by_cases hm : ev.role = .comment
        · have hcr : commentRun (es ++ [ev]) = commentRun es ++ [ev] := by rw [commentRun_snoc, if_pos hm]
          have hlo : loose [] (es ++ [ev]) = loose [] es := by rw [loose_snoc, if_neg (by rw [hm]; simp)]; simp
          refine ⟨by rw [how, hg, ih.len], ?_, ?_, ?_⟩
          · rw [hf, hcr, basesOf_append, basesOf_append, ← List.append_assoc]
            exact List.Sublist.append ih.sub (List.Sublist.refl _)
          · rw [hlo, hcr, basesOf_append, basesOf_append, ← List.append_assoc]
            exact List.Sublist.append ih.subLoose (List.Sublist.refl _)
          · rw [hf, hlo, hcr, basesOf_append, basesOf_append, ← List.append_assoc]
            exact List.Perm.append_right _ ih.perm
        · have hb : ev.role = .blank := by
            cases hr : ev.role <;> rw [hr] at hcon hm <;> simp [Role.content] at hcon hm <;> rfl
          have hbe : basesOf [ev] = [] := by
            match ev, hb with
            | .line n b t, hb =>
              have : t.body = .empty := by
                cases ht : t.body <;> simp [Event.role, ht, roleOf] at hb <;> rfl
              simp [basesOf, Event.pieces, this]
          have hcr : commentRun (es ++ [ev]) = [] := by rw [commentRun_snoc, if_neg hm]
          have hlo : loose [] (es ++ [ev]) = loose [] es ++ commentRun es := by rw [loose_snoc, if_pos (.inl hb)]; simp
          refine ⟨by rw [how, hg, ih.len], ?_, ?_, ?_⟩
          · rw [hf, hcr, basesOf_append es, hbe]
            simp only [basesOf, List.flatMap_nil, List.append_nil]
            exact List.Sublist.trans (List.sublist_append_left _ _) ih.sub
          · rw [hlo, hcr, basesOf_append es, hbe, commentBases_append, commentBases_run]
            simp only [basesOf, List.flatMap_nil, List.append_nil]
            exact ih.subLoose
          · rw [hf, hlo, hcr, basesOf_append es, hbe, commentBases_append, commentBases_run]
            simp only [basesOf, List.flatMap_nil, List.append_nil, ← List.append_assoc]
            exact ih.perm

/-! ## In the result -/

theorem subs_bases (l : List Sub) : l.flatMap Sub.bases =
    (List.zipWith (fun (o : List Comment × Piece) (g : List Piece) => o.1.map Comment.toBase ++ g.map Piece.toBase)
      (l.map fun x => (x.comments.getD [], x.piece)) (l.map Sub.part)).flatten := by
  induction l with
  | nil => rfl
  | cons x t ih =>
    rw [List.flatMap_cons, ih]
    simp [Sub.bases, Sub.part, Sub.piece, Function.comp_def, Cont.piece]

theorem elem_bases (e : Elem) : e.bases =
    (List.zipWith (fun (o : List Comment × Piece) (g : List Piece) => o.1.map Comment.toBase ++ g.map Piece.toBase) e.owners e.parts).flatten := by
  unfold Elem.bases Elem.owners Elem.parts
  simp only [List.cons_append, List.zipWith_cons_cons, List.flatten_cons]
  rw [List.zipWith_append (by simp), List.flatten_append, ← subs_bases, ← subs_bases]
  simp [Elem.head, Elem.piece, Function.comp_def, Cont.piece, Base.piece]

theorem owners_parts_length (e : Elem) : e.owners.length = e.parts.length := by simp [Elem.owners, Elem.parts]

theorem heap_bases (h : List Elem) : h.flatMap Elem.bases =
    (List.zipWith (fun (o : List Comment × Piece) (g : List Piece) => o.1.map Comment.toBase ++ g.map Piece.toBase)
      (h.flatMap Elem.owners) (h.flatMap Elem.parts)).flatten := by
  induction h with
  | nil => rfl
  | cons e t ih =>
    rw [List.flatMap_cons, List.flatMap_cons, List.flatMap_cons, List.zipWith_append (owners_parts_length e), List.flatten_append, ih, elem_bases]

theorem layout_bases {es : List Event} {s : AS} (h : Layout es s) : s.heap.tail.flatMap Elem.bases = flat es := by
  have hp : s.heap.tail.flatMap Elem.parts = (groups es).map fun g => g.flatMap Event.pieces := by
    rw [List.flatMap_def, h.trees]
    unfold groups
    rw [List.flatMap_def, List.map_flatten, List.map_map]
    rfl
  rw [heap_bases, h.owners, hp, List.zipWith_map]
  unfold flat
  congr 1
  congr 1
  funext o g
  simp [commentBases, basesOf, List.map_flatMap]

theorem spots_bases (es : List Event) : es.flatMap Event.spots = (basesOf es).map spotOf := by
  simp only [basesOf, List.map_flatMap, List.map_map]
  rfl

theorem metas_bases {es : List Event} {s : AS} (h : Layout es s) :
    (flushed s.metas s.comments).map Meta.base = commentBases (loose [] es) ++ basesOf (commentRun es) := by
  rw [flushed_eq, List.map_append, h.metas, h.comments, ← commentBases_run]
  simp [commentBases, Function.comp_def, Meta.base, List.map_flatMap]

end Eno
