import Verif.Spec.Document
import Verif.Proofs.FormLemmas

/-! # Written lines are read as what they say -/

namespace Eno

open Spec

variable {r k w x p p1 p2 t : Str} {v : Option Str} {l : Line}

theorem valueForm_at (h : ValueForm v x) (hr : LineEnd r) (pos : Nat) :
    (valueAt pos (x ++ r)).map (·.text) = v ∧ eolAt pos (x ++ r) = pos + x.length := by
  cases h with
  | none hp => rw [valueAt_blank hp hr, eolAt_blank hp hr]; simp
  | some h1 hv h2 =>
    simp only [List.append_assoc]
    rw [valueAt_padded h1 h2 hv hr, eolAt_padded h1 h2 hv.oneLine hr]
    simp; omega

theorem valueForm_noNl (h : ValueForm v x) : '\n' ∉ x := by
  cases h with
  | none hp => exact hp.noNl
  | some h1 hv h2 => simp [h1.noNl, hv.oneLine, h2.noNl]

theorem rep_noNl {n : Nat} {c : Char} (hc : c ≠ '\n') : '\n' ∉ rep n c := by
  intro h; simp [rep] at h; exact hc h.2.symm

theorem scan_tick {n : Nat} (hn : 0 < n) (x : Str) (pos : Nat) : scan pos (rep n '`' ++ x) = escapedKey afterKey pos (rep n '`' ++ x) := by
  obtain ⟨m, rfl⟩ : ∃ m, n = m + 1 := ⟨n - 1, by omega⟩
  simp only [rep, List.replicate_succ, List.cons_append]
  rw [scan_head (by decide)]
  simp

/-- A key in front of an operator. -/
theorem scan_keyForm (h : KeyForm k w) (hp : Blank p) {c : Char} (hc : c = ':' ∨ c = '=' ∨ c = '<') (pos : Nat)
    (hs : ∀ K, (afterKey (pos + w.length + p.length) (c :: t) K).isSome) :
    ∃ K, K.text = k ∧ scan pos (w ++ (p ++ c :: t)) = afterKey (pos + w.length + p.length) (c :: t) K := by
  cases h with
  | plain hk => exact ⟨_, rfl, scan_plainKey hk hp hc t pos⟩
  | @escaped n p1 p2 hk hn hinf h1 h2 hf hl =>
    simp only [List.append_assoc]
    let K : KeyTok := .escaped ⟨pos, pos + n, rep n '`'⟩ ⟨pos + n + p1.length, pos + n + p1.length + k.length, k⟩
      ⟨pos + n + p1.length + k.length + p2.length, pos + n + p1.length + k.length + p2.length + n, rep n '`'⟩
    refine ⟨K, rfl, ?_⟩
    have hlen : pos + n + p1.length + k.length + p2.length + n + p.length = pos + (rep n '`' ++ (p1 ++ (k ++ (p2 ++ rep n '`')))).length + p.length := by
      simp [rep]; omega
    obtain ⟨tk, htk⟩ := Option.isSome_iff_exists.1 (hs K)
    rw [scan_tick hn, htk]
    refine escapedKey_padded hn hk h1 h2 hinf hf hl pos tk ?_
    rw [afterKey_blank hp, hlen]; exact htk

theorem dash_ne (h : ∀ u, x ≠ '-' :: u) (hr : LineEnd r) : ∀ u, x ++ r ≠ '-' :: u := by
  intro u hu
  cases x with
  | nil => rcases hr with rfl | ⟨t, rfl⟩ <;> simp at hu
  | cons a b => simp at hu; rw [hu.1] at h; exact h b rfl

/-- A written line is recognised, up to its end, as what it says. -/
theorem scan_writes (h : Writes l t) (hr : LineEnd r) (pos : Nat) :
    ∃ tok, scan pos (t ++ r) = some tok ∧ tok.fin = pos + t.length ∧ Line.ofBody tok.body = l := by
  cases h with
  | blank hp =>
    rw [scan_indent hp]
    rcases hr with rfl | ⟨t, rfl⟩
    · exact ⟨_, rfl, by simp [runLen], by simp [Line.ofBody]⟩
    · rw [scan_head (by decide)]; exact ⟨⟨_, .empty⟩, by simp, rfl, rfl⟩
  | @element p0 k w p1 v x h0 hk h1 hv =>
    simp only [List.append_assoc, List.cons_append]
    rw [scan_indent h0]
    obtain ⟨K, hK, hs⟩ := scan_keyForm (t := x ++ r) hk h1 (.inl rfl) (pos + p0.length) (fun K => by rw [afterKey_element]; rfl)
    obtain ⟨e1, e2⟩ := valueForm_at hv hr (pos + p0.length + w.length + p1.length + 1)
    rw [hs, afterKey_element]
    exact ⟨_, rfl, by simp only [e2]; simp; omega, by simp only [Line.ofBody, hK, e1]⟩
  | @entry p0 k w p1 v x h0 hk h1 hv =>
    simp only [List.append_assoc, List.cons_append]
    rw [scan_indent h0]
    obtain ⟨K, hK, hs⟩ := scan_keyForm (t := x ++ r) hk h1 (.inr (.inl rfl)) (pos + p0.length) (fun K => by rw [afterKey_entry]; rfl)
    obtain ⟨e1, e2⟩ := valueForm_at hv hr (pos + p0.length + w.length + p1.length + 1)
    rw [hs, afterKey_entry]
    exact ⟨_, rfl, by simp only [e2]; simp; omega, by simp only [Line.ofBody, hK, e1]⟩
  | @item p0 v x h0 hv hd =>
    simp only [List.append_assoc, List.cons_append]
    obtain ⟨e1, e2⟩ := valueForm_at hv hr (pos + p0.length + 1)
    rw [scan_indent h0, scan_listItem (dash_ne hd hr)]
    exact ⟨_, rfl, by simp only [e2]; simp; omega, by simp only [Line.ofBody, e1]⟩
  | @direct p0 v x h0 hv =>
    simp only [List.append_assoc, List.cons_append]
    obtain ⟨e1, e2⟩ := valueForm_at hv hr (pos + p0.length + 1)
    rw [scan_indent h0, scan_head (by decide)]
    exact ⟨_, rfl, by simp only [e2]; simp; omega, by simp only [Line.ofBody, e1]⟩
  | @spaced p0 v x h0 hv =>
    simp only [List.append_assoc, List.cons_append]
    obtain ⟨e1, e2⟩ := valueForm_at hv hr (pos + p0.length + 1)
    rw [scan_indent h0, scan_head (by decide)]
    exact ⟨_, rfl, by simp only [e2]; simp; omega, by simp only [Line.ofBody, e1]⟩
  | @heading p0 n k w p1 h0 hn hk h1 =>
    simp only [List.append_assoc]
    rw [scan_indent h0]
    cases hk with
    | plain hp hk hs =>
      simp only [List.append_assoc]
      rw [headingAt_plain hn hp hk hs h1 (.inl hr), afterHeadingKey_plain _ h1 hr]
      exact ⟨_, rfl, by simp [rep]; omega, by simp [Line.ofBody, KeyTok.text, rep]⟩
    | escaped hp hk hm hinf hq1 hq2 hf hl =>
      simp only [List.append_assoc]
      rw [headingAt_escaped hn hp hm hk hq1 hq2 hinf hf hl _ _ (afterHeadingKey_plain _ h1 hr _ _)]
      exact ⟨_, rfl, by simp [rep]; omega, by simp [Line.ofBody, KeyTok.text, rep]⟩
  | @multiline p0 n k x h0 hn hv hd =>
    simp only [List.append_assoc]
    obtain ⟨e1, e2⟩ := valueForm_at hv hr (pos + p0.length + n)
    rw [scan_indent h0, scan_multiline hn (dash_ne hd hr)]
    cases hq : valueAt (pos + p0.length + n) (x ++ r) with
    | none => rw [hq] at e1; simp at e1
    | some c =>
      rw [hq] at e1
      simp only [Option.map_some, Option.some.injEq] at e1
      exact ⟨_, rfl, by simp only [e2]; simp [rep]; omega, by simp only [Line.ofBody, e1]; simp [rep]⟩
  | @copy p0 k w p1 q1 t q2 h0 hk h1 g1 ht g2 =>
    simp only [List.append_assoc, List.cons_append]
    rw [scan_indent h0]
    obtain ⟨K, hK, hs⟩ := scan_keyForm (t := q1 ++ (t ++ (q2 ++ r))) hk h1 (.inr (.inr rfl)) (pos + p0.length) (fun K => by rw [afterKey_copy g1 g2 ht hr]; rfl)
    rw [hs, afterKey_copy g1 g2 ht hr]
    exact ⟨_, rfl, by simp; omega, by simp only [Line.ofBody, hK]⟩
  | @headingCopy p0 n k w p1 deep q1 t q2 h0 hn hk h1 g1 ht g2 hlt =>
    simp only [List.append_assoc]
    rw [scan_indent h0]
    have hu : ∃ u, rep (if deep then 2 else 1) '<' ++ (q1 ++ (t ++ (q2 ++ r))) = '<' :: u := by cases deep <;> simp [rep, List.replicate]
    cases hk with
    | plain hp hk hs =>
      simp only [List.append_assoc]
      rw [headingAt_plain hn hp hk hs h1 (.inr hu), afterHeadingKey_copy _ deep h1 g1 g2 ht hr hlt]
      exact ⟨_, rfl, by cases deep <;> (simp [rep]; omega), by cases deep <;> simp [Line.ofBody, KeyTok.text, rep]⟩
    | escaped hp hk hm hinf hq1 hq2 hf hl =>
      simp only [List.append_assoc]
      rw [headingAt_escaped hn hp hm hk hq1 hq2 hinf hf hl _ _ (afterHeadingKey_copy _ deep h1 g1 g2 ht hr hlt _ _)]
      exact ⟨_, rfl, by cases deep <;> (simp [rep]; omega), by cases deep <;> simp [Line.ofBody, KeyTok.text, rep]⟩

/-- A written comment line is recognised, with the column of its text. -/
theorem scan_remarks {a : Nat × Option Str} (h : Remarks a t) (hr : LineEnd r) (pos : Nat) :
    ∃ op c, scan pos (t ++ r) = some ⟨pos + t.length, .comment op c⟩ ∧ c.map (·.text) = a.2 ∧ ∀ x, c = some x → x.b = pos + a.1 := by
  cases h with
  | @none p0 p h0 hp =>
    simp only [List.append_assoc, List.cons_append]
    rw [scan_indent h0, scan_head (by decide)]
    refine ⟨⟨pos + p0.length, pos + p0.length + 1, ['>']⟩, Option.none, ?_, rfl, by simp⟩
    simp [valueAt_blank hp hr, eolAt_blank hp hr]; omega
  | @some p0 v p1 p2 h0 h1 hv h2 =>
    simp only [List.append_assoc, List.cons_append]
    rw [scan_indent h0, scan_head (by decide)]
    refine ⟨⟨pos + p0.length, pos + p0.length + 1, ['>']⟩, Option.some ⟨pos + p0.length + 1 + p1.length, pos + p0.length + 1 + p1.length + v.length, v⟩,
      ?_, rfl, ?_⟩
    · simp [valueAt_padded h1 h2 hv hr, eolAt_padded h1 h2 hv.oneLine hr]; omega
    · rintro _ ⟨⟩; simp only []; omega

theorem keyForm_noNl (h : KeyForm k w) : '\n' ∉ w := by
  cases h with
  | plain hk => exact hk.oneLine
  | escaped hk hn hinf h1 h2 => simp [h1.noNl, h2.noNl, hk.oneLine, rep_noNl]

theorem writes_noNl (h : Writes l t) : '\n' ∉ t := by
  cases h with
  | blank hp => exact hp.noNl
  | element h0 hk h1 hv => simp [h0.noNl, keyForm_noNl hk, h1.noNl, valueForm_noNl hv]
  | entry h0 hk h1 hv => simp [h0.noNl, keyForm_noNl hk, h1.noNl, valueForm_noNl hv]
  | item h0 hv => simp [h0.noNl, valueForm_noNl hv]
  | direct h0 hv => simp [h0.noNl, valueForm_noNl hv]
  | spaced h0 hv => simp [h0.noNl, valueForm_noNl hv]
  | heading h0 hn hk h1 =>
    cases hk with
    | plain hp hk => simp [h0.noNl, h1.noNl, hp.noNl, hk.oneLine, rep_noNl]
    | escaped hp hk hn hinf h1 h2 => simp_all [Spec.Blank.noNl, hk.oneLine, rep_noNl]
  | multiline h0 hn hv => simp [h0.noNl, valueForm_noNl hv, rep_noNl]
  | copy h0 hk h1 g1 ht g2 => simp [h0.noNl, keyForm_noNl hk, h1.noNl, g1.noNl, ht.oneLine, g2.noNl]
  | headingCopy h0 hn hk h1 g1 ht g2 =>
    cases hk with
    | plain hp hk => simp [h0.noNl, h1.noNl, hp.noNl, hk.oneLine, rep_noNl, g1.noNl, ht.oneLine, g2.noNl]
    | escaped hp hk hn hinf h3 h4 => simp_all [Spec.Blank.noNl, hk.oneLine, rep_noNl, ht.oneLine]

theorem remarks_noNl {a : Nat × Option Str} (h : Remarks a t) : '\n' ∉ t := by
  cases h with
  | none h0 hp => simp [h0.noNl, hp.noNl]
  | some h0 h1 hv h2 => simp [h0.noNl, h1.noNl, hv.oneLine, h2.noNl]

end Eno
