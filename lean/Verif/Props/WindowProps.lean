import Verif.Props.ErrorProps

/-!
# More about C58: exactly which lines a snippet shows
-/

namespace Eno

open Spec

variable {o : Options}

/-- A line is shown if and only if it is marked or within two lines of a marked line other than the first of the document. -/
theorem C58_exact {ctx : Ctx} {report : Snippet → Except PyExc Snippet} {out : Str} {s : Snippet} (h : makeSnippet { o with reporter := .text } ctx report = .ok out)
    (hs : report (List.replicate ctx.lineCount none) = .ok s) (hm : Marked s) (hne : ∃ n, IsMarked s n) :
    ∃ rows, out = plainSnippet o rows ∧ ∀ n, n < s.length →
      ((∃ m t, SnipRow.line m (n + 1) t ∈ rows) ↔ IsMarked s n ∨ ∃ n', IsMarked s n' ∧ 0 < n' ∧ n ≤ n' + 2 ∧ n' ≤ n + 2) := by
  unfold makeSnippet at h
  cases hi : buildIndex ctx with
  | error e => rw [hi] at h; cases h
  | ok index =>
    rw [hi] at h
    simp only [hs, text_print, Except.ok.injEq] at h
    refine ⟨_, h.symm, fun n hn => ?_⟩
    constructor
    · rintro ⟨m, t, hr⟩
      obtain ⟨n1, tag, hk, rfl, hw, hno, hmt⟩ := rows_mem.1 hr
      obtain rfl : n = n1 := by omega
      by_cases hd : tag = .display
      · subst hd
        obtain ⟨_, h1, h2⟩ := (window_plain hm hne).1 hw
        right
        rcases h2 with h2 | h2 | ⟨hn, h2⟩ | ⟨hn, h2⟩ <;> exact ⟨_, h2, by omega, by omega, by omega⟩
      · left
        have hsn := window_unmarked hw hd hno hm hne
        refine ⟨m, ?_⟩
        clear hr hw hn
        cases tag <;> simp_all [markOf] <;> subst hmt <;> exact hsn
    · intro hx
      by_cases hM : IsMarked s n
      · obtain ⟨m, hM⟩ := hM
        cases m with
        | plain => exact hM.elim
        | emphasis => exact ⟨_, _, rows_mem.2 ⟨n, .emphasize, rfl, rfl, window_mark hM, by simp, rfl⟩⟩
        | indication => exact ⟨_, _, rows_mem.2 ⟨n, .indicate, rfl, rfl, window_mark hM, by simp, rfl⟩⟩
        | question => exact ⟨_, _, rows_mem.2 ⟨n, .question, rfl, rfl, window_mark hM, by simp, rfl⟩⟩
      · obtain ⟨n', h1, h2, h3, h4⟩ := hx.resolve_left hM
        refine ⟨_, _, rows_mem.2 ⟨n, .display, rfl, rfl, (window_plain hm hne).2 ⟨hn, hM, ?_⟩, by simp, rfl⟩⟩
        have q : n ≠ n' := by rintro rfl; exact hM h1
        obtain q | q | q | q : n' = n + 1 ∨ n' = n + 2 ∨ n = n' + 1 ∨ n = n' + 2 := by omega
        · subst q; exact .inl h1
        · subst q; exact .inr (.inl h1)
        · subst q; exact .inr (.inr (.inl ⟨by omega, h1⟩))
        · subst q; exact .inr (.inr (.inr ⟨by omega, h1⟩))

/-- A report that marks a line: that of an invalid second line, of which the fifth line is not shown but the fourth is. -/
example : (match parse {} (chars!"a: 1\nb\nc: 2\nd: 3\ne: 4") with
    | .error (.parseError e) => e.snippet == chars!"   Line | Content\n      1 | a: 1\n >    2 | b\n      3 | c: 2\n      4 | d: 3\n   ..."
    | _ => false) = true := by decide +kernel

example : Marked (.none :: some .emphasize :: List.replicate 3 none) ∧ IsMarked (.none :: some .emphasize :: List.replicate 3 none) 1 := by
  refine ⟨?_, ⟨.emphasis, rfl⟩⟩
  intro t ht
  cases t <;> simp at ht <;> simp

end Eno
