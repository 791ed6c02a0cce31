import Verif.Props.GrammarProps

/-!
# More about C06: which characters are white space

The characters that Unicode calls white space or that are separators for the bidirectional algorithm, as Python counts them.
-/

namespace Eno

open Spec

namespace Spec

/-- Code points: the white space of ASCII with the file, group, record and unit separators, next line, the no-break space, and the spaces and separators of
Unicode. -/
def spaceCodes : List Nat :=
  [9, 10, 11, 12, 13, 28, 29, 30, 31, 32, 133, 160, 5760, 8192, 8193, 8194, 8195, 8196, 8197, 8198, 8199, 8200, 8201, 8202, 8232, 8233, 8239, 8287, 12288]

end Spec

theorem C06_spaces (c : Char) : isSp c = true ↔ c.toNat ∈ spaceCodes := by
  simp only [isSp, spaceCodes, Bool.or_eq_true, Bool.and_eq_true, decide_eq_true_eq, beq_iff_eq, List.mem_cons, List.not_mem_nil, or_false]
  omega

/-- White space around what a line says is any number of these characters, but for line feeds. -/
theorem C06_blank (w : Str) : Blank w ↔ ∀ c ∈ w, c.toNat ∈ spaceCodes ∧ c.toNat ≠ 10 := by
  have h10 : ∀ c : Char, c = '\n' ↔ c.toNat = 10 := by
    intro c
    constructor
    · rintro rfl; rfl
    · intro h; exact Char.toNat_inj.1 h
  unfold Blank
  refine forall_congr' fun c => forall_congr' fun _ => ?_
  rw [← C06_spaces]
  simp only [isHs, Bool.and_eq_true, bne_iff_ne, ne_eq, h10]

/-- So a line is empty if and only if it consists of these. -/
example : Blank (chars!" \t\u001c 　") := by decide

/-- A unit separator is white space, a zero width space is not. -/
example : (tokAt 0 (chars!"\u001fa: b\u001f")).map (fun t => Line.ofBody t.body) = some (.element (chars!"a") (some (chars!"b"))) ∧
    (tokAt 0 (chars!"a: ​")).map (fun t => Line.ofBody t.body) = some (.element (chars!"a") (some (chars!"​"))) := by decide +kernel

end Eno
