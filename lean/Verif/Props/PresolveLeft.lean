import Verif.Proof.PresolveShape
import Verif.Props.Presolve

/-!
# C73: what presolving leaves

These theorems hold for every run of presolving, also for those in which a rule makes a mistake (C33, C34):
the mistakes concern the values of bounds and right-hand sides, never the structure of the problem.
-/

namespace Relp

open Presolve

/-- **C73**: if presolving returns a problem, that problem is consistent and its solutions can be extended to
the original variables; it has a variable, each of its variables is in a constraint, and each of its
constraints has at least two variables. -/
theorem C73_left {G H : GeneralForm} (hG : G.Fresh) (fuel : ℕ) (h : presolve fuel G = .ok H) :
    H.Consistent ∧ (∀ y, ∃ values, H.Extends y values) ∧
    0 < H.vars.length ∧
    (∀ j, ∃ i, H.toProgram.A i j ≠ 0) ∧
    ∀ i, ∃ j k, j ≠ k ∧ H.toProgram.A i j ≠ 0 ∧ H.toProgram.A i k ≠ 0 := by
  obtain ⟨s, hs, hone, hres, _, hne⟩ := presolve_left hG h
  refine ⟨hres.consistent,
    fun y => hres.exists_values hs.varsNodup hs.ordered hs.varsRange hs.mentioned y, ?_,
    presolve_occupied hs hone hres⟩
  rw [hres.varsLength]
  exact List.length_pos_iff.2 hne

/-- So the matrix that is left has an entry. -/
theorem C73_entry {G H : GeneralForm} (hG : G.Fresh) (fuel : ℕ) (h : presolve fuel G = .ok H) :
    ∃ c ∈ H.constraints.data, c ≠ [] := by
  obtain ⟨hc, -, h0, hv, -⟩ := C73_left hG fuel h
  obtain ⟨i, hi⟩ := hv ⟨0, h0⟩
  have hlt : 0 < H.constraints.data.length := hc.dataLength ▸ h0
  refine ⟨H.constraints.data[0], List.getElem_mem hlt, fun he => hi ?_⟩
  show SVec.val (H.constraints.data.getD 0 []) i = 0
  rw [List.getD_eq_getElem _ _ hlt, he]
  rfl

/-- **C73**: the problem that presolving returns is a part of the problem: it consists of some of its
constraints and some of its variables, in the same order, with the same coefficients and costs; the direction
of optimisation and the names are the same, and the variables are recorded under their original number. -/
theorem C73_part {G H : GeneralForm} (hG : G.Fresh) (fuel : ℕ) (h : presolve fuel G = .ok H) :
    H.objective = G.objective ∧ H.original.map (·.1) = G.original.map (·.1) ∧
    ∃ row : Fin H.constraintTypes.length → Fin G.constraintTypes.length,
    ∃ var : Fin H.vars.length → Fin G.vars.length, StrictMono row ∧ StrictMono var ∧
      (∀ j, H.fromActive[j.val]? = some (var j).val) ∧
      (∀ i j, H.toProgram.A i j = G.toProgram.A (row i) (var j)) ∧
      ∀ j, H.toProgram.c j = G.toProgram.c (var j) := by
  obtain ⟨s, _, _, hres, _, _⟩ := presolve_left hG h
  exact ⟨hres.objective, hres.names, hres.part⟩

/-- **C73**: the only aborts are the two that `C35_not_unreachable` and `C46_not_reported` show; no counter is
decreased below zero and no index is out of range. -/
theorem C73_aborts {G : GeneralForm} (hG : G.Fresh) (fuel : ℕ) {a : Abort}
    (h : presolve fuel G = .error (.abort a)) : a = .unwrapNone ∨ a = .unreachable :=
  presolve_aborts hG h

/-! Concrete cases. -/

example : 0 < Example.textbookLeft.vars.length :=
  (C73_left Example.textbook_fresh.1 100 Example.textbook_presolved).2.2.1

example : ∃ row var, StrictMono row ∧ StrictMono var ∧
    ∀ i j, Example.textbookLeft.toProgram.A i j = Example.textbook.toProgram.A (row i) (var j) := by
  obtain ⟨_, _, row, var, h1, h2, _, h3, _⟩ :=
    C73_part Example.textbook_fresh.1 100 Example.textbook_presolved
  exact ⟨row, var, h1, h2, h3⟩

example : (Abort.unwrapNone : Abort) = .unwrapNone ∨ (Abort.unwrapNone : Abort) = .unreachable :=
  C73_aborts Example.crossingEmpty_fresh 100 C46_not_reported.2.2

end Relp
