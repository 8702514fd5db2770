import Verif.Proof.Roomy
import Verif.Props.Pipeline
import Verif.Props.PresolveDebug

/-!
# Problems that are presolved rightly, by their form (C35, C44, C62, C64)

The theorems of C44, C62 and C64 about all problems have a hypothesis about the run of presolving. Here it is
replaced by one about the problem: `Roomy` (`Verif.Spec.Roomy`). Constraints with one variable, fixed
variables, variables with bounds and empty constraints and variables may occur in such problems.
-/

namespace Relp

open Presolve

section

variable {G : GeneralForm} (hG : G.Fresh) (hp : G.Proper) (hr : Roomy G)

include hG hp hr

/-- **C44**, partial: presolving a roomy problem is right, and never aborts. Missing: problems that are not
roomy. -/
theorem C44_roomy_partial (fuel : ℕ) : ResultCorrect G (fun _ => False) (presolve fuel G) :=
  roomy_correct hG hp hr fuel

/-- **C35**, partial: presolving a roomy problem never aborts. -/
theorem C35_roomy_partial (fuel : ℕ) (a : Abort) : presolve fuel G ≠ .error (.abort a) := by
  intro h
  have := roomy_correct hG hp hr fuel
  rw [h] at this
  exact this

/-- **C44**, partial: every roomy problem is solved with presolving and the first profitable rule: there is
one answer, for all sufficient numbers of steps, and it is right. Missing: problems that are not roomy, and
an unbounded verdict for infeasible problems (C45). -/
theorem C44_roomy_answers_partial :
    ∃ N result, (∀ presolveFuel ≥ N, ∀ fuel ≥ N,
        G.presolveAndSolve .rows .firstProfitable presolveFuel fuel = some result) ∧
      match result with
      | .infeasible => G.toProgram.Infeasible
      | .unbounded => G.Unbounded ∨ G.toProgram.Infeasible
      | .finiteOptimum solution => ∃ x, G.Best x ∧ G.Extends x solution.values ∧
        (G.objective = .minimize → solution.objectiveValue = G.toProgram.objective x) := by
  obtain ⟨N, result, hne, hN⟩ := C48_presolve_terminates G hG.toConsistent
  exact GeneralForm.C44_answers_partial hG hp N
    ((roomy_correct hG hp hr N).mono fun a h => (C35_roomy_partial hG hp hr N a h).elim)
    (by rw [hN N le_rfl]; exact hne) (C35_roomy_partial hG hp hr N _)

/-- **C64**, partial: for a roomy problem a debug build gives exactly the result of a release build. -/
theorem C64_roomy_partial (fuel : ℕ) : presolveDebug fuel G = presolve fuel G :=
  C64_same_result_partial hG hp fuel
    (fun s h => (run_calm hG hr fuel s 0 (roomy_start hG hp hr h).1 (roomy_start hG hp hr h).2).1)
    fun s h => (Calm.unfixed hG hr (fun _ => false) fuel s 0 (roomy_start hG hp hr h).1
      (roomy_start hG hp hr h).2).1

end

namespace Mps

open Spec

section

variable (f : Format) (F : File) (text : Text) (lines : List Text) (ht : Contents text lines)
  (hw : F.Written f.layout lines) (hp : F.Proper) (hc : F.Consistent) (hs : F.Sound)
  (hconf : ¬F.Conflict) (hrep : ¬F.RepeatedRhs)

include ht hw hp hc hs hconf hrep

/-- **C62**, partial: each text in which a file is written that does not contradict itself, and that is
converted to a roomy problem, gets one answer, for all sufficient numbers of steps, and it is right. Missing:
files that are not `Sound`, problems that are not `Roomy`, the objective value for maximisation, and an
unbounded verdict for infeasible files (C45). -/
theorem C62_roomy_partial
    (hd : ∀ p G, f.parse text = .ok p → p.toGeneralForm = .ok G → Roomy G) :
    ∃ N result, (∀ presolveFuel ≥ N, ∀ fuel ≥ N,
        solveText f.parse .rows .firstProfitable presolveFuel fuel text = some result) ∧
      match result with
      | .infeasible => ∀ x, ¬F.Feasible x
      | .unbounded => (∃ x, F.Feasible x) → ∀ M, ∃ x, F.Feasible x ∧
        match F.sense.getD .minimize with
        | .minimize => F.objectiveValue x < M
        | .maximize => M < F.objectiveValue x
      | .finiteOptimum solution => ∃ x, F.Best x ∧
        solution.values = (F.blocks.map fun b => (String.ofList b.name, x b.name)) ∧
        (F.sense.getD .minimize = .minimize → solution.objectiveValue = F.objectiveValue x) := by
  obtain ⟨p', h1', hdesc⟩ := (C55_reading f F text lines ht hw hp).1 hc
  refine C62_answers_partial f F text lines ht hw hp hc hs hconf hrep fun p G h1 hG => ?_
  cases h1.symm.trans h1'
  have hfr := toGeneralForm_fresh hG (wellFormed hdesc hc hs)
  have hpr := toGeneralForm_proper hG (rangesMeant hdesc hc hs) (bounds_meant hdesc hc hs)
  have hr := hd _ G h1 hG
  obtain ⟨N, result, hne, hN⟩ := C48_presolve_terminates G hfr.toConsistent
  refine ⟨fun _ => false, N, ⟨fun s h => ?_, fun s t _ _ j hj => by cases hj⟩,
    by rw [hN N le_rfl]; exact hne, C35_roomy_partial hfr hpr hr N _⟩
  obtain ⟨s1, s2⟩ := roomy_start hfr hpr hr h
  exact ⟨(run_calm hfr hr N s 0 s1 s2).1, (Calm.unfixed hfr hr _ N s 0 s1 s2).2⟩

end

/-- The small example, with `x ≤ -1` and `x ≥ 0`, gets the right answer. -/
example : ∃ N result, (∀ presolveFuel ≥ N, ∀ fuel ≥ N,
      solveText parseFree .rows .firstProfitable presolveFuel fuel
        (Example.unlines (Example.smallLines true [])) = some result) ∧
    (result = .infeasible → ∀ x, ¬(Example.small true none).Feasible x) := by
  have e : ∃ p, parseFree (Example.unlines (Example.smallLines true [])) = .ok p ∧ p.toGeneralForm =
      .ok (.new .minimize ⟨[[(0, 1)]], 1, 1⟩ [.less] [-1] [⟨.continuous, 1, some 0, none, 0, false⟩] ["X"] 0) :=
    ⟨_, rfl, by decide +kernel⟩
  obtain ⟨p, e1, e2⟩ := e
  have h1 := Example.contents_unlines (Example.smallLines true []) (by decide +kernel)
  have h2 : (Example.small true none).Written Format.free.layout
      ((Example.smallLines true []).filter keep) := by
    have : (Example.smallLines true []).filter keep = Example.smallLines true [] := by decide +kernel
    rw [this]
    exact Example.small_written true rfl
  have h3 : (Example.small true none).Proper :=
    Example.small_proper true ⟨fun b hb => (nomatch hb), .nil⟩ fun b hb => (nomatch hb)
  have h4 : (Example.small true none).Consistent := Example.small_consistent true fun b hb => (nomatch hb)
  have h5 : (Example.small true none).Sound := Example.small_sound true fun b hb => (nomatch hb)
  have h6 : ¬(Example.small true none).Conflict ∧ ¬(Example.small true none).RepeatedRhs := by
    obtain ⟨p', k1, -, k3⟩ := C58_rejected_partial .free _ _ _ h1 h2 h3 h4 h5
    cases k1.symm.trans e1
    rw [e2] at k3
    exact not_or.1 fun h => nomatch k3.2 h
  obtain ⟨N, result, h7, h8⟩ := C62_roomy_partial .free _ _ _ h1 h2 h3 h4 h5 h6.1 h6.2 (by
    intro p' G hp hG
    cases hp.symm.trans e1
    cases hG.symm.trans e2
    exact roomy_spec (by decide +kernel))
  refine ⟨N, result, h7, ?_⟩
  rintro rfl
  exact h8

end Mps

namespace Example

/-- Minimise `x0 + 2 x1 + 3 x2 + x3` with `x0 ≤ 4`, `x0 + x1 + x2 + x3 ≥ 10`, `2 x1 + x2 = 8`, `x0 ≥ 0` and
`x3 = 1`. -/
def spacious : GeneralForm :=
  problem [[(0, 1), (1, 1)], [(1, 1), (2, 2)], [(1, 1), (2, 1)], [(1, 1)]]
    [.less, .greater, .equal] [4, 10, 8]
    [vari 1 (some 0) none, vari 2 none none, vari 3 none none, vari 1 (some 1) (some 1)]
    ["x0", "x1", "x2", "x3"]

theorem spacious_fresh : spacious.Fresh ∧ spacious.Proper :=
  ⟨problem_fresh _ _ _ _ _ rfl rfl (by decide +kernel) (by decide +kernel) rfl (by decide +kernel),
    by decide +kernel, by intro r hr; simp [spacious, problem, GeneralForm.new] at hr⟩

theorem spacious_roomy : Roomy spacious := roomy_spec (by decide +kernel)

/-- A constraint is replaced by a bound, and a variable is removed. -/
theorem spacious_presolved : presolve 100 spacious = .ok
    { objective := .minimize
      fixedCost := 1
      constraints := ⟨[[(0, 1)], [(0, 1), (1, 2)], [(0, 1), (1, 1)]], 3, 2⟩
      constraintTypes := [.greater, .equal]
      b := [9, 8]
      vars := [vari 1 (some 0) (some 4), vari 2 none none, vari 3 none none]
      original := [("x0", .active 0), ("x1", .active 1), ("x2", .active 2), ("x3", .removed (.solved 1))]
      fromActive := [0, 1, 2] } := by decide +kernel

attribute [local irreducible] presolve in
/-- Its optimum is found. -/
example : ∃ x, spacious.Best x ∧ spacious.Extends x [("x0", 4), ("x1", 3), ("x2", 2), ("x3", 1)] := by
  obtain ⟨x, h1, h2, -⟩ := C44_optimum_partial 100 .lu .steepestDescentAlongObjective 30
    ((C44_roomy_partial spacious_fresh.1 spacious_fresh.2 spacious_roomy 100).mono fun a h =>
      (C35_roomy_partial spacious_fresh.1 spacious_fresh.2 spacious_roomy 100 a h).elim)
    (solution := ⟨17, [("x0", 4), ("x1", 3), ("x2", 2), ("x3", 1)]⟩) (by decide +kernel)
  exact ⟨x, h1, h2⟩

/-- A flow through two places, with non-negative variables: `x0 + x1 - x2 - x3 = 2`,
`x2 + x3 - x4 - x5 - x6 = 1` and `x6 ≤ 3`. -/
def junctions : GeneralForm :=
  problem [[(0, 1)], [(0, 1)], [(0, -1), (1, 1)], [(0, -1), (1, 1)], [(1, -1)], [(1, -1)], [(1, -1), (2, 1)]]
    [.equal, .equal, .less] [2, 1, 3]
    [vari 1 (some 0) none, vari 2 (some 0) none, vari 3 (some 0) none, vari 4 (some 0) none,
      vari 5 (some 0) none, vari 6 (some 0) none, vari 7 (some 0) none]
    ["x0", "x1", "x2", "x3", "x4", "x5", "x6"]

example : Roomy junctions := roomy_spec (by decide +kernel)

/-- A small problem with non-negative variables need not be roomy, and `slackPositive`, which is presolved
wrongly, is not. -/
example : roomy textbook = false ∧ roomy slackPositive = false := by decide +kernel

end Example

end Relp
