import Verif.Model.SolveFile
import Verif.Props.MpsParse
import Verif.Props.Presolve
import Verif.Props.Termination

/-!
# From the text of a file to a solution (C62)

All stages in a row: a text in which a file is written (Spec/MpsText.lean) is read, converted, presolved and
solved. Spec/MpsMeaning.lean gives the linear program of a file in terms of its names, without reference to any
of the stages.
-/

namespace Relp

namespace Presolve

variable {G : GeneralForm}

theorem presolveLoop_mono : ∀ (fuel : ℕ) (s : Index) (iterations : ℕ),
    presolveLoop G fuel s iterations ≠ .error .outOfFuel → ∀ fuel' ≥ fuel,
      presolveLoop G fuel' s iterations = presolveLoop G fuel s iterations
  | fuel, s, iterations, h, fuel', hf => by
    unfold presolveLoop at h ⊢
    split
    · rename_i hc
      rw [if_pos hc] at h
      cases fuel with
      | zero => exact absurd rfl h
      | succ fuel =>
        cases fuel' with
        | zero => omega
        | succ fuel' =>
          dsimp only at h ⊢
          cases hs : presolveStep G s with
          | error e => rfl
          | ok r =>
            rw [hs] at h
            obtain ⟨t, change⟩ := r
            exact presolveLoop_mono fuel t _ h fuel' (by omega)
    · rfl

/-- A result that presolving has with some fuel, it has with more fuel too. -/
theorem presolve_mono {fuel : ℕ} (h : presolve fuel G ≠ .error .outOfFuel) {fuel' : ℕ} (hf : fuel ≤ fuel') :
    presolve fuel' G = presolve fuel G := by
  unfold presolve at h ⊢
  cases hs : Index.new G with
  | error e => rfl
  | ok s =>
    rw [hs] at h
    have hl : presolveLoop G fuel s 0 ≠ .error .outOfFuel := fun hl => h (by
      change (presolveLoop G fuel s 0 >>= _) = _
      rw [hl]
      rfl)
    change (presolveLoop G fuel' s 0 >>= _) = (presolveLoop G fuel s 0 >>= _)
    rw [presolveLoop_mono fuel s 0 hl fuel' hf]

end Presolve

open Presolve in
/-- **C44**, partial: a problem that presolving handles rightly and without abort is solved, with the first
profitable rule: there is one answer, for all sufficient numbers of steps, and it is right. (With enough fuel,
`hend` holds for every consistent problem, see `C48_presolve_terminates`; `hc` by
`C44_presolve_steps_partial`.) Missing: what is missing there, aborts (C35), and an unbounded verdict for
infeasible problems (C45). -/
theorem GeneralForm.C44_answers_partial {G : GeneralForm} (hG : G.Fresh) (hp : G.Proper) (presolveFuel : ℕ)
    (hc : ResultCorrect G (fun a => a = .unreachable) (presolve presolveFuel G))
    (hend : presolve presolveFuel G ≠ .error .outOfFuel)
    (hu : presolve presolveFuel G ≠ .error (.abort .unreachable)) :
    ∃ N result, (∀ presolveFuel ≥ N, ∀ fuel ≥ N,
        G.presolveAndSolve .rows .firstProfitable presolveFuel fuel = some result) ∧
      match result with
      | .infeasible => G.toProgram.Infeasible
      | .unbounded => G.Unbounded ∨ G.toProgram.Infeasible
      | .finiteOptimum solution => ∃ x, G.Best x ∧ G.Extends x solution.values ∧
        (G.objective = .minimize → solution.objectiveValue = G.toProgram.objective x) := by
  have key : ∃ N result, presolveFuel ≤ N ∧ ∀ presolveFuel ≥ N, ∀ fuel ≥ N,
      G.presolveAndSolve .rows .firstProfitable presolveFuel fuel = some result := by
    cases h : presolve presolveFuel G with
    | error e =>
      have hall : ∀ fuel ≥ presolveFuel, presolve fuel G = .error e := fun fuel hf =>
        (presolve_mono hend hf).trans h
      rw [h] at hc hend hu
      cases e with
      | outOfFuel => exact absurd rfl hend
      | abort a =>
        have : a = .unreachable := hc
        subst this
        exact absurd rfl hu
      | verdict r =>
        exact ⟨presolveFuel, r, le_rfl, fun pf hpf _ _ => by
          unfold GeneralForm.presolveAndSolve
          rw [hall pf hpf]⟩
    | ok H =>
      have hall : ∀ fuel ≥ presolveFuel, presolve fuel G = .ok H := fun fuel hf =>
        (presolve_mono hend hf).trans h
      rw [h] at hc
      obtain ⟨⟨hH, hHp, hHa, -⟩, -⟩ := hc
      obtain ⟨N, result, hN, -⟩ := GeneralForm.C43_answers H hH hHp hHa
      exact ⟨max presolveFuel N, result, le_max_left _ _, fun pf hpf fuel hfuel => by
        unfold GeneralForm.presolveAndSolve
        rw [hall pf (le_trans (le_max_left _ _) hpf)]
        dsimp only
        rw [hN fuel (le_trans (le_max_right _ _) hfuel)]
        rfl⟩
  obtain ⟨N, result, hle, hN⟩ := key
  refine ⟨N, result, hN, ?_⟩
  have hz := hN N le_rfl N le_rfl
  rw [← presolve_mono hend hle] at hc
  cases result with
  | infeasible => exact C44_infeasible_partial N _ _ _ hc hz
  | unbounded => exact C44_unbounded_partial N _ _ _ hc hz
  | finiteOptimum solution => exact C44_optimum_partial N _ _ _ hc hz

namespace Mps

open Spec

/-- What is converted has not been presolved. -/
theorem toGeneralForm_fresh {p : Mps} {G : GeneralForm} (h : p.toGeneralForm = .ok G) (hw : p.WellFormed) :
    G.Fresh := by
  obtain ⟨hc, -⟩ := toGeneralForm_consistent h hw
  obtain ⟨vars, types, b, -, -, rfl⟩ := toGeneralForm_eq h
  exact GeneralForm.new_fresh hc

/-- Presolving the problem stays clear of the defects of C33 and C34: each step is safe, and constraints are only
given up because of bounds that are not discarded, or derived bounds of the variables in `F`, which are kept. -/
structure Careful (G : GeneralForm) (F : ℕ → Bool) (presolveFuel : ℕ) : Prop where
  steps : ∀ s, Presolve.Index.new G = .ok s →
    Presolve.SafeRun G presolveFuel s 0 ∧ Presolve.KeptRun G F presolveFuel s 0
  kept : ∀ s t, Presolve.Index.new G = .ok s → Presolve.presolveLoop G presolveFuel s 0 = .ok t →
    ∀ j, F j = true → Presolve.OnlyDerived G t.updates j

section

variable (f : Format) (F : File) (text : Text) (lines : List Text) (ht : Contents text lines)
  (hw : F.Written f.layout lines) (hp : F.Proper) (hc : F.Consistent) (hs : F.Sound)
  (inv : InverseName) (rule : RuleName) (presolveFuel fuel : ℕ)

section

variable (hd : ∀ p G, f.parse text = .ok p → p.toGeneralForm = .ok G → G.Fresh → G.Proper →
  Presolve.ResultCorrect G (fun a => a = .unreachable) (Presolve.presolve presolveFuel G))

include ht hw hp hc hs hd

/-- The stages before presolving. -/
theorem solveText_stages {r : LinearProgramType}
    (hz : solveText f.parse inv rule presolveFuel fuel text = some r) :
    ∃ p G, F.Describes p ∧ p.toGeneralForm = .ok G ∧ p.WellFormed ∧ RangesMeant p ∧ G.Fresh ∧ G.Proper ∧
      Presolve.ResultCorrect G (fun a => a = .unreachable) (Presolve.presolve presolveFuel G) ∧
      G.presolveAndSolve inv rule presolveFuel fuel = some r := by
  obtain ⟨p, h1, h2⟩ := (C55_reading f F text lines ht hw hp).1 hc
  unfold solveText at hz
  rw [h1] at hz
  dsimp only at hz
  cases hG : p.toGeneralForm with
  | error e => rw [hG] at hz; cases hz
  | ok G =>
    rw [hG] at hz
    have hwf := wellFormed h2 hc hs
    have hm := rangesMeant h2 hc hs
    have hpr := toGeneralForm_proper hG hm (bounds_meant h2 hc hs)
    have hfr := toGeneralForm_fresh hG hwf
    exact ⟨p, G, h2, hG, hwf, hm, hfr, hpr, hd p G h1 hG hfr hpr, hz⟩

theorem solveText_optimum (solution : GeneralForm.Solution)
    (hz : solveText f.parse inv rule presolveFuel fuel text = some (.finiteOptimum solution)) :
    ∃ x, F.Best x ∧ solution.values = (F.blocks.map fun b => (String.ofList b.name, x b.name)) ∧
      (F.sense.getD .minimize = .minimize → solution.objectiveValue = F.objectiveValue x) := by
  obtain ⟨p, G, h2, hG, hwf, hm, hfr, hpr, hcor, hz⟩ :=
    solveText_stages f F text lines ht hw hp hc hs inv rule presolveFuel fuel hd hz
  obtain ⟨-, ho, -⟩ := C52_conversion_partial p G hG hwf hm
  obtain ⟨z, z1, z2, z3⟩ := C44_optimum_partial presolveFuel inv rule fuel hcor hz
  obtain ⟨x, x1, x2, x3⟩ := best_of_converted hG hwf hm z1 z2
  obtain ⟨y, rfl⟩ := point_of h2 hs.names x
  refine ⟨y, best_of h2 hc hs.names x1, ?_, fun hmin => ?_⟩
  · rw [x2, ← values_eq h2 y]
  · rw [z3 (ho.trans (h2.objective.trans hmin)), x3, objective_eq h2 hc.cost]

theorem solveText_infeasible
    (hz : solveText f.parse inv rule presolveFuel fuel text = some .infeasible) (x : Text → ℚ) :
    ¬F.Feasible x := by
  obtain ⟨p, G, h2, hG, hwf, hm, hfr, hpr, hcor, hz⟩ :=
    solveText_stages f F text lines ht hw hp hc hs inv rule presolveFuel fuel hd hz
  intro hx
  exact infeasible_of_converted hG hwf hm
    (C44_infeasible_partial presolveFuel inv rule fuel hcor hz) _
    ((describes_feasible h2 hc hs.names x).2 hx)

theorem solveText_unbounded
    (hz : solveText f.parse inv rule presolveFuel fuel text = some .unbounded) (hx : ∃ x, F.Feasible x)
    (M : ℚ) :
    ∃ x, F.Feasible x ∧
      match F.sense.getD .minimize with
      | .minimize => F.objectiveValue x < M
      | .maximize => M < F.objectiveValue x := by
  obtain ⟨p, G, h2, hG, hwf, hm, hfr, hpr, hcor, hz⟩ :=
    solveText_stages f F text lines ht hw hp hc hs inv rule presolveFuel fuel hd hz
  rcases C44_unbounded_partial presolveFuel inv rule fuel hcor hz with hu | hi
  · obtain ⟨x, x1, x2⟩ := unbounded_of_converted hG hwf hm hu M
    obtain ⟨y, rfl⟩ := point_of h2 hs.names x
    refine ⟨y, (describes_feasible h2 hc hs.names y).1 x1, ?_⟩
    rw [objective_eq h2 hc.cost, h2.objective] at x2
    exact x2
  · obtain ⟨x, hx⟩ := hx
    exact absurd ((describes_feasible h2 hc hs.names x).2 hx) (infeasible_of_converted hG hwf hm hi _)

end

theorem correct_of_careful
    (hd : ∀ p G, f.parse text = .ok p → p.toGeneralForm = .ok G → ∃ L, Careful G L presolveFuel)
    (p : Mps) (G : GeneralForm) (h1 : f.parse text = .ok p) (hG : p.toGeneralForm = .ok G)
    (hfr : G.Fresh) (hpr : G.Proper) :
    Presolve.ResultCorrect G (fun a => a = .unreachable) (Presolve.presolve presolveFuel G) := by
  obtain ⟨L, hL⟩ := hd p G h1 hG
  exact C44_presolve_steps_partial hfr hpr presolveFuel L hL.steps hL.kept

variable (hd : ∀ p G, f.parse text = .ok p → p.toGeneralForm = .ok G → ∃ L, Careful G L presolveFuel)

include ht hw hp hc hs hd

/-- **C62**, partial: an optimum that is found for a text, by reading, converting, presolving and solving, is an
optimum of the linear program of the file that is written there, and gives the value of each column by its name,
in their order. Missing: files that are not `Sound`, runs of presolving that are not `Careful`, and the objective
value for maximisation. -/
theorem C62_optimum_partial (solution : GeneralForm.Solution)
    (hz : solveText f.parse inv rule presolveFuel fuel text = some (.finiteOptimum solution)) :
    ∃ x, F.Best x ∧ solution.values = (F.blocks.map fun b => (String.ofList b.name, x b.name)) ∧
      (F.sense.getD .minimize = .minimize → solution.objectiveValue = F.objectiveValue x) :=
  solveText_optimum f F text lines ht hw hp hc hs inv rule presolveFuel fuel
    (correct_of_careful f text presolveFuel hd) solution hz

/-- **C62**, partial: if the linear program of a text is said to be infeasible, the one of the file that is written
there is. -/
theorem C62_infeasible_partial
    (hz : solveText f.parse inv rule presolveFuel fuel text = some .infeasible) (x : Text → ℚ) :
    ¬F.Feasible x :=
  solveText_infeasible f F text lines ht hw hp hc hs inv rule presolveFuel fuel
    (correct_of_careful f text presolveFuel hd) hz x

/-- **C62**, partial: if the linear program of a text is said to be unbounded, and the file that is written there
has a feasible point, it has points of arbitrarily good objective value. Missing: it may be infeasible, see
`C45_not_feasible`. -/
theorem C62_unbounded_partial
    (hz : solveText f.parse inv rule presolveFuel fuel text = some .unbounded) (hx : ∃ x, F.Feasible x)
    (M : ℚ) :
    ∃ x, F.Feasible x ∧
      match F.sense.getD .minimize with
      | .minimize => F.objectiveValue x < M
      | .maximize => M < F.objectiveValue x :=
  solveText_unbounded f F text lines ht hw hp hc hs inv rule presolveFuel fuel
    (correct_of_careful f text presolveFuel hd) hz hx M

end

section

variable (f : Format) (F : File) (text : Text) (lines : List Text) (ht : Contents text lines)
  (hw : F.Written f.layout lines) (hp : F.Proper) (hc : F.Consistent) (hs : F.Sound)
  (hconf : ¬F.Conflict) (hrep : ¬F.RepeatedRhs)

include ht hw hp hc hs hconf hrep

/-- **C58**, partial: each text in which a file is written that does not contradict itself is read, converted and
solved, with the first profitable rule: there is one answer, for all sufficient numbers of iterations, and it is
right. Missing: files that are not `Sound`, and the objective value for maximisation. -/
theorem C58_answers_partial :
    ∃ p G N result, f.parse text = .ok p ∧ p.toGeneralForm = .ok G ∧
      (∀ fuel ≥ N, G.solve .rows .firstProfitable fuel = .ok result) ∧
      match result with
      | .infeasible => ∀ x, ¬F.Feasible x
      | .unbounded => ∀ M, ∃ x, F.Feasible x ∧
        match F.sense.getD .minimize with
        | .minimize => F.objectiveValue x < M
        | .maximize => M < F.objectiveValue x
      | .finiteOptimum solution => ∃ x, F.Best x ∧
        solution.values = (F.blocks.map fun b => (String.ofList b.name, x b.name)) ∧
        (F.sense.getD .minimize = .minimize → solution.objectiveValue = F.objectiveValue x) := by
  obtain ⟨p, h1, h2, h3⟩ := C58_rejected_partial f F text lines ht hw hp hc hs
  obtain ⟨p', h1', hd⟩ := (C55_reading f F text lines ht hw hp).1 hc
  cases h1.symm.trans h1'
  rcases h2 with ⟨G, hG⟩ | he
  · obtain ⟨g1, g2⟩ := toGeneralForm_consistent hG (wellFormed hd hc hs)
    obtain ⟨N, result, hN, -⟩ := GeneralForm.C43_answers G g1
      (toGeneralForm_proper hG (rangesMeant hd hc hs) (bounds_meant hd hc hs)) g2
    refine ⟨p, G, N, result, h1, hG, hN, ?_⟩
    have hz := hN N le_rfl
    cases result with
    | infeasible => exact C58_infeasible_partial f F text lines ht hw hp hc hs p h1 G hG _ _ N hz
    | unbounded => exact C58_unbounded_partial f F text lines ht hw hp hc hs p h1 G hG _ _ N hz
    | finiteOptimum solution =>
      exact C58_optimum_partial f F text lines ht hw hp hc hs p h1 G hG _ _ N solution hz
  · rcases h3.1 he with h | h
    · exact absurd h hconf
    · exact absurd h hrep

/-- **C62**, partial: each text in which a file is written that does not contradict itself, and whose presolve run is
careful and does not abort, gets one answer, for all sufficient numbers of steps, and it is right. Missing: files
that are not `Sound`, runs of presolving that are not `Careful` or that abort (C35), the objective value for
maximisation, and an unbounded verdict for infeasible files (C45). -/
theorem C62_answers_partial
    (hd : ∀ p G, f.parse text = .ok p → p.toGeneralForm = .ok G → ∃ L presolveFuel, Careful G L presolveFuel ∧
      Presolve.presolve presolveFuel G ≠ .error .outOfFuel ∧
      Presolve.presolve presolveFuel G ≠ .error (.abort .unreachable)) :
    ∃ N result, (∀ presolveFuel ≥ N, ∀ fuel ≥ N,
        solveText f.parse .rows .firstProfitable presolveFuel fuel text = some result) ∧
      match result with
      | .infeasible => ∀ x, ¬F.Feasible x
      | .unbounded => (∃ x, F.Feasible x) → ∀ M, ∃ x, F.Feasible x ∧
        match F.sense.getD .minimize with
        | .minimize => F.objectiveValue x < M
        | .maximize => M < F.objectiveValue x
      | .finiteOptimum solution => ∃ x, F.Best x ∧
        solution.values = (F.blocks.map fun b => (String.ofList b.name, x b.name)) ∧
        (F.sense.getD .minimize = .minimize → solution.objectiveValue = F.objectiveValue x) := by
  obtain ⟨p, h1, h2, h3⟩ := C58_rejected_partial f F text lines ht hw hp hc hs
  obtain ⟨p', h1', hdesc⟩ := (C55_reading f F text lines ht hw hp).1 hc
  cases h1.symm.trans h1'
  rcases h2 with ⟨G, hG⟩ | he
  · obtain ⟨L, pf, d1, d2, d3⟩ := hd p G h1 hG
    have hfr := toGeneralForm_fresh hG (wellFormed hdesc hc hs)
    have hpr := toGeneralForm_proper hG (rangesMeant hdesc hc hs) (bounds_meant hdesc hc hs)
    obtain ⟨N, result, hN, -⟩ := GeneralForm.C44_answers_partial hfr hpr pf
      (C44_presolve_steps_partial hfr hpr pf L d1.steps d1.kept) d2 d3
    have hN' : ∀ presolveFuel ≥ N, ∀ fuel ≥ N,
        solveText f.parse .rows .firstProfitable presolveFuel fuel text = some result := by
      intro a ha b hb
      unfold solveText
      rw [h1]
      dsimp only
      rw [hG]
      exact hN a ha b hb
    have hcor : ∀ fuel ≥ pf, ∀ p G, f.parse text = .ok p → p.toGeneralForm = .ok G → G.Fresh → G.Proper →
        Presolve.ResultCorrect G (fun a => a = .unreachable) (Presolve.presolve fuel G) := by
      intro fuel hfuel p' G' hp' hG' hfr' hpr'
      cases h1.symm.trans hp'
      cases hG.symm.trans hG'
      rw [Presolve.presolve_mono d2 hfuel]
      exact C44_presolve_steps_partial hfr hpr pf L d1.steps d1.kept
    have hz := hN' (max N pf) (le_max_left _ _) N le_rfl
    refine ⟨N, result, hN', ?_⟩
    cases result with
    | infeasible =>
      exact solveText_infeasible f F text lines ht hw hp hc hs _ _ _ _ (hcor _ (le_max_right _ _)) hz
    | unbounded =>
      exact solveText_unbounded f F text lines ht hw hp hc hs _ _ _ _ (hcor _ (le_max_right _ _)) hz
    | finiteOptimum solution =>
      exact solveText_optimum f F text lines ht hw hp hc hs _ _ _ _ (hcor _ (le_max_right _ _)) solution hz
  · rcases h3.1 he with h | h
    · exact absurd h hconf
    · exact absurd h hrep

end

theorem careful_of {G : GeneralForm} {L : List ℕ} {fuel : ℕ} (h : Presolve.careful G L fuel = true) :
    ∃ L, Careful G L fuel :=
  ⟨_, (Presolve.careful_spec h).1, (Presolve.careful_spec h).2⟩

/-- The example is read, converted, presolved and solved. -/
example : ∃ x, Example.file.Best x ∧
    [("X", (0 : ℚ)), ("Y", 6), ("Z", -1)] =
      (Example.file.blocks.map fun b => (String.ofList b.name, x b.name)) ∧ -15 = Example.file.objectiveValue x := by
  have hG : Example.result.toGeneralForm = .ok Example.resultGeneral := by decide +kernel
  obtain ⟨x, h1, h2, h3⟩ := C62_optimum_partial .free Example.file _ _ Example.freeText_contents
    Example.freeText_written Example.file_proper Example.file_consistent Example.file_sound .lu
    .steepestDescentAlongObjective 100 30 (by
      intro p G hp hG'
      cases hp.symm.trans Example.result_parse
      cases hG'.symm.trans hG
      exact careful_of (L := []) (by decide +kernel)) ⟨-15, [("X", 0), ("Y", 6), ("Z", -1)]⟩ (by
      have e : parseFree (Example.unlines Example.freeSource) = .ok Example.result := Example.result_parse
      show solveText parseFree _ _ _ _ _ = _
      unfold solveText
      rw [e]
      dsimp only
      rw [hG]
      decide +kernel)
  exact ⟨x, h1, h2, h3 rfl⟩

theorem Example.file_noConflict : ¬Example.file.Conflict ∧ ¬Example.file.RepeatedRhs := by
  have hG : Example.result.toGeneralForm = .ok Example.resultGeneral := by decide +kernel
  obtain ⟨p, h1, -, h3⟩ := C58_rejected_partial .free Example.file _ _ Example.freeText_contents
    Example.freeText_written Example.file_proper Example.file_consistent Example.file_sound
  cases h1.symm.trans Example.result_parse
  rw [hG] at h3
  exact not_or.1 fun h => nomatch h3.2 h

/-- It gets an answer, without and with presolving. -/
example : (∃ p G N result, parseFree (Example.unlines Example.freeSource) = .ok p ∧ p.toGeneralForm = .ok G ∧
      ∀ fuel ≥ N, G.solve .rows .firstProfitable fuel = .ok result) ∧
    ∃ N result, ∀ presolveFuel ≥ N, ∀ fuel ≥ N, solveText parseFree .rows .firstProfitable presolveFuel fuel
      (Example.unlines Example.freeSource) = some result := by
  have hG : Example.result.toGeneralForm = .ok Example.resultGeneral := by decide +kernel
  obtain ⟨n1, n2⟩ := Example.file_noConflict
  constructor
  · obtain ⟨p, G, N, result, h1, h2, h3, -⟩ := C58_answers_partial .free Example.file _ _
      Example.freeText_contents Example.freeText_written Example.file_proper Example.file_consistent
      Example.file_sound n1 n2
    exact ⟨p, G, N, result, h1, h2, h3⟩
  · obtain ⟨N, result, h, -⟩ := C62_answers_partial .free Example.file _ _
      Example.freeText_contents Example.freeText_written Example.file_proper Example.file_consistent
      Example.file_sound n1 n2 (by
        intro p G hp hG'
        cases hp.symm.trans Example.result_parse
        cases hG'.symm.trans hG
        obtain ⟨L, hL⟩ := careful_of (G := Example.resultGeneral) (L := []) (fuel := 100) (by decide +kernel)
        have e : (match Presolve.presolve 100 Example.resultGeneral with | .ok _ => true | _ => false) = true := by
          decide +kernel
        refine ⟨L, 100, hL, fun h => ?_, fun h => ?_⟩ <;> rw [h] at e <;> cases e)
    exact ⟨N, result, h⟩

/-- With `x ≤ -1` and `x ≥ 0`, the small example is infeasible. -/
example (x : Text → ℚ) : ¬(Example.small true none).Feasible x := by
  have e : ∃ p, parseFree (Example.unlines (Example.smallLines true [])) = .ok p ∧ p.toGeneralForm =
      .ok (.new .minimize ⟨[[(0, 1)]], 1, 1⟩ [.less] [-1] [⟨.continuous, 1, some 0, none, 0, false⟩] ["X"] 0) :=
    ⟨_, rfl, by decide +kernel⟩
  obtain ⟨p, e1, e2⟩ := e
  refine C62_infeasible_partial .free _ _ _
    (Example.contents_unlines (Example.smallLines true []) (by decide +kernel))
    ?_ ?_ ?_ ?_ .lu .steepestDescentAlongObjective 100 30 ?_ ?_ x
  · have : (Example.smallLines true []).filter keep = Example.smallLines true [] := by decide +kernel
    rw [this]
    exact Example.small_written true rfl
  · exact Example.small_proper true ⟨fun b hb => (nomatch hb), .nil⟩ fun b hb => (nomatch hb)
  · exact Example.small_consistent true fun b hb => (nomatch hb)
  · exact Example.small_sound true fun b hb => (nomatch hb)
  · intro p' G hp hG
    cases hp.symm.trans e1
    cases hG.symm.trans e2
    exact careful_of (L := []) (by decide +kernel)
  · show solveText parseFree _ _ _ _ _ = _
    unfold solveText
    rw [e1]
    dsimp only
    rw [e2]
    decide +kernel

/-- With a free variable, it is unbounded. -/
example (M : ℚ) : ∃ x, (Example.small false (some [⟨"D".toList, [⟨.fr, "X".toList⟩]⟩])).Feasible x ∧
    (Example.small false (some [⟨"D".toList, [⟨.fr, "X".toList⟩]⟩])).objectiveValue x < M := by
  have e : ∃ p, parseFree (Example.unlines (Example.smallLines false ["BOUNDS".toList, " FR D X".toList])) =
      .ok p ∧ p.toGeneralForm =
      .ok (.new .minimize ⟨[[(0, 1)]], 1, 1⟩ [.less] [1] [⟨.continuous, 1, none, none, 0, false⟩] ["X"] 0) :=
    ⟨_, rfl, by decide +kernel⟩
  obtain ⟨p, e1, e2⟩ := e
  refine C62_unbounded_partial .free _ _ _
    (Example.contents_unlines (Example.smallLines false ["BOUNDS".toList, " FR D X".toList]) (by decide +kernel))
    ?_ ?_ ?_ ?_ .lu .steepestDescentAlongObjective 100 30 ?_ ?_ ?_ M
  · have : (Example.smallLines false ["BOUNDS".toList, " FR D X".toList]).filter keep =
        Example.smallLines false ["BOUNDS".toList, " FR D X".toList] := by decide +kernel
    rw [this]
    exact Example.small_written false ⟨_, rfl, [[" FR D X".toList]],
      .cons (.cons ⟨by decide +kernel, [], Example.words_of (by decide +kernel)⟩ .nil) .nil, rfl⟩
  · exact Example.small_proper false ⟨Example.ne_nil_of (by decide +kernel), .singleton _⟩ (by decide +kernel)
  · exact Example.small_consistent false (by decide +kernel)
  · refine Example.small_sound false fun b hb l hl => ?_
    cases List.mem_singleton.1 hb
    cases List.mem_singleton.1 hl
    trivial
  · intro p' G hp hG
    cases hp.symm.trans e1
    cases hG.symm.trans e2
    exact careful_of (L := []) (by decide +kernel)
  · show solveText parseFree _ _ _ _ _ = _
    unfold solveText
    rw [e1]
    dsimp only
    rw [e2]
    decide +kernel
  · refine ⟨fun _ => 0, fun relation row hrow b hb => ?_, fun b hb => ⟨fun t ht => ?_, fun _ => le_refl _⟩⟩
    · have hr : relation = .less ∧ row = "R".toList := by
        rcases List.mem_cons.1 hrow with h | h
        · cases h
        · cases List.mem_singleton.1 h
          exact ⟨rfl, rfl⟩
      obtain ⟨rfl, rfl⟩ := hr
      refine ⟨fun r hr => ?_, fun _ => ?_⟩
      · obtain ⟨g, hg, -⟩ := hr
        cases hg
      · rcases hb with ⟨g, hg, e, he, -, rfl⟩ | ⟨h, rfl⟩
        · cases List.mem_singleton.1 hg
          cases List.mem_singleton.1 he
          show _ ≤ _
          decide +kernel
        · show _ ≤ _
          decide +kernel
    · obtain ⟨g, hg, l, hl, -, rfl⟩ := ht
      cases List.mem_singleton.1 hg
      cases List.mem_singleton.1 hl
      trivial

end Mps

end Relp
