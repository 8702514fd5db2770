import Verif.Proof.Run
import Mathlib.LinearAlgebra.FiniteDimensional.Defs
import Mathlib.LinearAlgebra.Dimension.Constructions

/-! # `solve_relaxation` for every choice of the user -/

set_option linter.unusedSectionVars false

namespace Relp

open Matrix BasisInverse LawfulBasisInverse Tableau

variable {m n : ℕ}

theorem carry_fromBasis_zero (inv : InverseName) (hm : m = 0) (P : Provider m n)
    (basis : Fin m → Fin n) :
    (Carry.fromBasis P basis : Res (Carry inv.type m n)) = panic .underflow := by
  have hlu : (LU.invert fun i => P.column (basis i)) = panic .underflow := by
    unfold LU.invert LU.ofRows
    rw [if_pos hm]
  unfold Carry.fromBasis
  have : (BasisInverse.invert fun i => P.column (basis i) : Res (inv.type m)) = panic .underflow := by
    cases inv with
    | lu => exact hlu
    | rows =>
      change BasisInverseRows.invert _ = _
      unfold BasisInverseRows.invert
      rw [hlu]
      rfl
  rw [this]
  rfl

/-- The row-wise representation: a correct answer, or the loops are still running. -/
theorem solveRows_spec (rule : RuleName) (fuel : ℕ) {P : Provider m n} (hP : P.Ok)
    {start : InitialBasis m n} (hs : StartOk P start) (h0 : m = 0 → ∀ pivots, start ≠ .fully pivots) :
    solveRelaxation .rows rule fuel P start = .error .outOfFuel ∨
      ∃ a, solveRelaxation .rows rule fuel P start = .ok a ∧ Answer P.toLP a := by
  cases start with
  | none => exact solveFully_spec (BI := BasisInverseRows) trivial fuel hP fun _ _ => trivial
  | partially pivots =>
    exact solvePartially_spec (BI := BasisInverseRows) trivial fuel hP hs fun _ _ => trivial
  | fully pivots =>
    exact solveFull_spec (BI := BasisInverseRows) trivial (fun h => h0 h pivots rfl) fuel hP hs

theorem solveLU_spec (rule : RuleName) (fuel : ℕ) {P : Provider m n} (hP : P.Ok)
    {start : InitialBasis m n} (hs : StartOk P start) (hm : 2 ≤ m)
    (hdim : ∀ rows, P.toLP.Redundant rows → 2 ≤ keptLen rows) :
    solveRelaxation .lu rule fuel P start = .error .outOfFuel ∨
      ∃ a, solveRelaxation .lu rule fuel P start = .ok a ∧ Answer P.toLP a := by
  cases start with
  | none => exact solveFully_spec (BI := LU) hm fuel hP hdim
  | partially pivots => exact solvePartially_spec (BI := LU) hm fuel hP hs hdim
  | fully pivots =>
    exact solveFull_spec (BI := LU) hm (by change m ≠ 0; omega) fuel hP hs

theorem solve_follows (rule : RuleName) (fuel : ℕ) {P : Provider m n} (hP : P.Ok)
    {start : InitialBasis m n} (hs : StartOk P start) :
    Follows Eq (solveRelaxation .lu rule fuel P start) (solveRelaxation .rows rule fuel P start) := by
  by_cases hm : m = 0
  · suffices h : ∃ e, solveRelaxation .lu rule fuel P start = panic e by
      obtain ⟨e, he⟩ := h
      rw [he]
      exact trivial
    have hid : (BasisInverse.identity m : Res (LU m)) = panic .underflow := by
      change LU.identity m = _
      unfold LU.identity
      rw [if_pos hm]
    cases start with
    | none =>
      refine ⟨.underflow, ?_⟩
      change solveFully LU rule.type fuel P = _
      unfold solveFully newFully Carry.createForFullyArtificial
      rw [hid]
      rfl
    | partially pivots =>
      have : ∃ e, (newPartially P pivots : Res (Tableau LU m _)) = panic e := by
        unfold newPartially
        split_ifs
        · exact ⟨_, rfl⟩
        · dsimp only
          split_ifs
          · unfold Carry.createForPartiallyArtificial
            rw [hid]
            exact ⟨_, rfl⟩
          · exact ⟨_, rfl⟩
          · exact ⟨_, rfl⟩
      obtain ⟨e, he⟩ := this
      refine ⟨e, ?_⟩
      change solvePartially LU rule.type fuel P pivots = _
      unfold solvePartially
      rw [he]
      rfl
    | fully pivots =>
      obtain ⟨basis, -, -, -, -, heq⟩ := solveFull_eq hs
      refine ⟨.underflow, ?_⟩
      change solveFull LU rule.type fuel P pivots = _
      have h0 : (Carry.fromBasis P basis : Res (Carry LU m n)) = panic .underflow :=
        carry_fromBasis_zero .lu hm P basis
      rw [heq, h0]
      rfl
  · cases start with
    | none => exact solveFully_sim (BI := LU) (R := rule.type) hm fuel hP
    | partially pivots => exact solvePartially_sim (BI := LU) (R := rule.type) hm fuel hP hs
    | fully pivots => exact solveFull_sim (BI := LU) (R := rule.type) hm fuel hP hs

/-- Every result that is returned is correct, whatever the choices and the dimension. -/
theorem solveRelaxation_answer {inv : InverseName} {rule : RuleName} {fuel : ℕ} {P : Provider m n}
    (hP : P.Ok) {start : InitialBasis m n} (hs : StartOk P start) {a}
    (h : solveRelaxation inv rule fuel P start = .ok a) : Answer P.toLP a := by
  have hrows : ∀ {b}, solveRelaxation .rows rule fuel P start = .ok b → Answer P.toLP b := by
    intro b hb
    by_cases h0 : m = 0 → ∀ pivots, start ≠ .fully pivots
    · rcases solveRows_spec rule fuel hP hs h0 with h1 | ⟨c, h1, h2⟩
      · rw [h1] at hb; cases hb
      · rw [h1] at hb; cases hb; exact h2
    · push Not at h0
      obtain ⟨hm, pivots, rfl⟩ := h0
      exfalso
      obtain ⟨basis, -, -, -, -, heq⟩ := solveFull_eq hs
      change solveFull _ _ _ _ _ = _ at hb
      rw [heq] at hb
      obtain ⟨c, h1, -⟩ := bind_eq_ok hb
      have := carry_fromBasis_zero .rows hm P basis
      rw [h1] at this
      cases this
  cases inv with
  | rows => exact hrows h
  | lu =>
    have := solve_follows rule fuel hP hs
    rw [h] at this
    obtain ⟨b, h1, rfl⟩ := this
    exact hrows h1

theorem length_le_of_basic {L : Spec.LP m n} {x : SVec (Fin n)} (hx : SVec.WF x)
    (hb : L.Basic (SVec.val x)) : x.length ≤ m := by
  have h1 : Fintype.card {j // SVec.val x j ≠ 0} ≤ m := by
    have := hb.fintype_card_le_finrank
    simpa using this
  refine le_trans ?_ h1
  rw [Fintype.card_subtype]
  have h2 : (x.map (·.1)).Nodup := by
    rw [List.Nodup, List.pairwise_map]
    exact hx.1.imp ne_of_lt
  have h3 : (x.map (·.1)).toFinset ⊆ Finset.univ.filter fun j => SVec.val x j ≠ 0 := by
    intro j hj
    rw [List.mem_toFinset, List.mem_map] at hj
    obtain ⟨p, hp, rfl⟩ := hj
    simp only [Finset.mem_filter, Finset.mem_univ, true_and]
    rw [SVec.val_of_mem hx hp]
    exact hx.2 p hp
  calc x.length = (x.map (·.1)).toFinset.card := by
        rw [List.toFinset_card_of_nodup h2, List.length_map]
    _ ≤ _ := Finset.card_le_card h3

end Relp
