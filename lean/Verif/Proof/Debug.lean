import Verif.Model.Debug
import Verif.Proof.DebugInverse
import Verif.Proof.Pivoting
import Verif.Proof.WarmStart

/-! # The checks of a debug build succeed -/

set_option linter.unusedSectionVars false

namespace Relp

open Matrix BasisInverse LawfulBasisInverse Tableau LawfulRule

variable {BI : ℕ → Type} [BasisInverse BI] [LawfulBasisInverse BI]
variable {m n N : ℕ}

theorem pos_of_fin {k : ℕ} (i : Fin k) : 0 < k := lt_of_le_of_lt (Nat.zero_le _) i.2

/-- The check of the basic feasible solution state succeeds. -/
theorem debugCheck_ok (hm : OkDim BI m) {t : Tableau BI m N} {rhs M} (hex : t.Exact rhs M)
    (hb : ∀ i, 0 ≤ t.carry.b i) : t.debugCheck = .ok () := by
  unfold Tableau.debugCheck
  rw [okBind (debugAssert_ok ?_), okBind (forEach_ok ?_), okBind (forEach_ok ?_),
    forEach_ok ?_]
  · intro i _
    exact debugAssert_ok (by simpa using hb i)
  · intro i _
    exact debugAssert_ok (by simpa using hex.relativeCost_basis i)
  · intro i _
    obtain ⟨info, h1, h2, h3⟩ := hex.generateColumn_ok hm (t.carry.basisIndices i)
    rw [h1]
    refine debugAssert_ok ?_
    rw [decide_eq_true_eq]
    refine SVec.ext_of_wf h2 ?_ fun k => ?_
    · exact SVec.wf_standardBasis i
    · rw [h3, hex.alpha_basis]
      exact (congrFun (SVec.val_standardBasis_eq i) k).symm
  · rw [decide_eq_true_eq]
    have : t.basisColumns = Finset.univ.image t.carry.basisIndices := by
      ext j
      simp only [Finset.mem_image, Finset.mem_univ, true_and]
      have := hex.mem_basis (j := j)
      unfold Tableau.isInBasis at this
      simpa using this
    rw [this, Finset.card_image_of_injective _ hex.injective]
    simp

theorem bringIntoBasisDebug_eq {t : Tableau BI m N} {rhs M} (hex : t.Exact rhs M) {j : Fin N}
    (hj : t.isInBasis j = false) {p : Fin m} {info : Info BI m} {cost : ℚ} {t' change}
    (h : t.bringIntoBasis j p info cost = .ok (t', change))
    (hl : change.leavingColumn = t.carry.basisIndices p) :
    t.bringIntoBasisDebug j p info cost = .ok (t', change) := by
  unfold Tableau.bringIntoBasis at h
  obtain ⟨⟨carry, c⟩, h1, h2⟩ := bind_eq_ok h
  cases h2
  unfold Tableau.bringIntoBasisDebug
  simp only [h1, bind, Except.bind, pure, Except.pure]
  have hj' : j ∉ t.basisColumns := by simpa [Tableau.isInBasis] using hj
  have hl' : change.leavingColumn ∈ t.basisColumns := by
    have := hex.mem_basis.2 ⟨p, hl.symm⟩
    simpa [Tableau.isInBasis] using this
  rw [debugAssert_ok (by simpa using hl'), debugAssert_ok (by
    rw [decide_eq_true_eq]
    exact fun hc => hj' (Finset.mem_of_mem_erase hc))]

/-- A pivot rule whose checks succeed. -/
class LawfulDebugRule (R : ℕ → Type) [PivotRule R] [LawfulRule R] [DebugRule R] : Prop where
  after_eq : ∀ {BI : ℕ → Type} [BasisInverse BI] [LawfulBasisInverse BI] {m N : ℕ}
    {t t' : Tableau BI m N} {rhs : Fin m → ℚ} {M} {r r' : R N} {j : Fin N} {c : ℚ} {p : Fin m}
    {change}, OkDim BI m → t.Exact rhs M → RInv r t M →
    PivotRule.select r t = .ok (some (j, c), r') → t.alpha M j p ≠ 0 →
    StepTo t t' M j p change → t'.Exact rhs (pivotUpdate M (t.alpha M j) p) →
    DebugRule.afterUpdateDebug r' change t' = PivotRule.afterUpdate r' change t'

instance : LawfulDebugRule FirstProfitable where
  after_eq _ _ _ _ _ _ _ := rfl

instance : LawfulDebugRule FirstProfitableWithMemory where
  after_eq _ _ _ _ _ _ _ := rfl

instance : LawfulDebugRule SteepestDescentAlongVariable where
  after_eq _ _ _ _ _ _ _ := rfl

open SteepestDescentAlongObjective in
instance : LawfulDebugRule SteepestDescentAlongObjective where
  after_eq {BI _ _ m N t t' rhs M r r' j c p change} hm hex hr hsel hp hstep hex' := by
    obtain ⟨sel, h1, h2, _⟩ := SteepestDescentAlongObjective.select_ok hr
    have h3 := hsel.symm.trans h1
    simp only [Except.ok.injEq, Prod.mk.injEq] at h3
    obtain ⟨rfl, rfl⟩ := h3
    refine okBind (forEach_ok fun k _ => ?_)
    unfold checkWeight
    by_cases hk : t'.kind.start ≤ (k : ℕ)
    · rw [if_pos hk]
      by_cases hkj : k = change.pivotColumn
      · rw [hkj, Function.update_self]
      · rw [Function.update_of_ne hkj]
        have hg := hr k (by rw [← hstep.kind_eq]; exact hk)
        rw [hg]
        by_cases hb : t.isInBasis k
        · simp [hb]
        · obtain ⟨info, g1, g2, g3⟩ := hex'.generateColumn_ok hm k
          simp only [hb, Bool.false_eq_true, if_false, initialGamma, g1, bind, Except.bind, pure,
            Except.pure]
          refine debugAssert_ok ?_
          rw [decide_eq_true_eq, updateGamma_exact hstep hp, SVec.squaredNorm_eq g2, g3]
    · rw [if_neg hk]

instance RuleName.instLawfulDebug : (rule : RuleName) → LawfulDebugRule rule.type
  | .firstProfitable => inferInstanceAs (LawfulDebugRule FirstProfitable)
  | .firstProfitableWithMemory => inferInstanceAs (LawfulDebugRule FirstProfitableWithMemory)
  | .steepestDescentAlongVariable => inferInstanceAs (LawfulDebugRule SteepestDescentAlongVariable)
  | .steepestDescentAlongObjective => inferInstanceAs (LawfulDebugRule SteepestDescentAlongObjective)

variable {R : ℕ → Type} [PivotRule R] [LawfulRule R] [DebugRule R] [LawfulDebugRule R]

/-- The checks in one iteration of either phase. -/
theorem iteration_debug (hm : OkDim BI m) {rhs : Fin m → ℚ} {r r' : R N} {t t' : Tableau BI m N}
    {M} (hs : StateInv rhs (r, t) M) {j : Fin N} {cost : ℚ} {info : Info BI m} {p : Fin m} {change}
    (h1 : PivotRule.select r t = .ok (some (j, cost), r')) (h2 : t.generateColumn j = .ok info)
    (h3 : t.selectPrimalPivotRow (infoColumn info) = some p)
    (h4 : t.bringIntoBasis j p info cost = .ok (t', change)) :
    t.bringIntoBasisDebug j p info cost = .ok (t', change) ∧
    DebugRule.afterUpdateDebug r' change t' = PivotRule.afterUpdate r' change t' := by
  rcases pivot_cases hm hs.exact hs.nonneg hs.rule with ⟨q, e1, -⟩ | ⟨j, q, i, e1, -, e2, e3, -⟩ |
    ⟨j, q, i, p, u, c, q', e1, e2, e3, e4, e5, e8, e6, e7⟩
  · rw [e1] at h1; cases h1
  · rw [e1] at h1; cases h1
    rw [e2] at h2; cases h2
    rw [e3] at h3; cases h3
  · rw [e1] at h1; cases h1
    rw [e2] at h2; cases h2
    rw [e3] at h3; cases h3
    rw [e4] at h4; cases h4
    exact ⟨bringIntoBasisDebug_eq hs.exact e6.nonbasic e4 e8.leaving_eq,
      LawfulDebugRule.after_eq hm hs.exact hs.rule e1 e6.ratio.1.ne' e8 e6.exact'⟩

theorem currentBfsDebug_eq (h0 : 0 < m) {t : Tableau BI m N} {rhs M} (hex : t.Exact rhs M) :
    t.currentBfsDebug = .ok t.currentBfs := by
  unfold currentBfsDebug
  rw [okBind (sparseVectorCheck_ok (currentBfs_wf hex) (pos_of_fin (t.carry.basisIndices ⟨0, h0⟩)))]
  rfl

theorem phaseTwoLoopDebug_eq (hm : OkDim BI m) (h0 : 0 < m) {rhs : Fin m → ℚ} (fuel : ℕ) {r : R N}
    {t : Tableau BI m N} {M} (hs : StateInv rhs (r, t) M) :
    phaseTwoLoopDebug fuel r t = phaseTwoLoop fuel r t := by
  induction fuel generalizing r t M with
  | zero => rfl
  | succ fuel ih =>
    rw [phaseTwoLoopDebug, phaseTwoLoop, okBind (debugCheck_ok hm hs.exact hs.nonneg)]
    refine bindCongr fun q h1 => ?_
    obtain ⟨sel, r'⟩ := q
    cases sel with
    | none =>
      dsimp only
      rw [currentBfsDebug_eq h0 hs.exact]
      rfl
    | some q =>
      obtain ⟨j, cost⟩ := q
      dsimp only
      refine bindCongr fun info h2 => ?_
      cases h3 : t.selectPrimalPivotRow (infoColumn info) with
      | none => rfl
      | some p =>
        dsimp only
        cases h4 : t.bringIntoBasis j p info cost with
        | error e =>
          exfalso
          rcases pivot_cases hm hs.exact hs.nonneg hs.rule with ⟨q, e1, -⟩ |
            ⟨j, q, i, e1, -, e2, e3, -⟩ | ⟨j, q, i, p, u, c, q', e1, e2, e3, e4, -⟩
          · rw [e1] at h1; cases h1
          · rw [e1] at h1; cases h1
            rw [e2] at h2; cases h2
            rw [e3] at h3; cases h3
          · rw [e1] at h1; cases h1
            rw [e2] at h2; cases h2
            rw [e3] at h3; cases h3
            rw [e4] at h4; cases h4
        | ok q =>
          obtain ⟨t', change⟩ := q
          obtain ⟨g1, g2⟩ := iteration_debug hm hs h1 h2 h3 h4
          rw [g1]
          change (DebugRule.afterUpdateDebug r' change t' >>= fun rule => _)
            = (PivotRule.afterUpdate r' change t' >>= fun rule => _)
          rw [g2]
          refine bindCongr fun r'' h5 => ?_
          obtain ⟨M', _, _, hs', -⟩ := Iteration.inv hm (.mk h1 h2 h3 h4 h5) hs
          exact ih hs'

theorem removeArtificialStepDebug_eq (hm : OkDim BI m) {t : Tableau BI m N} {rhs M}
    (hex : t.Exact rhs M) (hnn : ∀ i, 0 ≤ t.carry.b i)
    {p : Fin m} (hp : (t.carry.basisIndices p : ℕ) < t.kind.start) (hb : t.carry.b p = 0) :
    removeArtificialStepDebug t p (t.carry.basisIndices p) =
      removeArtificialStep t p (t.carry.basisIndices p) := by
  have hval := variableValue_basis hex p
  rw [hb] at hval
  unfold removeArtificialStepDebug removeArtificialStep
  rw [okBind (debugAssert_ok (hex.mem_basis.2 ⟨p, rfl⟩))]
  simp only [hval, bind, Except.bind, ne_eq, not_true_eq_false, if_false]
  rw [findM_ok (q := fun q => decide (t.alpha M q.1 p ≠ 0)) (by
    intro q _
    rw [hex.generateElement_ok hm]
    by_cases h0 : t.alpha M q.1 p = 0
    · simp [h0, pure, Except.pure]
    · simp [h0, pure, Except.pure]), findM_ok (q := fun q => decide (t.alpha M q.1 p ≠ 0)) (by
    intro q _
    rw [hex.generateElement_ok hm]
    by_cases h0 : t.alpha M q.1 p = 0
    · simp [h0, pure, Except.pure]
    · simp [h0, pure, Except.pure])]
  cases hsel : t.candidates.find? fun q => decide (t.alpha M q.1 p ≠ 0) with
  | none => simp only [debugCheck_ok hm hex hnn]
  | some q =>
    obtain ⟨j, c⟩ := q
    obtain ⟨h1, h2, h3⟩ := mem_candidates.1 (List.mem_of_find?_eq_some hsel)
    have h4 : t.alpha M j p ≠ 0 := by simpa using List.find?_some hsel
    simp only at h1 h2 h3
    subst h3
    obtain ⟨info, hinfo, -, -⟩ := hex.generateColumn_ok hm j
    obtain ⟨t', change, hbring, hex', hstep⟩ := hex.step hm h2 h4 hinfo
    have hb' : t'.carry.b = t.carry.b := by
      rw [hstep.b_eq]
      ext i
      by_cases hi : i = p
      · subst hi; simp [hb]
      · simp [hi, hb]
    have hout : t'.isInBasis (t.carry.basisIndices p) = false := by
      by_contra hc
      rw [Bool.not_eq_false, hex'.mem_basis] at hc
      obtain ⟨i, hi⟩ := hc
      rw [hstep.basis_eq] at hi
      by_cases hip : i = p
      · subst hip
        rw [Function.update_self] at hi
        rw [← hi] at hp
        omega
      · rw [Function.update_of_ne hip] at hi
        exact hip (hex.injective hi)
    simp only [hinfo, hbring, bringIntoBasisDebug_eq hex h2 hbring hstep.leaving_eq,
      debugCheck_ok hm hex' (by rw [hb']; exact hnn), hout, Bool.not_false, debugAssert_ok]

theorem removeArtificialLoopDebug_eq (hm : OkDim BI m) (l : List (Fin m × Fin N))
    (t : Tableau BI m N) {rhs : Fin m → ℚ} (M : Matrix (Fin m) (Fin m) ℚ) (rows : List (Fin m))
    (hex : t.Exact rhs M) (hnn : ∀ i, 0 ≤ t.carry.b i)
    (hl : ∀ q ∈ l, t.carry.basisIndices q.1 = q.2 ∧ (q.2 : ℕ) < t.kind.start)
    (hnd : (l.map (·.1)).Nodup)
    (hzero : ∀ i, (t.carry.basisIndices i : ℕ) < t.kind.start → t.carry.b i = 0) :
    removeArtificialLoopDebug l t rows = removeArtificialLoop l t rows := by
  induction l generalizing t M rows with
  | nil => rfl
  | cons q l ih =>
    obtain ⟨p, a⟩ := q
    have hpa := hl (p, a) (by simp)
    simp only at hpa
    obtain ⟨rfl, hpa⟩ := hpa
    rw [removeArtificialLoopDebug, removeArtificialLoop,
      removeArtificialStepDebug_eq hm hex hnn hpa (hzero p hpa)]
    rw [List.map_cons, List.nodup_cons] at hnd
    rcases removeArtificialStep_spec hm hex hpa (hzero p hpa) with
      ⟨h1, h2⟩ | ⟨t', j, h1, h2, h3, h4, h5, h6, h7⟩
    · rw [h1]
      exact ih t M _ hex hnn (fun q hq => hl q (by simp [hq])) hnd.2 hzero
    · rw [h1]
      refine ih t' _ _ h4 (by rw [h7]; exact hnn) ?_ hnd.2 ?_
      · intro q hq
        have hne : q.1 ≠ p := fun he => hnd.1 (he ▸ List.mem_map.2 ⟨q, hq, rfl⟩)
        rw [h5, h6, Function.update_of_ne hne]
        exact hl q (by simp [hq])
      · intro i hi
        rw [h7]
        rw [h5, h6] at hi
        by_cases hip : i = p
        · subst hip; exact hzero i hpa
        · rw [Function.update_of_ne hip] at hi
          exact hzero i hi

theorem artificialBasisColumns_sorted (t : Tableau BI m N) :
    (t.artificialBasisColumns.map (·.1)).Pairwise (· < ·) := by
  have hs : (t.artificialBasisColumns.map (·.1)).Sublist (List.finRange m) := by
    unfold artificialBasisColumns
    have := (List.filter_sublist (p := fun p : Fin m × Fin N => decide ((p.2 : ℕ) < t.kind.start))
      (l := (List.finRange m).map fun i => (i, t.carry.basisIndices i))).map (·.1)
    rw [List.map_map] at this
    simpa [Function.comp_def] using this
  exact (List.pairwise_lt_finRange m).sublist hs

/-- Rows are pushed in the order in which the loop visits them. -/
theorem removeArtificialLoop_rows (l : List (Fin m × Fin N)) (t : Tableau BI m N)
    (rows : List (Fin m)) {t' rows'} (h : removeArtificialLoop l t rows = .ok (t', rows'))
    (hs : (rows ++ l.map (·.1)).Pairwise (· < ·)) : rows'.Pairwise (· < ·) := by
  induction l generalizing t rows with
  | nil =>
    cases h
    simpa using hs
  | cons q l ih =>
    obtain ⟨p, a⟩ := q
    rw [removeArtificialLoop] at h
    cases hstep : removeArtificialStep t p a with
    | error e => rw [hstep] at h; cases h
    | ok res =>
      obtain ⟨u, o⟩ := res
      rw [hstep] at h
      cases o with
      | none =>
        refine ih u rows h ?_
        exact hs.sublist ((List.sublist_cons_self _ _).append_left _)
      | some row =>
        have : row = p := by
          unfold removeArtificialStep at hstep
          obtain ⟨v, -, hstep⟩ := bind_eq_ok hstep
          dsimp only at hstep
          split_ifs at hstep <;>
          · obtain ⟨cc, -, hstep⟩ := bind_eq_ok hstep
            cases cc with
            | none => cases hstep; rfl
            | some cc =>
              dsimp only at hstep
              obtain ⟨_, -, hstep⟩ := bind_eq_ok hstep
              obtain ⟨_, -, hstep⟩ := bind_eq_ok hstep
              cases hstep
        subst this
        exact ih u (rows ++ [row]) h (by simpa using hs)

theorem phaseOneExitDebug_eq (hm : OkDim BI m) {t : Tableau BI m N} {rhs M} (hex : t.Exact rhs M)
    (hb : ∀ i, 0 ≤ t.carry.b i) (hart : ArtInv t) : phaseOneExitDebug t = phaseOneExit t := by
  unfold phaseOneExitDebug phaseOneExit
  by_cases h0 : t.objectiveFunctionValue = 0
  · rw [if_pos h0, if_pos h0]
    by_cases hh : t.hasArtificialInBasis = true
    · rw [if_pos hh, if_pos hh]
      have hsort := artificialBasisColumns_sorted t
      have hloop : removeArtificialLoopDebug t.artificialBasisColumns t []
          = removeArtificialLoop t.artificialBasisColumns t [] := by
        refine removeArtificialLoopDebug_eq hm _ t M [] hex hb ?_ (hsort.imp ne_of_lt) ?_
        · intro q hq
          unfold artificialBasisColumns at hq
          rw [List.mem_filter, List.mem_map] at hq
          obtain ⟨⟨i, -, rfl⟩, hq⟩ := hq
          exact ⟨rfl, by simpa using hq⟩
        · exact fun i hi => hart.b_zero hex hb h0 i hi
      have : removeArtificialBasisVariablesDebug t = removeArtificialBasisVariables t := by
        unfold removeArtificialBasisVariablesDebug removeArtificialBasisVariables
        rw [okBind (debugAssert_ok ?_), hloop]
        · cases hr : removeArtificialLoop t.artificialBasisColumns t [] with
          | error e => rfl
          | ok q =>
            obtain ⟨u, rows⟩ := q
            change (do debugAssert _; pure (u, rows)) = _
            rw [okBind (debugAssert_ok ?_)]
            · rfl
            · rw [decide_eq_true_eq]
              exact (removeArtificialLoop_rows _ _ _ hr (by simpa using hsort)).imp le_of_lt
        · rw [decide_eq_true_eq]
          exact hsort.imp le_of_lt
      rw [this]
    · rw [if_neg hh, if_neg hh]
  · rw [if_neg h0, if_neg h0]

theorem phaseOneLoopDebug_eq (hm : OkDim BI m) (h0 : 0 < m) {rhs : Fin m → ℚ} (fuel : ℕ) {r : R N}
    {t : Tableau BI m N} {M} (hs : StateInv rhs (r, t) M) (hart : ArtInv t) :
    phaseOneLoopDebug fuel r t = phaseOneLoop fuel r t := by
  induction fuel generalizing r t M with
  | zero => rfl
  | succ fuel ih =>
    rw [phaseOneLoopDebug, phaseOneLoop, okBind (debugCheck_ok hm hs.exact hs.nonneg)]
    refine bindCongr fun q h1 => ?_
    obtain ⟨sel, r'⟩ := q
    cases sel with
    | none => exact phaseOneExitDebug_eq hm hs.exact hs.nonneg hart
    | some q =>
      obtain ⟨j, cost⟩ := q
      dsimp only
      refine bindCongr fun info h2 => ?_
      cases h3 : t.selectPrimalPivotRow (infoColumn info) with
      | none => rfl
      | some p =>
        dsimp only
        cases h4 : t.bringIntoBasis j p info cost with
        | error e =>
          exfalso
          rcases pivot_cases hm hs.exact hs.nonneg hs.rule with ⟨q, e1, -⟩ |
            ⟨j, q, i, e1, -, e2, e3, -⟩ | ⟨j, q, i, p, u, c, q', e1, e2, e3, e4, -⟩
          · rw [e1] at h1; cases h1
          · rw [e1] at h1; cases h1
            rw [e2] at h2; cases h2
            rw [e3] at h3; cases h3
          · rw [e1] at h1; cases h1
            rw [e2] at h2; cases h2
            rw [e3] at h3; cases h3
            rw [e4] at h4; cases h4
        | ok q =>
          obtain ⟨t', change⟩ := q
          obtain ⟨g1, g2⟩ := iteration_debug hm hs h1 h2 h3 h4
          rw [g1]
          change (DebugRule.afterUpdateDebug r' change t' >>= fun rule => _)
            = (PivotRule.afterUpdate r' change t' >>= fun rule => _)
          rw [g2]
          refine bindCongr fun r'' h5 => ?_
          obtain ⟨M', _, _, hs', hst⟩ := Iteration.inv hm (.mk h1 h2 h3 h4 h5) hs
          exact ih hs' (hart.update hst.real hst.kind_eq hst.basis_eq)

/-! ### Between the phases -/

theorem newPartiallyDebug_eq {P : Provider m n} {pivots : List (Fin m × Fin n)}
    (hpiv : PivotsOk P pivots) :
    (newPartiallyDebug P pivots : Res (Tableau BI m _)) = newPartially P pivots := by
  have hnd : (pivots.map (·.1)).Nodup := hpiv.sorted.imp ne_of_lt
  have hlen : pivots.length ≤ m := by
    have := hnd.length_le_card
    simpa using this
  have hreal : (pivots.map fun p => (p.1 : ℕ)).Pairwise (· < ·) := by
    have := hpiv.sorted
    rw [List.pairwise_map] at this ⊢
    exact this
  have hlt : ∀ r ∈ pivots.map fun p => (p.1 : ℕ), r < m := by
    intro r hr
    obtain ⟨p, -, rfl⟩ := List.mem_map.1 hr
    exact p.1.2
  obtain ⟨hsorted, hmem⟩ := artificialRows_spec m (pivots.map fun p => (p.1 : ℕ)) hreal hlt
    (by simpa using hlen)
  have hset : (artificialRows m (pivots.map fun p => (p.1 : ℕ)) ++
      pivots.map fun p => (p.1 : ℕ)).toFinset = Finset.range m := by
    ext a
    rw [List.mem_toFinset, List.mem_append, Finset.mem_range, hmem]
    constructor
    · rintro (h | h)
      · exact h.1
      · exact hlt a h
    · intro h
      by_cases ha : a ∈ pivots.map fun p => (p.1 : ℕ)
      · exact Or.inr ha
      · exact Or.inl ⟨h, ha⟩
  unfold newPartiallyDebug
  dsimp only
  rw [okBind (debugAssert_ok ?_), if_neg (by omega), okBind (debugAssert_ok ?_),
    okBind (debugAssert_ok ?_), okBind (debugAssert_ok ?_), okBind (debugAssert_ok ?_), hset,
    okBind (debugAssert_ok ?_), okBind (debugAssert_ok ?_)]
  · simp
  · simp
  · rw [decide_eq_true_eq, artificialRows, artificialRowsFrom_length]
    simp only [List.length_map]
    omega
  · rw [Bool.and_eq_true, decide_eq_true_eq, decide_eq_true_eq]
    exact ⟨hsorted.imp le_of_lt, hreal.imp le_of_lt⟩
  · rw [decide_eq_true_eq]
    exact fun row h => ((hmem row).1 h).1
  · rw [decide_eq_true_eq]
    exact fun row h => ((hmem row).1 h).2
  · rw [decide_eq_true_eq]
    exact hreal.imp le_of_lt

theorem removeBasisColumns_eq {indices : Fin m → Fin N} (hinj : Function.Injective indices)
    (rows : List (Fin m)) (hnd : rows.Nodup) (basis : Finset (Fin N))
    (h : ∀ row ∈ rows, indices row ∈ basis) :
    removeBasisColumns indices rows basis =
      .ok (rows.foldl (fun basis row => basis.erase (indices row)) basis) := by
  induction rows generalizing basis with
  | nil => rfl
  | cons row rows ih =>
    rw [removeBasisColumns, debugAssert_ok (by simpa using h row (by simp))]
    rw [List.nodup_cons] at hnd
    refine ih hnd.2 _ fun r hr => Finset.mem_erase.2 ⟨fun he => ?_, h r (by simp [hr])⟩
    exact hnd.1 (hinj he ▸ hr)

theorem fromArtificialRemovingRowsDebug_eq {P : Provider m n} {nrArtificial : ℕ}
    {columnToRow : Fin nrArtificial → Fin m}
    {t : Tableau BI m (nrArtificial + n)} {M} {rows : List (Fin m)}
    (hk : t.kind = artificialKind P columnToRow) (h : PhaseOneEnd P.rhs t M rows) :
    fromArtificialRemovingRowsDebug t.carry t.basisColumns P rows =
      fromArtificialRemovingRows t.carry t.basisColumns P rows := by
  have hnd : rows.Nodup := h.sorted.imp ne_of_lt
  have hlen : rows.length ≤ m := by simpa using hnd.length_le_card
  have hmem : ∀ i, t.carry.basisIndices i ∈ t.basisColumns := fun i => by
    rw [h.exact.cols]; exact Finset.mem_image_of_mem _ (Finset.mem_univ _)
  unfold fromArtificialRemovingRowsDebug
  rw [okBind (debugAssert_ok ?_), okBind (debugAssert_ok ?_), okBind (debugAssert_ok ?_),
    removeBasisColumns_eq h.exact.injective rows hnd _ fun r _ => hmem r]
  · change (shiftColumns _ >>= fun _ => _) = (shiftColumns _ >>= fun _ => _)
    refine bindCongr fun s _ => ?_
    rw [okBind (debugAssert_ok (by rw [decide_eq_true_eq]; omega))]
  · rw [decide_eq_true_eq]
    intro v hv
    rw [h.exact.cols, Finset.mem_image] at hv
    obtain ⟨i, -, rfl⟩ := hv
    by_cases hi : i ∈ rows
    · exact Or.inr ⟨i, hi, rfl⟩
    · left
      by_contra hc
      refine hi ((h.rows_iff i).2 ?_)
      rw [hk]
      simpa [artificialKind] using hc
  · rw [decide_eq_true_eq, List.toFinset_card_of_nodup hnd]
  · rw [decide_eq_true_eq]
    exact h.sorted.imp le_of_lt

theorem phaseTwoDebug_eq (hm : OkDim BI m) (h0 : 0 < m) (fuel : ℕ) {P : Provider m n} {t : Tableau BI m n}
    (h : PhaseTwoStart P t) : phaseTwoDebug R fuel t = phaseTwo R fuel t := by
  unfold phaseTwoDebug phaseTwo
  obtain ⟨M, hex⟩ := h.exact
  refine bindCongr fun r hr => ?_
  obtain ⟨r', hr', hinv⟩ := LawfulRule.new_ok (R := R) hm hex
  rw [hr] at hr'; cases hr'
  exact phaseTwoLoopDebug_eq hm h0 fuel ⟨hex, h.nonneg, hinv⟩

theorem solveAfterPhaseOneDebug_eq (hm : OkDim BI m) (h0 : 0 < m) {P : Provider m n}
    (hP : P.Ok) {start} (hstart : StartOk P start)
    (hrem : ∀ rows, P.toLP.Redundant rows → OkDim BI (keptLen rows) ∧ 0 < keptLen rows) (fuel : ℕ)
    {nrArtificial : ℕ} {f : Feasibility BI m (nrArtificial + n)}
    (h : PhaseOneResult R P start f) :
    solveAfterPhaseOneDebug R fuel P f = solveAfterPhaseOne R fuel P f := by
  cases f with
  | infeasible => rfl
  | feasible rank carry basis =>
    obtain ⟨t, ctr, M, rows, h1, rfl, rfl, h4, h5⟩ := h.inv hm hP hstart
    by_cases hrows : rows = []
    · subst hrows
      rw [if_pos rfl] at h5
      subst h5
      unfold solveAfterPhaseOneDebug solveAfterPhaseOne
      dsimp only
      obtain ⟨t', g1, g2⟩ := fromArtificial_spec hm hP h1 h4
      rw [g1]
      exact phaseTwoDebug_eq hm h0 fuel g2
    · rw [if_neg hrows] at h5
      subst h5
      obtain ⟨row, rows, rfl⟩ := List.exists_cons_of_ne_nil hrows
      unfold solveAfterPhaseOneDebug solveAfterPhaseOne
      dsimp only
      obtain ⟨hd, hd0⟩ := hrem _ (h4.redundant_rows h1)
      rw [fromArtificialRemovingRowsDebug_eq h1 h4]
      obtain ⟨t', g1, g2⟩ := fromArtificialRemovingRows_spec hm hP h1 h4 hd
      rw [g1]
      exact phaseTwoDebug_eq hd hd0 fuel g2

theorem phaseOneDebug_eq (hm : OkDim BI m) (h0 : 0 < m) (fuel : ℕ) {rhs : Fin m → ℚ} {t : Tableau BI m N} {M}
    (hex : t.Exact rhs M) (hnn : ∀ i, 0 ≤ t.carry.b i) (hart : ArtInv t) :
    phaseOneDebug R fuel t = phaseOne R fuel t := by
  unfold phaseOneDebug phaseOne
  refine bindCongr fun r hr => ?_
  obtain ⟨r', hr', hinv⟩ := LawfulRule.new_ok (R := R) hm hex
  rw [hr] at hr'; cases hr'
  exact phaseOneLoopDebug_eq hm h0 fuel ⟨hex, hnn, hinv⟩ hart

theorem newFullyDebug_eq (h0 : 0 < m) (P : Provider m n) :
    (newFullyDebug P : Res (Tableau BI m (m + n))) = newFully P :=
  okBind (debugAssert_ok (by rw [decide_eq_true_eq]; exact h0.ne'))

/-- The whole run. -/
theorem solveWithDebug_eq (hm : OkDim BI m) (h0 : 0 < m) {P : Provider m n}
    (hP : P.Ok) {start} (hstart : StartOk P start)
    (hrem : ∀ rows, P.toLP.Redundant rows → OkDim BI (keptLen rows) ∧ 0 < keptLen rows)
    (hfull : ∀ pivots, start = .fully pivots → OkInvert BI m) (fuel : ℕ) :
    solveWithDebug BI R fuel P start = solveWith BI R fuel P start := by
  cases start with
  | none =>
    change _ = solveFully BI R fuel P
    unfold solveWithDebug solveFully
    dsimp only
    rw [newFullyDebug_eq h0]
    obtain ⟨t, h1, h2, h3, h4, h5⟩ := newFully_spec (BI := BI) hm hP.wf
    refine bindCongr fun u hu => ?_
    rw [hu] at h1; cases h1
    rw [phaseOneDebug_eq hm h0 fuel h2 (by rw [h4]; exact hP.rhs_nonneg) h3]
    exact bindCongr fun f hf =>
      solveAfterPhaseOneDebug_eq hm h0 hP hstart hrem fuel (phaseOneResult_fully hu hf)
  | partially pivots =>
    change _ = solvePartially BI R fuel P pivots
    unfold solveWithDebug solvePartially
    dsimp only
    rw [newPartiallyDebug_eq hstart]
    obtain ⟨t, ctr, h1, h2, h3, h4, h5⟩ := newPartially_spec (BI := BI) hm hP.wf hstart
    refine bindCongr fun u hu => ?_
    rw [hu] at h1; cases h1
    rw [phaseOneDebug_eq hm h0 fuel h2 (by rw [h4]; exact hP.rhs_nonneg) h3]
    exact bindCongr fun f hf =>
      solveAfterPhaseOneDebug_eq hm h0 hP hstart hrem fuel (phaseOneResult_partially hu hf)
  | fully pivots =>
    change _ = solveFull BI R fuel P pivots
    unfold solveWithDebug solveFull
    dsimp only
    split_ifs with hlen
    · refine bindCongr fun carry hc => ?_
      obtain ⟨basis, hlen', hbasis, hM, hcols, heq⟩ := solveFull_eq hstart
      subst hbasis
      obtain ⟨carry', h1, h2⟩ := fromBasis_spec (BI := BI) hm (hfull _ rfl) hP.wf hM hcols
      rw [hc] at h1; cases h1
      exact phaseTwoDebug_eq hm h0 fuel (fullStart hP h2)
    · rfl

/-! ### Starting from a basis that is not feasible -/

theorem forEach_fail {α : Type} {f : α → Res Unit} {e : Fault} {l : List α}
    (h : ∀ a, f a = .ok () ∨ f a = .error e) (hx : ∃ a ∈ l, f a = .error e) :
    forEach f l = .error e := by
  induction l with
  | nil => simp at hx
  | cons a l ih =>
    rw [forEach]
    rcases h a with ha | ha
    · rw [ha]
      refine ih ?_
      obtain ⟨b, hb, hfb⟩ := hx
      rcases List.mem_cons.1 hb with rfl | hb
      · rw [ha] at hfb; cases hfb
      · exact ⟨b, hb, hfb⟩
    · rw [ha]

theorem debugCheck_fail (hm : OkDim BI m) {t : Tableau BI m N} {rhs M} (hex : t.Exact rhs M)
    {i : Fin m} (hi : t.carry.b i < 0) : t.debugCheck = panic .debugAssertion := by
  unfold Tableau.debugCheck
  rw [okBind (debugAssert_ok ?_), okBind (forEach_ok ?_), okBind (forEach_ok ?_),
    forEach_fail (e := .panic .debugAssertion) ?_ ⟨i, List.mem_finRange i, ?_⟩]
  · rfl
  · intro k
    unfold debugAssert
    split_ifs
    · exact Or.inl rfl
    · exact Or.inr rfl
  · unfold debugAssert
    rw [if_neg (by rw [decide_eq_true_eq]; exact not_le.2 hi)]
    rfl
  · intro i _
    exact debugAssert_ok (by simpa using hex.relativeCost_basis i)
  · intro i _
    obtain ⟨info, h1, h2, h3⟩ := hex.generateColumn_ok hm (t.carry.basisIndices i)
    rw [h1]
    refine debugAssert_ok ?_
    rw [decide_eq_true_eq]
    refine SVec.ext_of_wf h2 ?_ fun k => ?_
    · exact SVec.wf_standardBasis i
    · rw [h3, hex.alpha_basis]
      exact (congrFun (SVec.val_standardBasis_eq i) k).symm
  · rw [decide_eq_true_eq, hex.cols, Finset.card_image_of_injective _ hex.injective]
    simp

theorem primalFromBasisDebug_eq (hm : OkDim BI m) (h0 : 0 < m) (hi : OkInvert BI m) {P : Provider m n}
    (hP : ∀ j, SVec.WF (P.column j)) {basis : Fin m → Fin n} (hb : P.toLP.FeasibleBasis basis)
    (fuel : ℕ) : primalFromBasisDebug BI R fuel P basis = primalFromBasis BI R fuel P basis := by
  obtain ⟨carry, h1, h2⟩ := feasibleBasis_start hm hi hP hb
  unfold primalFromBasisDebug primalFromBasis
  rw [h1]
  exact phaseTwoDebug_eq hm h0 fuel h2

theorem primalFromBasisDebug_fail (hm : OkDim BI m) (h0 : 0 < m) (hi : OkInvert BI m) {P : Provider m n}
    (hP : ∀ j, SVec.WF (P.column j)) {basis : Fin m → Fin n}
    (hli : LinearIndependent ℚ fun i => P.toLP.A.col (basis i))
    (hb : ¬ P.toLP.FeasibleBasis basis) (fuel : ℕ) :
    primalFromBasisDebug BI R (fuel + 1) P basis = .error (.panic .debugAssertion) := by
  have hu : IsUnit (columnsMatrix (fun i => P.column (basis i))) := by
    rw [← Matrix.linearIndependent_cols_iff_isUnit]
    exact hli
  have hM : (columnsMatrix (fun i => P.column (basis i)))⁻¹ *
      columnsMatrix (fun i => P.column (basis i)) = 1 :=
    Matrix.nonsing_inv_mul _ ((Matrix.isUnit_iff_isUnit_det _).1 hu)
  obtain ⟨carry, h1, h2⟩ := fromBasis_spec (BI := BI) hm hi hP hM rfl
  obtain ⟨r, hr, -⟩ := LawfulRule.new_ok (R := R) hm h2
  have hbasis : carry.basisIndices = basis := by
    unfold Carry.fromBasis at h1
    obtain ⟨_, -, h1⟩ := bind_eq_ok h1
    obtain ⟨_, -, h1⟩ := bind_eq_ok h1
    obtain ⟨_, -, h1⟩ := bind_eq_ok h1
    cases h1
    rfl
  unfold primalFromBasisDebug
  rw [h1]
  change (PivotRule.new _ >>= fun rule => phaseTwoLoopDebug (fuel + 1) rule _ : Res _) = _
  rw [hr]
  change phaseTwoLoopDebug (fuel + 1) r _ = _
  rw [phaseTwoLoopDebug]
  have : ∃ i, carry.b i < 0 := by
    by_contra hc
    push Not at hc
    refine hb ⟨hli, Tableau.bfs (⟨carry, Finset.univ.image basis, nonArtificialKind P⟩ :
      Tableau BI m n), ?_, ?_⟩
    · have := bfs_feasible h2 hc
      exact this
    · intro j hj
      unfold Tableau.bfs
      exact Finset.sum_eq_zero fun i _ => if_neg (by
        rw [show (⟨carry, Finset.univ.image basis, nonArtificialKind P⟩ :
          Tableau BI m n).carry.basisIndices = basis from hbasis]
        exact hj i)
  obtain ⟨i, hneg⟩ := this
  rw [debugCheck_fail hm h2 (i := i) hneg]
  rfl

/-! ### All rows redundant -/

/-- If all rows may be removed, then the problem has no entries and its right hand side is zero. -/
theorem Spec.LP.Redundant.all {P : Spec.LP m n} {rows : List (Fin m)} (h : P.Redundant rows)
    (hlen : ¬ rows.length < m) : P.A = 0 ∧ P.b = 0 := by
  have hnd : rows.Nodup := h.1.imp ne_of_lt
  have hall : ∀ i, i ∈ rows := by
    have h1 : rows.toFinset = Finset.univ := by
      refine Finset.eq_univ_of_card _ ?_
      rw [List.toFinset_card_of_nodup hnd, Fintype.card_fin]
      have : rows.length ≤ m := by simpa using hnd.length_le_card
      omega
    intro i
    rw [← List.mem_toFinset, h1]
    exact Finset.mem_univ i
  have hu : ∀ i : Fin m, ∃ u : Fin m → ℚ, u ᵥ* P.A = 0 ∧ u ⬝ᵥ P.b = 0 ∧ u = Pi.single i 1 := by
    intro i
    obtain ⟨u, h1, h2, h3, h4⟩ := h.2 i (hall i)
    refine ⟨u, h1, h2, ?_⟩
    ext k
    by_cases hk : k = i
    · subst hk; rw [h3, Pi.single_eq_same]
    · rw [h4 k (hall k) hk, Pi.single_eq_of_ne hk]
  constructor
  · ext i j
    obtain ⟨u, h1, -, rfl⟩ := hu i
    have := congrFun h1 j
    rw [Matrix.single_one_vecMul] at this
    exact this
  · ext i
    obtain ⟨u, -, h2, rfl⟩ := hu i
    rw [single_dotProduct, one_mul] at h2
    exact h2

/-- Without entries and with right hand side zero, all rows are removed, and a check fails. -/
theorem solveWithDebug_allRedundant {P : Provider m n} (hP : P.Ok) (hm0 : m ≠ 0)
    (hA : P.toLP.A = 0) (hb : P.toLP.b = 0) (fuel : ℕ) :
    solveWithDebug DebugRows R (fuel + 1) P .none = .error (.panic .debugAssertion) := by
  have hm : OkDim DebugRows m := hm0
  have hcol : ∀ j, SVec.val (P.column j) = 0 := by
    intro j
    ext i
    exact congrFun (congrFun hA i) j
  obtain ⟨t, h1, h2, h3, h4, h5⟩ := newFully_spec (BI := DebugRows) hm hP.wf
  unfold solveWithDebug
  dsimp only
  rw [newFullyDebug_eq (Nat.pos_of_ne_zero hm0), h1]
  change (phaseOneDebug R (fuel + 1) t >>= fun f => solveAfterPhaseOneDebug R (fuel + 1) P f) = _
  have hnn : ∀ i, 0 ≤ t.carry.b i := by rw [h4]; exact hP.rhs_nonneg
  rw [phaseOneDebug_eq hm (Nat.pos_of_ne_zero hm0) (fuel + 1) h2 hnn h3]
  obtain ⟨r, hr, hinv⟩ := LawfulRule.new_ok (R := R) hm h2
  have hreal : ∀ j : Fin (m + n), t.kind.start ≤ (j : ℕ) → SVec.val (t.kind.column j) = 0 ∧
      t.kind.cost j = 0 := by
    intro j hj
    rw [h5] at hj
    obtain ⟨k, rfl⟩ := exists_natAdd hj
    rw [h5]
    simp [artificialKind, hcol]
  have hexit : phaseOne R (fuel + 1) t = phaseOneExit t := by
    unfold phaseOne
    rw [hr]
    change phaseOneLoop (fuel + 1) r t = _
    rw [phaseOneLoop]
    obtain ⟨sel, r', hsel, hspec⟩ := LawfulRule.select_ok hm h2 hinv
    rw [hsel]
    cases sel with
    | none => rfl
    | some q =>
      obtain ⟨j, c⟩ := q
      obtain ⟨g1, g2, rfl, g4⟩ := hspec
      exfalso
      rw [h2.relativeCost_eq, alpha, (hreal j g1).1, (hreal j g1).2] at g4
      simp at g4
  rw [hexit]
  have hobj : t.objectiveFunctionValue = 0 := by
    change -t.carry.minusObjective = 0
    rw [h2.obj_eq, h4, show P.rhs = 0 from hb]
    simp
  rcases phaseOneExit_spec hm h2 hnn h3 with ⟨-, e⟩ | ⟨t', M', rows, e1, e2, e3⟩
  · exact absurd hobj e
  have hrows : ∀ i, i ∈ rows := by
    intro i
    rw [e2.rows_iff]
    by_contra hc
    have g := congrFun (e2.exact.alpha_basis i) i
    rw [alpha, e1, (hreal _ (by rw [e1] at hc; omega)).1] at g
    simp at g
  have hne : rows ≠ [] := by
    rintro rfl
    have := hrows ⟨0, Nat.pos_of_ne_zero hm0⟩
    simp at this
  rcases e3 with ⟨e3, rfl⟩ | ⟨e3, -⟩
  · exact absurd rfl hne
  rw [e3]
  obtain ⟨row, rows, rfl⟩ := List.exists_cons_of_ne_nil hne
  change (fromArtificialRemovingRowsDebug t'.carry t'.basisColumns P (row :: rows) >>=
    fun t => phaseTwoDebug R (fuel + 1) t) = _
  have hk : t'.kind = artificialKind P id := e1.trans h5
  rw [fromArtificialRemovingRowsDebug_eq hk e2]
  have hnd : (row :: rows).Nodup := e2.sorted.imp ne_of_lt
  have hlen : (row :: rows).length = m := by
    rw [← List.toFinset_card_of_nodup hnd, show (row :: rows).toFinset = Finset.univ from
      Finset.eq_univ_iff_forall.2 fun i => List.mem_toFinset.2 (hrows i), Finset.card_univ,
      Fintype.card_fin]
  have hk0 : keptLen (row :: rows) = 0 := by
    rw [keptLen_eq hnd]
    omega
  have hempty : (row :: rows).foldl (fun basis row => basis.erase (t'.carry.basisIndices row))
      t'.basisColumns = ∅ := by
    ext j
    rw [mem_fold_erase, e2.exact.cols, Finset.mem_image]
    constructor
    · rintro ⟨⟨i, -, rfl⟩, h⟩
      exact absurd rfl (h i (hrows i))
    · intro h
      simp at h
  have hshift : ∃ s : Finset (Fin n), shiftColumns ((row :: rows).foldl (fun basis row =>
      basis.erase (t'.carry.basisIndices row)) t'.basisColumns) = .ok s := by
    rw [hempty]
    unfold shiftColumns
    rw [if_pos (by simp)]
    exact ⟨_, rfl⟩
  obtain ⟨s, hs⟩ := hshift
  have htab : ∃ basis : Fin (keptLen (row :: rows)) → Fin n, tabulateM (fun i =>
      Carry.shiftColumn m (removeIndices (row :: rows) t'.carry.basisIndices i)) = .ok basis := by
    refine ⟨fun i => (i.cast hk0).elim0, tabulateM_ok fun i => (i.cast hk0).elim0⟩
  obtain ⟨basis, hb⟩ := htab
  unfold fromArtificialRemovingRows Carry.fromArtificialRemoveRows
  simp only []
  rw [hs, bindOk, hb, bindOk, DebugRows.remove_all _ _ e2.sorted hk0]
  rfl

/-! ### Debug builds and release builds -/

theorem Follows.eq {α : Type} {x y : Res α} (h : Follows Eq x y)
    (hx : x = .error .outOfFuel ∨ ∃ a, x = .ok a) : x = y := by
  rcases hx with rfl | ⟨a, rfl⟩
  · exact h.symm
  · obtain ⟨b, rfl, rfl⟩ := h
    rfl

/-- A lawful representation that follows the row-wise one gives the same results. -/
theorem solveWith_eq_rows [FollowingInverse BI] [SimRule R] (hm : OkDim BI m)
    (hd : FollowingInverse.Dim BI m) {P : Provider m n} (hP : P.Ok) {start} (hstart : StartOk P start)
    (hrem : ∀ rows, P.toLP.Redundant rows → OkDim BI (keptLen rows))
    (hfull : ∀ pivots, start = .fully pivots → OkInvert BI m) (fuel : ℕ) :
    solveWith BI R fuel P start = solveWith BasisInverseRows R fuel P start := by
  cases start with
  | none =>
    refine Follows.eq (solveFully_sim hd fuel hP) ?_
    rcases solveFully_spec (BI := BI) (R := R) hm fuel hP hrem with h | ⟨a, h, -⟩
    · exact .inl h
    · exact .inr ⟨a, h⟩
  | partially pivots =>
    refine Follows.eq (solvePartially_sim hd fuel hP hstart) ?_
    rcases solvePartially_spec (BI := BI) (R := R) hm fuel hP hstart hrem with h | ⟨a, h, -⟩
    · exact .inl h
    · exact .inr ⟨a, h⟩
  | fully pivots =>
    refine Follows.eq (solveFull_sim hd fuel hP hstart) ?_
    rcases solveFull_spec (BI := BI) (R := R) hm (hfull _ rfl) fuel hP hstart with h | ⟨a, h, -⟩
    · exact .inl h
    · exact .inr ⟨a, h⟩

/-- The same when a basis is given. -/
theorem primalFromBasis_eq_rows [FollowingInverse BI] [SimRule R] (hm : OkDim BI m)
    (hi : OkInvert BI m) (hd : FollowingInverse.Dim BI m) {P : Provider m n}
    (hP : ∀ j, SVec.WF (P.column j)) {basis : Fin m → Fin n} (hb : P.toLP.FeasibleBasis basis)
    (fuel : ℕ) :
    primalFromBasis BI R fuel P basis = primalFromBasis BasisInverseRows R fuel P basis := by
  have hu : IsUnit (columnsMatrix (fun i => P.column (basis i))) := by
    rw [← Matrix.linearIndependent_cols_iff_isUnit]
    exact hb.1
  have hM : (columnsMatrix (fun i => P.column (basis i)))⁻¹ *
      columnsMatrix (fun i => P.column (basis i)) = 1 :=
    Matrix.nonsing_inv_mul _ ((Matrix.isUnit_iff_isUnit_det _).1 hu)
  obtain ⟨carry, h1, h2⟩ := fromBasis_spec (BI := BasisInverseRows) trivial
    (FollowingInverse.ne_zero hd) hP hM rfl
  obtain ⟨carry', h3, h4⟩ := feasibleBasis_start (BI := BasisInverseRows) trivial
    (FollowingInverse.ne_zero hd) hP hb
  cases Except.ok.inj (h1.symm.trans h3)
  have hs := fromBasis_sim (R := R) hd fuel hP hM h1 h2 h4
  obtain ⟨c, h5, h6⟩ := feasibleBasis_start (BI := BI) hm hi hP hb
  have hr : primalFromBasis BasisInverseRows R fuel P basis = phaseTwo R fuel
      (⟨carry, Finset.univ.image basis, nonArtificialKind P⟩ : Tableau BasisInverseRows m n) := by
    unfold primalFromBasis
    rw [h1]
    rfl
  rw [hr]
  refine Follows.eq hs ?_
  rcases primalFromBasis_spec (R := R) hm fuel h5 h6 with h | ⟨a, h, -⟩
  · exact .inl h
  · exact .inr ⟨a, h⟩

/-! ### One row -/

/-- A debug build cannot invert a matrix of one row. -/
theorem fromBasis_one_row (inv : InverseName) (hm : m ≤ 1) (P : Provider m n) (basis : Fin m → Fin n) :
    (Carry.fromBasis P basis : Res (Carry inv.debugType m n)) = panic .debugAssertion := by
  unfold Carry.fromBasis
  have : (BasisInverse.invert fun i => P.column (basis i) : Res (inv.debugType m))
      = panic .debugAssertion := by
    cases inv with
    | rows => exact DebugRows.invert_small hm _
    | lu =>
      change (LU.invertDebug _ >>= fun lu => pure (⟨lu⟩ : DebugLU m)) = _
      rw [LU.invertDebug_small hm]
      rfl
  rw [this]
  rfl

instance InverseName.instDebugLawful : (inv : InverseName) → LawfulBasisInverse inv.debugType
  | .rows => inferInstanceAs (LawfulBasisInverse DebugRows)
  | .lu => inferInstanceAs (LawfulBasisInverse DebugLU)

instance InverseName.instDebugFollowing : (inv : InverseName) → FollowingInverse inv.debugType
  | .rows => inferInstanceAs (FollowingInverse DebugRows)
  | .lu => inferInstanceAs (FollowingInverse DebugLU)

end Relp
