import Verif.Proof.Sim

/-! # The whole solver in lock step -/

set_option linter.unusedSectionVars false

namespace Relp

open Matrix BasisInverse LawfulBasisInverse Tableau

variable {BI : ℕ → Type} [BasisInverse BI] [FollowingInverse BI]
variable {m n N : ℕ}

theorem BasisInverseRows.Rep.unique {bi : BasisInverseRows m} {M M' : Matrix (Fin m) (Fin m) ℚ}
    (h : BasisInverseRows.Rep bi M) (h' : BasisInverseRows.Rep bi M') : M = M' := by
  funext i
  rw [← h.val i, ← h'.val i]

theorem identity_sim (hm : FollowingInverse.Dim BI m) :
    Follows (fun (a : BI m) (b : BasisInverseRows m) =>
      FollowingInverse.Rep a 1 ∧ BasisInverseRows.Rep b 1)
    (BasisInverse.identity m) (BasisInverse.identity m) := by
  obtain ⟨bi, h1, h2⟩ := FollowingInverse.identity_ok hm
  rw [h1]
  exact ⟨_, rfl, h2, BasisInverseRows.identity_rep⟩

theorem newFully_sim (hm : FollowingInverse.Dim BI m) {P : Provider m n} (hP : ∀ j, SVec.WF (P.column j)) :
    Follows (Sim P.rhs 1) (newFully P : Res (Tableau BI m (m + n)))
      (newFully P : Res (Tableau BasisInverseRows m (m + n))) := by
  obtain ⟨u, hu, hex, -⟩ := newFully_spec (BI := BasisInverseRows) trivial hP
  have : Follows (fun t u => u.Exact P.rhs 1 → Sim P.rhs 1 t u)
      (newFully P : Res (Tableau BI m (m + n)))
      (newFully P : Res (Tableau BasisInverseRows m (m + n))) := by
    unfold newFully Carry.createForFullyArtificial
    refine Follows.bind (S := fun c c' => c.minusObjective = c'.minusObjective ∧
      c.minusPi = c'.minusPi ∧ c.b = c'.b ∧ c.basisIndices = c'.basisIndices ∧
      FollowingInverse.Rep c.basisInverse 1) ?_ ?_
    · refine Follows.bind (identity_sim hm) fun a b hab _ _ => ?_
      exact Follows.ok ⟨rfl, rfl, rfl, rfl, hab.1⟩
    · rintro a b ⟨h1, h2, h3, h4, h5⟩ - -
      exact Follows.ok fun hex => ⟨h1, h2, h3, h4, rfl, rfl, hm, h5, hex⟩
  rw [hu] at this ⊢
  revert this
  match (newFully P : Res (Tableau BI m (m + n))) with
  | .ok t => rintro ⟨b, hb, h⟩; cases hb; exact ⟨_, rfl, h hex⟩
  | .error .outOfFuel => rintro h; cases h
  | .error (.panic _) => intro _; trivial

theorem newPartially_sim (hm : FollowingInverse.Dim BI m) {P : Provider m n} (hP : ∀ j, SVec.WF (P.column j))
    {pivots : List (Fin m × Fin n)} (hpiv : PivotsOk P pivots) :
    Follows (Sim P.rhs 1) (newPartially P pivots : Res (Tableau BI m ((m - pivots.length) + n)))
      (newPartially P pivots : Res (Tableau BasisInverseRows m ((m - pivots.length) + n))) := by
  obtain ⟨u, -, hu, hex, -⟩ := newPartially_spec (BI := BasisInverseRows) trivial hP hpiv
  have : Follows (fun t u => u.Exact P.rhs 1 → Sim P.rhs 1 t u)
      (newPartially P pivots : Res (Tableau BI m ((m - pivots.length) + n)))
      (newPartially P pivots : Res (Tableau BasisInverseRows m ((m - pivots.length) + n))) := by
    unfold newPartially
    split_ifs
    · exact trivial
    · dsimp only
      split_ifs
      · unfold Carry.createForPartiallyArtificial
        refine Follows.bind (S := fun c c' => c.minusObjective = c'.minusObjective ∧
          c.minusPi = c'.minusPi ∧ c.b = c'.b ∧ c.basisIndices = c'.basisIndices ∧
          FollowingInverse.Rep c.basisInverse 1) ?_ ?_
        · refine Follows.bind (identity_sim hm) fun a b hab _ _ => ?_
          exact Follows.ok ⟨rfl, rfl, rfl, rfl, hab.1⟩
        · rintro a b ⟨h1, h2, h3, h4, h5⟩ - -
          exact Follows.ok fun hex => ⟨h1, h2, h3, h4, rfl, rfl, hm, h5, hex⟩
      · exact trivial
      · exact trivial
  rw [hu] at this ⊢
  revert this
  match (newPartially P pivots : Res (Tableau BI m ((m - pivots.length) + n))) with
  | .ok t => rintro ⟨b, hb, h⟩; cases hb; exact ⟨_, rfl, h hex⟩
  | .error .outOfFuel => rintro h; cases h
  | .error (.panic _) => intro _; trivial

theorem createMinusPi_sim (hm : FollowingInverse.Dim BI m) {lu : BI m} {bi : BasisInverseRows m}
    {M : Matrix (Fin m) (Fin m) ℚ} (h1 : FollowingInverse.Rep lu M) (h2 : BasisInverseRows.Rep bi M)
    (cost : Fin n → ℚ) (basis : Fin m → Fin n) :
    Carry.createMinusPi lu cost basis = Carry.createMinusPi bi cost basis := by
  rw [Carry.createMinusPi_of_left (fun hc => FollowingInverse.left_ok hm h1 hc),
    Carry.createMinusPi_ok (BI := BasisInverseRows) trivial h2]

theorem follows_ok {α β : Type} {S T : α → β → Prop} {x : Res α} {y : Res β} {b : β}
    (h : Follows S x y) (hy : y = .ok b) (hT : ∀ a, S a b → T a b) : Follows T x y := by
  subst hy
  match x, h with
  | .ok a, ⟨b', hb, h⟩ => cases hb; exact ⟨b, rfl, hT a h⟩
  | .error .outOfFuel, h => cases h
  | .error (.panic _), _ => trivial

theorem fromArtificial_sim {P : Provider m n} (hP : P.Ok) {nrArtificial : ℕ}
    {columnToRow : Fin nrArtificial → Fin m} {M} {t : Tableau BI m (nrArtificial + n)}
    {u : Tableau BasisInverseRows m (nrArtificial + n)} (h : Sim P.rhs M t u)
    (hk : u.kind = artificialKind P columnToRow) (hend : PhaseOneEnd P.rhs u M []) :
    Follows (fun t' u' => PhaseTwoStart P u' ∧ ∃ M', Sim P.rhs M' t' u')
      (fromArtificial t.carry t.basisColumns P) (fromArtificial u.carry u.basisColumns P) := by
  obtain ⟨u', h1, h2⟩ := fromArtificial_spec (BI := BasisInverseRows) trivial hP hk hend
  have : Follows (fun t' u' => ∀ M', u'.Exact P.rhs M' → Sim P.rhs M' t' u')
      (fromArtificial t.carry t.basisColumns P) (fromArtificial u.carry u.basisColumns P) := by
    unfold fromArtificial Carry.fromArtificial
    rw [h.basis, h.cols]
    refine Follows.bind (S := fun c c' => c.minusObjective = c'.minusObjective ∧
      c.minusPi = c'.minusPi ∧ c.b = c'.b ∧ c.basisIndices = c'.basisIndices ∧
      FollowingInverse.Rep c.basisInverse M ∧ BasisInverseRows.Rep c'.basisInverse M) ?_ ?_
    · refine Follows.bind (Follows.refl (S := Eq) fun _ => rfl) fun basis _ hb _ _ => ?_
      subst hb
      rw [createMinusPi_sim h.dim h.rep h.exact.rep]
      refine Follows.bind (Follows.refl (S := Eq) fun _ => rfl) fun pi _ hb _ _ => ?_
      subst hb
      exact Follows.ok ⟨by rw [h.b], rfl, h.b, rfl, h.rep, h.exact.rep⟩
    · rintro a b ⟨h1, h2, h3, h4, h5, h6⟩ - -
      refine Follows.bind (Follows.refl (S := Eq) fun _ => rfl) fun s _ hb _ _ => ?_
      subst hb
      refine Follows.ok fun M' hex => ⟨h1, h2, h3, h4, rfl, rfl, h.dim, ?_, hex⟩
      have : M' = M := BasisInverseRows.Rep.unique (bi := b.basisInverse) hex.rep h6
      rw [this]
      exact h5
  refine follows_ok this h1 fun a ha => ⟨h2, ?_⟩
  obtain ⟨M', hex⟩ := h2.exact
  exact ⟨M', ha M' hex⟩

theorem bind_eq_ok {α β : Type} {x : Res α} {f : α → Res β} {b : β} (h : (x >>= f) = .ok b) :
    ∃ a, x = .ok a ∧ f a = .ok b := by
  match x, h with
  | .ok a, h => exact ⟨a, rfl, h⟩
  | .error _, h => cases h

theorem fromArtificialRemovingRows_sim {P : Provider m n} (hP : P.Ok) {nrArtificial : ℕ}
    {columnToRow : Fin nrArtificial → Fin m} {M} {t : Tableau BI m (nrArtificial + n)}
    {u : Tableau BasisInverseRows m (nrArtificial + n)} (h : Sim P.rhs M t u)
    (hk : u.kind = artificialKind P columnToRow) {rows : List (Fin m)}
    (hend : PhaseOneEnd P.rhs u M rows) :
    Follows (fun t' u' => PhaseTwoStart (P.removeRows rows) u' ∧
        ∃ M', Sim (P.removeRows rows).rhs M' t' u')
      (fromArtificialRemovingRows t.carry t.basisColumns P rows)
      (fromArtificialRemovingRows u.carry u.basisColumns P rows) := by
  obtain ⟨u', h1, h2⟩ :=
    fromArtificialRemovingRows_spec (BI := BasisInverseRows) trivial hP hk hend trivial
  obtain ⟨M', hex'⟩ := h2.exact
  have hu := h1
  unfold fromArtificialRemovingRows Carry.fromArtificialRemoveRows at h1
  obtain ⟨s, hs, h1⟩ := bind_eq_ok h1
  obtain ⟨c, hc, h1⟩ := bind_eq_ok h1
  obtain ⟨basis, hb, hc⟩ := bind_eq_ok hc
  obtain ⟨bi, hbi, hc⟩ := bind_eq_ok hc
  obtain ⟨pi, hpi, hc⟩ := bind_eq_ok hc
  cases hc
  cases h1
  have hrep : BasisInverseRows.Rep bi M' := hex'.rep
  rw [hu]
  unfold fromArtificialRemovingRows Carry.fromArtificialRemoveRows
  rw [h.basis, h.cols]
  dsimp only
  rw [hs]
  change Follows _ (do
    let carry ← (do
      let basisIndices ← tabulateM fun i =>
        Carry.shiftColumn nrArtificial (removeIndices rows u.carry.basisIndices i)
      _)
    _) _
  rw [hb]
  have hM' : M' = M.submatrix (kept rows).get (kept rows).get := by
    cases hbi
    exact BasisInverseRows.Rep.unique hrep (BasisInverseRows.Rep.remove h.exact.rep rows)
  have hinv := hex'.inv
  subst hM'
  change Follows _ (do
    let carry ← (do
      let basisInverse ← removeBasis rows t.carry.basisInverse
        fun i => (P.removeRows rows).column (basis i)
      _)
    _) _
  rcases FollowingInverse.remove_ok h.dim h.rep rows hend.sorted
    (columns := fun i => (P.removeRows rows).column (basis i)) (fun i => hex'.wf _) hinv with
    ⟨e, f1⟩ | ⟨lu, f1, f3, f2⟩
  · rw [f1]
    exact trivial
  · rw [f1]
    change Follows _ (do
      let carry ← (do
        let minusPi ← Carry.createMinusPi lu P.cost basis
        _)
      _) _
    rw [createMinusPi_sim f3 f2 hrep, hpi]
    refine ⟨_, rfl, h2, _, ?_, rfl, ?_, rfl, rfl, rfl, f3, f2, hex'⟩
    · simp only [h.b]
    · simp only [h.b]

section

variable {R : ℕ → Type} [PivotRule R] [LawfulRule R] [SimRule R]

theorem phaseTwo_sim (fuel : ℕ) {P : Provider m n} {M} {t : Tableau BI m n}
    {u : Tableau BasisInverseRows m n} (h2 : PhaseTwoStart P u) (h : Sim P.rhs M t u) :
    Follows Eq (phaseTwo R fuel t) (phaseTwo R fuel u) := by
  obtain ⟨r, hr, hinv⟩ := LawfulRule.new_ok (R := R) (BI := BasisInverseRows) trivial h.exact
  unfold phaseTwo
  rw [SimRule.new h, hr]
  exact phaseTwoLoop_sim fuel h h2.nonneg hinv

theorem Tableau.ext' {BI : ℕ → Type} {t u : Tableau BI m N} (h1 : t.carry = u.carry)
    (h2 : t.basisColumns = u.basisColumns) (h3 : t.kind = u.kind) : t = u := by
  cases t; cases u; simp_all

theorem solve_sim (fuel : ℕ) {P : Provider m n} (hP : P.Ok) {nrArtificial : ℕ}
    {columnToRow : Fin nrArtificial → Fin m} {t : Tableau BI m (nrArtificial + n)}
    {u : Tableau BasisInverseRows m (nrArtificial + n)} (h : Sim P.rhs 1 t u) (hart : ArtInv u)
    (hb : u.carry.b = P.rhs) (hk : u.kind = artificialKind P columnToRow) :
    Follows Eq (do let f ← phaseOne R fuel t; solveAfterPhaseOne R fuel P f)
      (do let f ← phaseOne R fuel u; solveAfterPhaseOne R fuel P f) := by
  have hnn : ∀ i, 0 ≤ u.carry.b i := by rw [hb]; exact hP.rhs_nonneg
  obtain ⟨r, hr, hinv⟩ := LawfulRule.new_ok (R := R) (BI := BasisInverseRows) trivial h.exact
  unfold phaseOne
  rw [SimRule.new h, hr]
  change Follows Eq (do let f ← phaseOneLoop fuel r t; solveAfterPhaseOne R fuel P f)
      (do let f ← phaseOneLoop fuel r u; solveAfterPhaseOne R fuel P f)
  refine Follows.bind (phaseOneLoop_sim fuel h hnn hinv) fun f g hfg _ hg => ?_
  cases hfg with
  | infeasible => exact Follows.refl fun _ => rfl
  | @feasible M t' u' rank h' hk' =>
    have hk'' := hk'.trans hk
    rcases phaseOneLoop_spec (BI := BasisInverseRows) trivial fuel h.exact hnn hinv with h1 |
      ⟨v, Mv, g1, g2, g3, g4⟩
    · rw [h1] at hg; cases hg
    · have hartv : ArtInv v := hart.reach g1
      have hkindv : v.kind = u.kind := g1.kind_eq
      rcases g4 with ⟨g4, g5⟩ | ⟨j, g5, g6⟩
      · rw [g4] at hg
        rcases phaseOneExit_spec (BI := BasisInverseRows) trivial g2 g3 hartv with ⟨e1, e2⟩ |
          ⟨w, Mw, rows, e1, e2, e3⟩
        · rw [e1] at hg; cases hg
        · have key : ∀ rk, phaseOneExit v = .ok (.feasible rk w.carry w.basisColumns) →
              rank = rk ∧ PhaseOneEnd P.rhs u' M rows := by
            intro rk hrk
            rw [hrk] at hg
            injection hg with hg
            injection hg with q1 q2 q3
            have hw : u' = w := by
              refine Tableau.ext' q2.symm q3.symm ?_
              rw [hk', e1, hkindv]
            subst hw
            have : Mw = M := BasisInverseRows.Rep.unique (bi := u'.carry.basisInverse)
              e2.exact.rep h'.exact.rep
            subst this
            exact ⟨q1.symm, e2⟩
          rcases e3 with ⟨e3, rfl⟩ | ⟨e3, e4⟩
          · obtain ⟨rfl, hend⟩ := key _ e3
            change Follows Eq (do
              let t ← fromArtificial t'.carry t'.basisColumns P
              phaseTwo R fuel t) (do
              let t ← fromArtificial u'.carry u'.basisColumns P
              phaseTwo R fuel t)
            refine Follows.bind (fromArtificial_sim hP h' hk'' hend) fun a b hab _ _ => ?_
            obtain ⟨h5, M', h6⟩ := hab
            exact phaseTwo_sim fuel h5 h6
          · obtain ⟨rfl, hend⟩ := key _ e3
            cases rows with
            | nil => exact absurd rfl e4
            | cons row rows =>
              change Follows Eq (do
                let t ← fromArtificialRemovingRows t'.carry t'.basisColumns P (row :: rows)
                phaseTwo R fuel t) (do
                let t ← fromArtificialRemovingRows u'.carry u'.basisColumns P (row :: rows)
                phaseTwo R fuel t)
              refine Follows.bind (fromArtificialRemovingRows_sim hP h' hk'' hend)
                fun a b hab _ _ => ?_
              obtain ⟨h5, M', h6⟩ := hab
              exact phaseTwo_sim fuel h5 h6
      · exact (hartv.not_unbounded g2 g5.1 g5.2.2.2 g6).elim

theorem solveFully_sim (hm : FollowingInverse.Dim BI m) (fuel : ℕ) {P : Provider m n} (hP : P.Ok) :
    Follows Eq (solveFully BI R fuel P) (solveFully BasisInverseRows R fuel P) := by
  obtain ⟨u, h1, h2, h3, h4, h5⟩ := newFully_spec (BI := BasisInverseRows) trivial hP.wf
  unfold solveFully
  refine Follows.bind (newFully_sim hm hP.wf) fun a b hab _ hb => ?_
  rw [h1] at hb
  cases hb
  exact solve_sim fuel hP hab h3 h4 h5

theorem solvePartially_sim (hm : FollowingInverse.Dim BI m) (fuel : ℕ) {P : Provider m n} (hP : P.Ok)
    {pivots : List (Fin m × Fin n)} (hpiv : PivotsOk P pivots) :
    Follows Eq (solvePartially BI R fuel P pivots)
      (solvePartially BasisInverseRows R fuel P pivots) := by
  obtain ⟨u, ctr, h1, h2, h3, h4, h5⟩ :=
    newPartially_spec (BI := BasisInverseRows) trivial hP.wf hpiv
  unfold solvePartially
  refine Follows.bind (newPartially_sim hm hP.wf hpiv) fun a b hab _ hb => ?_
  rw [h1] at hb
  cases hb
  exact solve_sim fuel hP hab h3 h4 h5

/-- Starting from a basis. -/
theorem fromBasis_sim (hm : FollowingInverse.Dim BI m) (fuel : ℕ) {P : Provider m n}
    (hP : ∀ j, SVec.WF (P.column j)) {basis : Fin m → Fin n} {M : Matrix (Fin m) (Fin m) ℚ}
    (hM : M * columnsMatrix (fun i => P.column (basis i)) = 1) {carry : Carry BasisInverseRows m n}
    (h1 : Carry.fromBasis P basis = .ok carry) {cols : Finset (Fin n)}
    (h2 : (⟨carry, cols, nonArtificialKind P⟩ : Tableau BasisInverseRows m n).Exact P.rhs M)
    (h3 : PhaseTwoStart P (⟨carry, cols, nonArtificialKind P⟩ : Tableau BasisInverseRows m n)) :
    Follows Eq (do
        let carry ← (Carry.fromBasis P basis : Res (Carry BI m n))
        phaseTwo R fuel ⟨carry, cols, nonArtificialKind P⟩)
      (phaseTwo R fuel (⟨carry, cols, nonArtificialKind P⟩ : Tableau BasisInverseRows m n)) := by
  unfold Carry.fromBasis at h1
  obtain ⟨bi, hbi, h1⟩ := bind_eq_ok h1
  obtain ⟨info, hinfo, h1⟩ := bind_eq_ok h1
  obtain ⟨pi, hpi, h1⟩ := bind_eq_ok h1
  cases h1
  have hrep : BasisInverseRows.Rep bi M := h2.rep
  rcases FollowingInverse.invert_ok (BI := BI) hm (columns := fun i => P.column (basis i))
    (fun i => hP _) hM with ⟨e, f1⟩ | ⟨lu, f1, f2⟩
  · have : (Carry.fromBasis P basis : Res (Carry BI m n)) = panic e := by
      unfold Carry.fromBasis
      rw [f1]
      rfl
    rw [this]
    exact trivial
  · obtain ⟨info', l1, l2, l4⟩ := FollowingInverse.left_ok hm f2 (SVec.wf_ofDense P.rhs)
    have hsame : infoColumn info' = info := by
      obtain ⟨i', k1, k2, k3⟩ := left_ok (BI := BasisInverseRows) trivial hrep
        (SVec.wf_ofDense P.rhs)
      have : i' = info := Except.ok.inj (k1.symm.trans hinfo)
      subst this
      refine SVec.ext_of_wf l2 k2 fun i => ?_
      rw [l4]
      exact (congrFun k3 i).symm
    have ht : (Carry.fromBasis P basis : Res (Carry BI m n)) = .ok
        { minusObjective := Carry.createMinusObj P.cost basis
            (info.foldl (fun b p => Function.update b p.1 p.2) fun _ => 0)
          minusPi := pi
          b := info.foldl (fun b p => Function.update b p.1 p.2) fun _ => 0
          basisIndices := basis
          basisInverse := lu } := by
      unfold Carry.fromBasis
      rw [f1]
      simp only [bind, Except.bind]
      rw [l1]
      simp only [createMinusPi_sim hm f2 hrep, hpi]
      subst hsame
      rfl
    rw [ht]
    exact phaseTwo_sim fuel h3 ⟨rfl, rfl, rfl, rfl, rfl, rfl, hm, f2, h2⟩

theorem solveFull_sim (hm : FollowingInverse.Dim BI m) (fuel : ℕ) {P : Provider m n} (hP : P.Ok)
    {pivots : List (Fin m × Fin n)} (hpiv : FullPivotsOk P pivots) :
    Follows Eq (solveFull BI R fuel P pivots) (solveFull BasisInverseRows R fuel P pivots) := by
  obtain ⟨basis, -, -, hM, hcols, heq⟩ := solveFull_eq hpiv
  rw [heq, heq]
  obtain ⟨carry, h1, h2⟩ := fromBasis_spec (BI := BasisInverseRows) trivial
    (FollowingInverse.ne_zero hm) hP.wf hM hcols
  have := fromBasis_sim (R := R) hm fuel hP.wf hM h1 h2 (fullStart hP h2)
  rw [h1]
  exact this

end

end Relp
