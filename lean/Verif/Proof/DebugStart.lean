import Verif.Proof.Singular
import Verif.Proof.DebugBelowSolve
import Verif.Proof.Debug
import Verif.Proof.Relaxation

/-!
# Debug builds started from anything

The checks of a debug build establish what a caller has to provide.
-/

namespace Relp

open Matrix BasisInverse Tableau

variable {m n N : ℕ}

/-! ### What the checks say if they succeed -/

theorem debugAssert_true {b : Bool} (h : debugAssert b = .ok ()) : b = true := by
  cases b
  · cases h
  · rfl

theorem okBind_eq {α : Type} {x : Res Unit} {y : Res α} {a : α} (h : (do x; y) = .ok a) :
    x = .ok () ∧ y = .ok a := by
  cases x with
  | error e => cases h
  | ok u => exact ⟨rfl, h⟩

theorem forEach_all {α : Type} {f : α → Res Unit} {l : List α} (h : forEach f l = .ok ()) :
    ∀ a ∈ l, f a = .ok () := by
  induction l with
  | nil => simp
  | cons b l ih =>
    rw [forEach] at h
    cases hb : f b with
    | error e => rw [hb] at h; cases h
    | ok u =>
      rw [hb] at h
      intro a ha
      rcases List.mem_cons.1 ha with rfl | ha
      · exact hb
      · exact ih h a ha

theorem debugCheck_says {BI : ℕ → Type} [BasisInverse BI] {t : Tableau BI m N}
    (h : t.debugCheck = .ok ()) : (∀ i, 0 ≤ t.carry.b i) ∧
      ∀ i, ∃ info, t.generateColumn (t.carry.basisIndices i) = .ok info ∧ infoColumn info = [(i, 1)] := by
  unfold Tableau.debugCheck at h
  obtain ⟨-, h⟩ := okBind_eq h
  obtain ⟨h1, h⟩ := okBind_eq h
  obtain ⟨-, h2⟩ := okBind_eq h
  refine ⟨fun i => ?_, fun i => ?_⟩
  · simpa using debugAssert_true (forEach_all h2 i (List.mem_finRange i))
  · obtain ⟨info, h3, h4⟩ := bind_eq_ok (forEach_all h1 i (List.mem_finRange i))
    exact ⟨info, h3, by simpa using debugAssert_true h4⟩

theorem phaseOneDebug_check {BI : ℕ → Type} [BasisInverse BI] {R : ℕ → Type} [PivotRule R] [DebugRule R]
    {fuel : ℕ} {t : Tableau BI m N} {f} (h : phaseOneDebug R fuel t = .ok f) : t.debugCheck = .ok () := by
  unfold phaseOneDebug at h
  obtain ⟨r, -, h⟩ := bind_eq_ok h
  cases fuel with
  | zero => cases h
  | succ k =>
    rw [phaseOneLoopDebug] at h
    exact (okBind_eq h).1

/-! ### Representations that are what they say -/

/-- Multiplying with the inverse of the identity changes nothing, in every dimension. -/
class PlainIdentity (BI : ℕ → Type) [BasisInverse BI] : Prop where
  left : ∀ {m : ℕ} {bi : BI m}, BasisInverse.identity m = .ok bi → ∀ {column : Sparse m}, SVec.WF column →
    ∀ {info}, leftMultiply bi column = .ok info → SVec.val (infoColumn info) = SVec.val column

instance : PlainIdentity LU where
  left {m} bi h column hc info hi := by
    have hm : m ≠ 0 := by
      rintro rfl
      cases h
    obtain ⟨lu, h1, h2⟩ := LU.identity_rep hm
    change LU.identity m = .ok bi at h
    rw [h] at h1
    cases h1
    obtain ⟨info', h3, -, -, h4, -⟩ := h2.left hc
    change LU.leftMultiply bi column = .ok info at hi
    rw [hi] at h3
    cases h3
    rw [Matrix.one_mulVec] at h4
    exact h4

instance : PlainIdentity BasisInverseRows where
  left {m} bi h column hc info hi := by
    cases h
    obtain ⟨info', h3, -, h4⟩ := LawfulBasisInverse.left_ok (BI := BasisInverseRows) (m := m) trivial
      (show LawfulBasisInverse.Rep (BasisInverseRows.identity m) 1 from BasisInverseRows.identity_rep) hc
    rw [hi] at h3
    cases h3
    rw [Matrix.one_mulVec] at h4
    exact h4

instance {D BI : ℕ → Type} [BasisInverse D] [BasisInverse BI] [Erases D BI] [PlainIdentity BI] :
    PlainIdentity D where
  left {m} bi h column hc info hi := by
    obtain ⟨bi', h1, h2⟩ := Erases.identity (D := D) (BI := BI) m bi h
    obtain ⟨info', h3, h4⟩ := Erases.leftMultiply (D := D) (BI := BI) bi column info hi
    rw [h2] at h3
    have := PlainIdentity.left h1 hc h3
    rw [← h4, Erases.infoColumn] at this
    exact this

instance {D BI : ℕ → Type} [BasisInverse D] [BasisInverse BI] [Erases D BI] [StrictInverse BI] :
    StrictInverse D where
  invertible hc bi h := by
    obtain ⟨bi', h1, -⟩ := Erases.invert (D := D) (BI := BI) _ bi h
    exact StrictInverse.invertible hc h1

/-! ### Phase one -/

theorem rhs_of_newFully {BI : ℕ → Type} [BasisInverse BI] {P : Provider m n} {t : Tableau BI m (m + n)}
    (h : newFully P = .ok t) : t.carry.b = P.rhs := by
  unfold newFully at h
  obtain ⟨c, hc, h⟩ := bind_eq_ok h
  unfold Carry.createForFullyArtificial at hc
  obtain ⟨bi, -, hc⟩ := bind_eq_ok hc
  cases hc
  cases h
  rfl

theorem none_says {BI : ℕ → Type} [BasisInverse BI] {R : ℕ → Type} [PivotRule R] [DebugRule R]
    {fuel : ℕ} {P : Provider m n} {a} (h : solveWithDebug BI R fuel P .none = .ok a) :
    ∀ i, 0 ≤ P.rhs i := by
  unfold solveWithDebug at h
  obtain ⟨t, ht, h⟩ := bind_eq_ok h
  obtain ⟨f, hf, -⟩ := bind_eq_ok h
  have hc := (debugCheck_says (phaseOneDebug_check hf)).1
  unfold newFullyDebug at ht
  rw [rhs_of_newFully (okBind_eq ht).2] at hc
  exact hc

theorem partially_says {BI : ℕ → Type} [BasisInverse BI] [PlainIdentity BI] {R : ℕ → Type} [PivotRule R]
    [DebugRule R] {fuel : ℕ} {P : Provider m n} (hP : ∀ j, SVec.WF (P.column j))
    {pivots : List (Fin m × Fin n)} {a} (h : solveWithDebug BI R fuel P (.partially pivots) = .ok a) :
    (∀ i, 0 ≤ P.rhs i) ∧ PivotsOk P pivots := by
  unfold solveWithDebug at h
  obtain ⟨t, ht, h⟩ := bind_eq_ok h
  obtain ⟨f, hf, -⟩ := bind_eq_ok h
  obtain ⟨hc1, hc2⟩ := debugCheck_says (phaseOneDebug_check hf)
  unfold newPartiallyDebug at ht
  dsimp only at ht
  obtain ⟨d1, ht⟩ := okBind_eq ht
  split at ht
  · cases ht
  obtain ⟨-, ht⟩ := okBind_eq ht
  obtain ⟨-, ht⟩ := okBind_eq ht
  obtain ⟨-, ht⟩ := okBind_eq ht
  obtain ⟨d2, ht⟩ := okBind_eq ht
  obtain ⟨-, ht⟩ := okBind_eq ht
  obtain ⟨d3, ht⟩ := okBind_eq ht
  have d1 := of_decide_eq_true (debugAssert_true d1)
  have d2 := of_decide_eq_true (debugAssert_true d2)
  have d3 := of_decide_eq_true (debugAssert_true d3)
  have hnd : (pivots.map fun p => (p.1 : ℕ)).Nodup := by
    have : (artificialRows m (pivots.map fun p => (p.1 : ℕ)) ++ pivots.map fun p => (p.1 : ℕ)).Nodup := by
      rw [← Multiset.coe_nodup, ← Multiset.toFinset_card_eq_card_iff_nodup]
      change (List.toFinset _).card = List.length _
      rw [d3, List.length_append, List.length_map, d2]
    exact (List.nodup_append.1 this).2.1
  have hsorted : (pivots.map (·.1)).Pairwise (· < ·) := by
    rw [List.pairwise_map] at d1 ⊢
    have hnd := List.pairwise_map.1 hnd
    exact (d1.and hnd).imp fun h => lt_of_le_of_ne h.1 fun e => h.2 (by rw [e])
  obtain ⟨columnToRow, basisIndices, -, hctr, hcases, hnew⟩ := newPartially_shape (n := n) hsorted
  rw [hnew] at ht
  obtain ⟨c, hc, ht⟩ := bind_eq_ok ht
  unfold Carry.createForPartiallyArtificial at hc
  obtain ⟨bi, hbi, hc⟩ := bind_eq_ok hc
  cases hc
  cases ht
  refine ⟨hc1, hsorted, fun p hp => ?_⟩
  obtain ⟨info, hi, hone⟩ := hc2 p.1
  have hidx : basisIndices p.1 = Fin.natAdd (m - pivots.length) p.2 := by
    rcases hcases p.1 with ⟨k, hk, -⟩ | ⟨c, hc, he⟩
    · exact absurd (List.mem_map.2 ⟨p, hp, rfl⟩) ((hctr p.1).1 ⟨k, hk⟩)
    · have : p = (p.1, c) := by
        have hinj := List.inj_on_of_nodup_map (hsorted.imp ne_of_lt)
        exact hinj hp hc rfl
      rw [he, show p.2 = c from congrArg Prod.snd this]
  change leftMultiply bi ((artificialKind P columnToRow).column (basisIndices p.1)) = .ok info at hi
  rw [hidx] at hi
  simp only [artificialKind, Fin.addCases_right] at hi
  rw [← PlainIdentity.left hbi (hP p.2) hi, hone]
  exact SVec.val_standardBasis_eq p.1

/-! ### A given basis -/

theorem fully_says {BI : ℕ → Type} [BasisInverse BI] {R : ℕ → Type} [PivotRule R]
    [DebugRule R] {fuel : ℕ} {P : Provider m n} {pivots : List (Fin m × Fin n)} {a}
    (h : solveWithDebug BI R fuel P (.fully pivots) = .ok a) :
    ∃ basis : Fin m → Fin n, primalFromBasisDebug BI R fuel P basis = .ok a := by
  unfold solveWithDebug at h
  dsimp only at h
  set elements := pivots.insertionSort fun p q => p.1 ≤ q.1 with hel
  split at h
  · rename_i hlen
    refine ⟨fun i => (elements.get (i.cast hlen.symm)).2, ?_⟩
    have : (pivots.map (·.2)).toFinset
        = Finset.univ.image fun i : Fin m => (elements.get (i.cast hlen.symm)).2 := by
      ext j
      have hperm : elements.Perm pivots := List.perm_insertionSort _ _
      rw [List.mem_toFinset, ← (hperm.map (·.2)).mem_iff, List.mem_map, Finset.mem_image]
      constructor
      · rintro ⟨p, hp, rfl⟩
        obtain ⟨k, hk⟩ := List.get_of_mem hp
        exact ⟨k.cast hlen, Finset.mem_univ _, by rw [← hk]; rfl⟩
      · rintro ⟨k, -, rfl⟩
        exact ⟨_, List.get_mem _ _, rfl⟩
    rw [this] at h
    exact h
  · cases h

theorem independent_of_fromBasis {BI : ℕ → Type} [BasisInverse BI] [StrictInverse BI] {P : Provider m n}
    (hP : ∀ j, SVec.WF (P.column j)) {basis : Fin m → Fin n} {carry : Carry BI m n}
    (h : Carry.fromBasis P basis = .ok carry) : LinearIndependent ℚ fun i => P.toLP.A.col (basis i) := by
  unfold Carry.fromBasis at h
  obtain ⟨bi, hbi, -⟩ := bind_eq_ok h
  obtain ⟨M, hM⟩ := StrictInverse.invertible (fun i => hP (basis i)) hbi
  have hu : IsUnit (columnsMatrix (fun i => P.column (basis i))) :=
    IsUnit.of_mul_eq_one _ (mul_eq_one_comm.1 hM)
  rw [← Matrix.linearIndependent_cols_iff_isUnit] at hu
  exact hu

end Relp
