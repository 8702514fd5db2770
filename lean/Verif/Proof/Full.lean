import Verif.Proof.Solve

/-! # Starting from a known full basis -/

set_option linter.unusedSectionVars false

namespace Relp

open Matrix BasisInverse LawfulBasisInverse Tableau

variable {BI : ℕ → Type} [BasisInverse BI] [LawfulBasisInverse BI] {m n : ℕ}

theorem foldl_update_val {v : Sparse m} (hv : SVec.WF v) :
    v.foldl (fun b p => Function.update b p.1 p.2) (fun _ => (0 : ℚ)) = SVec.val v := by
  have key : ∀ (v : Sparse m) (b : Fin m → ℚ), (v.Pairwise fun p q => p.1 < q.1) → ∀ i,
      v.foldl (fun b p => Function.update b p.1 p.2) b i
        = if i ∈ v.map (·.1) then SVec.val v i else b i := by
    intro v
    induction v with
    | nil => intro b _ i; simp
    | cons p v ih =>
      intro b hs i
      rw [List.pairwise_cons] at hs
      rw [List.foldl_cons, ih _ hs.2, SVec.val_cons]
      by_cases hi : i ∈ v.map (·.1)
      · have hne : p.1 ≠ i := by
          rw [List.mem_map] at hi
          obtain ⟨q, hq, rfl⟩ := hi
          exact ne_of_lt (hs.1 q hq)
        simp only [hi, if_true, List.map_cons, List.mem_cons, or_true, if_neg hne, zero_add]
      · rw [if_neg hi]
        by_cases hp : p.1 = i
        · subst hp
          rw [if_pos (by simp), Function.update_self, if_pos rfl,
            SVec.val_eq_zero_of_notMem fun q hq he => hi (List.mem_map.2 ⟨q, hq, he⟩), add_zero]
        · rw [Function.update_of_ne (Ne.symm hp), if_neg]
          simp only [List.map_cons, List.mem_cons, not_or]
          exact ⟨Ne.symm hp, hi⟩
  funext i
  rw [key v _ hv.1 i]
  split_ifs with h
  · rfl
  · exact (SVec.val_eq_zero_of_notMem fun q hq he => h (List.mem_map.2 ⟨q, hq, he⟩)).symm

/-- `from_basis` yields an exact tableau for every invertible basis. -/
theorem fromBasis_spec (hm : OkDim BI m) (hi : OkInvert BI m) {P : Provider m n}
    (hP : ∀ j, SVec.WF (P.column j)) {basis : Fin m → Fin n} {M : Matrix (Fin m) (Fin m) ℚ}
    (hM : M * columnsMatrix (fun i => P.column (basis i)) = 1) {columns : Finset (Fin n)}
    (hcols : columns = Finset.univ.image basis) :
    ∃ carry : Carry BI m n, Carry.fromBasis P basis = .ok carry ∧
      Tableau.Exact ⟨carry, columns, nonArtificialKind P⟩ P.rhs M := by
  obtain ⟨bi, h1, h2⟩ := invert_ok (BI := BI) hi (fun i => hP (basis i)) hM
  obtain ⟨info, h3, h4, h5⟩ := left_ok hm h2 (SVec.wf_ofDense P.rhs)
  have h6 := Carry.createMinusPi_ok hm h2 P.cost basis
  refine ⟨⟨Carry.createMinusObj P.cost basis (SVec.val (infoColumn info)),
    -((fun i => P.cost (basis i)) ᵥ* M), SVec.val (infoColumn info), basis, bi⟩, ?_, ?_⟩
  · unfold Carry.fromBasis
    simp only [h1, h3, h6, bind, Except.bind, pure, Except.pure, foldl_update_val h4]
  · refine ⟨hP, h2, hM, ?_, rfl, Carry.createMinusObj_eq _ _ _, hcols⟩
    change SVec.val (infoColumn info) = M *ᵥ P.rhs
    rw [h5]
    congr 1
    ext i
    exact SVec.val_ofDense _ i

theorem eq_of_strictMono_fin {f : Fin m → Fin m} (h : StrictMono f) (i : Fin m) : f i = i := by
  have hs : Function.Bijective f := Finite.injective_iff_bijective.1 h.injective
  let e : Fin m ≃o Fin m := StrictMono.orderIsoOfSurjective f h hs.2
  have : e = OrderIso.refl _ := Subsingleton.elim _ _
  exact congrArg (fun g : Fin m ≃o Fin m => g i) this

/-- The basis that a full set of identity columns describes. -/
theorem solveFull_eq {P : Provider m n} {pivots : List (Fin m × Fin n)}
    (hpiv : FullPivotsOk P pivots) :
    ∃ (basis : Fin m → Fin n) (length : (pivots.insertionSort fun p q => p.1 ≤ q.1).length = m),
      (basis = fun i => ((pivots.insertionSort fun p q => p.1 ≤ q.1).get
        (i.cast length.symm)).2) ∧
      (1 : Matrix (Fin m) (Fin m) ℚ) * columnsMatrix (fun i => P.column (basis i)) = 1 ∧
      (pivots.map (·.2)).toFinset = Finset.univ.image basis ∧
      ∀ (BI : ℕ → Type) [BasisInverse BI] (R : ℕ → Type) [PivotRule R] (fuel : ℕ),
        solveFull BI R fuel P pivots = (do
          let carry ← (Carry.fromBasis P basis : Res (Carry BI m n))
          phaseTwo R fuel ⟨carry, (pivots.map (·.2)).toFinset, nonArtificialKind P⟩) := by
  set elements := pivots.insertionSort fun p q => p.1 ≤ q.1 with hel
  have hperm : elements.Perm pivots := List.perm_insertionSort _ _
  have hlen : elements.length = m := by rw [hperm.length_eq, hpiv.length]
  have hsorted : elements.Pairwise fun p q => p.1 < q.1 := by
    have h1 : elements.Pairwise fun p q => p.1 ≤ q.1 :=
      List.pairwise_insertionSort (fun p q : Fin m × Fin n => p.1 ≤ q.1) pivots
    have h2 : elements.Pairwise fun p q => p.1 ≠ q.1 := by
      have := (hperm.map (·.1)).nodup_iff.2 hpiv.nodup
      exact List.pairwise_map.1 this
    exact (h1.and h2).imp fun h => lt_of_le_of_ne h.1 h.2
  have hrow : ∀ i : Fin m, (elements.get (i.cast hlen.symm)).1 = i := by
    refine eq_of_strictMono_fin (f := fun i => (elements.get (i.cast hlen.symm)).1) ?_
    intro i j hij
    exact List.pairwise_iff_get.1 hsorted _ _ (by simpa using hij)
  refine ⟨fun i => (elements.get (i.cast hlen.symm)).2, hlen, rfl, ?_, ?_, ?_⟩
  · rw [one_mul]
    ext i k
    change SVec.val (P.column (elements.get (k.cast hlen.symm)).2) i = _
    rw [hpiv.unit _ (hperm.mem_iff.1 (List.get_mem elements _)), hrow, Matrix.one_apply,
      Pi.single_apply]
  · ext j
    simp only [List.mem_toFinset, List.mem_map, Finset.mem_image, Finset.mem_univ, true_and]
    constructor
    · rintro ⟨p, hp, rfl⟩
      obtain ⟨k, hk⟩ := List.get_of_mem (hperm.mem_iff.2 hp)
      refine ⟨k.cast hlen, ?_⟩
      rw [← hk]; rfl
    · rintro ⟨i, rfl⟩
      exact ⟨_, hperm.mem_iff.1 (List.get_mem elements _), rfl⟩
  · intro BI _ R _ fuel
    exact dif_pos hlen

theorem fullStart {P : Provider m n} (hP : P.Ok) {pivots : List (Fin m × Fin n)}
    {carry : Carry BI m n}
    (h2 : Tableau.Exact ⟨carry, (pivots.map (·.2)).toFinset, nonArtificialKind P⟩ P.rhs 1) :
    PhaseTwoStart P (⟨carry, (pivots.map (·.2)).toFinset, nonArtificialKind P⟩ :
      Tableau BI m n) := by
  refine ⟨rfl, ⟨1, h2⟩, ?_⟩
  have := h2.b_eq
  rw [one_mulVec] at this
  intro i
  rw [this]
  exact hP.rhs_nonneg i

/-- `solve_relaxation` with a known full basis. -/
theorem solveFull_spec {R : ℕ → Type} [PivotRule R] [LawfulRule R] (hm : OkDim BI m)
    (hi : OkInvert BI m) (fuel : ℕ) {P : Provider m n} (hP : P.Ok)
    {pivots : List (Fin m × Fin n)} (hpiv : FullPivotsOk P pivots) :
    solveFull BI R fuel P pivots = .error .outOfFuel ∨
      ∃ a, solveFull BI R fuel P pivots = .ok a ∧ Answer P.toLP a := by
  obtain ⟨basis, -, -, hM, hcols, heq⟩ := solveFull_eq hpiv
  obtain ⟨carry, h1, h2⟩ := fromBasis_spec (BI := BI) hm hi hP.wf hM hcols
  have h3 := fullStart hP h2
  rw [heq, h1]
  change phaseTwo R fuel _ = _ ∨ ∃ a, phaseTwo R fuel _ = _ ∧ _
  rcases phaseTwo_spec (R := R) hm fuel h3 with h4 | ⟨a, h4, -, h5⟩
  · exact Or.inl h4
  · exact Or.inr ⟨a, h4, h5⟩

end Relp
