import Verif.Proof.Phases
import Mathlib.Data.Finset.Max
import Mathlib.Data.Fintype.Pigeonhole
import Mathlib.Data.Fintype.BigOperators

/-! # Smallest-index pivoting never returns to a basis -/

set_option linter.unusedSectionVars false

namespace Relp

open Matrix BasisInverse LawfulBasisInverse Tableau LawfulRule

variable {BI : ℕ → Type} [BasisInverse BI] [LawfulBasisInverse BI] {m n N : ℕ}

/-- A number of iterations of the simplex loop. -/
structure Path (rhs : Fin m → ℚ) (K : ℕ) (s : ℕ → Tableau BI m N × Matrix (Fin m) (Fin m) ℚ)
    (j : ℕ → Fin N) (p : ℕ → Fin m) : Prop where
  step : ∀ i < K, PivotStep rhs (s i) (s (i + 1)) (j i) (p i)

namespace Path

variable {rhs : Fin m → ℚ} {K : ℕ} {s : ℕ → Tableau BI m N × Matrix (Fin m) (Fin m) ℚ}
  {j : ℕ → Fin N} {p : ℕ → Fin m}

theorem shift (h : Path rhs K s j p) {a b : ℕ} (hb : a + b ≤ K) :
    Path rhs b (fun i => s (a + i)) (fun i => j (a + i)) (fun i => p (a + i)) :=
  ⟨fun i hi => h.step (a + i) (by omega)⟩

theorem kind_eq (h : Path rhs K s j p) {i : ℕ} (hi : i ≤ K) : (s i).1.kind = (s 0).1.kind := by
  induction i with
  | zero => rfl
  | succ i ih => rw [(h.step i hi).kind_eq, ih (by omega)]

theorem exact (h : Path rhs K s j p) (hK : 0 < K) {i : ℕ} (hi : i ≤ K) :
    (s i).1.Exact rhs (s i).2 := by
  rcases Nat.lt_or_ge i K with hi' | hi'
  · exact (h.step i hi').exact
  · obtain ⟨k, rfl⟩ : ∃ k, i = k + 1 := ⟨i - 1, by omega⟩
    exact (h.step k (by omega)).exact'

theorem objective_le (h : Path rhs K s j p) {x y : ℕ} (hxy : x ≤ y) (hy : y ≤ K) :
    (s y).1.objectiveFunctionValue ≤ (s x).1.objectiveFunctionValue := by
  induction y with
  | zero => rw [Nat.le_zero.1 hxy]
  | succ y ih =>
    rcases Nat.lt_or_ge x (y + 1) with hx | hx
    · exact (h.step y hy).objective_le.trans (ih (by omega) (by omega))
    · rw [show x = y + 1 by omega]

/-- The column is in the basis before iteration `i`. -/
def Basic (s : ℕ → Tableau BI m N × Matrix (Fin m) (Fin m) ℚ) (i : ℕ) (c : Fin N) : Prop :=
  ∃ r, (s i).1.carry.basisIndices r = c

theorem enter_not_basic (h : Path rhs K s j p) {i : ℕ} (hi : i < K) : ¬ Basic s i (j i) := by
  intro hb
  have h1 := (h.step i hi).nonbasic
  rw [(h.step i hi).exact.mem_basis.2 hb] at h1
  cases h1

theorem enter_basic (h : Path rhs K s j p) {i : ℕ} (hi : i < K) : Basic s (i + 1) (j i) :=
  ⟨p i, by rw [(h.step i hi).basis_eq, Function.update_self]⟩

theorem exists_enter (h : Path rhs K s j p) {x y : ℕ} (hxy : x ≤ y) (hy : y ≤ K) {c : Fin N}
    (hx : ¬ Basic s x c) (hc : Basic s y c) : ∃ i < K, j i = c := by
  induction y with
  | zero => rw [Nat.le_zero.1 hxy] at hx; exact absurd hc hx
  | succ y ih =>
    rcases Nat.lt_or_ge x (y + 1) with hlt | hge
    · obtain ⟨r, hr⟩ := hc
      rw [(h.step y hy).basis_eq] at hr
      by_cases hrp : r = p y
      · subst hrp
        rw [Function.update_self] at hr
        exact ⟨y, hy, hr⟩
      · rw [Function.update_of_ne hrp] at hr
        exact ih (by omega) (by omega) ⟨r, hr⟩
    · rw [show x = y + 1 by omega] at hx
      exact absurd hc hx

theorem exists_leave (h : Path rhs K s j p) {x y : ℕ} (hxy : x ≤ y) (hy : y ≤ K) {c : Fin N}
    (hx : Basic s x c) (hc : ¬ Basic s y c) :
    ∃ i < K, (s i).1.carry.basisIndices (p i) = c := by
  induction y with
  | zero => rw [Nat.le_zero.1 hxy] at hx; exact absurd hx hc
  | succ y ih =>
    rcases Nat.lt_or_ge x (y + 1) with hlt | hge
    · by_cases hb : Basic s y c
      · obtain ⟨r, hr⟩ := hb
        by_cases hrp : r = p y
        · subst hrp
          exact ⟨y, hy, hr⟩
        · exact absurd ⟨r, by rw [(h.step y hy).basis_eq, Function.update_of_ne hrp, hr]⟩ hc
      · exact ih (by omega) (by omega) hb
    · rw [show x = y + 1 by omega] at hx
      exact absurd hx hc

end Path

/-- The basis determines everything else. -/
theorem Tableau.Exact.eq_of_basis {rhs : Fin m → ℚ} {t t' : Tableau BI m N} {M M'}
    (h : t.Exact rhs M) (h' : t'.Exact rhs M') (hk : t'.kind = t.kind)
    (hb : t'.carry.basisIndices = t.carry.basisIndices) :
    M' = M ∧ t'.carry.b = t.carry.b ∧ t'.objectiveFunctionValue = t.objectiveFunctionValue ∧
      ∀ j, t'.relativeCost j = t.relativeCost j := by
  have hB : t'.basisMatrix = t.basisMatrix := by unfold basisMatrix; rw [hk, hb]
  have hC : t'.basisCost = t.basisCost := by unfold basisCost; rw [hk, hb]
  have hM : M' = M := by
    have h1 := h'.inv
    rw [hB] at h1
    calc M' = M' * (t.basisMatrix * M) := by rw [h.inv', mul_one]
      _ = M := by rw [← mul_assoc, h1, one_mul]
  subst hM
  have hb' : t'.carry.b = t.carry.b := by rw [h.b_eq, h'.b_eq]
  refine ⟨rfl, hb', ?_, fun j => ?_⟩
  · change -t'.carry.minusObjective = -t.carry.minusObjective
    rw [h.obj_eq, h'.obj_eq, hC, hb']
  · rw [h.relativeCost_eq, h'.relativeCost_eq, hC, hk]
    unfold alpha
    rw [hk]

/-- The columns of the basis, in whatever order, determine the objective value. -/
theorem Tableau.Exact.objective_eq_of_columns {rhs : Fin m → ℚ} {t t' : Tableau BI m N} {M M'}
    (h : t.Exact rhs M) (h' : t'.Exact rhs M') (hk : t'.kind = t.kind)
    (hb : ∀ c, (∃ r, t'.carry.basisIndices r = c) → ∃ r, t.carry.basisIndices r = c) :
    t'.objectiveFunctionValue = t.objectiveFunctionValue := by
  have hlp : t'.lp rhs = t.lp rhs := by unfold Tableau.lp; rw [hk]
  have h0 : (t'.lp rhs).A *ᵥ t'.bfs = rhs := by
    ext i
    change ∑ j, SVec.val (t'.kind.column j) i * t'.bfs j = rhs i
    rw [sum_bfs t' fun j => SVec.val (t'.kind.column j) i]
    exact congrFun h'.basis_mul_b i
  have h1 := objective_eq h (y := t'.bfs) (by rw [← hlp]; exact h0)
  rw [← hlp, objective_bfs h', Finset.sum_eq_zero, add_zero] at h1
  · exact h1
  · intro c _
    by_cases hc : ∃ r, t'.carry.basisIndices r = c
    · obtain ⟨r, rfl⟩ := hb c hc
      rw [h.relativeCost_basis, zero_mul]
    · have : t'.bfs c = 0 := by
        unfold bfs
        exact Finset.sum_eq_zero fun q _ => if_neg fun he => hc ⟨q, he⟩
      rw [this, mul_zero]

/-- Along a direction in which the equations keep holding, the relative costs are the costs. -/
theorem Tableau.Exact.kernel_cost {rhs : Fin m → ℚ} {t : Tableau BI m N} {M}
    (h : t.Exact rhs M) {y : Fin N → ℚ} (hy : (t.lp rhs).A *ᵥ y = 0) :
    t.kind.cost ⬝ᵥ y = ∑ k, t.relativeCost k * y k := by
  have h0 : (t.lp rhs).A *ᵥ t.bfs = rhs := by
    ext i
    change ∑ j, SVec.val (t.kind.column j) i * t.bfs j = rhs i
    rw [sum_bfs t fun j => SVec.val (t.kind.column j) i]
    exact congrFun h.basis_mul_b i
  have h1 := objective_eq h h0
  have h2 := objective_eq h (y := t.bfs + y) (by rw [mulVec_add, h0, hy, add_zero])
  have h3 : (t.lp rhs).objective (t.bfs + y) = (t.lp rhs).objective t.bfs + t.kind.cost ⬝ᵥ y := by
    unfold Spec.LP.objective
    rw [dotProduct_add]
    rfl
  have h4 : ∑ k, t.relativeCost k * (t.bfs + y) k
      = ∑ k, t.relativeCost k * t.bfs k + ∑ k, t.relativeCost k * y k := by
    rw [← Finset.sum_add_distrib]
    exact Finset.sum_congr rfl fun k _ => by rw [Pi.add_apply]; ring
  linarith

/-- An iteration with an unchanged objective does not change the basic solution. -/
theorem PivotStep.degenerate {rhs : Fin m → ℚ}
    {s s' : Tableau BI m N × Matrix (Fin m) (Fin m) ℚ} {j p} (h : PivotStep rhs s s' j p)
    (ho : s'.1.objectiveFunctionValue = s.1.objectiveFunctionValue) : s.1.carry.b p = 0 := by
  have h1 := h.objective
  rw [ho] at h1
  have h2 : s.1.relativeCost j * (s.1.carry.b p / s.1.alpha s.2 j p) = 0 := by linarith
  rcases mul_eq_zero.1 h2 with h3 | h3
  · exact absurd h3 h.profitable.ne
  · rcases div_eq_zero_iff.1 h3 with h4 | h4
    · exact h4
    · exact absurd h4 h.ratio.1.ne'

theorem PivotStep.bfs_eq {rhs : Fin m → ℚ}
    {s s' : Tableau BI m N × Matrix (Fin m) (Fin m) ℚ} {j p} (h : PivotStep rhs s s' j p)
    (h0 : s.1.carry.b p = 0) : s'.1.bfs = s.1.bfs := by
  ext c
  unfold bfs
  refine Finset.sum_congr rfl fun r _ => ?_
  rw [h.basis_eq, h.b_eq]
  by_cases hr : r = p
  · subst hr; simp [h0]
  · simp [hr, h0]

/-- **Bland's theorem.** If the entering column is always the first one of negative relative cost,
then no basis is visited twice, not even in another order. -/
theorem Path.no_cycle {rhs : Fin m → ℚ} {K : ℕ} (hK : 0 < K)
    {s : ℕ → Tableau BI m N × Matrix (Fin m) (Fin m) ℚ} {j : ℕ → Fin N} {p : ℕ → Fin m}
    (h : Path rhs K s j p)
    (hfirst : ∀ i < K, ∀ c : Fin N, (s i).1.kind.start ≤ (c : ℕ) → (s i).1.isInBasis c = false →
      (s i).1.relativeCost c < 0 → j i ≤ c)
    (hends : ∀ c, Path.Basic s K c ↔ Path.Basic s 0 c) : False := by
  -- the objective is constant
  have hobjK := (h.exact hK (Nat.zero_le _)).objective_eq_of_columns (h.exact hK le_rfl)
    (h.kind_eq le_rfl) fun c => (hends c).1
  have hobj : ∀ i ≤ K, (s i).1.objectiveFunctionValue = (s 0).1.objectiveFunctionValue := by
    intro i hi
    have h1 := h.objective_le (Nat.zero_le i) hi
    have h2 := h.objective_le hi le_rfl
    rw [hobjK] at h2
    exact le_antisymm h1 h2
  have hdeg : ∀ i < K, (s i).1.carry.b (p i) = 0 := fun i hi =>
    (h.step i hi).degenerate ((hobj (i + 1) hi).trans (hobj i hi.le).symm)
  have hbfs : ∀ i ≤ K, (s i).1.bfs = (s 0).1.bfs := by
    intro i
    induction i with
    | zero => intro _; rfl
    | succ i ih =>
      intro hi
      rw [(h.step i hi).bfs_eq (hdeg i hi), ih (by omega)]
  -- columns that enter
  have hfickle : ∀ {x y : ℕ} {c : Fin N}, x ≤ K → y ≤ K → Path.Basic s x c → ¬ Path.Basic s y c →
      ∃ i < K, j i = c := by
    intro x y c hx hy h1 h2
    rcases le_total y x with hyx | hyx
    · exact h.exists_enter hyx hx h2 h1
    · by_cases h3 : Path.Basic s K c
      · exact h.exists_enter hy le_rfl h2 h3
      · exact h.exists_enter (Nat.zero_le x) hx (fun h4 => h3 ((hends c).2 h4)) h1
  -- the last one of them
  obtain ⟨k, hk, hmax⟩ := Finset.exists_max_image (Finset.range K) j ⟨0, Finset.mem_range.2 hK⟩
  rw [Finset.mem_range] at hk
  have hmax' : ∀ i < K, j i ≤ j k := fun i hi => hmax i (Finset.mem_range.2 hi)
  obtain ⟨i, hi, hleave⟩ : ∃ i < K, (s i).1.carry.basisIndices (p i) = j k := by
    by_cases h0 : Path.Basic s 0 (j k)
    · exact h.exists_leave (Nat.zero_le k) hk.le h0 (h.enter_not_basic hk)
    · exact h.exists_leave (x := k + 1) hk le_rfl (h.enter_basic hk) fun h4 => h0 ((hends _).1 h4)
  have hSi := h.step i hi
  have hSk := h.step k hk
  have hkind : (s i).1.kind = (s k).1.kind := (h.kind_eq hi.le).trans (h.kind_eq hk.le).symm
  have hlp : (s i).1.lp rhs = (s k).1.lp rhs := by unfold Tableau.lp; rw [hkind]
  have hstart : (s i).1.kind.start = (s k).1.kind.start := by rw [hkind]
  -- the relative costs at `k` of earlier columns that enter at some time
  have hcost : ∀ c, (∃ x < K, j x = c) → c ≠ j k → 0 ≤ (s k).1.relativeCost c := by
    rintro c ⟨x, hx, rfl⟩ hne
    by_contra hneg
    cases hb : (s k).1.isInBasis (j x) with
    | true =>
      obtain ⟨r, hr⟩ := hSk.exact.mem_basis.1 hb
      rw [← hr, hSk.exact.relativeCost_basis] at hneg
      exact hneg le_rfl
    | false =>
      have h1 : (s k).1.kind.start ≤ (j x : ℕ) := by
        have := (h.step x hx).real
        rw [h.kind_eq hx.le, ← h.kind_eq hk.le] at this
        exact this
      have h2 := hfirst k hk (j x) h1 hb (not_le.1 hneg)
      exact hne (le_antisymm (hmax' x hx) h2)
  have hne : j i ≠ j k := by
    intro he
    exact h.enter_not_basic hi ⟨p i, hleave.trans he.symm⟩
  -- the direction of iteration `i`, priced with the relative costs of iteration `k`
  have hker : ((s k).1.lp rhs).A *ᵥ (s i).1.ray (s i).2 (j i) = 0 := by
    rw [← hlp]; exact hSi.exact.ray_kernel (j i)
  have hsum := hSk.exact.kernel_cost hker
  rw [← hkind, hSi.exact.ray_cost, ray_sum] at hsum
  have hneg := hSi.profitable
  rw [hsum] at hneg
  have h1 := hcost (j i) ⟨i, hi, rfl⟩ hne
  have h2 : 0 < ∑ r, (s k).1.relativeCost ((s i).1.carry.basisIndices r) *
      (s i).1.alpha (s i).2 (j i) r := by linarith
  obtain ⟨r, -, hr⟩ := Finset.exists_lt_of_sum_lt (s := Finset.univ)
    (f := fun _ : Fin m => (0 : ℚ)) (by simpa using h2)
  set c := (s i).1.carry.basisIndices r with hc
  have hnb : ¬ Path.Basic s k c := by
    rintro ⟨q, hq⟩
    rw [← hq, hSk.exact.relativeCost_basis, zero_mul] at hr
    exact lt_irrefl _ hr
  have hcf := hfickle hi.le hk.le ⟨r, rfl⟩ hnb
  have hck : c ≠ j k := by
    intro he
    have hrp : r = p i := hSi.exact.injective ((hc.symm.trans he).trans hleave.symm)
    rw [he, hrp] at hr
    have := mul_neg_of_neg_of_pos hSk.profitable hSi.ratio.1
    linarith
  have hα : 0 < (s i).1.alpha (s i).2 (j i) r := by
    by_contra hcon
    have := mul_nonpos_of_nonneg_of_nonpos (hcost c hcf hck) (not_lt.1 hcon)
    linarith
  have hb0 : (s i).1.carry.b r = 0 := by
    rw [← bfs_basis hSi.exact r, ← hc, hbfs i hi.le, ← hbfs k hk.le]
    unfold bfs
    exact Finset.sum_eq_zero fun q _ => if_neg fun he => hnb ⟨q, he⟩
  rcases hSi.ratio.2 r hα with h3 | ⟨-, h3⟩
  · rw [hb0, hdeg i hi, zero_div, zero_div] at h3
    exact lt_irrefl _ h3
  · rw [hleave] at h3
    obtain ⟨x, hx, hxc⟩ := hcf
    have := hmax' x hx
    rw [hxc] at this
    exact hck (le_antisymm this h3)

/-- At most as many iterations as there are sets of columns with one for each row, less one. -/
theorem Path.length_lt {rhs : Fin m → ℚ} {K : ℕ}
    {s : ℕ → Tableau BI m N × Matrix (Fin m) (Fin m) ℚ} {j : ℕ → Fin N} {p : ℕ → Fin m}
    (h : Path rhs K s j p) (hpos : 0 < K)
    (hfirst : ∀ i < K, ∀ c : Fin N, (s i).1.kind.start ≤ (c : ℕ) → (s i).1.isInBasis c = false →
      (s i).1.relativeCost c < 0 → j i ≤ c) : K < N.choose m := by
  by_contra hK
  rw [not_lt] at hK
  have hmaps : ∀ i ∈ (Finset.univ : Finset (Fin (K + 1))),
      Finset.univ.image (s i).1.carry.basisIndices ∈ (Finset.univ : Finset (Fin N)).powersetCard m := by
    intro i _
    rw [Finset.mem_powersetCard, Finset.card_image_of_injective _ (h.exact hpos (by omega)).injective]
    exact ⟨Finset.subset_univ _, by rw [Finset.card_univ, Fintype.card_fin]⟩
  obtain ⟨a, -, b, -, hab, heq⟩ := Finset.exists_ne_map_eq_of_card_lt_of_maps_to (by
      rw [Finset.card_powersetCard, Finset.card_univ, Finset.card_univ, Fintype.card_fin, Fintype.card_fin]
      omega) hmaps
  wlog hlt : a < b generalizing a b
  · exact this b a hab.symm heq.symm (lt_of_le_of_ne (not_lt.1 hlt) hab.symm)
  have hlt' : (a : ℕ) < b := hlt
  have hbK : (b : ℕ) ≤ K := by omega
  refine Path.no_cycle (K := (b : ℕ) - a) (by omega) (h.shift (a := a) (b := b - a) (by omega))
    (fun i hi => hfirst (a + i) (by omega)) fun c => ?_
  have hc : ∀ i, Path.Basic s i c ↔ c ∈ Finset.univ.image (s i).1.carry.basisIndices := fun i => by
    simp [Path.Basic]
  change Path.Basic s (a + (b - a)) c ↔ Path.Basic s (a + 0) c
  rw [show (a : ℕ) + (b - a) = b by omega, add_zero, hc, hc, heq]

end Relp
