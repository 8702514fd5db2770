import Verif.Proof.ScaleSettled
import Mathlib.NumberTheory.Padics.PadicVal.Basic

/-!
# Scaling does not add prime factors, apart from the direction of the column factors
-/

namespace Relp

namespace Scaling

/-! ### The penalty for any exponent -/

/-- The penalty of an optional factorisation. -/
def optPenaltyOf (e : Factorization → ℤ) (f : Option Factorization) (x : ℤ) : ℤ :=
  match f with
  | some f => |e f + x|
  | none => 0

/-- The total penalty for an exponent. -/
def penaltyOf (e : Factorization → ℤ) (d : Factorized) (ch : Changes) : ℤ :=
  ∑ j ∈ Finset.range d.c.length, (optPenaltyOf e (entry d.c j) (ch.cost + ch.columns.getD j 0) +
      ((d.constraints.getD j []).map fun p => |e p.2 + ch.rows.getD p.1 0 + ch.columns.getD j 0|).sum +
      optPenaltyOf e (d.bounds.getD j (none, none)).1 (-ch.columns.getD j 0) +
      optPenaltyOf e (d.bounds.getD j (none, none)).2 (-ch.columns.getD j 0)) +
    ∑ i ∈ Finset.range d.b.length, optPenaltyOf e (entry d.b i) (ch.rows.getD i 0)

theorem totalPenalty_eq (d : Factorized) (factor : ℕ) (ch : Changes) :
    totalPenalty d factor ch = penaltyOf (initialExponent factor) d ch := rfl

theorem optPenaltyOf_map (e : Factorization → ℤ) (g : Factorization → Factorization) (f : Option Factorization)
    (x : ℤ) : optPenaltyOf e (f.map g) x = optPenaltyOf (fun f => e (g f)) f x := by
  cases f <;> rfl

theorem entry_map (l : List (Option Factorization)) (g : Factorization → Factorization) (i : ℕ) :
    entry (l.map (·.map g)) i = (entry l i).map g := by
  unfold entry
  rw [List.getElem?_map]
  cases l[i]? <;> rfl

theorem penaltyOf_remove (e : Factorization → ℤ) (factor : ℕ) (d : Factorized) (ch : Changes) :
    penaltyOf e (removeFactorInfo factor d) ch = penaltyOf (fun f => e (removeFactor factor f)) d ch := by
  unfold penaltyOf removeFactorInfo
  simp only [List.length_map, entry_map, optPenaltyOf_map]
  congr 1
  refine Finset.sum_congr rfl fun j _ => ?_
  have h1 : (d.constraints.map fun column => column.map fun p => (p.1, removeFactor factor p.2)).getD j [] =
      (d.constraints.getD j []).map fun p => (p.1, removeFactor factor p.2) := by
    rw [List.getD_eq_getElem?_getD, List.getD_eq_getElem?_getD, List.getElem?_map]
    cases d.constraints[j]? <;> rfl
  have h2 : (d.bounds.map fun q => (q.1.map (removeFactor factor), q.2.map (removeFactor factor))).getD j
      (none, none) = (((d.bounds.getD j (none, none)).1.map (removeFactor factor)),
        ((d.bounds.getD j (none, none)).2.map (removeFactor factor))) := by
    rw [List.getD_eq_getElem?_getD, List.getD_eq_getElem?_getD, List.getElem?_map]
    cases d.bounds[j]? <;> rfl
  rw [h1, h2]
  simp only [optPenaltyOf_map, List.map_map]
  rfl

/-! ### The last factor -/

theorem last_factor {p : ℕ} {l : Factorization} (hs : l.Pairwise fun a b => a.1 < b.1) (hp : ∀ q ∈ l, q.1 ≤ p) :
    removeFactor p l = l.filter (fun q => q.1 ≠ p) ∧ (∀ k, (p, k) ∈ l → initialExponent p l = k) ∧
      ((∀ q ∈ l, q.1 ≠ p) → initialExponent p l = 0) := by
  rcases List.eq_nil_or_concat l with rfl | ⟨l', ⟨g, k⟩, rfl⟩
  · exact ⟨rfl, by simp, fun _ => rfl⟩
  · unfold removeFactor initialExponent
    simp only [List.concat_eq_append, List.getLast?_append, List.getLast?_singleton, Option.some_or] at hs hp ⊢
    rw [List.pairwise_append] at hs
    have hl : ∀ q ∈ l', q.1 < g := fun q hq => hs.2.2 q hq (g, k) (by simp)
    have hg : g ≤ p := hp (g, k) (by simp)
    have hne : ∀ q ∈ l', q.1 ≠ p := fun q hq => by have := hl q hq; omega
    have hf : l'.filter (fun q => decide (q.1 ≠ p)) = l' := List.filter_eq_self.2 fun q hq => by simpa using hne q hq
    by_cases h : g = p
    · subst h
      refine ⟨?_, ?_, ?_⟩
      · rw [List.filter_append, hf]
        simp
      · intro k' hk'
        rcases List.mem_append.1 hk' with hk' | hk'
        · exact absurd rfl (hne _ hk')
        · simp at hk'
          simp [hk']
      · intro h
        exact absurd rfl (h (g, k) (by simp))
    · refine ⟨?_, ?_, ?_⟩
      · rw [List.filter_append, hf]
        simp [h]
      · intro k' hk'
        rcases List.mem_append.1 hk' with hk' | hk'
        · exact absurd rfl (hne _ hk')
        · simp at hk'
          exact absurd hk'.1.symm h
      · intro _
        simp [h]

/-! ### The penalty in terms of numbers -/

/-- The penalty of a number. -/
def numPenalty (h : ℚ → ℤ) (v : ℚ) (x : ℤ) : ℤ := if v ≠ 0 then |h v + x| else 0

/-- The total penalty in terms of the numbers of a problem. -/
def formPenalty (h : ℚ → ℤ) (G : GeneralForm) (ch : Changes) : ℤ :=
  (G.b.mapIdx fun i v => numPenalty h v (ch.rows.getD i 0)).sum +
    (G.vars.mapIdx fun j w => numPenalty h w.cost (ch.cost + ch.columns.getD j 0) +
      (w.lowerBound.elim 0 fun v => numPenalty h v (-ch.columns.getD j 0)) +
      (w.upperBound.elim 0 fun v => numPenalty h v (-ch.columns.getD j 0))).sum +
    (G.constraints.data.mapIdx fun j column =>
      (column.map fun q => |h q.2 + ch.rows.getD q.1 0 + ch.columns.getD j 0|).sum).sum

theorem sum_mapIdx {α : Type} (l : List α) (f : ℕ → α → ℤ) :
    (l.mapIdx f).sum = ∑ j ∈ Finset.range l.length, l[j]?.elim 0 (f j) := by
  induction l generalizing f with
  | nil => rfl
  | cons a l ih =>
    rw [List.mapIdx_cons, List.sum_cons, ih, List.length_cons, Finset.sum_range_succ']
    simp [add_comm]

theorem optPenaltyOf_factorize (e : Factorization → ℤ) (factorize : ℚ → Factorization) (v : ℚ) (x : ℤ) :
    optPenaltyOf e (factorizeNonZero factorize v) x = numPenalty (fun v => e (factorize v)) v x := by
  unfold factorizeNonZero numPenalty
  split_ifs <;> rfl

theorem optPenaltyOf_bound (e : Factorization → ℤ) (factorize : ℚ → Factorization) (v : Option ℚ) (x : ℤ) :
    optPenaltyOf e (v.bind (factorizeNonZero factorize)) x =
      v.elim 0 fun v => numPenalty (fun v => e (factorize v)) v x := by
  cases v with
  | none => rfl
  | some v => exact optPenaltyOf_factorize e factorize v x

theorem penaltyOf_form (e : Factorization → ℤ) (factorize : ℚ → Factorization) {G : GeneralForm} (hG : G.Shaped)
    (ch : Changes) :
    penaltyOf e (factorizeForm factorize G) ch = formPenalty (fun v => e (factorize v)) G ch := by
  unfold penaltyOf formPenalty
  rw [sum_mapIdx, sum_mapIdx, sum_mapIdx, add_comm, add_assoc, hG.dataLength, ← Finset.sum_add_distrib]
  have hb : (factorizeForm factorize G).b = G.b.map (factorizeNonZero factorize) := rfl
  have hc : (factorizeForm factorize G).c = G.vars.map fun v => factorizeNonZero factorize v.cost := rfl
  rw [hb, hc, List.length_map, List.length_map]
  congr 1
  · refine Finset.sum_congr rfl fun i hi => ?_
    rw [Finset.mem_range] at hi
    rw [entry, List.getElem?_map, List.getElem?_eq_getElem hi]
    exact optPenaltyOf_factorize _ _ _ _
  · refine Finset.sum_congr rfl fun j hj => ?_
    rw [Finset.mem_range] at hj
    have hj' : j < G.constraints.data.length := by rw [hG.dataLength]; exact hj
    have h1 : (factorizeForm factorize G).constraints.getD j [] =
        (G.constraints.data[j]).map fun p => (p.1, factorize p.2) := by
      unfold factorizeForm
      simp only [List.getD_eq_getElem?_getD, List.getElem?_map, List.getElem?_eq_getElem hj']
      rfl
    have h2 : (factorizeForm factorize G).bounds.getD j (none, none) =
        ((G.vars[j]).lowerBound.bind (factorizeNonZero factorize),
          (G.vars[j]).upperBound.bind (factorizeNonZero factorize)) := by
      unfold factorizeForm
      simp only [List.getD_eq_getElem?_getD, List.getElem?_map, List.getElem?_eq_getElem hj]
      rfl
    have h3 : entry (G.vars.map fun v => factorizeNonZero factorize v.cost) j =
        factorizeNonZero factorize (G.vars[j]).cost := by
      rw [entry, List.getElem?_map, List.getElem?_eq_getElem hj]
      rfl
    rw [h1, h2, h3, List.getElem?_eq_getElem hj, List.getElem?_eq_getElem hj']
    simp only [optPenaltyOf_factorize, optPenaltyOf_bound, Option.elim_some, List.map_map]
    have h4 : ((fun p : ℕ × Factorization => |e p.2 + ch.rows.getD p.1 0 + ch.columns.getD j 0|) ∘
        fun p : ℕ × ℚ => (p.1, factorize p.2)) =
        fun q => |e (factorize q.2) + ch.rows.getD q.1 0 + ch.columns.getD j 0| := rfl
    rw [h4]
    ring

theorem numPenalty_congr {h h' : ℚ → ℤ} {v : ℚ} (he : v ≠ 0 → h v = h' v) (x : ℤ) :
    numPenalty h v x = numPenalty h' v x := by
  unfold numPenalty
  split_ifs with h0
  · rw [he h0]
  · rfl

theorem formPenalty_congr {h h' : ℚ → ℤ} {G : GeneralForm} (he : ∀ v, G.Number v → h v = h' v) (hG : G.Shaped)
    (ch : Changes) : formPenalty h G ch = formPenalty h' G ch := by
  unfold formPenalty
  congr 1
  · congr 1
    · congr 1
      refine List.ext_getElem (by simp) fun i h1 h2 => ?_
      rw [List.getElem_mapIdx, List.getElem_mapIdx]
      exact numPenalty_congr (fun h0 => he _ ⟨h0, Or.inl (List.getElem_mem _)⟩) _
    · congr 1
      refine List.ext_getElem (by simp) fun j h1 h2 => ?_
      rw [List.getElem_mapIdx, List.getElem_mapIdx]
      have hj : j < G.vars.length := by simpa using h1
      have hm : G.vars[j] ∈ G.vars := List.getElem_mem hj
      congr 1
      · congr 1
        · exact numPenalty_congr (fun h0 => he _ ⟨h0, Or.inr (Or.inl ⟨_, hm, Or.inl rfl⟩)⟩) _
        · cases hb : (G.vars[j]).lowerBound with
          | none => rfl
          | some v => exact numPenalty_congr (fun h0 => he _ ⟨h0, Or.inr (Or.inl ⟨_, hm, Or.inr (Or.inl hb)⟩)⟩) _
      · cases hb : (G.vars[j]).upperBound with
        | none => rfl
        | some v => exact numPenalty_congr (fun h0 => he _ ⟨h0, Or.inr (Or.inl ⟨_, hm, Or.inr (Or.inr hb)⟩)⟩) _
  · congr 1
    refine List.ext_getElem (by simp) fun j h1 h2 => ?_
    rw [List.getElem_mapIdx, List.getElem_mapIdx]
    congr 1
    refine List.map_congr_left fun q hq => ?_
    have hm := (hG.wf _ (List.getElem_mem (by simpa using h1))).nonzero q hq
    rw [he q.2 ⟨hm, Or.inr (Or.inr ⟨_, List.getElem_mem _, q, hq, rfl⟩)⟩]

/-! ### The changes that are found -/

theorem solveSingle_penalty {d : Factorized} (hd : d.Shaped) (hn : 0 < d.c.length) {factor fuel : ℕ} {ch : Changes}
    (h : solveSingle fuel d factor = .ok ch) : ch.rows.length = d.b.length ∧ ch.columns.length = d.c.length ∧
      totalPenalty d factor ch ≤ totalPenalty d factor (Changes.zero d.b.length d.c.length) ∧
      Stationary (totalPenalty d factor) d.b.length d.c.length ch := by
  have hst := solveSingle_stationary hd h
  obtain ⟨N, ch', h1, h2⟩ := solveSingle_ends hd hn factor
  have h3 := h1 (max N fuel) (le_max_left _ _)
  have h4 := mono_of_succ (f := fun fuel => solveSingle fuel d factor) (fun _ _ h => searchLoop_mono h)
    (le_max_right N fuel) h
  rw [h3] at h4
  cases h4
  exact ⟨h2.1, h2.2.1, h2.2.2, hst⟩

/-- The changes that are found for all factors: the penalty is with respect to the exponents of the factor in
the original factorisations. -/
theorem solveFactors_penalty {factors : List ℕ} {d d0 : Factorized} {g : Factorization → Factorization}
    {m n fuel : ℕ} {result : List (ℕ × Changes)} (hd : d.Shaped) (hn : 0 < d.c.length)
    (hm : d.b.length = m) (hl : d.c.length = n) (hs : factors.Pairwise fun a b => b < a)
    (hp : ∀ e ch, penaltyOf e d ch = penaltyOf (fun f => e (g f)) d0 ch)
    (S : Factorization → Prop) (hS : ∀ f, S f → f.Pairwise fun a b => a.1 < b.1)
    (hg : ∀ f, S f → g f = f.filter fun q => q.1 ∈ factors) (h : solveFactors fuel factors d = .ok result) :
    result.map (·.1) = factors ∧ ∀ q ∈ result, q.2.rows.length = m ∧ q.2.columns.length = n ∧
      ∃ e : Factorization → ℤ, (∀ f, S f → (∀ k, (q.1, k) ∈ f → e f = k) ∧ ((∀ a ∈ f, a.1 ≠ q.1) → e f = 0)) ∧
        penaltyOf e d0 q.2 ≤ penaltyOf e d0 (Changes.zero m n) ∧ Stationary (penaltyOf e d0) m n q.2 := by
  induction factors generalizing d g result with
  | nil =>
    cases h
    exact ⟨rfl, by simp⟩
  | cons factor factors ih =>
    rw [solveFactors] at h
    cases h1 : solveSingle fuel d factor with
    | error e => rw [h1] at h; cases h
    | ok ch =>
      rw [h1] at h
      cases h2 : solveFactors fuel factors (removeFactorInfo factor d) with
      | error e =>
        simp only [h2, bind, Except.bind] at h
        cases h
      | ok rest =>
        simp only [h2, bind, Except.bind, pure, Except.pure] at h
        cases h
        rw [List.pairwise_cons] at hs
        have hlast : ∀ f, S f → removeFactor factor (g f) = (g f).filter (fun q => q.1 ≠ factor) ∧
            (∀ k, (factor, k) ∈ g f → initialExponent factor (g f) = k) ∧
            ((∀ q ∈ g f, q.1 ≠ factor) → initialExponent factor (g f) = 0) := by
          intro f hf
          rw [hg f hf]
          refine last_factor ((hS f hf).sublist List.filter_sublist) fun q hq => ?_
          have := (List.mem_filter.1 hq).2
          simp only [List.mem_cons, decide_eq_true_eq] at this
          rcases this with this | this
          · exact this.le
          · exact (hs.1 _ this).le
        obtain ⟨h3, h4⟩ := ih (d := removeFactorInfo factor d) (g := fun f => removeFactor factor (g f))
          (removeFactorInfo_shaped hd factor) (by simpa [removeFactorInfo] using hn)
          (by simpa [removeFactorInfo] using hm) (by simpa [removeFactorInfo] using hl) hs.2
          (fun e ch => by rw [penaltyOf_remove, hp])
          (fun f hf => by
            rw [(hlast f hf).1, hg f hf, List.filter_filter]
            refine List.filter_congr fun q _ => ?_
            have hnot : q.1 ∈ factors → q.1 ≠ factor := fun hq => (hs.1 _ hq).ne
            by_cases hq : q.1 ∈ factors
            · simp [hq, hnot hq]
            · by_cases he : q.1 = factor <;> simp [hq, he]
              rwa [← he]) h2
        refine ⟨by rw [List.map_cons, h3], fun q hq => ?_⟩
        rcases List.mem_cons.1 hq with rfl | hq
        · obtain ⟨h5, h6, h7, h8⟩ := solveSingle_penalty hd hn h1
          rw [totalPenalty_eq, totalPenalty_eq, hp, hp, hm, hl] at h7
          have h9 : totalPenalty d factor = penaltyOf (fun f => initialExponent factor (g f)) d0 :=
            funext fun ch => by rw [totalPenalty_eq, hp]
          rw [h9, hm, hl] at h8
          refine ⟨by rw [h5, hm], by rw [h6, hl], _, fun f hf => ⟨fun k hk => (hlast f hf).2.1 k ?_, fun ha =>
            (hlast f hf).2.2 fun q hq => ?_⟩, h7, h8⟩
          · rw [hg f hf]
            exact List.mem_filter.2 ⟨hk, by simp⟩
          · rw [hg f hf] at hq
            exact ha q (List.mem_filter.1 hq).1
        · exact h4 q hq

/-! ### The exponents in the combined factors -/

/-- A scaling has nonzero factors for these dimensions. -/
structure NonZero (s : Scaling) (m n : ℕ) : Prop where
  rows : s.rowFactors.length = m
  columns : s.columnFactors.length = n
  cost : s.costFactor ≠ 0
  row : ∀ i < m, s.row i ≠ 0
  column : ∀ j < n, s.column j ≠ 0

/-- What is added for one factor. -/
def combineStep (s : Scaling) (q : ℕ × Changes) : Scaling :=
  ⟨s.costFactor * (q.1 : ℚ) ^ q.2.cost,
    List.zipWith (fun r k => r * (q.1 : ℚ) ^ k) s.rowFactors q.2.rows,
    List.zipWith (fun c k => c * (q.1 : ℚ) ^ (-k)) s.columnFactors q.2.columns⟩

theorem padicValRat_prime_zpow {p q : ℕ} [hp : Fact p.Prime] (hq : q.Prime) (k : ℤ) :
    padicValRat p ((q : ℚ) ^ k) = if q = p then k else 0 := by
  rw [padicValRat.zpow]
  split_ifs with h
  · subst h
    rw [padicValRat.self hq.one_lt, mul_one]
  · have : Fact q.Prime := ⟨hq⟩
    rw [padicValRat.of_nat, padicValNat_primes (Ne.symm h)]
    simp

theorem getD_zipWith {l : List ℚ} {k : List ℤ} {f : ℚ → ℤ → ℚ} {i : ℕ} (h1 : i < l.length) (h2 : i < k.length) :
    (List.zipWith f l k).getD i 1 = f (l.getD i 1) (k.getD i 0) := by
  rw [List.getD_eq_getElem _ _ (by simp [h1, h2]), List.getD_eq_getElem _ _ h1, List.getD_eq_getElem _ _ h2,
    List.getElem_zipWith]

theorem combineStep_val {p m n : ℕ} [hp : Fact p.Prime] {s : Scaling} {q : ℕ × Changes} (hs : s.NonZero m n)
    (hq : q.1.Prime) (h1 : q.2.rows.length = m) (h2 : q.2.columns.length = n) :
    (combineStep s q).NonZero m n ∧
      padicValRat p (combineStep s q).costFactor =
        padicValRat p s.costFactor + (if q.1 = p then q.2.cost else 0) ∧
      (∀ i < m, padicValRat p ((combineStep s q).row i) =
        padicValRat p (s.row i) + if q.1 = p then q.2.rows.getD i 0 else 0) ∧
      ∀ j < n, padicValRat p ((combineStep s q).column j) =
        padicValRat p (s.column j) + if q.1 = p then -q.2.columns.getD j 0 else 0 := by
  have h0 : (q.1 : ℚ) ≠ 0 := by exact_mod_cast hq.ne_zero
  have hr : ∀ i < m, (combineStep s q).row i = s.row i * (q.1 : ℚ) ^ q.2.rows.getD i 0 := fun i hi =>
    getD_zipWith (by rw [hs.rows]; exact hi) (by rw [h1]; exact hi)
  have hc : ∀ j < n, (combineStep s q).column j = s.column j * (q.1 : ℚ) ^ (-q.2.columns.getD j 0) := fun j hj =>
    getD_zipWith (f := fun c k => c * (q.1 : ℚ) ^ (-k)) (by rw [hs.columns]; exact hj) (by rw [h2]; exact hj)
  refine ⟨⟨by simp [combineStep, hs.rows, h1], by simp [combineStep, hs.columns, h2],
    mul_ne_zero hs.cost (zpow_ne_zero _ h0), fun i hi => ?_, fun j hj => ?_⟩, ?_, fun i hi => ?_, fun j hj => ?_⟩
  · rw [hr i hi]
    exact mul_ne_zero (hs.row i hi) (zpow_ne_zero _ h0)
  · rw [hc j hj]
    exact mul_ne_zero (hs.column j hj) (zpow_ne_zero _ h0)
  · rw [show (combineStep s q).costFactor = s.costFactor * (q.1 : ℚ) ^ q.2.cost from rfl,
      padicValRat.mul hs.cost (zpow_ne_zero _ h0), padicValRat_prime_zpow hq]
  · rw [hr i hi, padicValRat.mul (hs.row i hi) (zpow_ne_zero _ h0), padicValRat_prime_zpow hq]
  · rw [hc j hj, padicValRat.mul (hs.column j hj) (zpow_ne_zero _ h0), padicValRat_prime_zpow hq]

/-- The change for a prime. -/
def changeOf (p : ℕ) (l : List (ℕ × Changes)) (f : Changes → ℤ) : ℤ :=
  (l.map fun q => if q.1 = p then f q.2 else 0).sum

theorem combine_val {p m n : ℕ} [hp : Fact p.Prime] {l : List (ℕ × Changes)} {s : Scaling} (hs : s.NonZero m n)
    (hl : ∀ q ∈ l, q.1.Prime ∧ q.2.rows.length = m ∧ q.2.columns.length = n) :
    (l.foldl combineStep s).NonZero m n ∧
      padicValRat p (l.foldl combineStep s).costFactor = padicValRat p s.costFactor + changeOf p l (·.cost) ∧
      (∀ i < m, padicValRat p ((l.foldl combineStep s).row i) =
        padicValRat p (s.row i) + changeOf p l (·.rows.getD i 0)) ∧
      ∀ j < n, padicValRat p ((l.foldl combineStep s).column j) =
        padicValRat p (s.column j) + changeOf p l (-·.columns.getD j 0) := by
  induction l generalizing s with
  | nil => exact ⟨hs, by simp [changeOf], by simp [changeOf], by simp [changeOf]⟩
  | cons q l ih =>
    obtain ⟨h1, h2, h3⟩ := hl q (by simp)
    obtain ⟨h4, h5, h6, h7⟩ := combineStep_val (p := p) hs h1 h2 h3
    obtain ⟨i1, i2, i3, i4⟩ := ih h4 fun q' hq' => hl q' (by simp [hq'])
    rw [List.foldl_cons]
    refine ⟨i1, ?_, fun i hi => ?_, fun j hj => ?_⟩
    · rw [i2, h5, changeOf, changeOf, List.map_cons, List.sum_cons, add_assoc]
    · rw [i3 i hi, h6 i hi, changeOf, changeOf, List.map_cons, List.sum_cons, add_assoc]
    · rw [i4 j hj, h7 j hj, changeOf, changeOf, List.map_cons, List.sum_cons, add_assoc]

theorem changeOf_not_mem {p : ℕ} {l : List (ℕ × Changes)} {f : Changes → ℤ} (h : p ∉ l.map (·.1)) :
    changeOf p l f = 0 := by
  unfold changeOf
  refine List.sum_eq_zero fun x hx => ?_
  obtain ⟨q, hq, rfl⟩ := List.mem_map.1 hx
  rw [if_neg]
  rintro rfl
  exact h (List.mem_map.2 ⟨q, hq, rfl⟩)

theorem changeOf_mem {p : ℕ} {l : List (ℕ × Changes)} {f : Changes → ℤ} {ch : Changes} (hn : (l.map (·.1)).Nodup)
    (h : (p, ch) ∈ l) : changeOf p l f = f ch := by
  induction l with
  | nil => cases h
  | cons q l ih =>
    rw [List.map_cons, List.nodup_cons] at hn
    have hc : changeOf p (q :: l) f = (if q.1 = p then f q.2 else 0) + changeOf p l f := by
      simp [changeOf]
    rw [hc]
    rcases List.mem_cons.1 h with rfl | h
    · rw [changeOf_not_mem hn.1, if_pos rfl, add_zero]
    · rw [ih hn.2 h, if_neg, zero_add]
      rintro rfl
      exact hn.1 (List.mem_map.2 ⟨_, h, rfl⟩)

/-! ### The count of a scaled problem -/

theorem numPenalty_val {p : ℕ} [hp : Fact p.Prime] {v f : ℚ} (hf : f ≠ 0) :
    |padicValRat p (v * f)| = numPenalty (padicValRat p) v (padicValRat p f) := by
  unfold numPenalty
  split_ifs with h
  · rw [padicValRat.mul h hf]
  · have : v = 0 := by simpa using h
    simp [this]

theorem primeCount_scaled {p : ℕ} [hp : Fact p.Prime] {s : Scaling} {G : GeneralForm} {ch : Changes}
    (hG : G.Shaped) (hs : s.NonZero G.constraintTypes.length G.vars.length)
    (h0 : padicValRat p s.costFactor = ch.cost)
    (h1 : ∀ i < G.constraintTypes.length, padicValRat p (s.row i) = ch.rows.getD i 0)
    (h2 : ∀ j < G.vars.length, padicValRat p (s.column j) = ch.columns.getD j 0) :
    (s.scaled (· * ·) (· / ·) G).primeCount p = formPenalty (padicValRat p) G ch := by
  unfold GeneralForm.primeCount formPenalty scaled
  simp only
  congr 1
  · congr 1
    · congr 1
      refine List.ext_getElem (by simp) fun i hi _ => ?_
      have hi' : i < G.constraintTypes.length := by rw [← hG.bLength]; simpa using hi
      rw [List.getElem_map, List.getElem_mapIdx, List.getElem_mapIdx, numPenalty_val (hs.row i hi'), h1 i hi']
    · congr 1
      refine List.ext_getElem (by simp) fun j hj _ => ?_
      have hj' : j < G.vars.length := by simpa using hj
      have hb : ∀ b : Option ℚ, ((b.map fun v => v / s.column j).elim 0 fun v => |padicValRat p v|) =
          b.elim 0 fun v => numPenalty (padicValRat p) v (-ch.columns.getD j 0) := by
        intro b
        cases b with
        | none => rfl
        | some v =>
          simp only [Option.map_some, Option.elim_some]
          rw [div_eq_mul_inv, numPenalty_val (inv_ne_zero (hs.column j hj')), padicValRat.inv, h2 j hj']
      rw [List.getElem_map, List.getElem_mapIdx, List.getElem_mapIdx]
      unfold scaledVariable
      simp only [hb]
      rw [numPenalty_val (mul_ne_zero hs.cost (hs.column j hj')), padicValRat.mul hs.cost (hs.column j hj'), h0,
        h2 j hj']
  · congr 1
    refine List.ext_getElem (by simp) fun j hj _ => ?_
    have hj1 : j < G.constraints.data.length := by simpa using hj
    have hj' : j < G.vars.length := by rw [← hG.dataLength]; exact hj1
    rw [List.getElem_map, List.getElem_mapIdx, List.getElem_mapIdx]
    unfold scaledColumn
    rw [List.map_map]
    congr 1
    refine List.map_congr_left fun q hq => ?_
    have hq1 := hG.inRange _ (List.getElem_mem hj1) q hq
    have hq2 := (hG.wf _ (List.getElem_mem hj1)).nonzero q hq
    simp only [Function.comp_apply]
    rw [padicValRat.mul hq2 (mul_ne_zero (hs.row _ hq1) (hs.column j hj')),
      padicValRat.mul (hs.row _ hq1) (hs.column j hj'), h1 _ hq1, h2 j hj', add_assoc]

theorem primeCount_eq {p : ℕ} {G : GeneralForm} {m n : ℕ} :
    G.primeCount p = formPenalty (padicValRat p) G (Changes.zero m n) := by
  have hz : ∀ k i : ℕ, (List.replicate k (0 : ℤ)).getD i 0 = 0 := by
    intro k i
    rw [List.getD_eq_getElem?_getD, List.getElem?_replicate]
    split_ifs <;> rfl
  have hv : ∀ v, numPenalty (padicValRat p) v 0 = |padicValRat p v| := by
    intro v
    unfold numPenalty
    split_ifs with h
    · rw [add_zero]
    · have : v = 0 := by simpa using h
      simp [this]
  unfold GeneralForm.primeCount formPenalty Changes.zero
  simp only [hz, hv, add_zero, neg_zero, List.mapIdx_eq_zipIdx_map]
  have hi : ∀ {α : Type} (l : List α) (f : α → ℤ), l.zipIdx.map (fun q => f q.1) = l.map f := by
    intro α l f
    rw [← Function.comp_def f Prod.fst, ← List.map_map, List.zipIdx_map_fst]
  rw [← hi G.b, ← hi G.vars, ← hi G.constraints.data]

/-! ### The result of the computation -/

theorem prod_val {p : ℕ} [hp : Fact p.Prime] {l : Factorization} (hl : ∀ q ∈ l, q.1.Prime) :
    (l.map fun q => (q.1 : ℚ) ^ q.2).prod ≠ 0 ∧
      padicValRat p (l.map fun q => (q.1 : ℚ) ^ q.2).prod = (l.map fun q => if q.1 = p then q.2 else 0).sum := by
  induction l with
  | nil => simp
  | cons q l ih =>
    obtain ⟨h1, h2⟩ := ih fun q' hq' => hl q' (by simp [hq'])
    have h3 : (q.1 : ℚ) ^ q.2 ≠ 0 := zpow_ne_zero _ (by exact_mod_cast (hl q (by simp)).ne_zero)
    rw [List.map_cons, List.prod_cons, List.map_cons, List.sum_cons]
    exact ⟨mul_ne_zero h3 h1, by rw [padicValRat.mul h3 h1, h2, padicValRat_prime_zpow (hl q (by simp))]⟩

theorem padicValRat_abs (p : ℕ) (v : ℚ) : padicValRat p |v| = padicValRat p v := by
  rcases abs_choice v with h | h <;> rw [h]
  rw [padicValRat.neg]

theorem Exact.mem {factorize : ℚ → Factorization} {G : GeneralForm} (hf : Exact factorize G) {v : ℚ}
    (hv : G.Number v) {p : ℕ} (hp : p.Prime) {k : ℤ} :
    (p, k) ∈ factorize v ↔ k = padicValRat p v ∧ k ≠ 0 := by
  have : Fact p.Prime := ⟨hp⟩
  have h1 := (prod_val (p := p) (hf.prime v hv)).2
  rw [← hf.product v hv, padicValRat_abs] at h1
  have h2 := hf.sorted v hv
  have h3 := hf.nonzero v hv
  have hnot : ∀ l : Factorization, (∀ q ∈ l, q.1 ≠ p) → (l.map fun q => if q.1 = p then q.2 else 0).sum = 0 := by
    intro l hl
    refine List.sum_eq_zero fun x hx => ?_
    obtain ⟨q, hq, rfl⟩ := List.mem_map.1 hx
    rw [if_neg (hl q hq)]
  have key : ∀ l : Factorization, (l.Pairwise fun a b => a.1 < b.1) → ∀ k, (p, k) ∈ l →
      (l.map fun q => if q.1 = p then q.2 else 0).sum = k := by
    intro l
    induction l with
    | nil => intro _ k hk; cases hk
    | cons q l ih =>
      intro hs k hk
      rw [List.pairwise_cons] at hs
      rw [List.map_cons, List.sum_cons]
      rcases List.mem_cons.1 hk with rfl | hk
      · rw [if_pos rfl, hnot l fun q hq => (hs.1 q hq).ne', add_zero]
      · rw [if_neg (hs.1 _ hk).ne, ih hs.2 k hk, zero_add]
  constructor
  · intro hk
    exact ⟨by rw [h1, key _ h2 k hk], h3 _ hk⟩
  · rintro ⟨rfl, h0⟩
    by_contra hn
    by_cases ha : ∀ q ∈ factorize v, q.1 ≠ p
    · exact h0 (by rw [h1, hnot _ ha])
    · push Not at ha
      obtain ⟨⟨q, k⟩, hq, rfl⟩ := ha
      have := key _ h2 k hq
      rw [← h1] at this
      rw [this] at hn
      exact hn hq

theorem compute_parts {factorize : ℚ → Factorization} {fuel : ℕ} {G H : GeneralForm} {s : Scaling}
    (h : compute factorize fuel G = .ok (H, s)) :
    ∃ result, solveFactors fuel (factorizeForm factorize G).factors.reverse (factorizeForm factorize G) = .ok result ∧
      combineFactors result = .ok s := by
  unfold compute at h
  simp only [bind, Except.bind] at h
  split at h
  · cases h
  · rename_i result hr
    split at h
    · cases h
    · rename_i t ht
      split at h
      · cases h
        exact ⟨result, hr, ht⟩
      · cases h

theorem numPenalty_nonneg (h : ℚ → ℤ) (v : ℚ) (x : ℤ) : 0 ≤ numPenalty h v x := by
  unfold numPenalty
  split_ifs
  · exact abs_nonneg _
  · exact le_rfl

theorem formPenalty_nonneg (h : ℚ → ℤ) (G : GeneralForm) (ch : Changes) : 0 ≤ formPenalty h G ch := by
  have hs : ∀ {α : Type} (l : List α) (f : ℕ → α → ℤ), (∀ j a, 0 ≤ f j a) → 0 ≤ (l.mapIdx f).sum := by
    intro α l f hf
    rw [sum_mapIdx]
    refine Finset.sum_nonneg fun j _ => ?_
    cases l[j]? with
    | none => exact le_rfl
    | some a => exact hf j a
  have he : ∀ (b : Option ℚ) (x : ℤ), 0 ≤ b.elim 0 fun v => numPenalty h v x := by
    intro b x
    cases b with
    | none => exact le_rfl
    | some v => exact numPenalty_nonneg _ _ _
  unfold formPenalty
  refine add_nonneg (add_nonneg (hs _ _ fun _ _ => numPenalty_nonneg _ _ _) (hs _ _ fun _ _ =>
    add_nonneg (add_nonneg (numPenalty_nonneg _ _ _) (he _ _)) (he _ _))) (hs _ _ fun _ _ => ?_)
  exact sum_nonneg_int _ _ fun _ _ => abs_nonneg _

/-- The primes of the scaling with its column factors inverted are the changes that are found. -/
theorem inverted_changes {factorize : ℚ → Factorization} {G H : GeneralForm} (hf : Exact factorize G)
    (hG : G.Shaped) (hv : G.vars ≠ []) {fuel : ℕ} {s : Scaling} (h : compute factorize fuel G = .ok (H, s))
    {p : ℕ} (hp : p.Prime) :
    s.invertColumns.NonZero G.constraintTypes.length G.vars.length ∧ ∃ ch : Changes,
      ch.rows.length = G.constraintTypes.length ∧ ch.columns.length = G.vars.length ∧
      padicValRat p s.costFactor = ch.cost ∧
      (∀ i < G.constraintTypes.length, padicValRat p (s.row i) = ch.rows.getD i 0) ∧
      (∀ j < G.vars.length, padicValRat p (s.invertColumns.column j) = ch.columns.getD j 0) ∧
      formPenalty (padicValRat p) G ch ≤
        formPenalty (padicValRat p) G (Changes.zero G.constraintTypes.length G.vars.length) ∧
      Stationary (formPenalty (padicValRat p) G) G.constraintTypes.length G.vars.length ch := by
  have : Fact p.Prime := ⟨hp⟩
  obtain ⟨result, hr, hc⟩ := compute_parts h
  have hbl : (factorizeForm factorize G).b.length = G.constraintTypes.length := by
    simp [factorizeForm, hG.bLength]
  have hcl : (factorizeForm factorize G).c.length = G.vars.length := by simp [factorizeForm]
  have hsort : ((factorizeForm factorize G).factors.reverse).Pairwise fun a b => b < a := by
    rw [List.pairwise_reverse]
    have h1 : ((factorizeForm factorize G).factors).Pairwise (· ≤ ·) := List.pairwise_insertionSort _ _
    have h2 : ((factorizeForm factorize G).factors).Nodup :=
      (List.perm_insertionSort _ _).nodup_iff.2 (List.nodup_dedup _)
    exact (h1.and h2).imp fun h => lt_of_le_of_ne h.1 h.2
  obtain ⟨hkeys, hkey⟩ := solveFactors_penalty (g := id) (d0 := factorizeForm factorize G)
    (factorizeForm_shaped factorize hG) (by rw [hcl]; exact List.length_pos_iff.2 hv) hbl hcl hsort
    (fun _ _ => rfl) (fun f => ∃ v, G.Number v ∧ f = factorize v)
    (by rintro f ⟨v, hv, rfl⟩; exact hf.sorted v hv)
    (by
      rintro f ⟨v, hv, rfl⟩
      refine (List.filter_eq_self.2 fun q hq => ?_).symm
      simpa using (mem_factors factorize hG).2 ⟨v, hv, q.2, hq⟩) hr
  have hnodup : (result.map (·.1)).Nodup := by
    rw [hkeys]
    exact hsort.imp fun h => h.ne'
  have hprimes : ∀ q ∈ result, q.1.Prime := by
    intro q hq
    have : q.1 ∈ (factorizeForm factorize G).factors := by
      rw [← List.mem_reverse, ← hkeys]
      exact List.mem_map.2 ⟨q, hq, rfl⟩
    obtain ⟨v, hv, k, hk⟩ := (mem_factors factorize hG).1 this
    exact hf.prime v hv _ hk
  have hs : s = result.foldl combineStep ⟨1, List.replicate G.constraintTypes.length 1,
      List.replicate G.vars.length 1⟩ := by
    cases result with
    | nil => cases hc
    | cons first rest =>
      rw [combineFactors] at hc
      obtain ⟨h1, h2, _⟩ := hkey first (by simp)
      rw [h1, h2] at hc
      exact (Except.ok.inj hc).symm
  have hone : ∀ k i : ℕ, (List.replicate k (1 : ℚ)).getD i 1 = 1 := by
    intro k i
    rw [List.getD_eq_getElem?_getD, List.getElem?_replicate]
    split_ifs <;> rfl
  obtain ⟨v1, v2, v3, v4⟩ := combine_val (p := p) (l := result)
    (s := ⟨1, List.replicate G.constraintTypes.length 1, List.replicate G.vars.length 1⟩)
    (m := G.constraintTypes.length) (n := G.vars.length)
    ⟨by simp, by simp, one_ne_zero, fun i _ => by rw [row, hone]; exact one_ne_zero,
      fun j _ => by rw [column, hone]; exact one_ne_zero⟩
    (fun q hq => ⟨hprimes q hq, (hkey q hq).1, (hkey q hq).2.1⟩)
  rw [← hs] at v1 v2 v3 v4
  simp only [row, column, hone, padicValRat.one, zero_add] at v2 v3 v4
  have hcol : ∀ j < G.vars.length, s.invertColumns.column j = (s.column j)⁻¹ := by
    intro j hj
    have hj' : j < s.columnFactors.length := by rw [v1.columns]; exact hj
    unfold column invertColumns
    rw [List.getD_eq_getElem _ _ (by simpa using hj'), List.getD_eq_getElem _ _ hj', List.getElem_map]
  have hnz : s.invertColumns.NonZero G.constraintTypes.length G.vars.length :=
    ⟨v1.rows, by simpa [invertColumns] using v1.columns, v1.cost, v1.row, fun j hj => by
      rw [hcol j hj]
      exact inv_ne_zero (v1.column j hj)⟩
  refine ⟨hnz, ?_⟩
  by_cases hmem : p ∈ result.map (·.1)
  · obtain ⟨⟨p', ch⟩, hq, rfl⟩ := List.mem_map.1 hmem
    obtain ⟨l1, l2, e, he, hle, hst⟩ := hkey _ hq
    have hval : ∀ v, G.Number v → e (factorize v) = padicValRat p' v := by
      intro v hv
      obtain ⟨e1, e2⟩ := he _ ⟨v, hv, rfl⟩
      by_cases h0 : padicValRat p' v = 0
      · rw [h0]
        refine e2 fun a ha hap => ?_
        obtain ⟨a1, a2⟩ := a
        cases hap
        have := (hf.mem hv hp).1 ha
        exact this.2 (this.1.trans h0)
      · exact e1 _ ((hf.mem hv hp).2 ⟨rfl, h0⟩)
    have hpen : penaltyOf e (factorizeForm factorize G) = formPenalty (padicValRat p') G :=
      funext fun ch => by rw [penaltyOf_form _ _ hG, formPenalty_congr hval hG]
    rw [hpen] at hle hst
    refine ⟨ch, l1, l2, v2.trans (changeOf_mem hnodup hq), fun i hi => (v3 i hi).trans (changeOf_mem hnodup hq),
      fun j hj => ?_, hle, hst⟩
    rw [hcol j hj, padicValRat.inv, column, v4 j hj, changeOf_mem hnodup hq, neg_neg]
  · have hz : ∀ k i : ℕ, (List.replicate k (0 : ℤ)).getD i 0 = 0 := by
      intro k i
      rw [List.getD_eq_getElem?_getD, List.getElem?_replicate]
      split_ifs <;> rfl
    have h0 : ∀ v, G.Number v → padicValRat p v = 0 := by
      intro v hv
      by_contra hne
      apply hmem
      rw [hkeys, List.mem_reverse]
      exact (mem_factors factorize hG).2 ⟨v, hv, _, (hf.mem hv hp).2 ⟨rfl, hne⟩⟩
    have hzero : formPenalty (padicValRat p) G (Changes.zero G.constraintTypes.length G.vars.length) = 0 := by
      rw [formPenalty_congr (h' := fun _ => 0) h0 hG]
      unfold formPenalty numPenalty Changes.zero
      simp only [hz, add_zero, neg_zero, abs_zero, ite_self]
      have hs : ∀ {α : Type} (l : List α), (l.mapIdx fun _ _ => (0 : ℤ)).sum = 0 := by
        intro α l
        rw [sum_mapIdx]
        refine Finset.sum_eq_zero fun j _ => ?_
        cases l[j]? <;> rfl
      have he : ∀ b : Option ℚ, (b.elim 0 fun _ => (0 : ℤ)) = 0 := by
        intro b
        cases b <;> rfl
      have hc : ∀ l : SVec ℕ, (l.map fun _ => (0 : ℤ)).sum = 0 := by
        intro l
        simp
      simp only [he, hc, hs, add_zero]
    refine ⟨Changes.zero _ _, by simp [Changes.zero], by simp [Changes.zero], v2.trans (changeOf_not_mem hmem),
      fun i hi => ?_, fun j hj => ?_, le_rfl,
      ⟨fun i _ x => hzero.le.trans (formPenalty_nonneg _ _ _), fun j _ x => hzero.le.trans (formPenalty_nonneg _ _ _)⟩⟩
    · rw [Changes.zero, hz]
      exact (v3 i hi).trans (changeOf_not_mem hmem)
    · rw [Changes.zero, hz, hcol j hj, padicValRat.inv, column, v4 j hj, changeOf_not_mem hmem, neg_zero]

/-- The inverted scaling makes no prime occur more often. -/
theorem invertColumns_primeCount {factorize : ℚ → Factorization} {G H : GeneralForm}
    (hf : Exact factorize G)
    (hG : G.Shaped) (hv : G.vars ≠ []) {fuel : ℕ} {s : Scaling} (h : compute factorize fuel G = .ok (H, s))
    {p : ℕ} (hp : p.Prime) :
    (s.invertColumns.scaled (· * ·) (· / ·) G).primeCount p ≤ G.primeCount p := by
  have : Fact p.Prime := ⟨hp⟩
  obtain ⟨hnz, ch, -, -, h0, h1, h2, hle, -⟩ := inverted_changes hf hG hv h hp
  rw [primeCount_eq (G := G) (m := G.constraintTypes.length) (n := G.vars.length),
    primeCount_scaled hG hnz h0 h1 h2]
  exact hle

/-- A multiple of one row factor makes no prime occur less often. -/
theorem row_primeCount {factorize : ℚ → Factorization} {G H : GeneralForm} (hf : Exact factorize G)
    (hG : G.Shaped) (hv : G.vars ≠ []) {fuel : ℕ} {s : Scaling} (h : compute factorize fuel G = .ok (H, s))
    {p : ℕ} (hp : p.Prime) {i : ℕ} (hi : i < G.constraintTypes.length) {r : ℚ} (hr : r ≠ 0) :
    (s.invertColumns.scaled (· * ·) (· / ·) G).primeCount p ≤
      (({ s.invertColumns with rowFactors := s.rowFactors.set i (s.row i * r) } : Scaling).scaled
        (· * ·) (· / ·) G).primeCount p := by
  have : Fact p.Prime := ⟨hp⟩
  obtain ⟨hnz, ch, l1, l2, h0, h1, h2, -, hst⟩ := inverted_changes hf hG hv h hp
  have hl : s.rowFactors.length = G.constraintTypes.length := hnz.rows
  have hrow : ∀ k, (s.rowFactors.set i (s.row i * r)).getD k 1 = if k = i then s.row i * r else s.row k :=
    fun k => getD_set _ _ _ _ _ (by omega)
  have hne : ∀ k < G.constraintTypes.length, s.row k ≠ 0 := hnz.row
  rw [primeCount_scaled hG hnz h0 h1 h2]
  refine le_trans (hst.rows i hi (ch.rows.getD i 0 + padicValRat p r)) (le_of_eq ?_)
  symm
  refine primeCount_scaled hG ⟨by simpa using hl, hnz.columns, hnz.cost, fun k hk => ?_, hnz.column⟩ h0
    (fun k hk => ?_) h2
  · show (s.rowFactors.set i (s.row i * r)).getD k 1 ≠ 0
    rw [hrow]
    split_ifs
    · exact mul_ne_zero (hne i hi) hr
    · exact hne k hk
  · show padicValRat p ((s.rowFactors.set i (s.row i * r)).getD k 1) = _
    rw [hrow, getD_set _ _ _ _ _ (by omega)]
    split_ifs
    · rw [padicValRat.mul (hne i hi) hr, h1 i hi]
    · exact h1 k hk

/-- A multiple of one inverted column factor makes no prime occur less often. -/
theorem column_primeCount {factorize : ℚ → Factorization} {G H : GeneralForm} (hf : Exact factorize G)
    (hG : G.Shaped) (hv : G.vars ≠ []) {fuel : ℕ} {s : Scaling} (h : compute factorize fuel G = .ok (H, s))
    {p : ℕ} (hp : p.Prime) {j : ℕ} (hj : j < G.vars.length) {r : ℚ} (hr : r ≠ 0) :
    (s.invertColumns.scaled (· * ·) (· / ·) G).primeCount p ≤
      (({ s with columnFactors := s.invertColumns.columnFactors.set j (s.invertColumns.column j * r) } :
        Scaling).scaled (· * ·) (· / ·) G).primeCount p := by
  have : Fact p.Prime := ⟨hp⟩
  obtain ⟨hnz, ch, l1, l2, h0, h1, h2, -, hst⟩ := inverted_changes hf hG hv h hp
  have hl : s.invertColumns.columnFactors.length = G.vars.length := hnz.columns
  have hcol : ∀ k, (s.invertColumns.columnFactors.set j (s.invertColumns.column j * r)).getD k 1 =
      if k = j then s.invertColumns.column j * r else s.invertColumns.column k :=
    fun k => getD_set _ _ _ _ _ (by omega)
  rw [primeCount_scaled hG hnz h0 h1 h2]
  refine le_trans (hst.columns j hj (ch.columns.getD j 0 + padicValRat p r)) (le_of_eq ?_)
  symm
  refine primeCount_scaled hG ⟨hnz.rows, by simpa using hl, hnz.cost, hnz.row, fun k hk => ?_⟩ h0 h1
    (fun k hk => ?_)
  · show (s.invertColumns.columnFactors.set j (s.invertColumns.column j * r)).getD k 1 ≠ 0
    rw [hcol]
    split_ifs
    · exact mul_ne_zero (hnz.column j hj) hr
    · exact hnz.column k hk
  · show padicValRat p ((s.invertColumns.columnFactors.set j (s.invertColumns.column j * r)).getD k 1) = _
    rw [hcol, getD_set _ _ _ _ _ (by omega)]
    split_ifs
    · rw [padicValRat.mul (hnz.column j hj) hr, h2 j hj]
    · exact h2 k hk

end Scaling

end Relp
