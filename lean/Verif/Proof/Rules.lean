import Verif.Proof.Tableau

/-! # The pivot rules do what a pivot rule has to do -/

set_option linter.unusedSectionVars false

namespace Relp

open Matrix BasisInverse LawfulBasisInverse

namespace Tableau

variable {BI : ℕ → Type} [BasisInverse BI] {m n N : ℕ}

/-- What a selected column has to satisfy. -/
def SelectSpec (t : Tableau BI m N) : Option (Fin N × ℚ) → Prop
  | none => ∀ j : Fin N, t.kind.start ≤ (j : ℕ) → t.isInBasis j = false → 0 ≤ t.relativeCost j
  | some (j, c) => t.kind.start ≤ (j : ℕ) ∧ t.isInBasis j = false ∧ c = t.relativeCost j ∧ c < 0

theorem mem_candidatesIn {t : Tableau BI m N} {lower upper : ℕ} {p : Fin N × ℚ} :
    p ∈ t.candidatesIn lower upper ↔
      lower ≤ (p.1 : ℕ) ∧ (p.1 : ℕ) < upper ∧ t.isInBasis p.1 = false ∧ p.2 = t.relativeCost p.1 := by
  unfold candidatesIn
  simp only [List.mem_map, List.mem_filter, List.mem_finRange, true_and, Bool.and_eq_true,
    decide_eq_true_eq, Bool.not_eq_true']
  constructor
  · rintro ⟨j, ⟨⟨h1, h2⟩, h3⟩, rfl⟩
    exact ⟨h1, h2, h3, rfl⟩
  · rintro ⟨h1, h2, h3, h4⟩
    exact ⟨p.1, ⟨⟨h1, h2⟩, h3⟩, by rw [← h4]⟩

theorem mem_candidates {t : Tableau BI m N} {p : Fin N × ℚ} :
    p ∈ t.candidates ↔
      t.kind.start ≤ (p.1 : ℕ) ∧ t.isInBasis p.1 = false ∧ p.2 = t.relativeCost p.1 := by
  unfold candidates
  rw [mem_candidatesIn]
  exact ⟨fun h => ⟨h.1, h.2.2⟩, fun h => ⟨h.1, p.1.isLt, h.2⟩⟩

end Tableau

open Tableau

/-- A pivot rule whose state satisfies an invariant in every iteration, under which it never aborts
and selects a column of negative relative cost if and only if there is one. -/
class LawfulRule (R : ℕ → Type) [PivotRule R] where
  RInv : {BI : ℕ → Type} → [BasisInverse BI] → [LawfulBasisInverse BI] → {m N : ℕ} → R N →
    Tableau BI m N → Matrix (Fin m) (Fin m) ℚ → Prop
  new_ok : ∀ {BI : ℕ → Type} [BasisInverse BI] [LawfulBasisInverse BI] {m N : ℕ}
    {t : Tableau BI m N} {rhs : Fin m → ℚ} {M}, OkDim BI m → t.Exact rhs M →
    ∃ r : R N, PivotRule.new t = .ok r ∧ RInv r t M
  select_ok : ∀ {BI : ℕ → Type} [BasisInverse BI] [LawfulBasisInverse BI] {m N : ℕ}
    {t : Tableau BI m N} {rhs : Fin m → ℚ} {M} {r : R N}, OkDim BI m → t.Exact rhs M →
    RInv r t M → ∃ sel r', PivotRule.select r t = .ok (sel, r') ∧ t.SelectSpec sel
  after_ok : ∀ {BI : ℕ → Type} [BasisInverse BI] [LawfulBasisInverse BI] {m N : ℕ}
    {t t' : Tableau BI m N} {rhs : Fin m → ℚ} {M} {r r' : R N} {j : Fin N} {c : ℚ} {p : Fin m}
    {change}, OkDim BI m → t.Exact rhs M → RInv r t M →
    PivotRule.select r t = .ok (some (j, c), r') → t.alpha M j p ≠ 0 →
    StepTo t t' M j p change → t'.Exact rhs (pivotUpdate M (t.alpha M j) p) →
    ∃ r'', PivotRule.afterUpdate r' change t' = .ok r'' ∧
      RInv r'' t' (pivotUpdate M (t.alpha M j) p)

section Simple

variable {BI : ℕ → Type} [BasisInverse BI] {m n N : ℕ}

theorem find?_selectSpec (t : Tableau BI m N) :
    t.SelectSpec (t.candidates.find? fun p => decide (p.2 < 0)) := by
  cases h : t.candidates.find? fun p => decide (p.2 < 0) with
  | none =>
    intro j hj hb
    rw [List.find?_eq_none] at h
    have := h (j, t.relativeCost j) (mem_candidates.2 ⟨hj, hb, rfl⟩)
    simpa using this
  | some p =>
    obtain ⟨j, c⟩ := p
    have h1 := List.mem_of_find?_eq_some h
    have h2 := List.find?_some h
    obtain ⟨ha, hb, hc⟩ := mem_candidates.1 h1
    exact ⟨ha, hb, hc, by simpa using h2⟩

theorem steepestVariable_fold (l : List (Fin N × ℚ)) (best : Option (Fin N × ℚ)) :
    match l.foldl steepestVariableStep best with
    | none => best = none ∧ l = []
    | some p => (best = some p ∨ p ∈ l) ∧ (∀ q ∈ l, p.2 ≤ q.2) ∧ ∀ q ∈ best, p.2 ≤ q.2 := by
  induction l generalizing best with
  | nil => cases best <;> simp
  | cons a l ih =>
    rw [List.foldl_cons]
    have := ih (steepestVariableStep best a)
    revert this
    generalize l.foldl steepestVariableStep (steepestVariableStep best a) = res
    intro this
    have hs : ∃ q, steepestVariableStep best a = some q ∧ (best = some q ∨ q = a) ∧ q.2 ≤ a.2 ∧
        ∀ q' ∈ best, q.2 ≤ q'.2 := by
      unfold steepestVariableStep
      cases best with
      | none => exact ⟨a, rfl, Or.inr rfl, le_rfl, by simp⟩
      | some e =>
        simp only
        split
        · rename_i h; exact ⟨a, rfl, Or.inr rfl, le_rfl, by simp [h.le]⟩
        · rename_i h; exact ⟨e, rfl, Or.inl rfl, not_lt.1 h, by simp⟩
    obtain ⟨q, hq, h1, h2, h3⟩ := hs
    rw [hq] at this
    cases res with
    | none => simp at this
    | some p =>
      simp only [Option.some.injEq, Option.mem_def, forall_eq'] at this ⊢
      obtain ⟨g1, g2, g3⟩ := this
      refine ⟨?_, ?_, ?_⟩
      · rcases g1 with rfl | g1
        · rcases h1 with h1 | rfl
          · exact Or.inl h1
          · exact Or.inr (by simp)
        · exact Or.inr (by simp [g1])
      · intro q' hq'
        rcases List.mem_cons.1 hq' with rfl | hq'
        · exact g3.trans h2
        · exact g2 q' hq'
      · intro q' hq'
        exact g3.trans (h3 q' hq')

/-- Among the columns of negative relative cost, a most negative one is chosen. -/
theorem steepestVariable_select (t : Tableau BI m N) :
    match (t.candidates.filter fun p => p.2 < 0).foldl steepestVariableStep none with
    | none => t.SelectSpec none
    | some p => t.SelectSpec (some p) ∧
        ∀ j : Fin N, t.kind.start ≤ (j : ℕ) → t.isInBasis j = false → p.2 ≤ t.relativeCost j := by
  have := steepestVariable_fold (t.candidates.filter fun p => p.2 < 0) none
  revert this
  generalize (t.candidates.filter fun p => p.2 < 0).foldl steepestVariableStep none = res
  intro this
  cases res with
  | none =>
    intro j hj hb
    by_contra hc
    have hmem : (j, t.relativeCost j) ∈ t.candidates.filter fun p => p.2 < 0 :=
      List.mem_filter.2 ⟨mem_candidates.2 ⟨hj, hb, rfl⟩, by simpa using hc⟩
    rw [this.2] at hmem
    simp at hmem
  | some p =>
    simp only [reduceCtorEq, false_or] at this
    obtain ⟨hmem, hmin, -⟩ := this
    obtain ⟨h1, h2⟩ := List.mem_filter.1 hmem
    obtain ⟨ha, hb, hc⟩ := mem_candidates.1 h1
    have hneg : p.2 < 0 := by simpa using h2
    refine ⟨⟨ha, hb, hc, hneg⟩, ?_⟩
    intro j hj hjb
    by_cases hjn : t.relativeCost j < 0
    · exact hmin (j, t.relativeCost j)
        (List.mem_filter.2 ⟨mem_candidates.2 ⟨hj, hjb, rfl⟩, by simpa using hjn⟩)
    · linarith

end Simple

instance : LawfulRule FirstProfitable where
  RInv _ _ _ := True
  new_ok _ _ := ⟨_, rfl, trivial⟩
  select_ok {_ _ _ _ _ t} _ _ _ _ _ _ := ⟨_, _, rfl, find?_selectSpec t⟩
  after_ok _ _ _ _ _ _ _ := ⟨_, rfl, trivial⟩

instance : LawfulRule SteepestDescentAlongVariable where
  RInv _ _ _ := True
  new_ok _ _ := ⟨_, rfl, trivial⟩
  select_ok {_ _ _ _ _ t} _ _ _ _ _ _ := by
    refine ⟨_, _, rfl, ?_⟩
    have := steepestVariable_select t
    revert this
    generalize (t.candidates.filter fun p => p.2 < 0).foldl steepestVariableStep none = res
    intro this
    cases res with
    | none => exact this
    | some p => exact this.1
  after_ok _ _ _ _ _ _ _ := ⟨_, rfl, trivial⟩

theorem memory_select_spec {BI : ℕ → Type} [BasisInverse BI] {m N : ℕ} {t : Tableau BI m N}
    {r : FirstProfitableWithMemory N}
    (hr : ∀ last, r.lastSelected = some last → t.isInBasis last = true ∧ t.kind.start ≤ (last : ℕ))
    {sel r'} (h : PivotRule.select r t = .ok (sel, r')) :
    t.SelectSpec sel ∧ r'.lastSelected = sel.map (·.1) := by
  have key : ∀ (lower upper : ℕ), t.kind.start ≤ lower → ∀ p,
      (t.candidatesIn lower upper).find? (fun p => decide (p.2 < 0)) = some p →
      t.SelectSpec (some p) := by
    intro lower upper hl p hp
    obtain ⟨h1, h2, h3, h4⟩ := mem_candidatesIn.1 (List.mem_of_find?_eq_some hp)
    exact ⟨hl.trans h1, h3, h4, by simpa using List.find?_some hp⟩
  have keyNone : ∀ (lower upper : ℕ),
      (t.candidatesIn lower upper).find? (fun p => decide (p.2 < 0)) = none →
      ∀ j : Fin N, lower ≤ (j : ℕ) → (j : ℕ) < upper → t.isInBasis j = false →
        0 ≤ t.relativeCost j := by
    intro lower upper hp j h1 h2 h3
    rw [List.find?_eq_none] at hp
    simpa using hp (j, t.relativeCost j) (mem_candidatesIn.2 ⟨h1, h2, h3, rfl⟩)
  simp only [PivotRule.select, Except.ok.injEq, Prod.mk.injEq] at h
  obtain ⟨rfl, rfl⟩ := h
  refine ⟨?_, rfl⟩
  cases hl : r.lastSelected with
  | none =>
    simp only
    cases hf : (t.candidatesIn t.kind.start N).find? fun p => decide (p.2 < 0) with
    | none => exact fun j hj hb => keyNone _ _ hf j hj j.isLt hb
    | some p => exact key _ _ le_rfl p hf
  | some last =>
    simp only
    obtain ⟨hlast, hstart⟩ := hr last hl
    cases hf : (t.candidatesIn (last + 1) N).find? fun p => decide (p.2 < 0) with
    | none =>
      rw [Option.none_or]
      cases hf2 : (t.candidatesIn t.kind.start last).find? fun p => decide (p.2 < 0) with
      | none =>
        intro j hj hb
        rcases lt_trichotomy (j : ℕ) (last : ℕ) with h | h | h
        · exact keyNone _ _ hf2 j hj h hb
        · have : j = last := Fin.ext h
          rw [this, hlast] at hb
          simp at hb
        · exact keyNone _ _ hf j h j.isLt hb
      | some p => exact key _ _ le_rfl p hf2
    | some p => exact key _ _ (by omega) p hf

theorem StepTo.start_eq {BI : ℕ → Type} {m N : ℕ} {t t' : Tableau BI m N} {M j p change}
    (h : StepTo t t' M j p change) : t'.kind.start = t.kind.start := by rw [h.kind_eq]

instance : LawfulRule FirstProfitableWithMemory where
  RInv r t _ := ∀ last, r.lastSelected = some last →
    t.isInBasis last = true ∧ t.kind.start ≤ (last : ℕ)
  new_ok _ _ := ⟨_, rfl, by simp⟩
  select_ok {BI _ _ m N t rhs M r} _ _ hr := ⟨_, _, rfl, (memory_select_spec hr rfl).1⟩
  after_ok {BI _ _ m N t t' rhs M r r' j c p change} _ _ hr hsel _ hstep hex := by
    obtain ⟨h1, h2⟩ := memory_select_spec hr hsel
    refine ⟨_, rfl, ?_⟩
    intro last hlast
    rw [h2] at hlast
    simp only [Option.map_some, Option.some.injEq] at hlast
    subst hlast
    refine ⟨?_, ?_⟩
    · rw [hex.mem_basis]
      exact ⟨p, by rw [hstep.basis_eq]; simp⟩
    · rw [hstep.kind_eq]; exact h1.1

/-! ### Steepest edge -/

namespace SteepestDescentAlongObjective

variable {BI : ℕ → Type} [BasisInverse BI] [LawfulBasisInverse BI] {m N : ℕ}

/-- All weights are exact. -/
def GammaExact (gamma : Fin N → Option ℚ) (t : Tableau BI m N) (M : Matrix (Fin m) (Fin m) ℚ) :
    Prop :=
  ∀ j : Fin N, t.kind.start ≤ (j : ℕ) →
    gamma j = if t.isInBasis j then none else some (1 + t.alpha M j ⬝ᵥ t.alpha M j)

theorem new_ok {t : Tableau BI m N} {rhs : Fin m → ℚ} {M} (hm : OkDim BI m) (h : t.Exact rhs M) :
    ∃ r, new t = .ok r ∧ GammaExact r.gamma t M := by
  have hg : ∀ j : Fin N, ∃ g, (if t.kind.start ≤ (j : ℕ) ∧ !t.isInBasis j then do
      let g ← initialGamma j t
      pure (some g)
    else pure none : Res (Option ℚ)) = .ok g ∧
      (t.kind.start ≤ (j : ℕ) →
        g = if t.isInBasis j then none else some (1 + t.alpha M j ⬝ᵥ t.alpha M j)) := by
    intro j
    by_cases hj : t.kind.start ≤ (j : ℕ) ∧ !t.isInBasis j
    · obtain ⟨info, h1, h2, h3⟩ := h.generateColumn_ok hm j
      refine ⟨some (1 + t.alpha M j ⬝ᵥ t.alpha M j), ?_, ?_⟩
      · rw [if_pos hj]
        simp only [initialGamma, h1, bind, Except.bind, pure, Except.pure]
        rw [SVec.squaredNorm_eq h2, h3]
      · intro _
        have : t.isInBasis j = false := by simpa using hj.2
        simp [this]
    · refine ⟨none, by rw [if_neg hj]; rfl, ?_⟩
      intro hs
      have : t.isInBasis j = true := by
        by_contra hc
        exact hj ⟨hs, by simpa using hc⟩
      simp [this]
  obtain ⟨gamma, h1, h2⟩ := tabulateM_exists hg
  refine ⟨⟨gamma⟩, ?_, fun j hj => (h2 j).2 hj⟩
  unfold new
  rw [h1]
  rfl

theorem keys_ok {gamma : Fin N → Option ℚ} (g : Fin N → ℚ) {l : List (Fin N × ℚ)}
    (h : ∀ p ∈ l, gamma p.1 = some (g p.1)) (h0 : ∀ j, g j ≠ 0) :
    keys gamma l = .ok (l.map fun p => (p, p.2 * p.2 / g p.1)) := by
  induction l with
  | nil => rfl
  | cons p l ih =>
    rw [keys, h p (by simp), ih fun q hq => h q (by simp [hq])]
    simp only [if_neg (h0 p.1)]
    rfl

theorem maxStep_fold (l : List ((Fin N × ℚ) × ℚ)) (best : Option ((Fin N × ℚ) × ℚ)) :
    match l.foldl maxStep best with
    | none => best = none ∧ l = []
    | some p => (best = some p ∨ p ∈ l) ∧ (∀ q ∈ l, q.2 ≤ p.2) ∧ ∀ q ∈ best, q.2 ≤ p.2 := by
  induction l generalizing best with
  | nil => cases best <;> simp
  | cons a l ih =>
    rw [List.foldl_cons]
    have := ih (maxStep best a)
    revert this
    generalize l.foldl maxStep (maxStep best a) = res
    intro this
    have hs : ∃ q, maxStep best a = some q ∧ (best = some q ∨ q = a) ∧ a.2 ≤ q.2 ∧
        ∀ q' ∈ best, q'.2 ≤ q.2 := by
      unfold maxStep
      cases best with
      | none => exact ⟨a, rfl, Or.inr rfl, le_rfl, by simp⟩
      | some e =>
        simp only
        split
        · rename_i h; exact ⟨a, rfl, Or.inr rfl, le_rfl, by simp [h]⟩
        · rename_i h; exact ⟨e, rfl, Or.inl rfl, (not_le.1 h).le, by simp⟩
    obtain ⟨q, hq, h1, h2, h3⟩ := hs
    rw [hq] at this
    cases res with
    | none => simp at this
    | some p =>
      simp only [Option.some.injEq, Option.mem_def, forall_eq'] at this ⊢
      obtain ⟨g1, g2, g3⟩ := this
      refine ⟨?_, ?_, ?_⟩
      · rcases g1 with rfl | g1
        · rcases h1 with h1 | rfl
          · exact Or.inl h1
          · exact Or.inr (by simp)
        · exact Or.inr (by simp [g1])
      · intro q' hq'
        rcases List.mem_cons.1 hq' with rfl | hq'
        · exact h2.trans g3
        · exact g2 q' hq'
      · intro q' hq'
        exact (h3 q' hq').trans g3

/-- With exact weights, the selected column maximises `cost² / (1 + |α|²)`. -/
theorem select_ok {t : Tableau BI m N} {M} {r : SteepestDescentAlongObjective N}
    (hg : GammaExact r.gamma t M) :
    ∃ sel, select r t = .ok (sel, r) ∧ t.SelectSpec sel ∧
      ∀ p ∈ sel, ∀ j : Fin N, t.kind.start ≤ (j : ℕ) → t.isInBasis j = false →
        t.relativeCost j < 0 →
        t.relativeCost j ^ 2 / (1 + t.alpha M j ⬝ᵥ t.alpha M j) ≤
          t.relativeCost p.1 ^ 2 / (1 + t.alpha M p.1 ⬝ᵥ t.alpha M p.1) := by
  have hk := keys_ok (gamma := r.gamma) (fun j => 1 + t.alpha M j ⬝ᵥ t.alpha M j)
    (l := t.candidates.filter fun p => p.2 < 0) (by
      intro p hp
      obtain ⟨h1, h2, h3⟩ := mem_candidates.1 (List.mem_filter.1 hp).1
      rw [hg p.1 h1, h2]; rfl)
    (fun j => by
      have : 0 ≤ t.alpha M j ⬝ᵥ t.alpha M j := Finset.sum_nonneg fun i _ => mul_self_nonneg _
      linarith)
  refine ⟨_, by unfold select; rw [hk]; rfl, ?_⟩
  have := maxStep_fold ((t.candidates.filter fun p => p.2 < 0).map
    fun p => (p, p.2 * p.2 / (1 + t.alpha M p.1 ⬝ᵥ t.alpha M p.1))) none
  revert this
  generalize ((t.candidates.filter fun p => p.2 < 0).map
    fun p => (p, p.2 * p.2 / (1 + t.alpha M p.1 ⬝ᵥ t.alpha M p.1))).foldl maxStep none = res
  intro this
  cases res with
  | none =>
    refine ⟨?_, by simp⟩
    intro j hj hb
    by_contra hc
    have hmem : (j, t.relativeCost j) ∈ t.candidates.filter fun p => p.2 < 0 :=
      List.mem_filter.2 ⟨mem_candidates.2 ⟨hj, hb, rfl⟩, by simpa using hc⟩
    rw [List.map_eq_nil_iff.1 this.2] at hmem
    simp at hmem
  | some p =>
    simp only [reduceCtorEq, false_or] at this
    obtain ⟨hmem, hmax, -⟩ := this
    obtain ⟨q, hq, rfl⟩ := List.mem_map.1 hmem
    obtain ⟨h1, h2⟩ := List.mem_filter.1 hq
    obtain ⟨ha, hb, hc⟩ := mem_candidates.1 h1
    refine ⟨⟨ha, hb, hc, by simpa using h2⟩, ?_⟩
    intro p hp j hj hjb hneg
    simp only [Option.map_some, Option.mem_def, Option.some.injEq] at hp
    subst hp
    have hmem' : (j, t.relativeCost j) ∈ t.candidates.filter fun p => p.2 < 0 :=
      List.mem_filter.2 ⟨mem_candidates.2 ⟨hj, hjb, rfl⟩, by simpa using hneg⟩
    have := hmax _ (List.mem_map.2 ⟨_, hmem', rfl⟩)
    simp only at this
    rw [hc] at this
    rw [pow_two, pow_two]
    exact this

/-- Norm of a column after the basis change. -/
theorem normSq_step (α β : Fin m → ℚ) (p : Fin m) (hp : α p ≠ 0) :
    (∑ i, (if i = p then β p / α p else β i - α i * (β p / α p)) *
      (if i = p then β p / α p else β i - α i * (β p / α p)))
      = β ⬝ᵥ β - 2 * (β p / α p) * (α ⬝ᵥ β) + (β p / α p) ^ 2 * (1 + α ⬝ᵥ α) := by
  have h1 : ∀ i, (if i = p then β p / α p else β i - α i * (β p / α p)) *
      (if i = p then β p / α p else β i - α i * (β p / α p))
      = β i * β i - 2 * (β p / α p) * (α i * β i) + (β p / α p) ^ 2 * (α i * α i)
        + if i = p then (β p / α p) ^ 2 else 0 := by
    intro i
    by_cases hi : i = p
    · subst hi
      simp only [if_true]
      field_simp
      ring
    · simp only [hi, if_false]; ring
  simp only [h1, Finset.sum_add_distrib, Finset.sum_sub_distrib, ← Finset.mul_sum,
    Finset.sum_ite_eq', Finset.mem_univ, if_true, dotProduct]
  ring

theorem normSq_step_le (α β : Fin m → ℚ) (p : Fin m) :
    (β p / α p) ^ 2 ≤ ∑ i, (if i = p then β p / α p else β i - α i * (β p / α p)) *
      (if i = p then β p / α p else β i - α i * (β p / α p)) := by
  have := Finset.single_le_sum (f := fun i =>
      (if i = p then β p / α p else β i - α i * (β p / α p)) *
      (if i = p then β p / α p else β i - α i * (β p / α p)))
    (fun i _ => mul_self_nonneg _) (Finset.mem_univ p)
  simpa [pow_two] using this

theorem alpha_step {t t' : Tableau BI m N} {M j p change} (h : StepTo t t' M j p change)
    (k : Fin N) (i : Fin m) :
    t'.alpha (pivotUpdate M (t.alpha M j) p) k i
      = if i = p then t.alpha M k p / t.alpha M j p
        else t.alpha M k i - t.alpha M j i * (t.alpha M k p / t.alpha M j p) := by
  unfold alpha
  rw [h.kind_eq]
  by_cases hi : i = p
  · subst hi; rw [if_pos rfl, pivotUpdate_mulVec_pivot]
  · rw [if_neg hi, pivotUpdate_mulVec_other _ _ hi]

/-- The incremental update computes the weight of a column with respect to the new basis. -/
theorem updateGamma_exact {t t' : Tableau BI m N} {M j p change} (h : StepTo t t' M j p change)
    (hp : t.alpha M j p ≠ 0) (k : Fin N) :
    updateGamma change (1 + SVec.squaredNorm change.columnBeforeChange) (t'.kind.column k)
        (1 + t.alpha M k ⬝ᵥ t.alpha M k)
      = 1 + t'.alpha (pivotUpdate M (t.alpha M j) p) k ⬝ᵥ
          t'.alpha (pivotUpdate M (t.alpha M j) p) k := by
  have hbar : SVec.innerProduct change.basisInverseRow (t'.kind.column k)
      = t.alpha M k p / t.alpha M j p := by
    rw [SVec.innerProduct_eq h.row_wf, h.row_eq, h.kind_eq]
    exact pivotUpdate_mulVec_pivot M (t.alpha M j) p _
  have hip : SVec.innerProduct change.workVector (t'.kind.column k)
      = t.alpha M j ⬝ᵥ t.alpha M k := by
    rw [SVec.innerProduct_eq h.work_wf, h.work_eq, h.kind_eq, ← dotProduct_mulVec]
    rfl
  have hq : SVec.squaredNorm change.columnBeforeChange = t.alpha M j ⬝ᵥ t.alpha M j := by
    rw [SVec.squaredNorm_eq h.column_wf, h.column_eq]
  have hnew : t'.alpha (pivotUpdate M (t.alpha M j) p) k ⬝ᵥ
      t'.alpha (pivotUpdate M (t.alpha M j) p) k
      = t.alpha M k ⬝ᵥ t.alpha M k
        - 2 * (t.alpha M k p / t.alpha M j p) * (t.alpha M j ⬝ᵥ t.alpha M k)
        + (t.alpha M k p / t.alpha M j p) ^ 2 * (1 + t.alpha M j ⬝ᵥ t.alpha M j) := by
    rw [← normSq_step _ _ p hp, dotProduct]
    exact Finset.sum_congr rfl fun i _ => by rw [alpha_step h]
  have hle : (t.alpha M k p / t.alpha M j p) ^ 2 ≤ t'.alpha (pivotUpdate M (t.alpha M j) p) k ⬝ᵥ
      t'.alpha (pivotUpdate M (t.alpha M j) p) k := by
    refine (normSq_step_le (t.alpha M j) (t.alpha M k) p).trans (le_of_eq ?_)
    rw [dotProduct]
    exact Finset.sum_congr rfl fun i _ => by rw [alpha_step h]
  unfold updateGamma
  simp only [hbar, hip, hq]
  generalize ha : t.alpha M k p / t.alpha M j p = a at *
  by_cases h0 : a = 0
  · subst h0
    simp only [ne_eq, not_true_eq_false, if_false]
    have h1 : 0 ≤ t.alpha M k ⬝ᵥ t.alpha M k :=
      Finset.sum_nonneg fun i _ => mul_self_nonneg _
    rw [if_neg (by linarith), hnew]
    ring
  · simp only [ne_eq, h0, not_false_eq_true, if_true]
    have hval : (if ¬ t.alpha M j ⬝ᵥ t.alpha M k = 0 then
          1 + t.alpha M k ⬝ᵥ t.alpha M k - a * (t.alpha M j ⬝ᵥ t.alpha M k)
            - a * (t.alpha M j ⬝ᵥ t.alpha M k)
        else 1 + t.alpha M k ⬝ᵥ t.alpha M k) + a * a * (1 + t.alpha M j ⬝ᵥ t.alpha M j)
        = 1 + t'.alpha (pivotUpdate M (t.alpha M j) p) k ⬝ᵥ
          t'.alpha (pivotUpdate M (t.alpha M j) p) k := by
      rw [hnew]
      split
      · ring
      · rename_i hz
        have hz : t.alpha M j ⬝ᵥ t.alpha M k = 0 := by simpa using hz
        rw [hz]; ring
    rw [hval, if_neg]
    rw [pow_two] at hle
    linarith

theorem after_ok {t t' : Tableau BI m N} {rhs M j p change} {r : SteepestDescentAlongObjective N}
    (hex : t.Exact rhs M) (hg : GammaExact r.gamma t M) (hj : t.isInBasis j = false)
    (hp : t.alpha M j p ≠ 0) (h : StepTo t t' M j p change)
    (hex' : t'.Exact rhs (pivotUpdate M (t.alpha M j) p)) :
    ∃ r'', afterUpdate r change t' = .ok r'' ∧
      GammaExact r''.gamma t' (pivotUpdate M (t.alpha M j) p) := by
  have hget : SVec.get? change.columnBeforeChange change.pivotRow = some (t.alpha M j p) := by
    rw [h.pivotRow_eq, SVec.get?_some h.column_wf (by rw [h.column_eq]; exact hp), h.column_eq]
  refine ⟨_, by unfold afterUpdate; rw [hget]; simp only [if_neg hp]; exact rfl, ?_⟩
  intro k hk
  have hk' : t.kind.start ≤ (k : ℕ) := by rw [← h.kind_eq]; exact hk
  simp only [h.pivotColumn_eq, h.leaving_eq]
  by_cases hkl : k = t.carry.basisIndices p
  · -- the leaving column
    subst hkl
    rw [Function.update_self]
    have hnb : t'.isInBasis (t.carry.basisIndices p) = false := by
      by_contra hc
      rw [Bool.not_eq_false, hex'.mem_basis] at hc
      obtain ⟨i, hi⟩ := hc
      rw [h.basis_eq] at hi
      by_cases hip : i = p
      · subst hip
        rw [Function.update_self] at hi
        have : t.isInBasis j = true := hex.mem_basis.2 ⟨i, hi.symm⟩
        rw [this] at hj; simp at hj
      · rw [Function.update_of_ne hip] at hi
        exact hip (hex.injective hi)
    rw [hnb]
    simp only [Bool.false_eq_true, if_false, Option.some.injEq]
    rw [SVec.squaredNorm_eq h.column_wf, h.column_eq]
    have hnew : t'.alpha (pivotUpdate M (t.alpha M j) p) (t.carry.basisIndices p) ⬝ᵥ
        t'.alpha (pivotUpdate M (t.alpha M j) p) (t.carry.basisIndices p)
        = t.alpha M (t.carry.basisIndices p) ⬝ᵥ t.alpha M (t.carry.basisIndices p)
          - 2 * (t.alpha M (t.carry.basisIndices p) p / t.alpha M j p) *
              (t.alpha M j ⬝ᵥ t.alpha M (t.carry.basisIndices p))
          + (t.alpha M (t.carry.basisIndices p) p / t.alpha M j p) ^ 2 *
              (1 + t.alpha M j ⬝ᵥ t.alpha M j) := by
      rw [← normSq_step _ _ p hp, dotProduct]
      exact Finset.sum_congr rfl fun i _ => by rw [alpha_step h]
    rw [hnew, hex.alpha_basis]
    simp only [dotProduct_single, Pi.single_eq_same, mul_one]
    field_simp
    ring
  · rw [Function.update_of_ne hkl, if_pos hk]
    by_cases hkj : k = j
    · subst hkj
      rw [Function.update_self]
      have : t'.isInBasis k = true := hex'.mem_basis.2 ⟨p, by rw [h.basis_eq]; simp⟩
      simp [this]
    · rw [Function.update_of_ne hkj, hg k hk']
      have hiff : t'.isInBasis k = t.isInBasis k := by
        rw [Bool.eq_iff_iff, hex'.mem_basis, hex.mem_basis, h.basis_eq]
        constructor
        · rintro ⟨i, hi⟩
          by_cases hip : i = p
          · subst hip; rw [Function.update_self] at hi; exact absurd hi.symm hkj
          · rw [Function.update_of_ne hip] at hi; exact ⟨i, hi⟩
        · rintro ⟨i, hi⟩
          have hip : i ≠ p := fun hip => hkl (by rw [← hi, hip])
          exact ⟨i, by rw [Function.update_of_ne hip]; exact hi⟩
      rw [hiff]
      by_cases hb : t.isInBasis k
      · simp [hb]
      · simp only [hb, Bool.false_eq_true, if_false, Option.map_some]
        rw [updateGamma_exact h hp]

end SteepestDescentAlongObjective

instance : LawfulRule SteepestDescentAlongObjective where
  RInv r t M := SteepestDescentAlongObjective.GammaExact r.gamma t M
  new_ok hm h := SteepestDescentAlongObjective.new_ok hm h
  select_ok _ _ hr := by
    obtain ⟨sel, h1, h2, _⟩ := SteepestDescentAlongObjective.select_ok hr
    exact ⟨sel, _, h1, h2⟩
  after_ok _ hex hr hsel hp hstep hex' := by
    obtain ⟨sel, h1, h2, _⟩ := SteepestDescentAlongObjective.select_ok hr
    have h3 := hsel.symm.trans h1
    simp only [Except.ok.injEq, Prod.mk.injEq] at h3
    obtain ⟨rfl, rfl⟩ := h3
    exact SteepestDescentAlongObjective.after_ok hex hr h2.2.1 hp hstep hex'

end Relp
