import Verif.Model.Sparse
import Mathlib.Algebra.BigOperators.Fin
import Mathlib.Data.Matrix.Mul
import Mathlib.Tactic.Ring
import Mathlib.Tactic.Linarith
import Mathlib.Tactic.FieldSimp
import Mathlib.Tactic.LinearCombination

/-! # Lemmas about sparse vectors -/

namespace Relp.SVec

variable {ι : Type} [LinearOrder ι]

@[simp] theorem val_nil (i : ι) : val ([] : SVec ι) i = 0 := rfl

theorem val_cons (p : ι × ℚ) (v : SVec ι) (i : ι) :
    val (p :: v) i = (if p.1 = i then p.2 else 0) + val v i := by simp [val]

theorem WF.nil : WF ([] : SVec ι) := ⟨List.Pairwise.nil, by simp⟩

theorem wf_cons {p : ι × ℚ} {v : SVec ι} :
    WF (p :: v) ↔ (∀ q ∈ v, p.1 < q.1) ∧ p.2 ≠ 0 ∧ WF v := by
  constructor
  · intro h
    have h1 := List.pairwise_cons.1 h.sorted
    exact ⟨h1.1, h.nonzero p (by simp), h1.2, fun q hq => h.nonzero q (by simp [hq])⟩
  · rintro ⟨h1, h2, h3⟩
    refine ⟨List.pairwise_cons.2 ⟨h1, h3.sorted⟩, ?_⟩
    intro q hq
    rcases List.mem_cons.1 hq with rfl | hq
    · exact h2
    · exact h3.nonzero q hq

theorem val_eq_zero_of_notMem {v : SVec ι} {i : ι} (h : ∀ p ∈ v, p.1 ≠ i) : val v i = 0 := by
  induction v with
  | nil => rfl
  | cons p v ih =>
    rw [val_cons, if_neg (h p (by simp)), ih fun q hq => h q (by simp [hq]), add_zero]

theorem val_eq_zero_of_lt {v : SVec ι} {i : ι} (h : ∀ p ∈ v, i < p.1) : val v i = 0 :=
  val_eq_zero_of_notMem fun p hp => (h p hp).ne'

theorem val_of_mem {v : SVec ι} (hv : WF v) {p : ι × ℚ} (hp : p ∈ v) : val v p.1 = p.2 := by
  induction v with
  | nil => simp at hp
  | cons q v ih =>
    rw [wf_cons] at hv
    obtain ⟨h1, h2, h3⟩ := hv
    rw [val_cons]
    rcases List.mem_cons.1 hp with rfl | hp
    · rw [if_pos rfl, val_eq_zero_of_lt h1, add_zero]
    · rw [if_neg (h1 p hp).ne, ih h3 hp, zero_add]

theorem exists_mem_of_val_ne_zero {v : SVec ι} {i : ι} (h : val v i ≠ 0) : ∃ p ∈ v, p.1 = i := by
  by_contra hc
  push Not at hc
  exact h (val_eq_zero_of_notMem hc)

theorem mem_iff {v : SVec ι} (hv : WF v) (i : ι) (x : ℚ) :
    (i, x) ∈ v ↔ val v i = x ∧ x ≠ 0 := by
  constructor
  · intro h
    exact ⟨val_of_mem hv h, hv.nonzero _ h⟩
  · rintro ⟨rfl, h⟩
    obtain ⟨p, hp, rfl⟩ := exists_mem_of_val_ne_zero h
    rw [val_of_mem hv hp]
    exact hp

theorem get?_eq {v : SVec ι} (hv : WF v) (i : ι) :
    get? v i = if val v i = 0 then none else some (val v i) := by
  induction v with
  | nil => simp [get?]
  | cons p v ih =>
    obtain ⟨j, x⟩ := p
    rw [wf_cons] at hv
    obtain ⟨h1, h2, h3⟩ := hv
    rw [val_cons, get?]
    by_cases hji : j = i
    · subst hji
      have : val v j = 0 := val_eq_zero_of_lt h1
      simp_all
    · simp [hji, ih h3]

theorem get?_getD {v : SVec ι} (hv : WF v) (i : ι) : (get? v i).getD 0 = val v i := by
  rw [get?_eq hv]; split <;> simp_all

theorem get?_some {v : SVec ι} (hv : WF v) {i : ι} (h : val v i ≠ 0) :
    get? v i = some (val v i) := by rw [get?_eq hv, if_neg h]

theorem mem_of_setZero {v : SVec ι} {i : ι} {p : ι × ℚ} (h : p ∈ setZero v i) : p ∈ v := by
  induction v with
  | nil => simp [setZero] at h
  | cons q v ih =>
    obtain ⟨j, x⟩ := q
    rw [setZero] at h
    split at h
    · simp [h]
    · rcases List.mem_cons.1 h with h | h
      · simp [h]
      · simp [ih h]

theorem wf_setZero {v : SVec ι} (hv : WF v) (i : ι) : WF (setZero v i) := by
  induction v with
  | nil => exact hv
  | cons q v ih =>
    obtain ⟨j, x⟩ := q
    rw [wf_cons] at hv
    rw [setZero]
    split
    · exact hv.2.2
    · exact wf_cons.2 ⟨fun q hq => hv.1 q (mem_of_setZero hq), hv.2.1, ih hv.2.2⟩

theorem val_setZero {v : SVec ι} (hv : WF v) (i j : ι) :
    val (setZero v i) j = if j = i then 0 else val v j := by
  induction v with
  | nil => simp [setZero]
  | cons q v ih =>
    obtain ⟨k, x⟩ := q
    rw [wf_cons] at hv
    obtain ⟨h1, h2, h3⟩ := hv
    rw [setZero]
    by_cases hki : k = i
    · subst hki
      rw [if_pos rfl, val_cons]
      by_cases hj : j = k
      · subst hj
        rw [if_pos rfl, val_eq_zero_of_lt h1]
      · rw [if_neg hj, if_neg (Ne.symm hj), zero_add]
    · rw [if_neg hki, val_cons, val_cons, ih h3]
      by_cases hj : j = i
      · subst hj; simp [hki]
      · simp [hj]

theorem mem_set {v : SVec ι} {i : ι} {x : ℚ} {p : ι × ℚ} (h : p ∈ set v i x) :
    p = (i, x) ∨ p ∈ v := by
  induction v with
  | nil => simpa [set] using h
  | cons q v ih =>
    obtain ⟨j, y⟩ := q
    rw [set] at h
    split at h
    · rcases List.mem_cons.1 h with h | h
      · simp [h]
      · rcases ih h with h | h <;> simp [h]
    · split at h
      · rcases List.mem_cons.1 h with h | h <;> simp [h]
      · rcases List.mem_cons.1 h with h | h
        · simp [h]
        · exact Or.inr h

theorem wf_set {v : SVec ι} (hv : WF v) (i : ι) {x : ℚ} (hx : x ≠ 0) : WF (set v i x) := by
  induction v with
  | nil => exact wf_cons.2 ⟨by simp, hx, WF.nil⟩
  | cons q v ih =>
    obtain ⟨j, y⟩ := q
    have hv' := wf_cons.1 hv
    obtain ⟨h1, h2, h3⟩ := hv'
    rw [set]
    split
    · rename_i hji
      refine wf_cons.2 ⟨fun q hq => ?_, h2, ih h3⟩
      rcases mem_set hq with rfl | hq
      · exact hji
      · exact h1 q hq
    · split
      · rename_i hji; subst hji
        exact wf_cons.2 ⟨h1, hx, h3⟩
      · rename_i h4 h5
        have hij : i < j := lt_of_le_of_ne (not_lt.1 h4) (Ne.symm h5)
        refine wf_cons.2 ⟨fun q hq => ?_, hx, hv⟩
        rcases List.mem_cons.1 hq with rfl | hq
        · exact hij
        · exact hij.trans (h1 q hq)

theorem val_set {v : SVec ι} (hv : WF v) (i : ι) (x : ℚ) (j : ι) :
    val (set v i x) j = if j = i then x else val v j := by
  induction v with
  | nil => simp [set, val_cons, eq_comm]
  | cons q v ih =>
    obtain ⟨k, y⟩ := q
    have hv' := wf_cons.1 hv
    obtain ⟨h1, h2, h3⟩ := hv'
    rw [set]
    split
    · rename_i hki
      rw [val_cons, val_cons, ih h3]
      by_cases hj : j = i
      · subst hj; simp [hki.ne]
      · simp [hj]
    · split
      · rename_i hki; subst hki
        rw [val_cons, val_cons]
        by_cases hj : j = k
        · subst hj; simp [val_eq_zero_of_lt h1]
        · simp [hj, Ne.symm hj]
      · rename_i h4 h5
        have hik : i < k := lt_of_le_of_ne (not_lt.1 h4) (Ne.symm h5)
        rw [val_cons]
        by_cases hj : j = i
        · subst hj
          have : val ((k, y) :: v) j = 0 := by
            apply val_eq_zero_of_lt
            intro q hq
            rcases List.mem_cons.1 hq with rfl | hq
            · exact hik
            · exact hik.trans (h1 q hq)
          simp [this]
        · simp [hj, Ne.symm hj]

theorem wf_shiftValue {v : SVec ι} (hv : WF v) (i : ι) (x : ℚ) : WF (shiftValue v i x) := by
  unfold shiftValue
  split
  · rename_i hx
    split
    · rename_i y hy
      split
      · exact wf_setZero hv i
      · rename_i h
        exact wf_set hv i fun h0 => h (by linarith)
    · exact wf_set hv i hx
  · exact hv

theorem val_shiftValue {v : SVec ι} (hv : WF v) (i : ι) (x : ℚ) (j : ι) :
    val (shiftValue v i x) j = val v j + if j = i then x else 0 := by
  unfold shiftValue
  rw [get?_eq hv]
  by_cases hx : x = 0
  · simp [hx]
  · by_cases h0 : val v i = 0
    · simp only [hx, h0, ne_eq, not_false_eq_true, if_true]
      rw [val_set hv]
      split
      · subst_vars; simp [h0]
      · simp
    · simp only [hx, h0, ne_eq, not_false_eq_true, if_true, if_false]
      split
      · rename_i h
        rw [val_setZero hv]
        split
        · subst_vars; linarith
        · simp
      · rw [val_set hv]
        split
        · subst_vars; rfl
        · simp

theorem wf_map {v : SVec ι} (hv : WF v) (f : ℚ → ℚ) (hf : ∀ x, x ≠ 0 → f x ≠ 0) :
    WF (v.map fun p => (p.1, f p.2)) := by
  refine ⟨?_, ?_⟩
  · exact List.pairwise_map.2 hv.sorted
  · intro p hp
    obtain ⟨q, hq, rfl⟩ := List.mem_map.1 hp
    exact hf _ (hv.nonzero q hq)

theorem wf_scale {v : SVec ι} (hv : WF v) {c : ℚ} (hc : c ≠ 0) : WF (scale v c) :=
  wf_map hv (· * c) fun _ hx => mul_ne_zero hx hc

theorem wf_divide {v : SVec ι} (hv : WF v) {c : ℚ} (hc : c ≠ 0) : WF (divide v c) :=
  wf_map hv (· / c) fun _ hx => div_ne_zero hx hc

theorem val_scale (v : SVec ι) (c : ℚ) (i : ι) : val (scale v c) i = val v i * c := by
  induction v with
  | nil => simp [scale]
  | cons p v ih =>
    have : scale (p :: v) c = (p.1, p.2 * c) :: scale v c := rfl
    rw [this, val_cons, val_cons, ih]
    split <;> ring

theorem val_divide (v : SVec ι) (c : ℚ) (i : ι) : val (divide v c) i = val v i / c := by
  have : divide v c = scale v c⁻¹ := by simp [divide, scale, div_eq_mul_inv]
  rw [this, val_scale, div_eq_mul_inv]

theorem addMultiple_nil_right (c : ℚ) (v : SVec ι) : addMultiple c v [] = v := by
  induction v with
  | nil => simp [addMultiple]
  | cons p v ih => obtain ⟨i, x⟩ := p; rw [addMultiple, ih]

theorem addMultiple_nil_left (c : ℚ) (w : SVec ι) : addMultiple c [] w = scale w c := by
  rw [addMultiple]; rfl

theorem val_addMultiple (c : ℚ) (v w : SVec ι) (i : ι) :
    val (addMultiple c v w) i = val v i + c * val w i := by
  fun_induction addMultiple c v w with
  | case1 w =>
    have := val_scale w c i
    rw [scale] at this
    rw [this]; simp [mul_comm]
  | case2 j x v ih => rw [val_cons, val_cons, ih]; ring
  | case3 j x v k y w h ih => rw [val_cons, ih, val_cons (k, y)]; split <;> ring
  | case4 x v j y w h2 h1 ih =>
    rw [val_cons, val_cons, val_cons, ih]; split <;> ring
  | case5 x v j y w h2 h1 ih =>
    rw [val_cons, val_cons, ih]
    have : x + y * c = 0 := by simpa using h2
    dsimp only
    split
    · linear_combination -this
    · ring
  | case6 j x v k y w h1 h2 ih => rw [val_cons, val_cons, ih]; ring

theorem mem_addMultiple {c : ℚ} {v w : SVec ι} {p : ι × ℚ} (h : p ∈ addMultiple c v w) :
    (∃ q ∈ v, q.1 = p.1) ∨ ∃ q ∈ w, q.1 = p.1 := by
  fun_induction addMultiple c v w with
  | case1 w =>
    obtain ⟨q, hq, rfl⟩ := List.mem_map.1 h
    exact Or.inr ⟨q, hq, rfl⟩
  | case2 j x v ih =>
    rcases List.mem_cons.1 h with rfl | h
    · exact Or.inl ⟨_, List.mem_cons_self, rfl⟩
    · rcases ih h with ⟨q, hq, e⟩ | ⟨q, hq, e⟩
      · exact Or.inl ⟨q, List.mem_cons_of_mem _ hq, e⟩
      · simp at hq
  | case3 j x v k y w hlt ih =>
    rcases List.mem_cons.1 h with rfl | h
    · exact Or.inr ⟨_, List.mem_cons_self, rfl⟩
    · rcases ih h with ⟨q, hq, e⟩ | ⟨q, hq, e⟩
      · exact Or.inl ⟨q, hq, e⟩
      · exact Or.inr ⟨q, List.mem_cons_of_mem _ hq, e⟩
  | case4 x v j y w h2 h1 ih =>
    rcases List.mem_cons.1 h with rfl | h
    · exact Or.inl ⟨_, List.mem_cons_self, rfl⟩
    · rcases ih h with ⟨q, hq, e⟩ | ⟨q, hq, e⟩
      · exact Or.inl ⟨q, List.mem_cons_of_mem _ hq, e⟩
      · exact Or.inr ⟨q, List.mem_cons_of_mem _ hq, e⟩
  | case5 x v j y w h2 h1 ih =>
    rcases ih h with ⟨q, hq, e⟩ | ⟨q, hq, e⟩
    · exact Or.inl ⟨q, List.mem_cons_of_mem _ hq, e⟩
    · exact Or.inr ⟨q, List.mem_cons_of_mem _ hq, e⟩
  | case6 j x v k y w h1 h2 ih =>
    rcases List.mem_cons.1 h with rfl | h
    · exact Or.inl ⟨_, List.mem_cons_self, rfl⟩
    · rcases ih h with ⟨q, hq, e⟩ | ⟨q, hq, e⟩
      · exact Or.inl ⟨q, List.mem_cons_of_mem _ hq, e⟩
      · exact Or.inr ⟨q, hq, e⟩

theorem wf_addMultiple {c : ℚ} (hc : c ≠ 0) {v w : SVec ι} (hv : WF v) (hw : WF w) :
    WF (addMultiple c v w) := by
  fun_induction addMultiple c v w with
  | case1 w => exact wf_scale hw hc
  | case2 j x v ih => rw [addMultiple_nil_right]; exact hv
  | case3 j x v k y w hlt ih =>
    have hw' := wf_cons.1 hw
    have hv' := wf_cons.1 hv
    refine wf_cons.2 ⟨fun p hp => ?_, mul_ne_zero hw'.2.1 hc, ih hv hw'.2.2⟩
    rcases mem_addMultiple hp with ⟨q, hq, e⟩ | ⟨q, hq, e⟩
    · rw [← e]
      rcases List.mem_cons.1 hq with rfl | hq
      · exact hlt
      · exact hlt.trans (hv'.1 q hq)
    · rw [← e]; exact hw'.1 q hq
  | case4 x v j y w h2 h1 ih =>
    have hw' := wf_cons.1 hw
    have hv' := wf_cons.1 hv
    refine wf_cons.2 ⟨fun p hp => ?_, h2, ih hv'.2.2 hw'.2.2⟩
    rcases mem_addMultiple hp with ⟨q, hq, e⟩ | ⟨q, hq, e⟩
    · rw [← e]; exact hv'.1 q hq
    · rw [← e]; exact hw'.1 q hq
  | case5 x v j y w h2 h1 ih =>
    exact ih (wf_cons.1 hv).2.2 (wf_cons.1 hw).2.2
  | case6 j x v k y w h1 h2 ih =>
    have hw' := wf_cons.1 hw
    have hv' := wf_cons.1 hv
    have hjk : j < k := lt_of_le_of_ne (not_lt.1 h1) h2
    refine wf_cons.2 ⟨fun p hp => ?_, hv'.2.1, ih hv'.2.2 hw⟩
    rcases mem_addMultiple hp with ⟨q, hq, e⟩ | ⟨q, hq, e⟩
    · rw [← e]; exact hv'.1 q hq
    · rw [← e]
      rcases List.mem_cons.1 hq with rfl | hq
      · exact hjk
      · exact hjk.trans (hw'.1 q hq)

theorem wf_standardBasis (i : ι) : WF (standardBasis i) :=
  wf_cons.2 ⟨by simp, by simp, WF.nil⟩

theorem val_standardBasis (i j : ι) : val (standardBasis i) j = if j = i then 1 else 0 := by
  simp [standardBasis, val_cons, eq_comm]

/-- Extensionality: valid sparse vectors with the same meaning are the same tuple list. -/
theorem ext_of_wf {v w : SVec ι} (hv : WF v) (hw : WF w) (h : ∀ i, val v i = val w i) : v = w := by
  induction v generalizing w with
  | nil =>
    cases w with
    | nil => rfl
    | cons q w =>
      have h1 := val_of_mem hw (List.mem_cons_self (a := q) (l := w))
      have h2 := hw.nonzero q (by simp)
      rw [← h q.1] at h1
      exact absurd h1.symm h2
  | cons p v ih =>
    cases w with
    | nil =>
      have h1 := val_of_mem hv (List.mem_cons_self (a := p) (l := v))
      have h2 := hv.nonzero p (by simp)
      rw [h p.1] at h1
      exact absurd h1.symm h2
    | cons q w =>
      have hv' := wf_cons.1 hv
      have hw' := wf_cons.1 hw
      have hpq : p.1 = q.1 := by
        rcases lt_trichotomy p.1 q.1 with hl | he | hg
        · exfalso
          have h1 := val_of_mem hv (List.mem_cons_self (a := p) (l := v))
          rw [h p.1] at h1
          have : val (q :: w) p.1 = 0 := by
            apply val_eq_zero_of_lt
            intro r hr
            rcases List.mem_cons.1 hr with rfl | hr
            · exact hl
            · exact hl.trans (hw'.1 r hr)
          exact hv'.2.1 (h1.symm.trans this)
        · exact he
        · exfalso
          have h1 := val_of_mem hw (List.mem_cons_self (a := q) (l := w))
          rw [← h q.1] at h1
          have : val (p :: v) q.1 = 0 := by
            apply val_eq_zero_of_lt
            intro r hr
            rcases List.mem_cons.1 hr with rfl | hr
            · exact hg
            · exact hg.trans (hv'.1 r hr)
          exact hw'.2.1 (h1.symm.trans this)
      have hv2 : p.2 = q.2 := by
        have h1 := val_of_mem hv (List.mem_cons_self (a := p) (l := v))
        have h2 := val_of_mem hw (List.mem_cons_self (a := q) (l := w))
        rw [← h1, ← h2, h, hpq]
      have hpq' : p = q := Prod.ext hpq hv2
      subst hpq'
      congr 1
      apply ih hv'.2.2 hw'.2.2
      intro i
      have := h i
      rw [val_cons, val_cons] at this
      linarith

section Fin

variable {m : ℕ}

theorem sum_map_eq (v : Sparse m) (f : Fin m → ℚ) :
    (v.map fun p => f p.1 * p.2).sum = ∑ i, f i * val v i := by
  induction v with
  | nil => simp
  | cons p v ih =>
    simp only [List.map_cons, List.sum_cons, ih, val_cons, mul_add, Finset.sum_add_distrib]
    congr 1
    rw [Finset.sum_eq_single p.1] <;> simp +contextual [eq_comm]

open Matrix

theorem innerProductDense_eq (v : Sparse m) (d : Fin m → ℚ) :
    innerProductDense v d = d ⬝ᵥ val v := by
  rw [innerProductDense, sum_map_eq]; rfl

theorem innerProduct_eq {v : Sparse m} (hv : WF v) (w : Sparse m) :
    innerProduct v w = val v ⬝ᵥ val w := by
  have : innerProduct v w = (w.map fun p => val v p.1 * p.2).sum := by
    unfold innerProduct
    congr 1
    apply List.map_congr_left
    intro p _
    rw [get?_eq hv]
    split
    · rename_i h; split at h
      · simp at h
      · simp_all
    · rename_i h; split at h
      · simp_all
      · simp at h
  rw [this, sum_map_eq]; rfl

theorem squaredNorm_eq {v : Sparse m} (hv : WF v) : squaredNorm v = val v ⬝ᵥ val v := by
  have : squaredNorm v = (v.map fun p => val v p.1 * p.2).sum := by
    unfold squaredNorm
    congr 1
    apply List.map_congr_left
    intro p hp
    rw [val_of_mem hv hp]
  rw [this, sum_map_eq]; rfl

theorem wf_ofDense (d : Fin m → ℚ) : WF (ofDense d) := by
  refine ⟨?_, ?_⟩
  · rw [ofDense, List.pairwise_map]
    exact (List.pairwise_lt_finRange m).filter _
  · intro p hp
    simp only [ofDense, List.mem_map, List.mem_filter] at hp
    obtain ⟨i, hi, rfl⟩ := hp
    simpa using hi.2

theorem val_ofDense (d : Fin m → ℚ) (i : Fin m) : val (ofDense d) i = d i := by
  by_cases h : d i = 0
  · rw [h]
    apply val_eq_zero_of_notMem
    intro p hp
    simp only [ofDense, List.mem_map, List.mem_filter] at hp
    obtain ⟨j, hj, rfl⟩ := hp
    rintro rfl
    simp [h] at hj
  · have : (i, d i) ∈ ofDense d := by
      simp only [ofDense, List.mem_map, List.mem_filter]
      exact ⟨i, by simp [h], rfl⟩
    exact val_of_mem (wf_ofDense d) this

theorem val_standardBasis_eq (i : Fin m) : val (standardBasis i) = Pi.single i 1 := by
  ext j; rw [val_standardBasis, Pi.single_apply]

end Fin

end Relp.SVec
