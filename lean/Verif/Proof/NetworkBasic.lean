import Verif.Proof.NetworkProblems
import Mathlib.LinearAlgebra.FiniteDimensional.Lemmas
import Mathlib.Combinatorics.Enumerative.DoubleCounting
import Mathlib.Data.Set.Finite.List

/-!
# Basic solutions of network problems
-/

namespace Relp.Network

open Spec

/-! ### Walks without repeated vertices -/

section

variable {E : List Arc}

/-- The vertices of a walk that begins in `a`. -/
def vertices (a : ℕ) (p : List (Fin E.length)) : List ℕ := a :: p.map fun k => E[k].target

/-- A walk can be begun later. -/
theorem walk_from {a b : ℕ} {p : List (Fin E.length)} (h : Walk E a b p) {v : ℕ} (hv : v ∈ vertices a p) :
    ∃ q, Walk E v b q ∧ (∀ k ∈ q, k ∈ p) ∧ q.length ≤ p.length := by
  induction h with
  | nil w =>
    have : v = w := by simpa [vertices] using hv
    subst this
    exact ⟨[], .nil v, by simp, le_rfl⟩
  | @cons k w p rest ih =>
    rcases List.mem_cons.1 hv with rfl | hv
    · exact ⟨k :: p, .cons k rest, fun _ h => h, le_rfl⟩
    · obtain ⟨q, h1, h2, h3⟩ := ih (by simpa [vertices] using hv)
      exact ⟨q, h1, fun l hl => List.mem_cons_of_mem _ (h2 l hl), by simp; omega⟩

/-- A walk that visits a vertex twice can be shortened. -/
theorem walk_shorten {a b : ℕ} {p : List (Fin E.length)} (h : Walk E a b p) (hn : ¬(vertices a p).Nodup) :
    ∃ q, Walk E a b q ∧ (∀ k ∈ q, k ∈ p) ∧ q.length < p.length := by
  induction h with
  | nil w => exact absurd (by simp [vertices]) hn
  | @cons k w p rest ih =>
    by_cases h1 : (vertices E[k].target p).Nodup
    · have h2 : E[k].source ∈ vertices E[k].target p := by
        by_contra h2
        exact hn (List.nodup_cons.2 ⟨by simpa [vertices] using h2, by simpa [vertices] using h1⟩)
      obtain ⟨q, h3, h4, h5⟩ := walk_from rest h2
      exact ⟨q, h3, fun l hl => List.mem_cons_of_mem _ (h4 l hl), by simp; omega⟩
    · obtain ⟨q, h3, h4, h5⟩ := ih h1
      refine ⟨k :: q, .cons k h3, fun l hl => ?_, by simpa using h5⟩
      rcases List.mem_cons.1 hl with rfl | hl
      · exact List.mem_cons_self
      · exact List.mem_cons_of_mem _ (h4 l hl)

theorem walk_nodup_arcs {a : ℕ} {p : List (Fin E.length)} (h : (vertices a p).Nodup) : p.Nodup :=
  (List.nodup_cons.1 h).2.of_map _

/-- If all walks in the arcs that a flow uses are the flow, the flow is a path. -/
theorem path_of_unique {n s t : ℕ} (hst : s ≠ t) (ht : t < n) (hE : ∀ a ∈ E, a.source < n ∧ a.target < n)
    {f : Fin E.length → ℚ} (hf : UnitFlow E n s t f)
    (hu : ∀ p, Walk E s t p → (∀ k ∈ p, 0 < f k) → walkFlow p = f) :
    ∃ p, Walk E s t p ∧ (vertices s p).Nodup ∧ ∀ k, f k = if k ∈ p then 1 else 0 := by
  obtain ⟨p, h1, h2⟩ := exists_walk hst ht hE hf
  have h3 := hu p h1 h2
  have h4 : (vertices s p).Nodup := by
    by_contra hn
    obtain ⟨q, h5, h6, h7⟩ := walk_shorten h1 hn
    have h8 := hu q h5 fun k hk => h2 k (h6 k hk)
    have : p.Perm q := by
      rw [List.perm_iff_count]
      intro k
      have := congrFun (h3.trans h8.symm) k
      unfold walkFlow at this
      exact_mod_cast this
    exact absurd this.length_eq (by omega)
  refine ⟨p, h1, h4, fun k => ?_⟩
  rw [← h3]
  unfold walkFlow
  split
  · next h => rw [List.count_eq_one_of_mem (walk_nodup_arcs h4) h]; norm_num
  · next h => rw [List.count_eq_zero_of_not_mem h]; norm_num

/-! ### Integral flows -/

/-- Small multiples of a direction. -/
theorem exists_small {ι : Type*} [Fintype ι] (d δ : ι → ℚ) (hδ : ∀ k, 0 < δ k) :
    ∃ ε > 0, ∀ k, ε * |d k| ≤ δ k := by
  have h0 : ∀ k, 0 ≤ |d k| / δ k := fun k => div_nonneg (abs_nonneg _) (hδ k).le
  have hs : 0 < 1 + ∑ k, |d k| / δ k := by
    have := Finset.sum_nonneg fun k (_ : k ∈ Finset.univ) => h0 k
    linarith
  refine ⟨1 / (1 + ∑ k, |d k| / δ k), div_pos one_pos hs, fun k => ?_⟩
  have h1 := Finset.single_le_sum (fun k _ => h0 k) (Finset.mem_univ k)
  rw [div_mul_eq_mul_div, one_mul, div_le_iff₀ hs]
  have h2 : |d k| / δ k ≤ 1 + ∑ k, |d k| / δ k := by linarith
  rw [div_le_iff₀ (hδ k)] at h2
  linarith

variable (hloop : ∀ k : Fin E.length, E[k].source ≠ E[k].target)

/-- The columns of arcs in `F` are independent, in the rows `V`. -/
def Independent (V : Finset ℕ) (F : Finset (Fin E.length)) : Prop :=
  ∀ d : Fin E.length → ℚ, (∀ k ∉ F, d k = 0) →
    (∀ v ∈ V, ∑ k, entry E[k].source E[k].target v * d k = 0) → d = 0

/-- Fewer equations than unknowns. -/
theorem exists_kernel (R : Finset ℕ) (F : Finset (Fin E.length)) (h : R.card < F.card) :
    ∃ d : Fin E.length → ℚ, d ≠ 0 ∧ (∀ k ∉ F, d k = 0) ∧
      ∀ v ∈ R, ∑ k, entry E[k].source E[k].target v * d k = 0 := by
  let M : Matrix R F ℚ := fun v k => entry E[k.1].source E[k.1].target v.1
  have hk : LinearMap.ker M.mulVecLin ≠ ⊥ :=
    LinearMap.ker_ne_bot_of_finrank_lt (by simpa using h)
  obtain ⟨c, hc, h0⟩ := (Submodule.ne_bot_iff _).1 hk
  refine ⟨fun k => if h : k ∈ F then c ⟨k, h⟩ else 0, ?_, fun k hk => dif_neg hk, fun v hv => ?_⟩
  · intro hd
    refine h0 (funext fun k => ?_)
    have := congrFun hd k.1
    simpa using this
  · have h1 := congrFun (LinearMap.mem_ker.1 hc) ⟨v, hv⟩
    have h2 : ∑ k : F, entry E[k.1].source E[k.1].target v * c k = 0 := h1
    rw [← Finset.sum_subset (Finset.subset_univ F), ← Finset.sum_coe_sort]
    · rw [← h2]
      exact Finset.sum_congr rfl fun k _ => by simp
    · intro k _ hk
      dsimp only
      rw [dif_neg hk, mul_zero]

theorem entry_ne {k : Fin E.length} {v : ℕ} (h : entry E[k].source E[k].target v ≠ 0) :
    v = E[k].source ∨ v = E[k].target := by
  unfold entry at h
  by_contra hc
  push Not at hc
  exact h (by rw [if_neg hc.2.symm, if_neg hc.1.symm, sub_zero])

include hloop

theorem entry_source (k : Fin E.length) : entry E[k].source E[k].target E[k].source = -1 := by
  unfold entry
  rw [if_neg (hloop k).symm, if_pos rfl, zero_sub]

theorem entry_target (k : Fin E.length) : entry E[k].source E[k].target E[k].target = 1 := by
  unfold entry
  rw [if_neg (hloop k), if_pos rfl, sub_zero]

/-- Among independent arcs, some vertex has one arc only. -/
theorem exists_leaf {V : Finset ℕ} {F : Finset (Fin E.length)} (hF : F.Nonempty) (hi : Independent V F) :
    ∃ v ∈ V, ∃ k ∈ F, entry E[k].source E[k].target v ≠ 0 ∧
      ∀ l ∈ F, entry E[l].source E[l].target v ≠ 0 → l = k := by
  classical
  by_contra hc
  push Not at hc
  let R := V.filter fun v => ∃ k ∈ F, entry E[k].source E[k].target v ≠ 0
  have hR : ∀ d : Fin E.length → ℚ, (∀ k ∉ F, d k = 0) →
      (∀ v ∈ R, ∑ k, entry E[k].source E[k].target v * d k = 0) → d = 0 := by
    intro d h1 h2
    refine hi d h1 fun v hv => ?_
    by_cases hvR : v ∈ R
    · exact h2 v hvR
    · refine Finset.sum_eq_zero fun k _ => ?_
      by_cases hk : k ∈ F
      · have : entry E[k].source E[k].target v = 0 := by
          by_contra h0
          exact hvR (Finset.mem_filter.2 ⟨hv, k, hk, h0⟩)
        rw [this, zero_mul]
      · rw [h1 k hk, mul_zero]
  have hle : F.card ≤ R.card := by
    by_contra hlt
    obtain ⟨d, h0, h1, h2⟩ := exists_kernel R F (by omega)
    exact h0 (hR d h1 h2)
  let r : ℕ → Fin E.length → Prop := fun v k => entry E[k].source E[k].target v ≠ 0
  have habove : ∀ v ∈ R, 2 ≤ (Finset.bipartiteAbove r F v).card := by
    intro v hv
    obtain ⟨hvV, k, hk, hkv⟩ := Finset.mem_filter.1 hv
    obtain ⟨l, hl, hlv, hne⟩ := hc v hvV k hk hkv
    exact Finset.one_lt_card.2 ⟨k, (Finset.mem_bipartiteAbove r).2 ⟨hk, hkv⟩, l,
      (Finset.mem_bipartiteAbove r).2 ⟨hl, hlv⟩, hne.symm⟩
  have hsub : ∀ k, Finset.bipartiteBelow r R k ⊆ {E[k].source, E[k].target} := by
    intro k v hv
    have := entry_ne ((Finset.mem_bipartiteBelow r).1 hv).2
    simpa using this
  have hbelow : ∀ k ∈ F, (Finset.bipartiteBelow r R k).card ≤ 2 := fun k _ =>
    (Finset.card_le_card (hsub k)).trans Finset.card_le_two
  have hcount : ∑ v ∈ R, (Finset.bipartiteAbove r F v).card =
      ∑ k ∈ F, (Finset.bipartiteBelow r R k).card := Finset.sum_card_bipartiteAbove_eq_sum_card_bipartiteBelow r
  have h1 : R.card * 2 ≤ ∑ v ∈ R, (Finset.bipartiteAbove r F v).card := by
    rw [← smul_eq_mul]; exact Finset.card_nsmul_le_sum _ _ _ habove
  have h2 : ∑ k ∈ F, (Finset.bipartiteBelow r R k).card ≤ F.card * 2 := by
    rw [← smul_eq_mul]; exact Finset.sum_le_card_nsmul _ _ _ hbelow
  have hall : ∀ k ∈ F, (Finset.bipartiteBelow r R k).card = 2 := by
    have heq : ∑ k ∈ F, (Finset.bipartiteBelow r R k).card = ∑ k ∈ F, 2 := by
      rw [Finset.sum_const, smul_eq_mul]; omega
    exact (Finset.sum_eq_sum_iff_of_le hbelow).1 heq
  have hboth : ∀ k ∈ F, E[k].source ∈ R ∧ E[k].target ∈ R := by
    intro k hk
    have : Finset.bipartiteBelow r R k = {E[k].source, E[k].target} :=
      Finset.eq_of_subset_of_card_le (hsub k) (by
        rw [hall k hk]; exact Finset.card_le_two)
    have hm : ∀ v ∈ ({E[k].source, E[k].target} : Finset ℕ), v ∈ R := by
      intro v hv
      rw [← this] at hv
      exact ((Finset.mem_bipartiteBelow r).1 hv).1
    exact ⟨hm _ (by simp), hm _ (by simp)⟩
  obtain ⟨k0, hk0⟩ := hF
  have hv0 := (hboth k0 hk0).1
  obtain ⟨d, hd0, hd1, hd2⟩ := exists_kernel (R.erase E[k0].source) F (by
    rw [Finset.card_erase_of_mem hv0]
    have := Finset.card_pos.2 ⟨_, hv0⟩
    omega)
  refine hd0 (hR d hd1 fun v hv => ?_)
  by_cases hvv : v = E[k0].source
  · have hz : ∑ w ∈ R, ∑ k, entry E[k].source E[k].target w * d k = 0 := by
      rw [Finset.sum_comm]
      refine Finset.sum_eq_zero fun k _ => ?_
      by_cases hk : k ∈ F
      · rw [← Finset.sum_mul]
        have : ∑ w ∈ R, entry E[k].source E[k].target w = 0 := by
          unfold entry
          rw [Finset.sum_sub_distrib, Finset.sum_ite_eq, Finset.sum_ite_eq, if_pos (hboth k hk).1,
            if_pos (hboth k hk).2, sub_self]
        rw [this, zero_mul]
      · exact Finset.sum_eq_zero fun w _ => by rw [hd1 k hk, mul_zero]
    rw [← Finset.add_sum_erase _ _ hv, hvv, Finset.sum_eq_zero (fun w hw => hd2 w hw), add_zero] at hz
    rw [hvv]
    exact hz
  · exact hd2 v (Finset.mem_erase.2 ⟨hvv, hv⟩)

/-- What is conserved up to integers on independent arcs, is integral on them. -/
theorem integral_of_independent {V : Finset ℕ} (N : ℕ) : ∀ {F : Finset (Fin E.length)}, F.card = N →
    Independent V F → ∀ x : Fin E.length → ℚ,
    (∀ v ∈ V, ∃ z : ℤ, ∑ k ∈ F, entry E[k].source E[k].target v * x k = z) → ∀ k ∈ F, ∃ z : ℤ, x k = z := by
  classical
  induction N with
  | zero =>
    intro F hF _ x _ k hk
    rw [Finset.card_eq_zero.1 hF] at hk
    simp at hk
  | succ N ih =>
    intro F hF hi x hx
    have hne : F.Nonempty := Finset.card_pos.1 (by omega)
    obtain ⟨v, hv, k, hk, hkv, hu⟩ := exists_leaf hloop hne hi
    have hxk : ∃ z : ℤ, x k = z := by
      obtain ⟨z, hz⟩ := hx v hv
      rw [Finset.sum_eq_single_of_mem k hk] at hz
      · rcases entry_ne hkv with h | h
        · rw [h, entry_source hloop] at hz
          exact ⟨-z, by push_cast; linarith⟩
        · rw [h, entry_target hloop] at hz
          exact ⟨z, by linarith⟩
      · intro l hl hlk
        have : entry E[l].source E[l].target v = 0 := by
          by_contra h0
          exact hlk (hu l hl h0)
        rw [this, zero_mul]
    have hent : ∀ w, ∃ z : ℤ, entry E[k].source E[k].target w = z := by
      intro w
      refine ⟨(if E[k].target = w then 1 else 0) - (if E[k].source = w then 1 else 0), ?_⟩
      unfold entry
      push_cast
      rfl
    intro l hl
    by_cases hlk : l = k
    · exact hlk ▸ hxk
    · refine ih (F := F.erase k) (by rw [Finset.card_erase_of_mem hk]; omega) ?_ x ?_ l
        (Finset.mem_erase.2 ⟨hlk, hl⟩)
      · exact fun d h1 h2 => hi d (fun j hj => h1 j fun h => hj (Finset.mem_of_mem_erase h)) h2
      · intro w hw
        obtain ⟨z, hz⟩ := hx w hw
        obtain ⟨a, ha⟩ := hxk
        obtain ⟨b, hb⟩ := hent w
        refine ⟨z - b * a, ?_⟩
        rw [← Finset.add_sum_erase _ _ hk, ha, hb] at hz
        push_cast
        linarith

end

/-! ### Cuts -/

section

variable {E : List Arc} {n s t : ℕ} (hE : ∀ a ∈ E, a.source < n ∧ a.target < n) {f : Fin E.length → ℚ}
  (hf : CapacityFlow E n s t f)

include hE hf

theorem conserved_all {v : ℕ} (hs : v ≠ s) (ht : v ≠ t) : outflow E f v - inflow E f v = 0 := by
  by_cases hv : v < n
  · rw [hf.conserved v hv hs ht, sub_self]
  · have h1 : outflow E f v = 0 := Finset.sum_eq_zero fun k _ => if_neg fun h => by
      have := (hE _ (List.getElem_mem k.2)).1
      have h' : E[k.val].source = v := h
      omega
    have h2 : inflow E f v = 0 := Finset.sum_eq_zero fun k _ => if_neg fun h => by
      have := (hE _ (List.getElem_mem k.2)).2
      have h' : E[k.val].target = v := h
      omega
    rw [h1, h2, sub_self]

/-- The value of a flow is what leaves a cut minus what enters it. -/
theorem value_eq_cut {S : Finset ℕ} (hs : s ∈ S) (ht : t ∉ S) :
    outflow E f s - inflow E f s =
      ∑ k : Fin E.length, ((if E[k].source ∈ S then f k else 0) - if E[k].target ∈ S then f k else 0) := by
  have h1 : ∑ v ∈ S, (outflow E f v - inflow E f v) = outflow E f s - inflow E f s :=
    Finset.sum_eq_single_of_mem s hs fun v hv hvs =>
      conserved_all hE hf hvs fun h => ht (h ▸ hv)
  rw [← h1, Finset.sum_sub_distrib, Finset.sum_sub_distrib]
  unfold outflow inflow
  rw [Finset.sum_comm, Finset.sum_comm (s := S)]
  simp only [Finset.sum_ite_eq]

/-- No flow is greater than the capacity of a cut. -/
theorem value_le_cut (hcap : ∀ e ∈ E, 0 ≤ e.value) {S : Finset ℕ} (hs : s ∈ S) (ht : t ∉ S) :
    outflow E f s - inflow E f s ≤ cutCapacity E S := by
  rw [value_eq_cut hE hf hs ht]
  refine Finset.sum_le_sum fun k _ => ?_
  have h1 := hf.nonneg k
  have h2 := hf.capacity k
  have h3 := hcap _ (List.getElem_mem k.2)
  by_cases a : E[k].source ∈ S <;> by_cases b : E[k].target ∈ S
  · rw [if_pos a, if_pos b, if_neg (fun h => h.2 b), sub_self]
  · rw [if_pos a, if_neg b, if_pos ⟨a, b⟩, sub_zero]
    exact h2
  · rw [if_neg a, if_pos b, if_neg (fun h => a h.1)]
    linarith
  · rw [if_neg a, if_neg b, if_neg (fun h => a h.1), sub_self]

end

section

variable {E : List Arc}

/-- One more unit can flow from `a` to `b`, along an arc or against it. -/
def Residual (f : Fin E.length → ℚ) (a b : ℕ) : Prop :=
  ∃ k : Fin E.length, (E[k].source = a ∧ E[k].target = b ∧ f k < E[k].value) ∨
    (E[k].source = b ∧ E[k].target = a ∧ 0 < f k)

theorem residual_direction {f : Fin E.length → ℚ} {a b : ℕ} (h : Relation.ReflTransGen (Residual f) a b) :
    ∃ d : Fin E.length → ℚ, (∀ k, 0 < d k → f k < E[k].value) ∧ (∀ k, d k < 0 → 0 < f k) ∧
      ∀ v, ∑ k, entry E[k].source E[k].target v * d k = (if b = v then 1 else 0) - if a = v then 1 else 0 := by
  induction h with
  | refl => exact ⟨fun _ => 0, by simp, by simp, by simp⟩
  | @tail b c _ hr ih =>
    obtain ⟨d, h1, h2, h3⟩ := ih
    obtain ⟨k, hk | hk⟩ := hr
    · refine ⟨fun l => d l + if k = l then 1 else 0, fun l hl => ?_, fun l hl => ?_, fun v => ?_⟩
      · dsimp only at hl
        split at hl
        · next h => exact h ▸ hk.2.2
        · exact h1 l (by linarith)
      · dsimp only at hl
        split at hl
        · exact h2 l (by linarith)
        · exact h2 l (by linarith)
      · simp only [mul_add, Finset.sum_add_distrib]
        rw [h3, excess_single, hk.1, hk.2.1]
        unfold entry
        ring
    · refine ⟨fun l => d l - if k = l then 1 else 0, fun l hl => ?_, fun l hl => ?_, fun v => ?_⟩
      · dsimp only at hl
        split at hl
        · exact h1 l (by linarith)
        · exact h1 l (by linarith)
      · dsimp only at hl
        split at hl
        · next h => exact h ▸ hk.2.2
        · exact h2 l (by linarith)
      · simp only [mul_sub, Finset.sum_sub_distrib]
        rw [h3, excess_single, hk.1, hk.2.1]
        unfold entry
        ring

theorem excess_add (f d : Fin E.length → ℚ) (ε : ℚ) (v : ℕ) :
    inflow E (fun k => f k + ε * d k) v - outflow E (fun k => f k + ε * d k) v =
      inflow E f v - outflow E f v + ε * ∑ k, entry E[k].source E[k].target v * d k := by
  rw [← excess_eq, ← excess_eq, Finset.mul_sum, ← Finset.sum_add_distrib]
  exact Finset.sum_congr rfl fun k _ => by ring

/-- A flow of the greatest value leaves no capacity of some cut, and does not return into it. -/
theorem exists_cut {n s t : ℕ} (hE : ∀ a ∈ E, a.source < n ∧ a.target < n) (hs : s < n) (ht : t < n)
    (hst : s ≠ t)
    {f : Fin E.length → ℚ} (hf : CapacityFlow E n s t f)
    (hmax : ∀ g, CapacityFlow E n s t g →
      outflow E g s - inflow E g s ≤ outflow E f s - inflow E f s) :
    ∃ S : Finset ℕ, s ∈ S ∧ t ∉ S ∧ outflow E f s - inflow E f s = cutCapacity E S := by
  classical
  have hnot : ¬Relation.ReflTransGen (Residual f) s t := by
    intro h
    obtain ⟨d, h1, h2, h3⟩ := residual_direction h
    obtain ⟨ε, hε, h4⟩ := exists_small d
      (fun k => if 0 < d k then E[k].value - f k else if d k < 0 then f k else 1) (fun k => by
        split
        · next h => exact sub_pos.2 (h1 k h)
        · split
          · next h => exact h2 k h
          · exact one_pos)
    have h5 : CapacityFlow E n s t fun k => f k + ε * d k := by
      refine ⟨fun k => ?_, fun k => ?_, fun v hv hvs hvt => ?_⟩
      · have h0 := hf.nonneg k
        by_cases hk : d k < 0
        · have := h4 k
          rw [if_neg (not_lt.2 hk.le), if_pos hk, abs_of_neg hk] at this
          linarith
        · have := mul_nonneg hε.le (not_lt.1 hk)
          linarith
      · have h0 := hf.capacity k
        by_cases hk : 0 < d k
        · have := h4 k
          rw [if_pos hk, abs_of_pos hk] at this
          linarith
        · have := mul_nonpos_of_nonneg_of_nonpos hε.le (not_lt.1 hk)
          linarith
      · have := excess_add f d ε v
        rw [h3, if_neg hvt.symm, if_neg hvs.symm, hf.conserved v hv hvs hvt] at this
        linarith
    have h6 := hmax _ h5
    have h7 := excess_add f d ε s
    rw [h3, if_neg hst.symm, if_pos rfl] at h7
    linarith
  let S := (Finset.range n).filter fun v => Relation.ReflTransGen (Residual f) s v
  have hsS : s ∈ S := Finset.mem_filter.2 ⟨Finset.mem_range.2 hs, .refl⟩
  have htS : t ∉ S := fun h => hnot (Finset.mem_filter.1 h).2
  refine ⟨S, hsS, htS, ?_⟩
  rw [value_eq_cut hE hf hsS htS]
  refine Finset.sum_congr rfl fun k _ => ?_
  have hk := hE _ (List.getElem_mem k.2)
  have h0 := hf.nonneg k
  have hc := hf.capacity k
  by_cases a : E[k].source ∈ S <;> by_cases b : E[k].target ∈ S
  · rw [if_pos a, if_pos b, if_neg (fun h => h.2 b), sub_self]
  · rw [if_pos a, if_neg b, if_pos ⟨a, b⟩, sub_zero]
    by_contra hne
    exact b (Finset.mem_filter.2 ⟨Finset.mem_range.2 hk.2,
      (Finset.mem_filter.1 a).2.tail ⟨k, Or.inl ⟨rfl, rfl, lt_of_le_of_ne hc hne⟩⟩⟩)
  · rw [if_neg a, if_pos b, if_neg (fun h => a h.1), zero_sub, neg_eq_zero]
    by_contra hne
    exact a (Finset.mem_filter.2 ⟨Finset.mem_range.2 hk.1,
      (Finset.mem_filter.1 b).2.tail ⟨k, Or.inr ⟨rfl, rfl, lt_of_le_of_ne h0 (Ne.symm hne)⟩⟩⟩)
  · rw [if_neg a, if_neg b, if_neg (fun h => a h.1), sub_self]

end

/-! ### Closed walks -/

section

variable {E : List Arc}

theorem walkLength_append (p q : List (Fin E.length)) :
    walkLength E (p ++ q) = walkLength E p + walkLength E q := by
  unfold walkLength
  rw [List.map_append, List.sum_append]

/-- A walk can be split where it visits a vertex. -/
theorem walk_split {a b : ℕ} {p : List (Fin E.length)} (h : Walk E a b p) {v : ℕ} (hv : v ∈ vertices a p) :
    ∃ p1 p2, p = p1 ++ p2 ∧ Walk E a v p1 ∧ Walk E v b p2 ∧ vertices v p2 <:+ vertices a p := by
  induction h with
  | nil w =>
    have : v = w := by simpa [vertices] using hv
    subst this
    exact ⟨[], [], rfl, .nil v, .nil v, List.suffix_rfl⟩
  | @cons k w p rest ih =>
    by_cases hvs : v = E[k].source
    · subst hvs
      exact ⟨[], k :: p, rfl, .nil _, .cons k rest, List.suffix_rfl⟩
    · have hv' : v ∈ vertices E[k].target p := by
        rcases List.mem_cons.1 hv with h | h
        · exact absurd h hvs
        · exact h
      obtain ⟨p1, p2, h1, h2, h3, h4⟩ := ih hv'
      exact ⟨k :: p1, p2, by rw [h1, List.cons_append], .cons k h2, h3, h4.trans (List.suffix_cons _ _)⟩

variable (hcyc : ∀ v p, Walk E v v p → 0 ≤ walkLength E p)

include hcyc

/-- Without closed walks of negative length, some walk without repeated vertices is not longer. -/
theorem walk_simple {a b : ℕ} {p : List (Fin E.length)} (h : Walk E a b p) :
    ∃ q, Walk E a b q ∧ (vertices a q).Nodup ∧ walkLength E q ≤ walkLength E p := by
  induction h with
  | nil w => exact ⟨[], .nil w, by simp [vertices], le_rfl⟩
  | @cons k w p rest ih =>
    obtain ⟨q, h1, h2, h3⟩ := ih
    have e : ∀ p, walkLength E (k :: p) = E[k].value + walkLength E p := fun p => by simp [walkLength]
    by_cases hs : E[k].source ∈ vertices E[k].target q
    · obtain ⟨p1, p2, h4, h5, h6, h7⟩ := walk_split h1 hs
      refine ⟨p2, h6, h2.sublist h7.sublist, ?_⟩
      have h8 := hcyc _ _ (Walk.cons k h5)
      rw [h4, walkLength_append] at h3
      rw [e] at h8 ⊢
      linarith
    · refine ⟨k :: q, .cons k h1, List.nodup_cons.2 ⟨hs, h2⟩, ?_⟩
      rw [e, e]
      linarith

/-- There are potentials, that differ by no more than the length along an arc. -/
theorem exists_potential : ∃ π : ℕ → ℚ, ∀ k : Fin E.length, π E[k].target ≤ π E[k].source + E[k].value := by
  classical
  have hmin : ∀ v, ∃ p : List (Fin E.length), (∃ a, Walk E a v p) ∧
      ∀ q a, Walk E a v q → walkLength E p ≤ walkLength E q := by
    intro v
    let W : Set (List (Fin E.length)) := {p | p.Nodup ∧ ∃ a, Walk E a v p}
    have hfin : W.Finite := (List.finite_length_le (Fin E.length) (Fintype.card (Fin E.length))).subset
      fun p hp => hp.1.length_le_card
    obtain ⟨p, hp, hle⟩ := Set.exists_min_image W (walkLength E) hfin ⟨[], List.nodup_nil, v, .nil v⟩
    refine ⟨p, hp.2, fun q a hq => ?_⟩
    obtain ⟨r, h1, h2, h3⟩ := walk_simple hcyc hq
    exact (hle r ⟨walk_nodup_arcs h2, a, h1⟩).trans h3
  choose p hp hle using hmin
  refine ⟨fun v => walkLength E (p v), fun k => ?_⟩
  obtain ⟨a, ha⟩ := hp E[k].source
  have h1 := hle E[k].target (p E[k].source ++ [k]) a (Walk.append ha (.cons k (.nil _)))
  rw [walkLength_append] at h1
  simpa [walkLength] using h1

/-- Without closed walks of negative length, the cost of flows of one unit is bounded. -/
theorem flowCost_bounded {n s t : ℕ} (hE : ∀ a ∈ E, a.source < n ∧ a.target < n) (ht : t < n) (hst : s ≠ t) :
    ∃ L, ∀ f, UnitFlow E n s t f → L ≤ flowCost E f := by
  obtain ⟨π, hπ⟩ := exists_potential hcyc
  refine ⟨π t - π s, fun f hf => ?_⟩
  have h1 : ∑ v ∈ Finset.range n, (π v - π s) * (inflow E f v - outflow E f v) = π t - π s := by
    rw [Finset.sum_eq_single_of_mem t (Finset.mem_range.2 ht), hf.arrives]
    · ring
    · intro v hv hvt
      by_cases hvs : v = s
      · rw [hvs, sub_self, zero_mul]
      · rw [hf.conserved v (Finset.mem_range.1 hv) hvs hvt, sub_self, mul_zero]
  have h2 : ∑ v ∈ Finset.range n, (π v - π s) * (inflow E f v - outflow E f v) =
      ∑ k : Fin E.length, (π E[k].target - π E[k].source) * f k := by
    simp only [mul_sub (_ - _), Finset.sum_sub_distrib]
    unfold inflow outflow
    simp only [Finset.mul_sum]
    rw [Finset.sum_comm, Finset.sum_comm (s := Finset.range n), ← Finset.sum_sub_distrib]
    refine Finset.sum_congr rfl fun k _ => ?_
    have hk : E[k].source < n ∧ E[k].target < n := hE _ (List.getElem_mem k.2)
    simp only [mul_ite, mul_zero]
    rw [Finset.sum_ite_eq, Finset.sum_ite_eq, if_pos (Finset.mem_range.2 hk.2),
      if_pos (Finset.mem_range.2 hk.1)]
    ring
  rw [← h1, h2]
  refine Finset.sum_le_sum fun k _ => mul_le_mul_of_nonneg_right ?_ (hf.nonneg k)
  have := hπ k
  linarith

end

/-! ### Points with the same support -/

/-- A basic solution is the only feasible point with entries where it has entries. -/
theorem feasible_unique {m n : ℕ} (P : LP m n) {x y : Fin n → ℚ} (hx : P.Feasible x) (hy : P.Feasible y)
    (hi : LinearIndependent ℚ fun j : {j // x j ≠ 0} => P.A.col j) (h0 : ∀ j, x j = 0 → y j = 0) : y = x := by
  classical
  have h1 : P.A.mulVec (y - x) = 0 := by rw [Matrix.mulVec_sub, hx.1, hy.1, sub_self]
  have h2 := Fintype.linearIndependent_iff.1 hi (fun j => (y - x) j) (by
    funext i
    have := congrFun h1 i
    have e : ∑ j, P.A i j * (y - x) j = 0 := this
    rw [← Fintype.sum_subtype_add_sum_subtype (fun j => x j ≠ 0)] at e
    have e2 : ∑ j : {j // ¬x j ≠ 0}, P.A i j * (y - x) j = 0 := by
      refine Finset.sum_eq_zero ?_
      rintro ⟨j, hj⟩ _
      have hj := not_not.1 hj
      simp [hj, h0 j hj]
    rw [e2, add_zero] at e
    simp only [Finset.sum_apply, Pi.smul_apply, smul_eq_mul, Pi.zero_apply]
    refine Eq.trans ?_ e
    exact Fintype.sum_congr _ _ fun (j : {j // x j ≠ 0}) => mul_comm ((y - x) j.1) (P.A i j.1))
  funext j
  by_cases hj : x j = 0
  · rw [hj, h0 j hj]
  · have := h2 ⟨j, hj⟩
    exact sub_eq_zero.1 this

end Relp.Network
