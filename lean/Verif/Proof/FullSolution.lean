import Verif.Proof.General

/-!
# Mapping a solution of the standardised problem back: helper lemmas
-/

namespace Relp

namespace GeneralForm

open MatrixData (extendFin extendFin_val extendFin_of_lt)

variable {G : GeneralForm}

theorem reshiftStep_spec {x : SparseVector} (hx : SVec.WF x.data) (v : Variable) (j : ℕ) :
    SVec.WF (reshiftStep x (v, j)).data ∧ ∀ k, SVec.val (reshiftStep x (v, j)).data k =
      if k = j then unshift v (SVec.val x.data k) else SVec.val x.data k := by
  have h1 : SVec.WF (x.shiftValue j (-v.shift)).data := SVec.wf_shiftValue hx j _
  have h2 : ∀ k, SVec.val (x.shiftValue j (-v.shift)).data k =
      SVec.val x.data k + if k = j then -v.shift else 0 := fun k => by
    have := SVec.val_shiftValue hx j (-v.shift) k
    rw [SparseVector.shiftValue, this]
    try split_ifs <;> simp
  unfold reshiftStep
  by_cases hf : v.flipped
  · simp only [hf, if_true]
    have hg := SVec.get?_eq h1 j
    by_cases h0 : SVec.val (x.shiftValue j (-v.shift)).data j = 0
    · have hn : (x.shiftValue j (-v.shift)).get j = none := by
        rw [SparseVector.get, hg]; simp [h0]
      simp only [hn]
      refine ⟨h1, fun k => ?_⟩
      by_cases hk : k = j
      · subst hk
        rw [h0, if_pos rfl]
        rw [h2, if_pos rfl] at h0
        simp only [unshift, hf, if_true]
        linarith
      · rw [h2, if_neg hk, if_neg hk, add_zero]
    · have hn : (x.shiftValue j (-v.shift)).get j =
          some (SVec.val (x.shiftValue j (-v.shift)).data j) := by
        rw [SparseVector.get, hg]; simp [h0]
      simp only [hn]
      refine ⟨SVec.wf_set h1 j (neg_ne_zero.2 h0), fun k => ?_⟩
      rw [SparseVector.set, SVec.val_set h1]
      by_cases hk : k = j
      · subst hk
        rw [if_pos rfl, if_pos rfl, h2, if_pos rfl]
        simp only [unshift, hf, if_true]
        ring
      · rw [if_neg hk, h2, if_neg hk, if_neg hk, add_zero]
  · simp only [hf]
    refine ⟨h1, fun k => ?_⟩
    simp only [Bool.false_eq_true, if_false]
    rw [h2]
    by_cases hk : k = j
    · simp [hk, unshift, hf]; ring
    · simp [hk]

theorem reshift_fold : ∀ (l : List Variable) (s : ℕ) (x : SparseVector), SVec.WF x.data →
    SVec.WF ((l.zipIdx s).foldl reshiftStep x).data ∧
    ∀ k, SVec.val ((l.zipIdx s).foldl reshiftStep x).data k =
      if s ≤ k then (match l[k - s]? with
        | some v => unshift v (SVec.val x.data k)
        | none => SVec.val x.data k) else SVec.val x.data k
  | [], s, x, hx => by simp [hx]
  | v :: l, s, x, hx => by
    obtain ⟨a1, a2⟩ := reshiftStep_spec hx v s
    obtain ⟨b1, b2⟩ := reshift_fold l (s + 1) _ a1
    rw [List.zipIdx_cons, List.foldl_cons]
    refine ⟨b1, fun k => ?_⟩
    rw [b2, a2]
    rcases lt_trichotomy k s with hk | hk | hk
    · rw [if_neg (by omega), if_neg (by omega), if_neg (by omega)]
    · subst hk
      simp
    · have e1 : s + 1 ≤ k := hk
      have e2 : ¬ k = s := by omega
      have e3 : s ≤ k := by omega
      rw [if_pos e1, if_neg e2, if_pos e3]
      rw [show k - s = (k - (s + 1)) + 1 by omega, List.getElem?_cons_succ]

theorem reshiftSolution_spec {x : SparseVector} (hx : SVec.WF x.data) :
    SVec.WF (G.reshiftSolution x).data ∧
    ∀ k, SVec.val (G.reshiftSolution x).data k = G.point (SVec.val x.data) k := by
  obtain ⟨h1, h2⟩ := reshift_fold G.vars 0 x hx
  refine ⟨h1, fun k => ?_⟩
  have := h2 k
  simp only [Nat.zero_le, if_true, Nat.sub_zero] at this
  exact this

/-! ### Values of all original variables -/

/-- A value of an active variable. -/
def activeValue (x : ℕ → ℚ) : OriginalVariable → Option ℚ
  | .active j => some (x j)
  | .activeFree p n => some (x p - x n)
  | .removed (.solved v) => some v
  | .removed (.functionOfOthers _ _) => none

theorem solutionValue_known {x : SparseVector} (hx : SVec.WF x.data) {o : ℕ} {name : String}
    {entry : OriginalVariable} {v : ℚ} (ho : G.original[o]? = some (name, entry))
    (hv : activeValue (SVec.val x.data) entry = some v) (fuel : ℕ) :
    G.solutionValue x (fuel + 1) o = some v := by
  have hg : ∀ j, x.get j = if SVec.val x.data j = 0 then none else some (SVec.val x.data j) :=
    fun j => SVec.get?_eq hx j
  rw [solutionValue, ho]
  cases entry with
  | active j =>
    simp only [activeValue, Option.some.injEq] at hv
    simp only [SparseVector.get, SVec.get?_getD hx, hv]
  | activeFree p n =>
    simp only [activeValue, Option.some.injEq] at hv
    simp only [hg]
    by_cases hp : SVec.val x.data p = 0 <;> by_cases hn : SVec.val x.data n = 0 <;>
      simp [hp, hn] at hv ⊢ <;> linarith
  | removed r =>
    cases r with
    | solved w => simpa [activeValue] using hv
    | functionOfOthers c cs => simp [activeValue] at hv

theorem mapM_option {α β : Type} {f : α → Option β} {g : α → β} : ∀ {l : List α},
    (∀ a ∈ l, f a = some (g a)) → l.mapM f = some (l.map g)
  | [], _ => rfl
  | a :: l, h => by
    rw [List.mapM_cons, h a (by simp), mapM_option fun b hb => h b (by simp [hb])]
    rfl

/-- All values can be determined, and satisfy the equations of the removed variables. -/
theorem solutionValue_spec {x : SparseVector} (hx : SVec.WF x.data) {rank : ℕ → ℕ}
    (hr : ∀ (o : ℕ) name constant coefficients,
      G.original[o]? = some (name, .removed (.functionOfOthers constant coefficients)) →
      ∀ p ∈ coefficients, p.1 < G.original.length ∧ rank p.1 < rank o) :
    ∃ value : ℕ → ℚ, (∀ o < G.original.length, ∀ fuel, rank o < fuel →
      G.solutionValue x fuel o = some (value o)) ∧
      (∀ (o : ℕ) name entry v, G.original[o]? = some (name, entry) →
        activeValue (SVec.val x.data) entry = some v → value o = v) ∧
      ∀ (o : ℕ) name constant coefficients,
        G.original[o]? = some (name, .removed (.functionOfOthers constant coefficients)) →
        value o = constant - (coefficients.map fun p => p.2 * value p.1).sum := by
  have key : ∀ n o, o < G.original.length → rank o ≤ n → ∃ v, ∀ fuel, rank o < fuel →
      G.solutionValue x fuel o = some v := by
    intro n
    induction n with
    | zero =>
      intro o ho hn
      have h0 : G.original[o]? = some G.original[o] := List.getElem?_eq_getElem ho
      rcases he : G.original[o] with ⟨name, entry⟩
      rw [he] at h0
      rcases ha : activeValue (SVec.val x.data) entry with _ | v
      · rcases entry with j | ⟨p, q⟩ | ⟨w⟩ | ⟨c, cs⟩ <;> simp [activeValue] at ha
        have hcs : cs = [] := by
          rcases cs with _ | ⟨p, cs⟩
          · rfl
          · have := (hr o name c _ h0 p (by simp)).2
            omega
        subst hcs
        refine ⟨c, fun fuel hf => ?_⟩
        obtain ⟨fuel, rfl⟩ : ∃ k, fuel = k + 1 := ⟨fuel - 1, by omega⟩
        rw [solutionValue, h0]
        simp
      · refine ⟨v, fun fuel hf => ?_⟩
        obtain ⟨fuel, rfl⟩ : ∃ k, fuel = k + 1 := ⟨fuel - 1, by omega⟩
        exact solutionValue_known hx h0 ha fuel
    | succ n ih =>
      intro o ho hn
      have h0 : G.original[o]? = some G.original[o] := List.getElem?_eq_getElem ho
      rcases he : G.original[o] with ⟨name, entry⟩
      rw [he] at h0
      rcases ha : activeValue (SVec.val x.data) entry with _ | v
      · rcases entry with j | ⟨p, q⟩ | ⟨w⟩ | ⟨c, cs⟩ <;> simp [activeValue] at ha
        have hdep := hr o name c cs h0
        choose! value hvalue using fun k => ih k
        refine ⟨-(cs.map fun p => value p.1 * p.2).sum + c, fun fuel hf => ?_⟩
        obtain ⟨fuel, rfl⟩ : ∃ k, fuel = k + 1 := ⟨fuel - 1, by omega⟩
        rw [solutionValue, h0]
        simp only
        rw [mapM_option (g := fun p => value p.1 * p.2)]
        · rfl
        · intro p hp
          obtain ⟨d1, d2⟩ := hdep p hp
          rw [hvalue p.1 d1 (by omega) fuel (by omega)]
          rfl
      · refine ⟨v, fun fuel hf => ?_⟩
        obtain ⟨fuel, rfl⟩ : ∃ k, fuel = k + 1 := ⟨fuel - 1, by omega⟩
        exact solutionValue_known hx h0 ha fuel
  choose! value hvalue using fun o (ho : o < G.original.length) => key (rank o) o ho le_rfl
  refine ⟨value, hvalue, ?_, ?_⟩
  · intro o name entry v h0 ha
    have := hvalue o (List.getElem?_eq_some_iff.1 h0).1 (rank o + 1) (by omega)
    rw [solutionValue_known hx h0 ha] at this
    exact (Option.some.inj this).symm
  · intro o name c cs h0
    have hdep := hr o name c cs h0
    have := hvalue o (List.getElem?_eq_some_iff.1 h0).1 (rank o + 1) (by omega)
    rw [solutionValue, h0] at this
    simp only at this
    rw [mapM_option (g := fun p => value p.1 * p.2)] at this
    · have := Option.some.inj this
      rw [← this]
      have : (cs.map fun p => p.2 * value p.1) = cs.map fun p => value p.1 * p.2 :=
        List.map_congr_left fun p _ => mul_comm _ _
      rw [this]
      ring
    · intro p hp
      obtain ⟨d1, d2⟩ := hdep p hp
      rw [hvalue p.1 d1 (rank o) (by omega)]
      rfl

theorem cost_eq {x : SparseVector} (hr : ∀ p ∈ x.data, p.1 < G.vars.length) :
    (x.data.map fun p => p.2 * (G.vars[p.1]?.map (·.cost)).getD 0).sum + G.fixedCost =
      G.obj (SVec.val x.data) := by
  have : (x.data.map fun p => p.2 * (G.vars[p.1]?.map (·.cost)).getD 0) =
      x.data.map fun p => G.costOf p.1 * p.2 :=
    List.map_congr_left fun p _ => mul_comm _ _
  rw [this, sum_tuples hr, obj, add_comm]

/-- The full solution of a point of the standardised problem. -/
theorem computeFull_spec (hG : G.Consistent) (ha : G.Acyclic) {H : GeneralForm} {counts : Counts}
    (h : Standardized G H counts) {y : Fin H.vars.length → ℚ} {reduced : SparseVector}
    (hr : Spec.Represents reduced (List.ofFn y)) :
    ∃ solution x, H.computeFullSolution reduced = some solution ∧ Recovers G H y x ∧
      G.Extends x solution.values ∧ solution.objectiveValue = H.toProgram.objective y := by
  have hwf : SVec.WF reduced.data := hr.wf
  have hval : ∀ j, SVec.val reduced.data j = extendFin y j := by
    intro j
    rw [hr.val, List.getD_eq_getElem?_getD, List.getElem?_ofFn, extendFin]
    split_ifs <;> rfl
  obtain ⟨s1, s2⟩ := reshiftSolution_spec (G := H) hwf
  obtain ⟨rank, k1, k2⟩ := ha
  have hs := split_state hG
  have horig : H.original.length = G.original.length := by rw [h.original, hs.originalLength]
  have hHorig : ∀ (o : ℕ) name r, H.original[o]? = some (name, .removed r) ↔
      G.original[o]? = some (name, .removed r) := by
    intro o name r
    rw [h.original]
    by_cases hex : ∃ j ∈ G.freeIndices, G.fromActive[j]? = some o
    · obtain ⟨j, hj, hjo⟩ := hex
      obtain ⟨n1, e1⟩ := split_original hG hjo
      obtain ⟨n2, e2⟩ := (hG.active _ _).1 hjo
      rw [e1, e2, if_pos hj]
      simp
    · push Not at hex
      rw [hs.others o hex]
  obtain ⟨value, v1, v2, v3⟩ := solutionValue_spec (G := H) (x := H.reshiftSolution reduced) s1
    (rank := rank) (by
      intro o name c cs ho p hp
      rw [horig]
      exact k2 o name c cs ((hHorig _ _ _).1 ho) p hp)
  have hm : (List.range H.original.length).mapM (fun j =>
      H.solutionValue (H.reshiftSolution reduced) (H.original.length + 1) j) =
      some ((List.range H.original.length).map value) := by
    refine mapM_option fun o ho => v1 o (List.mem_range.1 ho) _ ?_
    have := k1 o
    omega
  let x : Fin G.vars.length → ℚ := fun j => G.merge (H.point (extendFin y)) j
  have hrec : Recovers G H y x := (recovers_iff hG h y x).2 fun _ => rfl
  have hsol : H.computeFullSolution reduced = some ⟨H.toProgram.objective y,
      (H.original.map (·.1)).zip ((List.range H.original.length).map value)⟩ := by
    rw [computeFullSolution]
    simp only [hm, bind, Option.bind, pure]
    congr 2
    rw [cost_eq (fun p hp => by
      have := hr.inRange p hp
      rwa [hr.length, List.length_ofFn] at this), objective_eq]
    exact obj_congr fun j _ => hval j
  have hget : ∀ o < G.original.length, ((((H.original.map (·.1)).zip
      ((List.range H.original.length).map value)))[o]?).map (·.2) = some (value o) := by
    intro o ho
    rw [← horig] at ho
    rw [List.getElem?_eq_getElem (by simpa using ho)]
    simp
  have hnames : H.original.map (·.1) = G.original.map (·.1) := by
    apply List.ext_getElem?
    intro o
    rw [List.getElem?_map, List.getElem?_map, h.original]
    by_cases hex : ∃ j ∈ G.freeIndices, G.fromActive[j]? = some o
    · obtain ⟨j, hj, hjo⟩ := hex
      have hl := List.idxOf_lt_length_iff.2 hj
      rw [hs.split (G.freeIndices.idxOf j) j o
        (by rw [List.getElem?_eq_getElem hl, List.getElem_idxOf hl]) hjo, Option.map_map]
      rfl
    · push Not at hex
      rw [hs.others o hex]
  refine ⟨_, x, hsol, hrec, ⟨?_, ?_, ?_, ?_⟩, rfl⟩
  · simp only
    rw [List.map_fst_zip (by simp), hnames]
  · intro j o ho
    obtain ⟨n1, e1⟩ := split_original hG ho
    obtain ⟨n2, e2⟩ := (hG.active _ _).1 ho
    rw [hget o (List.getElem?_eq_some_iff.1 e2).1]
    rw [← h.original] at e1
    have hp : ∀ k, SVec.val (H.reshiftSolution reduced).data k = H.point (extendFin y) k := by
      intro k
      rw [s2, point, point]
      simp only [hval]
    rw [v2 o n1 _ (x j) e1]
    by_cases hf : j.val ∈ G.freeIndices
    · rw [if_pos hf, activeValue, hp, hp]
      simp only [x, merge, if_pos hf]
    · rw [if_neg hf, activeValue, hp]
      simp only [x, merge, if_neg hf]
  · intro o name v ho
    rw [hget o (List.getElem?_eq_some_iff.1 ho).1]
    rw [v2 o name _ v ((hHorig _ _ _).2 ho) rfl]
  · intro o name c cs ho
    rw [hget o (List.getElem?_eq_some_iff.1 ho).1, v3 o name c cs ((hHorig _ _ _).2 ho)]
    congr 2
    congr 1
    apply List.map_congr_left
    intro p hp
    have := (k2 o name c cs ho p hp).1
    rw [hget p.1 this]
    rfl

end GeneralForm

end Relp
