import Verif.Proof.PresolveRun
import Verif.Proof.Vector

/-!
# The problem that results from presolving
-/

namespace Relp

open Finset

namespace Presolve

variable {G : GeneralForm} {s : Index} {u : Updates}

/-! ### Bounds that are kept -/

theorem kept_variableBound (j : ℕ) (d : BoundDirection) :
    (u.kept G).variableBound G j d = (u.newBound G j d).or (originalBound G j d) := rfl

theorem kept_live : (u.kept G).live G = u.live G := rfl

theorem kept_cost (x : ℕ → ℚ) : (u.kept G).cost G x = u.cost G x := rfl

/-- What is kept is not tighter. -/
theorem kept_weaker (h : ∀ j d, Separated G j d (u.bounds j d) (u.activityBounds j d)) {j : ℕ}
    {d : BoundDirection} {x : ℚ} (hx : d.Respects (u.variableBound G j d) x) :
    d.Respects ((u.kept G).variableBound G j d) x := by
  rw [kept_variableBound]
  obtain ⟨h1, h2⟩ := h j d
  unfold Updates.newBound
  unfold Updates.variableBound at hx
  cases ha : u.activityBounds j d with
  | none =>
    rw [ha] at hx
    split
    · simpa using hx
    · exact hx
  | some a =>
    have hb : u.bounds j d = none := h1.resolve_right (by rw [ha]; simp)
    rw [ha] at hx
    split
    · exact hx
    · rw [hb]
      cases ho : originalBound G j d with
      | none => trivial
      | some b => exact BoundDirection.Respects.trans (h2 a ha b ho) hx

theorem Updates.Sat.kept (h : ∀ j d, Separated G j d (u.bounds j d) (u.activityBounds j d)) {x : ℕ → ℚ}
    (hx : u.Sat G x) : (u.kept G).Sat G x :=
  ⟨hx.rows, fun j hj d => kept_weaker h (hx.bounds j hj d), hx.removed⟩

/-- The result can be solved instead, if what is discarded follows. -/
theorem kept_refines (h : ∀ j d, Separated G j d (u.bounds j d) (u.activityBounds j d))
    (hd : DiscardedFollow G u) : Refines G u (u.kept G) :=
  ⟨fun _ h => h, fun x hx => ⟨hd x hx, rfl⟩,
    fun x hx => ⟨x, hx.kept h, Objective.AsGood.refl _ _, fun _ _ => rfl⟩⟩

/-! ### Lists -/

theorem removeSparse_wf {v : SVec ℕ} (hv : SVec.WF v) (indices : List ℕ) :
    SVec.WF (removeSparseTuples indices v) := by
  refine ⟨?_, fun p hp => ?_⟩
  · rw [removeSparseTuples, List.pairwise_map, List.pairwise_filter]
    refine hv.1.imp ?_
    intro p q hpq hp hq
    exact keptIndices_mono hpq (by simpa using hp)
  · simp only [removeSparseTuples, List.mem_map, List.mem_filter] at hp
    obtain ⟨q, hq, rfl⟩ := hp
    exact hv.2 q hq.1

theorem mem_removeSparse {v : SVec ℕ} {indices : List ℕ} {k : ℕ} {x : ℚ} :
    (k, x) ∈ removeSparseTuples indices v ↔
      ∃ i, (i, x) ∈ v ∧ i ∉ indices ∧ (keptIndices indices i).length = k := by
  simp only [removeSparseTuples, List.mem_map, List.mem_filter, Prod.exists, Prod.mk.injEq,
    decide_eq_true_eq]
  constructor
  · rintro ⟨i, y, ⟨h1, h2⟩, h3, rfl⟩; exact ⟨i, h1, h2, h3⟩
  · rintro ⟨i, h1, h2, h3⟩; exact ⟨i, x, ⟨h1, h2⟩, h3, rfl⟩

theorem val_removeSparse {v : SVec ℕ} (hv : SVec.WF v) {indices : List ℕ} {m k i : ℕ}
    (h : (keptIndices indices m)[k]? = some i) :
    SVec.val (removeSparseTuples indices v) k = SVec.val v i := by
  have hi : i ∉ indices := by
    obtain ⟨hk, he⟩ := List.getElem?_eq_some_iff.1 h
    exact (mem_keptIndices.1 (he ▸ List.getElem_mem hk)).2
  have hk := keptIndices_inj h
  by_cases h0 : SVec.val v i = 0
  · rw [h0]
    refine SVec.val_eq_zero_of_notMem fun p hp hpk => ?_
    obtain ⟨i', h1, h2, h3⟩ := mem_removeSparse.1 (show (p.1, p.2) ∈ _ from hp)
    rw [hpk, hk] at h3
    have : i' = i := by
      rcases lt_trichotomy i' i with hlt | heq | hgt
      · have := keptIndices_mono hlt h2; omega
      · exact heq
      · have := keptIndices_mono hgt hi; omega
    rw [this] at h1
    have := (SVec.mem_iff hv i p.2).1 h1
    exact this.2 (this.1 ▸ h0)
  · have h1 : (i, SVec.val v i) ∈ v := (SVec.mem_iff hv _ _).2 ⟨rfl, h0⟩
    have h2 : (k, SVec.val v i) ∈ removeSparseTuples indices v :=
      mem_removeSparse.2 ⟨i, h1, hi, hk.symm⟩
    exact ((SVec.mem_iff (removeSparse_wf hv indices) _ _).1 h2).1

theorem removeList_getElem {α : Type} {indices : List ℕ} {v : List α} {n k : ℕ} (hn : v.length = n) :
    (removeListIndices indices v)[k]? = ((keptIndices indices n)[k]?).bind fun i => v[i]? := by
  rw [removeListIndices_eq, deleteAt_getElem?, hn]

theorem removeList_length {α : Type} {indices : List ℕ} {v : List α} {n : ℕ} (hn : v.length = n) :
    (removeListIndices indices v).length = (keptIndices indices n).length := by
  rw [removeListIndices_eq, deleteAt_length, hn]

/-! ### Original variables -/

theorem fresh_original (hG : G.Fresh) : G.original.length = G.vars.length ∧
    ∀ o < G.vars.length, ∃ name, G.original[o]? = some (name, .active o) := by
  have h1 : ∀ o < G.vars.length, ∃ name, G.original[o]? = some (name, .active o) := by
    intro o ho
    refine (hG.active o o).1 ?_
    rw [hG.identity, List.getElem?_range ho]
  have h2 : ∀ o < G.original.length, o < G.vars.length := by
    intro o ho
    obtain ⟨j, hj⟩ := hG.allActive G.original[o] (List.getElem_mem ho)
    have := (hG.active o j).2 ⟨G.original[o].1, by
      rw [List.getElem?_eq_getElem ho, ← hj]⟩
    rw [hG.identity] at this
    obtain ⟨h3, h4⟩ := List.getElem?_eq_some_iff.1 this
    rw [List.getElem_range] at h4
    rw [List.length_range] at h3
    omega
  refine ⟨le_antisymm ?_ ?_, h1⟩
  · by_contra h
    have := h2 G.vars.length (by omega)
    omega
  · by_contra h
    obtain ⟨name, h3⟩ := h1 G.original.length (by omega)
    rw [List.getElem?_eq_none (le_refl _)] at h3
    cases h3

theorem mark_spec (l : List (ℕ × RemovedVariable)) : ∀ original : List (String × OriginalVariable),
    (l.map (·.1)).Nodup →
    let result := l.foldl (fun original p => original.modify p.1 fun q => (q.1, .removed p.2)) original
    result.length = original.length ∧ (∀ o ∉ l.map (·.1), result[o]? = original[o]?) ∧
      ∀ p ∈ l, result[p.1]? = original[p.1]?.map fun q => (q.1, .removed p.2) := by
  induction l with
  | nil => intro original _; simp
  | cons p l ih =>
    intro original hn
    rw [List.map_cons, List.nodup_cons] at hn
    obtain ⟨h1, h2, h3⟩ := ih (original.modify p.1 fun q => (q.1, .removed p.2)) hn.2
    simp only [List.foldl_cons]
    refine ⟨by rw [h1, List.length_modify], fun o ho => ?_, fun q hq => ?_⟩
    · rw [List.map_cons, List.mem_cons, not_or] at ho
      rw [h2 o ho.2, List.getElem?_modify_ne _ _ (Ne.symm ho.1)]
    · rcases List.mem_cons.1 hq with rfl | hq
      · rw [h2 _ hn.1, List.getElem?_modify_eq]; rfl
      · have : p.1 ≠ q.1 := fun h => hn.1 (h ▸ List.mem_map_of_mem hq)
        rw [h3 q hq, List.getElem?_modify_ne _ _ this]

theorem renumber_spec (l : List (ℕ × ℕ)) : ∀ original : List (String × OriginalVariable),
    (l.map (·.1)).Nodup → (∀ p ∈ l, ∃ name j, original[p.1]? = some (name, .active j)) →
    ∃ result, l.foldlM renumber original = .ok result ∧ result.length = original.length ∧
      (∀ o ∉ l.map (·.1), result[o]? = original[o]?) ∧
      ∀ p ∈ l, result[p.1]? = original[p.1]?.map fun q => (q.1, .active p.2) := by
  induction l with
  | nil => intro original _ _; exact ⟨original, rfl, rfl, fun _ _ => rfl, by simp⟩
  | cons p l ih =>
    intro original hn hact
    rw [List.map_cons, List.nodup_cons] at hn
    obtain ⟨name, j, hp⟩ := hact p (by simp)
    have hp' := (List.getElem?_eq_some_iff.1 hp).1
    obtain ⟨r, e, h1, h2, h3⟩ := ih (original.set p.1 (name, .active p.2)) hn.2 (by
      intro q hq
      have : p.1 ≠ q.1 := fun h => hn.1 (h ▸ List.mem_map_of_mem hq)
      obtain ⟨name, j, h⟩ := hact q (by simp [hq])
      exact ⟨name, j, by rw [List.getElem?_set_ne this, h]⟩)
    refine ⟨r, ?_, by rw [h1, List.length_set], fun o ho => ?_, fun q hq => ?_⟩
    · rw [List.foldlM_cons]
      have : renumber original p = .ok (original.set p.1 (name, .active p.2)) := by
        unfold renumber
        rw [hp]
      rw [this]
      exact e
    · rw [List.map_cons, List.mem_cons, not_or] at ho
      rw [h2 o ho.2, List.getElem?_set_ne (Ne.symm ho.1)]
    · rcases List.mem_cons.1 hq with rfl | hq
      · rw [h2 _ hn.1, List.getElem?_set_self hp', hp]
        rfl
      · have : p.1 ≠ q.1 := fun h => hn.1 (h ▸ List.mem_map_of_mem hq)
        rw [h3 q hq, List.getElem?_set_ne this]

/-! ### The problem that is left -/

/-- The variables that are left. -/
def leftVars (G : GeneralForm) (u : Updates) : List ℕ :=
  keptIndices (u.removedVariables.map (·.1)) G.vars.length

/-- The constraints that are left. -/
def leftRows (G : GeneralForm) (u : Updates) : List ℕ :=
  keptIndices u.constraintsRemoved G.constraintTypes.length

/-- The problem `H` is what is left of `G` after the changes `u`. -/
structure Finished (G : GeneralForm) (u : Updates) (H : GeneralForm) : Prop where
  consistent : H.Consistent
  objective : H.objective = G.objective
  fixedCost : H.fixedCost = G.fixedCost + u.fixedCost
  rowsLength : H.constraintTypes.length = (leftRows G u).length
  types : ∀ r i, (leftRows G u)[r]? = some i → H.constraintTypes.getD r .equal = u.constraintType G i
  rhs : ∀ r i, (leftRows G u)[r]? = some i → H.b.getD r 0 = u.rhs G i
  varsLength : H.vars.length = (leftVars G u).length
  bound : ∀ k j, (leftVars G u)[k]? = some j → ∀ d,
    originalBound H k d = (u.kept G).variableBound G j d
  cost : ∀ k j, (leftVars G u)[k]? = some j → costOf H k = costOf G j
  coef : ∀ r i k j, (leftRows G u)[r]? = some i → (leftVars G u)[k]? = some j →
    coef H r k = coef G i j
  fromActive : H.fromActive = leftVars G u
  names : H.original.map (·.1) = G.original.map (·.1)

theorem leftVars_nodup : (leftVars G u).Nodup := List.nodup_range.filter _

theorem leftVars_toFinset : (leftVars G u).toFinset = u.live G := by
  ext j
  simp [leftVars, mem_keptIndices, Updates.live]

theorem sum_left (f : ℕ → ℚ) :
    ∑ k ∈ range (leftVars G u).length, f ((leftVars G u).getD k 0) = ∑ j ∈ u.live G, f j := by
  rw [← leftVars_toFinset, List.sum_toFinset _ leftVars_nodup, Finset.sum_range]
  have : (leftVars G u).map f = List.ofFn fun k : Fin (leftVars G u).length =>
      f ((leftVars G u).getD k 0) := by
    apply List.ext_getElem (by simp)
    intro k h1 h2
    have : k < (leftVars G u).length := by simpa using h1
    rw [List.getElem_map, List.getElem_ofFn, List.getD_eq_getElem _ _ this]
  rw [this, List.sum_ofFn]

theorem left_getElem {l : List ℕ} {k : ℕ} (hk : k < l.length) : l[k]? = some (l.getD k 0) := by
  rw [List.getElem?_eq_getElem hk, List.getD_eq_getElem _ _ hk]

/-- The solutions of what is left are those of the problem after the changes, apart from the removed
variables. -/
theorem Finished.sat {H : GeneralForm} (h : Finished G u H) (x : ℕ → ℚ) :
    (u.kept G).Sat G x ↔
      (H.toProgram.Feasible fun k => x ((leftVars G u).getD k 0)) ∧
        ∀ p ∈ u.removedVariables, x p.1 = p.2.valueAt x := by
  have e := initial_sat (G := H) (x := fun k => x ((leftVars G u).getD k 0))
  have hv : ∀ r i, (leftRows G u)[r]? = some i →
      Updates.initial.value H r (fun k => x ((leftVars G u).getD k 0)) = (u.kept G).value G i x := by
    intro r i hr
    unfold Updates.value
    rw [initial_live, h.varsLength, kept_live, ← sum_left]
    refine Finset.sum_congr rfl fun k hk => ?_
    rw [h.coef r i k _ hr (left_getElem (Finset.mem_range.1 hk))]
  have hrow : ∀ i, i < G.constraintTypes.length → i ∉ u.constraintsRemoved →
      ∃ r < H.constraintTypes.length, (leftRows G u)[r]? = some i := by
    intro i h1 h2
    obtain ⟨r, hr, he⟩ := List.mem_iff_getElem.1 (mem_keptIndices.2 ⟨h1, h2⟩ : i ∈ leftRows G u)
    exact ⟨r, h.rowsLength ▸ hr, by unfold leftRows; rw [List.getElem?_eq_getElem hr, he]⟩
  rw [← e]
  constructor
  · intro hx
    refine ⟨⟨fun r hr _ => ?_, fun k hk d => ?_, by simp [Updates.initial]⟩, hx.removed⟩
    · have hr' := left_getElem (h.rowsLength ▸ hr)
      have := mem_keptIndices.1 (List.mem_of_getElem? hr')
      rw [hv r _ hr', initial_constraintType, initial_rhs, h.types r _ hr', h.rhs r _ hr']
      exact hx.rows _ this.1 this.2
    · rw [initial_live, Finset.mem_range, h.varsLength] at hk
      have hk' := left_getElem hk
      rw [initial_variableBound, h.bound k _ hk']
      refine hx.bounds _ ?_ d
      rw [kept_live, ← leftVars_toFinset, List.mem_toFinset]
      exact List.mem_of_getElem? hk'
  · rintro ⟨hx, hrem⟩
    refine ⟨fun i hi hi' => ?_, fun j hj d => ?_, hrem⟩
    · obtain ⟨r, hr, he⟩ := hrow i hi hi'
      have := hx.rows r hr (by simp [Updates.initial])
      rw [hv r i he, initial_constraintType, initial_rhs, h.types r _ he, h.rhs r _ he] at this
      exact this
    · rw [kept_live, ← leftVars_toFinset, List.mem_toFinset] at hj
      obtain ⟨k, hk, he⟩ := List.mem_iff_getElem.1 hj
      have he' : (leftVars G u)[k]? = some j := by rw [List.getElem?_eq_getElem hk, he]
      have := hx.bounds k (by rw [initial_live, Finset.mem_range, h.varsLength]; exact hk) d
      rw [initial_variableBound, h.bound k j he'] at this
      rw [List.getD_eq_getElem _ _ hk, he] at this
      exact this

theorem Finished.value {H : GeneralForm} (h : Finished G u H) (x : ℕ → ℚ) :
    (H.toProgram.objective fun k => x ((leftVars G u).getD k 0)) = u.cost G x := by
  have e := initial_cost (G := H) (fun k => x ((leftVars G u).getD k 0))
  rw [← e]
  unfold Updates.cost
  rw [initial_live, h.fixedCost, h.varsLength, ← sum_left]
  simp only [Updates.initial, add_zero]
  congr 1
  refine Finset.sum_congr rfl fun k hk => ?_
  rw [h.cost k _ (left_getElem (Finset.mem_range.1 hk))]

theorem Finished.proper {H : GeneralForm} (h : Finished G u H)
    (hp : ∀ j ∈ u.live G, ∀ l ∈ (u.kept G).variableBound G j .lower,
      ∀ r ∈ (u.kept G).variableBound G j .upper, l ≤ r)
    (hr : ∀ i < G.constraintTypes.length, i ∉ u.constraintsRemoved →
      ∀ r, u.constraintType G i = .range r → 0 ≤ r) : H.Proper := by
  refine ⟨fun v hv l hl r hr => ?_, fun r hr' => ?_⟩
  · obtain ⟨k, hk, rfl⟩ := List.mem_iff_getElem.1 hv
    have hk' := left_getElem (h.varsLength ▸ hk)
    have hj : (leftVars G u).getD k 0 ∈ u.live G := by
      rw [← leftVars_toFinset, List.mem_toFinset]
      exact List.mem_of_getElem? hk'
    have hb := h.bound k _ hk'
    have e : H.vars[k]? = some H.vars[k] := List.getElem?_eq_getElem hk
    refine hp _ hj l ?_ r ?_
    · rw [← hb]; simpa [originalBound, e] using hl
    · rw [← hb]; simpa [originalBound, e] using hr
  · obtain ⟨k, hk, he⟩ := List.mem_iff_getElem.1 hr'
    have hk' := left_getElem (h.rowsLength ▸ hk)
    have := mem_keptIndices.1 (List.mem_of_getElem? hk')
    refine hr _ this.1 this.2 r ?_
    rw [← h.types k _ hk', List.getD_eq_getElem _ _ hk, he]

theorem kept_proper (hs : ∀ j d, Separated G j d (u.bounds j d) (u.activityBounds j d))
    (hp : Proper G u) : ∀ j ∈ u.live G, ∀ l ∈ (u.kept G).variableBound G j .lower,
      ∀ r ∈ (u.kept G).variableBound G j .upper, l ≤ r := by
  intro j hj l hl r hr
  obtain ⟨x, h1, h2⟩ : ∃ x, BoundDirection.lower.Respects (u.variableBound G j .lower) x ∧
      BoundDirection.upper.Respects (u.variableBound G j .upper) x := by
    have := hp.bounds j hj
    cases h1 : u.variableBound G j .lower with
    | none =>
      cases h2 : u.variableBound G j .upper with
      | none => exact ⟨0, trivial, trivial⟩
      | some b => exact ⟨b, trivial, le_refl b⟩
    | some a =>
      cases h2 : u.variableBound G j .upper with
      | none => exact ⟨a, le_refl a, trivial⟩
      | some b => exact ⟨a, le_refl a, this a h1 b h2⟩
  have h3 := kept_weaker hs h1
  have h4 := kept_weaker hs h2
  rw [Option.mem_def] at hl hr
  rw [hl] at h3
  rw [hr] at h4
  exact le_trans (α := ℚ) h3 h4

/-- The original variables after removal: those left have their new position, those removed their
value. -/
structure OriginalAfter (G : GeneralForm) (u : Updates) (original : List (String × OriginalVariable)) :
    Prop where
  length : original.length = G.vars.length
  names : original.map (·.1) = G.original.map (·.1)
  left : ∀ k o : ℕ, (leftVars G u)[k]? = some o → ∃ name, original[o]? = some (name, .active k)
  removed : ∀ p ∈ u.removedVariables, ∃ name, original[p.1]? = some (name, .removed p.2)

theorem OriginalAfter.cases {original : List (String × OriginalVariable)} (h : OriginalAfter G u original)
    {o : ℕ} {q : String × OriginalVariable} (ho : original[o]? = some q) :
    (∃ k, (leftVars G u)[k]? = some o ∧ q.2 = .active k) ∨
      ∃ r, (o, r) ∈ u.removedVariables ∧ q.2 = .removed r := by
  have hl : o < G.vars.length := h.length ▸ (List.getElem?_eq_some_iff.1 ho).1
  by_cases hr : o ∈ u.removedVariables.map (·.1)
  · obtain ⟨p, hp, rfl⟩ := List.mem_map.1 hr
    obtain ⟨name, e⟩ := h.removed p hp
    rw [ho] at e
    cases e
    exact .inr ⟨p.2, hp, rfl⟩
  · obtain ⟨k, hk, he⟩ := List.mem_iff_getElem.1 (mem_keptIndices.2 ⟨hl, hr⟩)
    have he' : (leftVars G u)[k]? = some o := by unfold leftVars; rw [List.getElem?_eq_getElem hk, he]
    obtain ⟨name, e⟩ := h.left k o he'
    rw [ho] at e
    cases e
    exact .inl ⟨k, he', rfl⟩

theorem names_ext {a b : List (String × OriginalVariable)}
    (h : ∀ o : ℕ, (a[o]?).map (·.1) = (b[o]?).map (·.1)) : a.map (·.1) = b.map (·.1) := by
  apply List.ext_getElem?
  intro o
  rw [List.getElem?_map, List.getElem?_map]
  exact h o

theorem original_after (hG : G.Fresh) (hn : (u.removedVariables.map (·.1)).Nodup)
    (hr : ∀ j ∈ u.removedVariables.map (·.1), j < G.vars.length) :
    ∃ original, OriginalAfter G u original ∧
      (if (u.removedVariables.map (·.1)).isEmpty then (pure (updateRemaining G u).original : Run _)
        else (removeListIndices (u.removedVariables.map (·.1)) G.fromActive).zipIdx.foldlM renumber
          (updateRemaining G u).original) = .ok original := by
  obtain ⟨hl, hact⟩ := fresh_original hG
  have hmark := mark_spec u.removedVariables G.original hn
  have hfrom : removeListIndices (u.removedVariables.map (·.1)) G.fromActive = leftVars G u := by
    apply List.ext_getElem?
    intro k
    rw [removeList_getElem (n := G.vars.length) (by rw [hG.identity, List.length_range]), hG.identity]
    unfold leftVars
    cases hk : (keptIndices (u.removedVariables.map (·.1)) G.vars.length)[k]? with
    | none => rfl
    | some i =>
      have := (mem_keptIndices.1 (List.mem_of_getElem? hk)).1
      simp only [Option.bind_some]
      rw [List.getElem?_range this]
  generalize hO : (updateRemaining G u).original = O
  have hO' : O = u.removedVariables.foldl
      (fun original p => original.modify p.1 fun q => (q.1, .removed p.2)) G.original := hO.symm
  rw [← hO'] at hmark
  obtain ⟨h1, h2, h3⟩ := hmark
  have hrem : ∀ p ∈ u.removedVariables, ∃ name, O[p.1]? = some (name, .removed p.2) ∧
      (G.original[p.1]?).map (·.1) = some name := by
    intro p hp
    obtain ⟨name, e⟩ := hact p.1 (hr _ (List.mem_map_of_mem hp))
    exact ⟨name, by rw [h3 p hp, e]; rfl, by rw [e]; rfl⟩
  have hnames : ∀ o : ℕ, (O[o]?).map (·.1) = (G.original[o]?).map (·.1) := by
    intro o
    by_cases ho : o ∈ u.removedVariables.map (·.1)
    · obtain ⟨p, hp, rfl⟩ := List.mem_map.1 ho
      obtain ⟨name, e1, e2⟩ := hrem p hp
      rw [e1, e2]; rfl
    · rw [h2 o ho]
  have hleft : ∀ o ∈ leftVars G u, ∃ name, O[o]? = some (name, .active o) := by
    intro o ho
    obtain ⟨ho1, ho2⟩ := mem_keptIndices.1 ho
    obtain ⟨name, e⟩ := hact o ho1
    exact ⟨name, by rw [h2 o ho2, e]⟩
  by_cases hempty : (u.removedVariables.map (·.1)).isEmpty
  · rw [if_pos hempty]
    refine ⟨O, ⟨h1.trans hl, names_ext hnames, fun k o hk => ?_, fun p hp => ?_⟩, rfl⟩
    · have e : leftVars G u = List.range G.vars.length := by
        unfold leftVars
        rw [List.isEmpty_iff.1 hempty]
        simp [keptIndices]
      obtain ⟨name, h⟩ := hleft o (List.mem_of_getElem? hk)
      rw [e] at hk
      have : o = k := by
        obtain ⟨h4, h5⟩ := List.getElem?_eq_some_iff.1 hk
        rw [List.getElem_range] at h5
        exact h5.symm
      exact ⟨name, this ▸ h⟩
    · obtain ⟨name, e, _⟩ := hrem p hp
      exact ⟨name, e⟩
  · rw [if_neg hempty, hfrom]
    have hkeys : ((leftVars G u).zipIdx.map (·.1)) = leftVars G u := by
      rw [List.zipIdx_map_fst]
    obtain ⟨r, e, r1, r2, r3⟩ := renumber_spec (leftVars G u).zipIdx O (by
      rw [hkeys]; exact leftVars_nodup) (fun p hp => by
        obtain ⟨name, h⟩ := hleft p.1 (by
          rw [← hkeys]; exact List.mem_map_of_mem hp)
        exact ⟨name, _, h⟩)
    rw [hkeys] at r2
    have rleft : ∀ k o : ℕ, (leftVars G u)[k]? = some o →
        r[o]? = (O[o]?).map fun q => (q.1, .active k) := by
      intro k o hk
      exact r3 (o, k) (List.mem_zipIdx_iff_getElem?.2 hk)
    refine ⟨r, ⟨by rw [r1, h1, hl], names_ext fun o => ?_, fun k o hk => ?_,
      fun p hp => ?_⟩, e⟩
    · rw [← hnames o]
      by_cases ho : o ∈ leftVars G u
      · obtain ⟨k, hk, he⟩ := List.mem_iff_getElem.1 ho
        rw [rleft k o (by rw [List.getElem?_eq_getElem hk, he])]
        cases O[o]? <;> rfl
      · rw [r2 o ho]
    · obtain ⟨name, h⟩ := hleft o (List.mem_of_getElem? hk)
      exact ⟨name, by rw [rleft k o hk, h]; rfl⟩
    · obtain ⟨name, h, _⟩ := hrem p hp
      refine ⟨name, ?_⟩
      rw [r2, h]
      intro hm
      exact (mem_keptIndices.1 hm).2 (List.mem_map_of_mem hp)

theorem zipIdx_getElem {α β : Type} (l : List α) (f : α × ℕ → β) (k : ℕ) :
    (l.zipIdx.map f)[k]? = (l[k]?).map fun a => f (a, k) := by
  rw [List.getElem?_map, List.getElem?_zipIdx]
  cases l[k]? <;> simp

/-- After the changes, what is left of the problem is well-formed. -/
theorem removeRowsAndColumns_finished (hG : G.Fresh) (hn : (u.removedVariables.map (·.1)).Nodup)
    (hr : ∀ j ∈ u.removedVariables.map (·.1), j < G.vars.length) (hn' : u.constraintsRemoved.Nodup)
    (hr' : ∀ i ∈ u.constraintsRemoved, i < G.constraintTypes.length) :
    ∃ H, removeRowsAndColumns (updateRemaining G u) u.constraintsRemoved
        (u.removedVariables.map (·.1)) = .ok H ∧ Finished G u H ∧ OriginalAfter G u H.original := by
  obtain ⟨original, ho, he⟩ := original_after hG hn hr
  have hG' := hG.toConsistent
  have hlen : (updateRemaining G u).vars.length = G.vars.length := by simp [updateRemaining]
  have htlen : (updateRemaining G u).constraintTypes.length = G.constraintTypes.length := by
    simp [updateRemaining]
  have hblen : (updateRemaining G u).b.length = G.constraintTypes.length := by
    simp [updateRemaining, hG.bLength]
  refine ⟨{ updateRemaining G u with
    constraints := ((updateRemaining G u).constraints.removeMajor (u.removedVariables.map (·.1))).removeMinor u.constraintsRemoved
    vars := removeListIndices (u.removedVariables.map (·.1)) (updateRemaining G u).vars
    fromActive := removeListIndices (u.removedVariables.map (·.1)) G.fromActive
    original := original
    constraintTypes := removeListIndices u.constraintsRemoved (updateRemaining G u).constraintTypes
    b := removeListIndices u.constraintsRemoved (updateRemaining G u).b }, ?_, ?_, ho⟩
  · unfold removeRowsAndColumns
    simp only []
    split at he
    · rename_i hc
      rw [if_pos hc]
      cases he
      rfl
    · rename_i hc
      rw [if_neg hc]
      show Except.bind ((removeListIndices (u.removedVariables.map (·.1)) G.fromActive).zipIdx.foldlM
        renumber (updateRemaining G u).original) _ = _
      rw [he]
      rfl
  have hfrom : removeListIndices (u.removedVariables.map (·.1)) G.fromActive = leftVars G u := by
    apply List.ext_getElem?
    intro k
    rw [removeList_getElem (n := G.vars.length) (by rw [hG.identity, List.length_range]), hG.identity]
    unfold leftVars
    cases hk : (keptIndices (u.removedVariables.map (·.1)) G.vars.length)[k]? with
    | none => rfl
    | some i =>
      have := (mem_keptIndices.1 (List.mem_of_getElem? hk)).1
      simp only [Option.bind_some]
      rw [List.getElem?_range this]
  have hvars : ∀ k j : ℕ, (leftVars G u)[k]? = some j →
      (removeListIndices (u.removedVariables.map (·.1)) (updateRemaining G u).vars)[k]? =
        (G.vars[j]?).map fun v : Variable => { v with
          lowerBound := (u.newBound G j .lower).or v.lowerBound
          upperBound := (u.newBound G j .upper).or v.upperBound } := by
    intro k j hk
    rw [removeList_getElem hlen]
    unfold leftVars at hk
    rw [hk]
    simp only [Option.bind_some, updateRemaining]
    rw [zipIdx_getElem]
  have hlt : ∀ k j : ℕ, (leftVars G u)[k]? = some j → j < G.vars.length := fun k j hk =>
    (mem_keptIndices.1 (List.mem_of_getElem? hk)).1
  have hrows : ∀ r i : ℕ, (leftRows G u)[r]? = some i → i < G.constraintTypes.length := fun k j hk =>
    (mem_keptIndices.1 (List.mem_of_getElem? hk)).1
  have hdata : ∀ k : ℕ, (((updateRemaining G u).constraints.removeMajor
      (u.removedVariables.map (·.1))).removeMinor u.constraintsRemoved).data[k]? =
      ((leftVars G u)[k]?).bind fun j =>
        (G.constraints.data[j]?).map (removeSparseTuples u.constraintsRemoved) := by
    intro k
    simp only [SparseMatrix.removeMinor, SparseMatrix.removeMajor, List.getElem?_map]
    rw [show (updateRemaining G u).constraints.data = G.constraints.data from rfl,
      removeList_getElem (n := G.vars.length) hG.dataLength]
    unfold leftVars
    cases (keptIndices (u.removedVariables.map (·.1)) G.vars.length)[k]? <;> rfl
  have hdata' : ∀ v ∈ (((updateRemaining G u).constraints.removeMajor
      (u.removedVariables.map (·.1))).removeMinor u.constraintsRemoved).data,
      ∃ w ∈ G.constraints.data, v = removeSparseTuples u.constraintsRemoved w := by
    intro v hv
    obtain ⟨k, hk, rfl⟩ := List.mem_iff_getElem.1 hv
    have e := hdata k
    rw [List.getElem?_eq_getElem hk] at e
    cases hj : (leftVars G u)[k]? with
    | none => rw [hj] at e; cases e
    | some j =>
      rw [hj] at e
      simp only [Option.bind_some] at e
      cases hw : G.constraints.data[j]? with
      | none => rw [hw] at e; cases e
      | some w =>
        rw [hw] at e
        exact ⟨w, List.mem_of_getElem? hw, by simpa using e⟩
  have hR : (removeListIndices u.constraintsRemoved (updateRemaining G u).constraintTypes).length =
      (leftRows G u).length := removeList_length htlen
  have hL : (removeListIndices (u.removedVariables.map (·.1)) (updateRemaining G u).vars).length =
      (leftVars G u).length := removeList_length hlen
  refine ⟨⟨?_, ?_, ?_, ?_, ?_, ?_, ?_, ?_, ?_, ?_⟩, rfl, rfl, hR, ?_, ?_, hL, ?_, ?_, ?_, hfrom, ho.names⟩
  · exact (removeList_length hblen).trans hR.symm
  · refine Eq.trans ?_ hR.symm
    exact (congrArg (· - u.constraintsRemoved.length) hG.minor).trans
      (keptIndices_length hn' hr').symm
  · refine Eq.trans ?_ hL.symm
    exact (congrArg (· - (u.removedVariables.map (·.1)).length) hG.major).trans
      (keptIndices_length hn hr).symm
  · refine Eq.trans ?_ hL.symm
    simp only [SparseMatrix.removeMinor, SparseMatrix.removeMajor, List.length_map]
    exact removeList_length hG.dataLength
  · intro v hv
    obtain ⟨w, hw, rfl⟩ := hdata' v hv
    exact removeSparse_wf (hG.wf w hw) _
  · intro v hv p hp
    obtain ⟨w, hw, rfl⟩ := hdata' v hv
    obtain ⟨i, h1, h2, h3⟩ := mem_removeSparse.1 (show (p.1, p.2) ∈ _ from hp)
    have hi := hG.inRange w hw _ h1
    have := keptIndices_getElem hi h2
    rw [h3] at this
    show p.1 < (removeListIndices u.constraintsRemoved (updateRemaining G u).constraintTypes).length
    rw [hR]
    exact (List.getElem?_eq_some_iff.1 this).1
  · exact (congrArg List.length hfrom).trans hL.symm
  · intro o k
    show (removeListIndices (u.removedVariables.map (·.1)) G.fromActive)[k]? = some o ↔
      ∃ name, original[o]? = some (name, .active k)
    rw [hfrom]
    refine ⟨ho.left k o, fun ⟨name, e⟩ => ?_⟩
    rcases ho.cases e with ⟨k', h1, h2⟩ | ⟨r, h1, h2⟩
    · cases h2; exact h1
    · cases h2
  · intro q hq j k h
    obtain ⟨o, ho', e⟩ := List.mem_iff_getElem.1 hq
    rcases ho.cases (show original[o]? = some q by rw [List.getElem?_eq_getElem ho', e]) with
      ⟨k', h1, h2⟩ | ⟨r, h1, h2⟩
    · rw [h] at h2; cases h2
    · rw [h] at h2; cases h2
  · intro v hv
    obtain ⟨k, hk, rfl⟩ := List.mem_iff_getElem.1 hv
    have hk' := left_getElem (hL ▸ hk)
    have e := hvars k _ hk'
    rw [List.getElem?_eq_getElem hk, List.getElem?_eq_getElem (hlt k _ hk')] at e
    simp only [Option.map_some, Option.some.injEq] at e
    rw [e]
    exact hG.fresh (G.vars[(leftVars G u).getD k 0]'(hlt k _ hk')) (List.getElem_mem (hlt k _ hk'))
  · intro r i hi
    have hi' := hrows r i hi
    show (removeListIndices _ _).getD r ConstraintType.equal = _
    rw [List.getD_eq_getElem?_getD, removeList_getElem htlen]
    unfold leftRows at hi
    rw [hi]
    simp only [Option.bind_some, updateRemaining]
    rw [zipIdx_getElem, List.getElem?_eq_getElem hi']
    unfold Updates.constraintType
    rw [List.getD_eq_getElem _ _ hi']
    rfl
  · intro r i hi
    have hi' := hrows r i hi
    rw [← hG.bLength] at hi'
    show (removeListIndices _ _).getD r 0 = _
    rw [List.getD_eq_getElem?_getD, removeList_getElem hblen]
    unfold leftRows at hi
    rw [hi]
    simp only [Option.bind_some, updateRemaining]
    rw [zipIdx_getElem, List.getElem?_eq_getElem hi']
    unfold Updates.rhs
    rw [List.getD_eq_getElem _ _ hi']
    rfl
  · intro k j hk d
    have e := hvars k j hk
    have hj := hlt k j hk
    rw [List.getElem?_eq_getElem hj] at e
    rw [kept_variableBound]
    cases d
    · simp only [originalBound, e, List.getElem?_eq_getElem hj, Option.map_some, Option.bind_some]
    · simp only [originalBound, e, List.getElem?_eq_getElem hj, Option.map_some, Option.bind_some]
  · intro k j hk
    have e := hvars k j hk
    have hj := hlt k j hk
    rw [List.getElem?_eq_getElem hj] at e
    simp only [costOf, e, List.getElem?_eq_getElem hj, Option.map_some]
  · intro r i k j hi hk
    have hj := hlt k j hk
    have e := hdata k
    rw [hk] at e
    rw [← hG.dataLength] at hj
    simp only [Option.bind_some, List.getElem?_eq_getElem hj, Option.map_some] at e
    unfold coef column
    show SVec.val (List.getD _ k []) r = _
    rw [List.getD_eq_getElem?_getD, e, List.getD_eq_getElem _ _ hj]
    exact val_removeSparse (hG.wf _ (List.getElem_mem hj)) hi

/-! ### Values that can be computed already -/

theorem mapM_some {α β : Type} {f : α → Option β} : ∀ {l : List α} {r : List β},
    l.mapM f = some r ↔ l.map f = r.map some
  | [], r => by
    cases r <;> simp
  | a :: l, r => by
    rw [List.mapM_cons, List.map_cons]
    cases ha : f a with
    | none => cases r <;> simp
    | some b =>
      have ih := fun r => mapM_some (f := f) (l := l) (r := r)
      cases hl : l.mapM f with
      | none =>
        cases r with
        | nil => simp
        | cons c r =>
          have := (ih r).not.1 (by rw [hl]; simp)
          simp [this]
      | some r' =>
        have := (ih r').1 hl
        rw [this]
        cases r with
        | nil => simp
        | cons c r =>
          simp only [Option.bind_eq_bind, Option.bind_some, Option.pure_def, Option.some.injEq,
            List.cons.injEq, List.map_cons]
          refine and_congr_right fun _ => ?_
          rw [List.map_inj_right fun x y h => Option.some.inj h]

/-- Values that have been computed. -/
theorem computedValue_succ {H : GeneralForm} {fuel o : ℕ} {v : ℚ} :
    computedValue H (fuel + 1) o = some v ↔
      (∃ name, H.original[o]? = some (name, .removed (.solved v))) ∨
        ∃ name c cs, H.original[o]? = some (name, .removed (.functionOfOthers c cs)) ∧
          ∃ w : ℕ → ℚ, (∀ p ∈ cs, computedValue H fuel p.1 = some (w p.1)) ∧
            v = c - (cs.map fun p => p.2 * w p.1).sum := by
  rw [computedValue]
  split
  · rename_i name w h
    rw [h]
    simp
  · rename_i name c cs h
    rw [h]
    simp only [Option.some.injEq, Prod.mk.injEq, OriginalVariable.removed.injEq, reduceCtorEq, and_false,
      exists_false, false_or, RemovedVariable.functionOfOthers.injEq]
    constructor
    · intro h1
      cases hm : cs.mapM fun p => (computedValue H fuel p.1).map fun v => p.2 * v with
      | none => rw [hm] at h1; cases h1
      | some terms =>
        rw [hm] at h1
        simp only [Option.bind_eq_bind, Option.bind_some, Option.pure_def, Option.some.injEq] at h1
        have hm' := mapM_some.1 hm
        have hsome : ∀ p ∈ cs, ∃ w, computedValue H fuel p.1 = some w := by
          intro p hp
          have : (computedValue H fuel p.1).map (fun v => p.2 * v) ∈ terms.map some := by
            rw [← hm']
            exact List.mem_map_of_mem (f := fun p => (computedValue H fuel p.1).map fun v => p.2 * v) hp
          cases hc : computedValue H fuel p.1 with
          | none => rw [hc] at this; simp at this
          | some w => exact ⟨w, rfl⟩
        refine ⟨name, c, cs, ⟨rfl, rfl, rfl⟩, fun k => (computedValue H fuel k).getD 0, fun p hp => ?_, ?_⟩
        · obtain ⟨w, hw⟩ := hsome p hp
          simp only [hw, Option.getD_some]
        · rw [← h1]
          congr 2
          have : terms.map some = (cs.map fun p => p.2 * (computedValue H fuel p.1).getD 0).map some := by
            rw [← hm', List.map_map]
            refine List.map_congr_left fun p hp => ?_
            obtain ⟨w, hw⟩ := hsome p hp
            simp [hw]
          rwa [List.map_inj_right fun x y h => Option.some.inj h] at this
    · rintro ⟨_, _, _, ⟨rfl, rfl, rfl⟩, w, hw, rfl⟩
      have : (cs.mapM fun p => (computedValue H fuel p.1).map fun v => p.2 * v) =
          some (cs.map fun p => p.2 * w p.1) := by
        rw [mapM_some, List.map_map]
        refine List.map_congr_left fun p hp => ?_
        simp [hw p hp]
      rw [this]
      rfl
  · rename_i h1 h2
    constructor
    · intro h; cases h
    · rintro (⟨name, h⟩ | ⟨name, c, cs, h, _⟩)
      · exact (h1 _ _ h).elim
      · exact (h2 _ _ _ h).elim

theorem computedValue_mono {H : GeneralForm} : ∀ {fuel o : ℕ} {v : ℚ},
    computedValue H fuel o = some v → computedValue H (fuel + 1) o = some v
  | 0, _, _, h => by cases h
  | fuel + 1, o, v, h => by
    rw [computedValue_succ] at h ⊢
    rcases h with h | ⟨name, c, cs, h, w, hw, e⟩
    · exact .inl h
    · exact .inr ⟨name, c, cs, h, w, fun p hp => computedValue_mono (hw p hp), e⟩

/-- A value that has been computed follows from the equations. -/
theorem computedValue_sound {H : GeneralForm} {x : ℕ → ℚ}
    (hx : ∀ (o : ℕ) name r, H.original[o]? = some (name, .removed r) → x o = r.valueAt x) :
    ∀ {fuel o : ℕ} {v : ℚ}, computedValue H fuel o = some v → x o = v
  | 0, _, _, h => by cases h
  | fuel + 1, o, v, h => by
    rcases computedValue_succ.1 h with ⟨name, h⟩ | ⟨name, c, cs, h, w, hw, e⟩
    · exact hx _ _ _ h
    · rw [hx _ _ _ h, e]
      simp only [RemovedVariable.valueAt]
      congr 2
      refine List.map_congr_left fun p hp => ?_
      rw [computedValue_sound hx (hw p hp)]

theorem computed_entry {H : GeneralForm} {o : ℕ} {name : String} {e : OriginalVariable} :
    (computeSolutionWherePossible H).original[o]? = some (name, e) ↔
      ∃ e', H.original[o]? = some (name, e') ∧
        ((e = e' ∧ ∀ c cs, e' = .removed (.functionOfOthers c cs) →
          computedValue H (H.original.length + 1) o = none) ∨
        ∃ c cs v, e' = .removed (.functionOfOthers c cs) ∧
          computedValue H (H.original.length + 1) o = some v ∧ e = .removed (.solved v)) := by
  unfold computeSolutionWherePossible
  simp only []
  rw [zipIdx_getElem]
  cases h : H.original[o]? with
  | none => simp
  | some q =>
    obtain ⟨name', e'⟩ := q
    simp only [Option.map_some, Option.some.injEq, Prod.mk.injEq]
    split
    · rename_i name'' c cs heq
      cases heq
      cases hc : computedValue H (H.original.length + 1) o with
      | none => simp [eq_comm]
      | some v => simp [eq_comm]
    · rename_i hne
      have : ∀ c cs, e' ≠ .removed (.functionOfOthers c cs) := fun c cs h => hne name' c cs (by rw [h])
      constructor
      · intro heq
        cases heq
        exact ⟨_, ⟨rfl, rfl⟩, .inl ⟨rfl, fun c cs h => (this c cs h).elim⟩⟩
      · rintro ⟨_, ⟨rfl, rfl⟩, ⟨rfl, _⟩ | ⟨c, cs, v, h, _⟩⟩
        · rfl
        · exact (this c cs h).elim

/-- Computing values does not change which points satisfy the equations of the removed variables. -/
theorem computed_equations {H : GeneralForm} (x : ℕ → ℚ) :
    (∀ (o : ℕ) name r, (computeSolutionWherePossible H).original[o]? = some (name, .removed r) →
      x o = r.valueAt x) ↔
    ∀ (o : ℕ) name r, H.original[o]? = some (name, .removed r) → x o = r.valueAt x := by
  constructor
  · intro h o name r ho
    -- a value that has been computed is recorded as solved
    have hsolved : ∀ k v, computedValue H (H.original.length + 1) k = some v → x k = v := by
      intro k v hk
      rcases computedValue_succ.1 hk with ⟨name, h1⟩ | ⟨name, c, cs, h1, _⟩
      · refine h k name (.solved v) (computed_entry.2 ⟨_, h1, .inl ⟨rfl, ?_⟩⟩)
        intro c cs e; cases e
      · exact h k name (.solved v) (computed_entry.2 ⟨_, h1, .inr ⟨c, cs, v, rfl, hk, rfl⟩⟩)
    cases r with
    | solved v =>
      refine h o name _ (computed_entry.2 ⟨_, ho, .inl ⟨rfl, ?_⟩⟩)
      intro c cs e; cases e
    | functionOfOthers c cs =>
      cases hc : computedValue H (H.original.length + 1) o with
      | none => exact h o name _ (computed_entry.2 ⟨_, ho, .inl ⟨rfl, fun _ _ _ => hc⟩⟩)
      | some v =>
        rw [hsolved o v hc]
        rcases computedValue_succ.1 hc with ⟨name', h1⟩ | ⟨name', c', cs', h1, w, hw, e⟩
        · rw [ho] at h1; cases h1
        · rw [ho] at h1
          cases h1
          rw [e]
          simp only [RemovedVariable.valueAt]
          congr 2
          refine List.map_congr_left fun p hp => ?_
          rw [hsolved p.1 _ (computedValue_mono (hw p hp))]
  · intro h o name r ho
    obtain ⟨e', h1, ⟨h2, _⟩ | ⟨c, cs, v, h2, h3, h4⟩⟩ := computed_entry.1 ho
    · rw [← h2] at h1
      exact h o name r h1
    · cases h4
      exact computedValue_sound h h3

/-- The result: what is left of the problem, with the equations of the removed variables. -/
structure Result (G : GeneralForm) (u : Updates) (H : GeneralForm) : Prop extends Finished G u H where
  originalLength : H.original.length = G.vars.length
  entries : ∀ (o : ℕ) name e, H.original[o]? = some (name, e) →
    (∃ k, e = .active k) ∨ (∃ v, e = .removed (.solved v)) ∨ ∃ r, (o, r) ∈ u.removedVariables ∧
      e = .removed r
  equations : ∀ x : ℕ → ℚ,
    (∀ (o : ℕ) name r, H.original[o]? = some (name, .removed r) → x o = r.valueAt x) ↔
      ∀ p ∈ u.removedVariables, x p.1 = p.2.valueAt x

theorem computed_result {H : GeneralForm} (h : Finished G u H) (ho : OriginalAfter G u H.original) :
    Result G u (computeSolutionWherePossible H) := by
  have hnames : (computeSolutionWherePossible H).original.map (·.1) = H.original.map (·.1) := by
    refine names_ext fun o => ?_
    cases h1 : H.original[o]? with
    | none =>
      cases h2 : (computeSolutionWherePossible H).original[o]? with
      | none => rfl
      | some q =>
        obtain ⟨e', h3, _⟩ := computed_entry.1 (show _ = some (q.1, q.2) from h2)
        rw [h1] at h3; cases h3
    | some q =>
      cases h2 : (computeSolutionWherePossible H).original[o]? with
      | none =>
        have : o < H.original.length := (List.getElem?_eq_some_iff.1 h1).1
        have h3 := List.getElem?_eq_none_iff.1 h2
        have h4 : (computeSolutionWherePossible H).original.length = H.original.length := by
          simp [computeSolutionWherePossible]
        omega
      | some q' =>
        obtain ⟨e', h3, _⟩ := computed_entry.1 (show _ = some (q'.1, q'.2) from h2)
        rw [h1] at h3
        cases h3
        rfl
  have hactive : ∀ (o : ℕ) name k, (computeSolutionWherePossible H).original[o]? = some (name, .active k) ↔
      H.original[o]? = some (name, .active k) := by
    intro o name k
    rw [computed_entry]
    constructor
    · rintro ⟨e', h1, ⟨h2, _⟩ | ⟨c, cs, v, _, _, h4⟩⟩
      · rw [h2]; exact h1
      · cases h4
    · intro h1
      exact ⟨_, h1, .inl ⟨rfl, fun c cs e => by cases e⟩⟩
  have hc := h.consistent
  refine ⟨⟨⟨hc.bLength, hc.minor, hc.major, hc.dataLength, hc.wf, hc.inRange, hc.activeLength, ?_, ?_,
    hc.fresh⟩, h.objective, h.fixedCost, h.rowsLength, h.types, h.rhs, h.varsLength, h.bound, h.cost,
    h.coef, h.fromActive, hnames.trans h.names⟩, ?_, ?_, ?_⟩
  · intro o k
    simp only [hactive]
    exact hc.active o k
  · intro q hq j k e
    obtain ⟨o, ho', rfl⟩ := List.mem_iff_getElem.1 hq
    have h1 : (computeSolutionWherePossible H).original[o]? =
        some (((computeSolutionWherePossible H).original[o]).1, .activeFree j k) := by
      rw [List.getElem?_eq_getElem ho', ← e]
    obtain ⟨e', h2, ⟨h3, _⟩ | ⟨c, cs, v, _, _, h4⟩⟩ := computed_entry.1 h1
    · exact hc.notSplit _ (List.mem_of_getElem? h2) j k h3.symm
    · cases h4
  · rw [← ho.length]
    simp [computeSolutionWherePossible]
  · intro o name e h1
    obtain ⟨e', h2, ⟨h3, _⟩ | ⟨c, cs, v, _, _, h4⟩⟩ := computed_entry.1 h1
    · subst h3
      rcases ho.cases h2 with ⟨k, _, h⟩ | ⟨r, hr, h⟩
      · exact .inl ⟨k, h⟩
      · exact .inr (.inr ⟨r, hr, h⟩)
    · exact .inr (.inl ⟨v, h4⟩)
  · intro x
    rw [computed_equations]
    constructor
    · intro hx p hp
      obtain ⟨name, e⟩ := ho.removed p hp
      exact hx p.1 name p.2 e
    · intro hx o name r h1
      rcases ho.cases h1 with ⟨k, _, h⟩ | ⟨r', hr, h⟩
      · cases h
      · cases h
        exact hx _ hr

end Presolve

end Relp
