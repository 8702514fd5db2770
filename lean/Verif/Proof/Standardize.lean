import Verif.Spec.GeneralForm
import Verif.Proof.Filter

/-!
# Standardisation of a `GeneralForm`: helper lemmas
-/

namespace Relp

namespace GeneralForm

open MatrixData (extendFin extendFin_val extendFin_of_lt)

variable {G : GeneralForm}

/-! ### Feasibility and objective over natural numbers -/

/-- The coefficients of variable `j`. -/
def col (G : GeneralForm) (j : ℕ) : SVec ℕ := G.constraints.data.getD j []

/-- Value of a left-hand side. -/
def rowValue (G : GeneralForm) (x : ℕ → ℚ) (i : ℕ) : ℚ :=
  ∑ j ∈ Finset.range G.vars.length, SVec.val (G.col j) i * x j

def InBounds (v : Variable) (x : ℚ) : Prop :=
  (∀ l ∈ v.lowerBound, l ≤ x) ∧ ∀ u ∈ v.upperBound, x ≤ u

def RowsHold (G : GeneralForm) (x : ℕ → ℚ) : Prop :=
  ∀ (i : ℕ) t, G.constraintTypes[i]? = some t → t.Holds (G.b.getD i 0) (G.rowValue x i)

def BoundsHold (G : GeneralForm) (x : ℕ → ℚ) : Prop :=
  ∀ (j : ℕ) v, G.vars[j]? = some v → InBounds v (x j)

def costOf (G : GeneralForm) (j : ℕ) : ℚ := (G.vars[j]?.map (·.cost)).getD 0

def obj (G : GeneralForm) (x : ℕ → ℚ) : ℚ :=
  G.fixedCost + ∑ j ∈ Finset.range G.vars.length, G.costOf j * x j

theorem toProgram_row (x : Fin G.vars.length → ℚ) (i : Fin G.constraintTypes.length) :
    (Matrix.mulVec G.toProgram.A x) i = G.rowValue (extendFin x) i := by
  rw [rowValue, Finset.sum_range]
  simp only [extendFin_val]
  rfl

theorem feasible_iff (x : Fin G.vars.length → ℚ) :
    G.toProgram.Feasible x ↔ G.RowsHold (extendFin x) ∧ G.BoundsHold (extendFin x) := by
  refine and_congr ⟨fun h i t ht => ?_, fun h i => ?_⟩ ⟨fun h j v hv => ?_, fun h j => ?_⟩
  · obtain ⟨hi, rfl⟩ := List.getElem?_eq_some_iff.1 ht
    rw [← toProgram_row x ⟨i, hi⟩]
    exact h ⟨i, hi⟩
  · rw [toProgram_row]
    exact h i _ (List.getElem?_eq_getElem i.2)
  · obtain ⟨hj, rfl⟩ := List.getElem?_eq_some_iff.1 hv
    rw [extendFin_of_lt x hj]
    exact h ⟨j, hj⟩
  · have := h j _ (List.getElem?_eq_getElem j.2)
    rw [extendFin_val] at this
    exact this

theorem objective_eq (x : Fin G.vars.length → ℚ) : G.toProgram.objective x = G.obj (extendFin x) := by
  rw [obj, Finset.sum_range, Spec.Program.objective]
  congr 1
  apply Finset.sum_congr rfl
  intro j _
  rw [extendFin_val, costOf, List.getElem?_eq_getElem j.2]
  rfl

/-! ### Splitting free variables -/

theorem col_eq_getElem? (j : ℕ) : G.col j = (G.constraints.data[j]?).getD [] := by
  rw [col, List.getD_eq_getElem?_getD]

theorem val_negateColumn (v : SVec ℕ) (i : ℕ) : SVec.val (negateColumn v) i = -SVec.val v i := by
  have : negateColumn v = SVec.scale v (-1) := by
    simp [negateColumn, SVec.scale]
  rw [this, SVec.val_scale]
  ring

theorem mem_freeIndices {j : ℕ} (h : G.constraints.major = G.vars.length) :
    j ∈ G.freeIndices ↔ ∃ v, G.vars[j]? = some v ∧ v.lowerBound = none ∧ v.upperBound = none := by
  rw [freeIndices, List.mem_filter, List.mem_range, h]
  constructor
  · rintro ⟨hj, h2⟩
    rw [List.getElem?_eq_getElem hj] at h2 ⊢
    simp only [Bool.and_eq_true, Option.isNone_iff_eq_none] at h2
    exact ⟨_, rfl, h2⟩
  · rintro ⟨v, hv, h1, h2⟩
    refine ⟨(List.getElem?_eq_some_iff.1 hv).1, ?_⟩
    rw [hv]
    simp [h1, h2]

theorem freeIndices_nodup : G.freeIndices.Nodup := List.nodup_range.filter _

/-- The negative part of a free variable. -/
def negativePart (v : Variable) : Variable := ⟨v.variableType, -v.cost, some 0, none, 0, false⟩

/-- State of `split_free_variables` after the free variables `done`. -/
structure SplitState (G : GeneralForm) (done : List ℕ) (S : GeneralForm) : Prop where
  objective : S.objective = G.objective
  fixedCost : S.fixedCost = G.fixedCost
  types : S.constraintTypes = G.constraintTypes
  b : S.b = G.b
  vars : S.vars = (G.vars.mapIdx fun j v => if j ∈ done then { v with lowerBound := some 0 } else v) ++
    done.filterMap fun j => (G.vars[j]?).map negativePart
  fromActive : S.fromActive = G.fromActive ++ done.filterMap fun j => G.fromActive[j]?
  split : ∀ (k j o : ℕ), done[k]? = some j → G.fromActive[j]? = some o → 
    S.original[o]? = (G.original[o]?).map fun p => (p.1, .activeFree j (G.vars.length + k))
  others : ∀ o, (∀ j ∈ done, G.fromActive[j]? ≠ some o) → S.original[o]? = G.original[o]?
  originalLength : S.original.length = G.original.length

theorem filterMap_length_of_isSome {α β : Type} {f : α → Option β} : ∀ {l : List α},
    (∀ a ∈ l, (f a).isSome) → (l.filterMap f).length = l.length
  | [], _ => rfl
  | a :: l, h => by
    obtain ⟨b, hb⟩ := Option.isSome_iff_exists.1 (h a (by simp))
    rw [List.filterMap_cons, hb]
    simp only [List.length_cons]
    rw [filterMap_length_of_isSome fun a ha => h a (by simp [ha])]

theorem filterMap_getElem?_of_isSome {α β : Type} {f : α → Option β} : ∀ {l : List α} (k : ℕ),
    (∀ a ∈ l, (f a).isSome) → (l.filterMap f)[k]? = (l[k]?).bind f
  | [], k, _ => by simp
  | a :: l, k, h => by
    obtain ⟨b, hb⟩ := Option.isSome_iff_exists.1 (h a (by simp))
    rw [List.filterMap_cons, hb]
    rcases k with _ | k
    · simp [hb]
    · simp only [List.getElem?_cons_succ]
      exact filterMap_getElem?_of_isSome k fun a ha => h a (by simp [ha])

theorem splitState_step (hG : G.Consistent) {done : List ℕ} {S : GeneralForm} {j : ℕ}
    (hS : SplitState G done S) (hd : ∀ k ∈ done, k < G.vars.length) (hj : j < G.vars.length)
    (hn : j ∉ done) : SplitState G (done ++ [j]) (splitStep S j) := by
  have hlen : (done.filterMap fun j => (G.vars[j]?).map negativePart).length = done.length := by
    refine filterMap_length_of_isSome fun k hk => ?_
    rw [List.getElem?_eq_getElem (hd k hk)]
    rfl
  have hlen2 : (done.filterMap fun j => G.fromActive[j]?).length = done.length := by
    refine filterMap_length_of_isSome fun k hk => ?_
    rw [List.getElem?_eq_getElem (by rw [hG.activeLength]; exact hd k hk)]
    rfl
  have hv : S.vars[j]? = some G.vars[j] := by
    rw [hS.vars, List.getElem?_append_left (by simpa using hj), List.getElem?_mapIdx,
      List.getElem?_eq_getElem hj]
    simp [hn]
  have hja : j < G.fromActive.length := by rw [hG.activeLength]; exact hj
  have hf : S.fromActive[j]? = some G.fromActive[j] := by
    rw [hS.fromActive, List.getElem?_append_left hja, List.getElem?_eq_getElem hja]
  have hstep : splitStep S j = { S with
      original := S.original.modify G.fromActive[j] fun p => (p.1, .activeFree j S.fromActive.length)
      fromActive := S.fromActive ++ [G.fromActive[j]]
      vars := (S.vars ++ [negativePart G.vars[j]]).modify j
        fun v => { v with lowerBound := some 0 } } := by
    rw [splitStep, hv, hf]
    rfl
  have hinj : ∀ k, G.fromActive[k]? = some G.fromActive[j] → k = j := by
    intro k hk
    obtain ⟨n1, h1⟩ := (hG.active _ _).1 hk
    obtain ⟨n2, h2⟩ := (hG.active _ _).1 (List.getElem?_eq_getElem hja)
    rw [h1] at h2
    simpa using (Prod.ext_iff.1 (Option.some.inj h2)).2
  rw [hstep]
  refine ⟨hS.objective, hS.fixedCost, hS.types, hS.b, ?_, ?_, ?_, ?_, ?_⟩
  · simp only
    rw [hS.vars]
    apply List.ext_getElem?
    intro k
    rw [List.getElem?_modify]
    have e1 : (done ++ [j]).filterMap (fun j => (G.vars[j]?).map negativePart) =
        (done.filterMap fun j => (G.vars[j]?).map negativePart) ++ [negativePart G.vars[j]] := by
      rw [List.filterMap_append]
      simp [List.getElem?_eq_getElem hj]
    rw [e1, List.append_assoc]
    by_cases hk : k < G.vars.length
    · have a1 : k < (G.vars.mapIdx fun j v =>
          if j ∈ done then ({ v with lowerBound := some 0 } : Variable) else v).length := by
        simpa using hk
      have a2 : k < (G.vars.mapIdx fun i v =>
          if i ∈ done ++ [j] then ({ v with lowerBound := some 0 } : Variable) else v).length := by
        simpa using hk
      rw [List.getElem?_append_left a1, List.getElem?_append_left a2,
        List.getElem?_mapIdx, List.getElem?_mapIdx, List.getElem?_eq_getElem hk]
      by_cases hkj : j = k
      · subst hkj
        simp [hn]
      · have : k ∈ done ++ [j] ↔ k ∈ done := by
          simp only [List.mem_append, List.mem_singleton, or_iff_left_iff_imp]
          exact fun h => absurd h.symm hkj
        simp only [this, if_neg hkj, Option.map_some, id]
        rfl
    · have : j ≠ k := by omega
      have a1 : (G.vars.mapIdx fun j v =>
          if j ∈ done then ({ v with lowerBound := some 0 } : Variable) else v).length ≤ k := by
        simpa using hk
      have a2 : (G.vars.mapIdx fun i v =>
          if i ∈ done ++ [j] then ({ v with lowerBound := some 0 } : Variable) else v).length ≤ k := by
        simpa using hk
      rw [List.getElem?_append_right a1, List.getElem?_append_right a2]
      simp [this]
  · simp only
    rw [hS.fromActive, List.filterMap_append]
    simp [List.getElem?_eq_getElem hja]
  · intro k i o hk ho
    simp only
    rw [List.getElem?_modify]
    rcases lt_trichotomy k done.length with hlt | heq | hgt
    · rw [List.getElem?_append_left hlt] at hk
      have hne : ¬ G.fromActive[j] = o := by
        rintro rfl
        have := hinj i ho
        subst this
        exact hn (List.mem_of_getElem? hk)
      rw [hS.split k i o hk ho]
      simp [hne]
    · subst heq
      simp only [List.getElem?_append_right le_rfl, Nat.sub_self, List.getElem?_cons_zero,
        Option.some.injEq] at hk
      subst hk
      rw [List.getElem?_eq_getElem hja] at ho
      have ho' := Option.some.inj ho
      subst ho'
      rw [hS.others]
      · have : S.fromActive.length = G.vars.length + done.length := by
          rw [hS.fromActive, List.length_append, hlen2, hG.activeLength]
        simp [this]
      · intro i hi hc
        have := hinj i hc
        subst this
        exact hn hi
    · rw [List.getElem?_eq_none (by simp; omega)] at hk
      cases hk
  · intro o ho
    simp only
    rw [List.getElem?_modify]
    have hne : ¬ G.fromActive[j] = o := by
      rintro rfl
      exact ho j (by simp) (List.getElem?_eq_getElem hja)
    rw [hS.others o fun i hi => ho i (by simp [hi])]
    simp [hne]
  · simp only [List.length_modify]
    exact hS.originalLength

theorem splitState_foldl (hG : G.Consistent) : ∀ (l done : List ℕ) (S : GeneralForm),
    SplitState G done S → (∀ k ∈ done ++ l, k < G.vars.length) → (done ++ l).Nodup →
    SplitState G (done ++ l) (l.foldl splitStep S)
  | [], done, S, hS, _, _ => by simpa using hS
  | j :: l, done, S, hS, hd, hn => by
    have := splitState_foldl hG l (done ++ [j]) (splitStep S j)
      (splitState_step hG hS (fun k hk => hd k (by simp [hk])) (hd j (by simp)) (by
        intro hc
        exact (List.nodup_append.1 hn).2.2 j hc j (by simp) rfl))
      (by simpa using hd) (by simpa using hn)
    simpa using this

theorem splitStep_constraints (S : GeneralForm) (j : ℕ) : (splitStep S j).constraints = S.constraints := by
  unfold splitStep
  split <;> rfl

theorem split_constraints : G.splitFreeVariables.constraints = G.constraints.concatenate
    ⟨G.freeIndices.map fun j => negateColumn (G.col j), G.freeIndices.length,
      G.constraints.minor⟩ := by
  have h : ∀ (l : List ℕ) (S : GeneralForm), (l.foldl splitStep S).constraints = S.constraints := by
    intro l
    induction l with
    | nil => intro S; rfl
    | cons j l ih => intro S; rw [List.foldl_cons, ih, splitStep_constraints]
  rw [splitFreeVariables, h]
  rfl

theorem splitState_init (hG : G.Consistent) (C : SparseMatrix) :
    SplitState G [] { G with constraints := C } := by
  refine ⟨rfl, rfl, rfl, rfl, ?_, ?_, ?_, ?_, rfl⟩
  · apply List.ext_getElem?
    simp
  · simp
  · simp
  · simp

theorem free_lt (hG : G.Consistent) {j : ℕ} (hj : j ∈ G.freeIndices) : j < G.vars.length := by
  obtain ⟨v, hv, -⟩ := (mem_freeIndices hG.major).1 hj
  exact (List.getElem?_eq_some_iff.1 hv).1

theorem split_state (hG : G.Consistent) :
    SplitState G G.freeIndices G.splitFreeVariables := by
  have := splitState_foldl hG G.freeIndices [] _ (splitState_init hG (G.constraints.concatenate
    ⟨G.freeIndices.map fun j => negateColumn (G.col j), G.freeIndices.length, G.constraints.minor⟩))
    (fun k hk => free_lt hG (by simpa using hk)) (by simpa using freeIndices_nodup)
  rw [List.nil_append] at this
  exact this

theorem split_length (hG : G.Consistent) :
    G.splitFreeVariables.vars.length = G.vars.length + G.freeIndices.length := by
  rw [(split_state hG).vars, List.length_append, List.length_mapIdx, filterMap_length_of_isSome]
  intro j hj
  rw [List.getElem?_eq_getElem (free_lt hG hj)]
  rfl

theorem split_vars (hG : G.Consistent) {j : ℕ} (hj : j < G.vars.length) :
    G.splitFreeVariables.vars[j]? = some (if j ∈ G.freeIndices then
      { G.vars[j] with lowerBound := some 0 } else G.vars[j]) := by
  rw [(split_state hG).vars, List.getElem?_append_left (by simpa using hj), List.getElem?_mapIdx,
    List.getElem?_eq_getElem hj]
  rfl

theorem split_vars_negative (hG : G.Consistent) {k : ℕ} (hk : k < G.freeIndices.length) :
    G.splitFreeVariables.vars[G.vars.length + k]? = some (negativePart
      (G.vars[G.freeIndices[k]]'(free_lt hG (List.getElem_mem hk)))) := by
  have hf := free_lt hG (List.getElem_mem hk)
  rw [(split_state hG).vars, List.getElem?_append_right (by simp), filterMap_getElem?_of_isSome]
  · rw [List.length_mapIdx, Nat.add_sub_cancel_left, List.getElem?_eq_getElem hk]
    simp [List.getElem?_eq_getElem hf]
  · intro j hj
    rw [List.getElem?_eq_getElem (free_lt hG hj)]
    rfl

theorem split_col (hG : G.Consistent) {j : ℕ} (hj : j < G.vars.length) :
    G.splitFreeVariables.col j = G.col j := by
  rw [col, split_constraints, SparseMatrix.concatenate, col]
  simp only
  rw [List.getD_append _ _ _ _ (by rw [hG.dataLength]; exact hj)]

theorem split_col_negative (hG : G.Consistent) {k : ℕ} (hk : k < G.freeIndices.length) :
    G.splitFreeVariables.col (G.vars.length + k) = negateColumn (G.col G.freeIndices[k]) := by
  rw [col, split_constraints, SparseMatrix.concatenate]
  simp only
  rw [List.getD_append_right _ _ _ _ (by rw [hG.dataLength]; omega), hG.dataLength,
    Nat.add_sub_cancel_left, List.getD_eq_getElem _ _ (by simpa using hk), List.getElem_map]

/-- The value of the variables before splitting. -/
def merge (G : GeneralForm) (y : ℕ → ℚ) (j : ℕ) : ℚ :=
  if j ∈ G.freeIndices then y j - y (G.vars.length + G.freeIndices.idxOf j) else y j

theorem sum_free (hG : G.Consistent) (f : ℕ → ℕ → ℚ) :
    ∑ k ∈ Finset.range G.freeIndices.length, f (G.freeIndices.getD k 0) k =
      ∑ j ∈ Finset.range G.vars.length,
        if j ∈ G.freeIndices then f j (G.freeIndices.idxOf j) else 0 := by
  rw [← Finset.sum_filter]
  refine Finset.sum_bij' (fun k _ => G.freeIndices.getD k 0) (fun j _ => G.freeIndices.idxOf j)
    ?_ ?_ ?_ ?_ ?_
  · intro k hk
    have hk := Finset.mem_range.1 hk
    rw [List.getD_eq_getElem _ _ hk, Finset.mem_filter, Finset.mem_range]
    exact ⟨free_lt hG (List.getElem_mem hk), List.getElem_mem hk⟩
  · intro j hj
    rw [Finset.mem_range]
    exact List.idxOf_lt_length_iff.2 (Finset.mem_filter.1 hj).2
  · intro k hk
    have hk := Finset.mem_range.1 hk
    rw [List.getD_eq_getElem _ _ hk]
    exact freeIndices_nodup.idxOf_getElem k hk
  · intro j hj
    have := List.idxOf_lt_length_iff.2 (Finset.mem_filter.1 hj).2
    rw [List.getD_eq_getElem _ _ this]
    exact List.getElem_idxOf this
  · intro k hk
    have hk := Finset.mem_range.1 hk
    rw [List.getD_eq_getElem _ _ hk, freeIndices_nodup.idxOf_getElem k hk]

theorem sum_merge (hG : G.Consistent) (a a' y : ℕ → ℚ) (h1 : ∀ j < G.vars.length, a' j = a j)
    (h2 : ∀ k (hk : k < G.freeIndices.length), a' (G.vars.length + k) = -a G.freeIndices[k]) :
    ∑ j ∈ Finset.range (G.vars.length + G.freeIndices.length), a' j * y j =
      ∑ j ∈ Finset.range G.vars.length, a j * G.merge y j := by
  rw [Finset.sum_range_add]
  have e : ∑ k ∈ Finset.range G.freeIndices.length, a' (G.vars.length + k) * y (G.vars.length + k) =
      ∑ k ∈ Finset.range G.freeIndices.length,
        (fun j k => -a j * y (G.vars.length + k)) (G.freeIndices.getD k 0) k := by
    apply Finset.sum_congr rfl
    intro k hk
    have hk := Finset.mem_range.1 hk
    simp only
    rw [List.getD_eq_getElem _ _ hk, h2 k hk]
  rw [e, sum_free hG fun j k => -a j * y (G.vars.length + k), ← Finset.sum_add_distrib]
  apply Finset.sum_congr rfl
  intro j hj
  rw [h1 j (Finset.mem_range.1 hj), merge]
  split_ifs <;> ring

theorem split_rowValue (hG : G.Consistent) (y : ℕ → ℚ) (i : ℕ) :
    G.splitFreeVariables.rowValue y i = G.rowValue (G.merge y) i := by
  rw [rowValue, split_length hG, rowValue]
  refine sum_merge hG (fun j => SVec.val (G.col j) i)
    (fun j => SVec.val (G.splitFreeVariables.col j) i) y (fun j hj => ?_) fun k hk => ?_
  · simp only [split_col hG hj]
  · simp only [split_col_negative hG hk, val_negateColumn]

theorem split_obj (hG : G.Consistent) (y : ℕ → ℚ) :
    G.splitFreeVariables.obj y = G.obj (G.merge y) := by
  rw [obj, split_length hG, obj, (split_state hG).fixedCost]
  congr 1
  refine sum_merge hG (fun j => G.costOf j)
    (fun j => G.splitFreeVariables.costOf j) y (fun j hj => ?_) fun k hk => ?_
  · simp only [costOf, split_vars hG hj, List.getElem?_eq_getElem hj]
    split_ifs <;> rfl
  · have := free_lt hG (List.getElem_mem hk)
    simp only [costOf, split_vars_negative hG hk, List.getElem?_eq_getElem this]
    rfl

theorem split_rows (hG : G.Consistent) (y : ℕ → ℚ) :
    G.splitFreeVariables.RowsHold y ↔ G.RowsHold (G.merge y) := by
  simp only [RowsHold, (split_state hG).types, (split_state hG).b, split_rowValue hG]

theorem split_bounds (hG : G.Consistent) {y : ℕ → ℚ} (h : G.splitFreeVariables.BoundsHold y) :
    G.BoundsHold (G.merge y) := by
  intro j v hv
  obtain ⟨hj, rfl⟩ := List.getElem?_eq_some_iff.1 hv
  by_cases hf : j ∈ G.freeIndices
  · obtain ⟨w, hw, h1, h2⟩ := (mem_freeIndices hG.major).1 hf
    rw [hv] at hw
    cases hw
    constructor
    · rw [h1]; simp
    · rw [h2]; simp
  · have := h j _ (split_vars hG hj)
    rw [if_neg hf] at this
    rw [merge, if_neg hf]
    exact this

/-- Splitting a point. -/
def splitPoint (G : GeneralForm) (x : ℕ → ℚ) (j : ℕ) : ℚ :=
  if j < G.vars.length then (if j ∈ G.freeIndices then max (x j) 0 else x j)
  else max (-x (G.freeIndices.getD (j - G.vars.length) 0)) 0

theorem merge_splitPoint (x : ℕ → ℚ) {j : ℕ} (hj : j < G.vars.length) :
    G.merge (G.splitPoint x) j = x j := by
  rw [merge]
  by_cases hf : j ∈ G.freeIndices
  · have hl := List.idxOf_lt_length_iff.2 hf
    have h0 : ¬ G.vars.length + G.freeIndices.idxOf j < G.vars.length := by omega
    rw [if_pos hf, splitPoint, if_pos hj, if_pos hf, splitPoint, if_neg h0,
      Nat.add_sub_cancel_left, List.getD_eq_getElem _ _ hl, List.getElem_idxOf hl]
    rcases le_total 0 (x j) with h | h
    · rw [max_eq_left h, max_eq_right (by linarith)]; ring
    · rw [max_eq_right h, max_eq_left (by linarith)]; ring
  · rw [if_neg hf, splitPoint, if_pos hj, if_neg hf]

theorem splitPoint_bounds (hG : G.Consistent) {x : ℕ → ℚ} (h : G.BoundsHold x) :
    G.splitFreeVariables.BoundsHold (G.splitPoint x) := by
  intro j v hv
  by_cases hj : j < G.vars.length
  · rw [split_vars hG hj] at hv
    have := Option.some.inj hv
    subst this
    have hx := h j _ (List.getElem?_eq_getElem hj)
    by_cases hf : j ∈ G.freeIndices
    · rw [if_pos hf, splitPoint, if_pos hj, if_pos hf]
      obtain ⟨w, hw, h1, h2⟩ := (mem_freeIndices hG.major).1 hf
      rw [List.getElem?_eq_getElem hj] at hw
      cases hw
      constructor
      · intro l hl
        have hl : 0 = l := by simpa using hl
        rw [← hl]
        exact le_max_right _ _
      · simp only [h2]; simp
    · rw [if_neg hf, splitPoint, if_pos hj, if_neg hf]
      exact hx
  · have hl := (List.getElem?_eq_some_iff.1 hv).1
    rw [split_length hG] at hl
    obtain ⟨k, rfl⟩ : ∃ k, j = G.vars.length + k := ⟨j - G.vars.length, by omega⟩
    rw [split_vars_negative hG (by omega)] at hv
    have := Option.some.inj hv
    subst this
    rw [splitPoint, if_neg hj]
    constructor
    · intro l hl
      have hl : 0 = l := by simpa [negativePart] using hl
      rw [← hl]
      exact le_max_right _ _
    · intro u hu
      simp [negativePart] at hu

theorem rowValue_congr {x y : ℕ → ℚ} (h : ∀ j < G.vars.length, x j = y j) (i : ℕ) :
    G.rowValue x i = G.rowValue y i :=
  Finset.sum_congr rfl fun j hj => by rw [h j (Finset.mem_range.1 hj)]

theorem rowsHold_congr {x y : ℕ → ℚ} (h : ∀ j < G.vars.length, x j = y j) :
    G.RowsHold x ↔ G.RowsHold y := by
  simp only [RowsHold, rowValue_congr h]

theorem boundsHold_congr {x y : ℕ → ℚ} (h : ∀ j < G.vars.length, x j = y j) :
    G.BoundsHold x ↔ G.BoundsHold y := by
  refine forall_congr' fun j => forall_congr' fun v => forall_congr' fun hv => ?_
  rw [h j (List.getElem?_eq_some_iff.1 hv).1]

theorem obj_congr {x y : ℕ → ℚ} (h : ∀ j < G.vars.length, x j = y j) : G.obj x = G.obj y := by
  rw [obj, obj]
  congr 1
  exact Finset.sum_congr rfl fun j hj => by rw [h j (Finset.mem_range.1 hj)]

/-! ### Flipping and shifting -/

theorem holds_sub (t : ConstraintType) (b value a : ℚ) :
    t.Holds (b - a) (value - a) ↔ t.Holds b value := by
  cases t <;> simp only [ConstraintType.Holds]
  · constructor <;> intro h <;> linarith
  · constructor <;> rintro ⟨h1, h2⟩ <;> constructor <;> linarith
  · constructor <;> intro h <;> linarith
  · constructor <;> intro h <;> linarith

theorem shift_b (l : ℚ) : ∀ (v : SVec ℕ) (b : List ℚ),
    (v.foldl (fun b p => b.modify p.1 fun x => x - p.2 * l) b).length = b.length ∧
    ∀ i < b.length, (v.foldl (fun b p => b.modify p.1 fun x => x - p.2 * l) b).getD i 0 =
      b.getD i 0 - SVec.val v i * l
  | [], b => by simp
  | p :: v, b => by
    obtain ⟨h1, h2⟩ := shift_b l v (b.modify p.1 fun x => x - p.2 * l)
    rw [List.length_modify] at h1 h2
    refine ⟨by rw [List.foldl_cons, h1], fun i hi => ?_⟩
    rw [List.foldl_cons, h2 i hi, SVec.val_cons, List.getD_eq_getElem?_getD,
      List.getD_eq_getElem?_getD, List.getElem?_modify, List.getElem?_eq_getElem hi]
    by_cases hp : p.1 = i
    · simp [hp]; ring
    · simp [hp]

theorem sum_update (n : ℕ) (a y : ℕ → ℚ) {j : ℕ} (hj : j < n) (q : ℚ) :
    ∑ k ∈ Finset.range n, a k * Function.update y j q k =
      ∑ k ∈ Finset.range n, a k * y k + a j * (q - y j) := by
  have h : ∀ k ∈ Finset.range n, a k * Function.update y j q k =
      a k * y k + if k = j then a j * (q - y j) else 0 := by
    intro k _
    by_cases hk : k = j
    · subst hk
      rw [Function.update_self, if_pos rfl]; ring
    · rw [Function.update_of_ne hk, if_neg hk, add_zero]
  rw [Finset.sum_congr rfl h, Finset.sum_add_distrib, Finset.sum_ite_eq' (Finset.range n) j,
    if_pos (Finset.mem_range.2 hj)]

/-- What a transformation of variable `j` to `v'` does. -/
structure StepState (S : GeneralForm) (j : ℕ) (v' : Variable) (q : ℚ → ℚ) (S' : GeneralForm) :
    Prop where
  vars : S'.vars = S.vars.set j v'
  objective : S'.objective = S.objective
  types : S'.constraintTypes = S.constraintTypes
  original : S'.original = S.original
  fromActive : S'.fromActive = S.fromActive
  bLength : S'.b.length = S.b.length
  minor : S'.constraints.minor = S.constraints.minor
  major : S'.constraints.major = S.constraints.major
  dataLength : S'.constraints.data.length = S.constraints.data.length
  columns : ∀ c' ∈ S'.constraints.data, ∃ c ∈ S.constraints.data, c' = c ∨ c' = SVec.scale c (-1)
  rows : ∀ y, S'.RowsHold y ↔ S.RowsHold (Function.update y j (q (y j)))
  bounds : ∀ y, S'.BoundsHold y ↔ S.BoundsHold (Function.update y j (q (y j)))
  obj : ∀ y, S'.obj y = S.obj (Function.update y j (q (y j)))

theorem bounds_set {S S' : GeneralForm} {j : ℕ} {v v' : Variable} (hv : S.vars[j]? = some v)
    (hS : S'.vars = S.vars.set j v') (q : ℚ → ℚ) (hq : ∀ y, InBounds v' y ↔ InBounds v (q y))
    (y : ℕ → ℚ) : S'.BoundsHold y ↔ S.BoundsHold (Function.update y j (q (y j))) := by
  have hj := (List.getElem?_eq_some_iff.1 hv).1
  constructor
  · intro h k w hw
    by_cases hk : j = k
    · subst hk
      rw [hv] at hw
      cases hw
      rw [Function.update_self]
      refine (hq _).1 (h j v' ?_)
      rw [hS, List.getElem?_set_self hj]
    · rw [Function.update_of_ne (Ne.symm hk)]
      refine h k w ?_
      rw [hS, List.getElem?_set_ne hk, hw]
  · intro h k w hw
    rw [hS] at hw
    by_cases hk : j = k
    · subst hk
      rw [List.getElem?_set_self hj] at hw
      cases hw
      have := h j v hv
      rw [Function.update_self] at this
      exact (hq _).2 this
    · rw [List.getElem?_set_ne hk] at hw
      have := h k w hw
      rwa [Function.update_of_ne (Ne.symm hk)] at this

theorem cost_set {S S' : GeneralForm} {j : ℕ} {v v' : Variable} (hv : S.vars[j]? = some v)
    (hS : S'.vars = S.vars.set j v') (y : ℕ → ℚ) :
    ∑ k ∈ Finset.range S'.vars.length, S'.costOf k * y k =
      ∑ k ∈ Finset.range S.vars.length, S.costOf k * y k + (v'.cost - v.cost) * y j := by
  have hj := (List.getElem?_eq_some_iff.1 hv).1
  have hl : S'.vars.length = S.vars.length := by rw [hS, List.length_set]
  have h : ∀ k ∈ Finset.range S.vars.length, S'.costOf k * y k =
      S.costOf k * y k + if k = j then (v'.cost - v.cost) * y j else 0 := by
    intro k _
    by_cases hk : k = j
    · subst hk
      rw [costOf, costOf, hS, List.getElem?_set_self hj, hv, if_pos rfl]
      simp only [Option.map_some, Option.getD_some]
      ring
    · rw [costOf, costOf, hS, List.getElem?_set_ne (Ne.symm hk), if_neg hk, add_zero]
  rw [hl, Finset.sum_congr rfl h, Finset.sum_add_distrib,
    Finset.sum_ite_eq' (Finset.range S.vars.length) j, if_pos (Finset.mem_range.2 hj)]

theorem shift_step {S : GeneralForm} {j : ℕ} {v : Variable} {l : ℚ} (hv : S.vars[j]? = some v)
    (hl : v.lowerBound = some l) (hb : S.b.length = S.constraintTypes.length) :
    StepState S j ⟨v.variableType, v.cost, some 0, v.upperBound.map fun upper => upper - l,
      v.shift - l, v.flipped⟩ (fun y => y + l) (shiftVariable j S) := by
  have hj := (List.getElem?_eq_some_iff.1 hv).1
  have he : shiftVariable j S = { S with
      vars := S.vars.set j ⟨v.variableType, v.cost, some 0, v.upperBound.map fun upper => upper - l,
        v.shift - l, v.flipped⟩
      fixedCost := S.fixedCost + l * v.cost
      b := (S.col j).foldl (fun b p => b.modify p.1 fun x => x - p.2 * l) S.b } := by
    rw [shiftVariable, hv]
    simp only [hl]
    rfl
  rw [he]
  obtain ⟨b1, b2⟩ := shift_b l (S.col j) S.b
  refine ⟨rfl, rfl, rfl, rfl, rfl, b1, rfl, rfl, rfl, fun c hc => ⟨c, hc, .inl rfl⟩, fun y => ?_,
    bounds_set hv rfl (fun y => y + l) (fun y => ?_), fun y => ?_⟩
  · refine forall_congr' fun i => forall_congr' fun t => forall_congr' fun ht => ?_
    have hi : i < S.b.length := by rw [hb]; exact (List.getElem?_eq_some_iff.1 ht).1
    simp only
    rw [b2 i hi, ← holds_sub t (S.b.getD i 0) _ (SVec.val (S.col j) i * l)]
    have : S.rowValue (Function.update y j (y j + l)) i - SVec.val (S.col j) i * l =
        S.rowValue y i := by
      rw [rowValue, sum_update _ (fun k => SVec.val (S.col k) i) y hj, rowValue]
      ring
    rw [this]
    simp only [rowValue, col, List.length_set]
  · simp only [InBounds, hl]
    constructor
    · rintro ⟨h1, h2⟩
      refine ⟨fun x hx => ?_, fun u hu => ?_⟩
      · have h1 := h1 0 rfl
        have : l = x := by simpa using hx
        linarith
      · have := h2 (u - l) (by rw [hu]; rfl)
        linarith
    · rintro ⟨h1, h2⟩
      refine ⟨fun x hx => ?_, fun u hu => ?_⟩
      · have h1 := h1 l rfl
        have : 0 = x := by simpa using hx
        linarith
      · obtain ⟨w, hw, rfl⟩ := Option.map_eq_some_iff.1 hu
        have := h2 w hw
        linarith
  · rw [obj, cost_set hv rfl, obj, sum_update _ _ _ hj]
    simp only [costOf, hv, Option.map_some, Option.getD_some]
    ring

theorem flip_step {S : GeneralForm} {j : ℕ} {v : Variable} {u : ℚ} (hv : S.vars[j]? = some v)
    (hl : v.lowerBound = none) (hu : v.upperBound = some u) 
    (hd : S.constraints.data.length = S.vars.length) :
    StepState S j ⟨v.variableType, v.cost * -1, some (-u), none, v.shift * -1, !v.flipped⟩
      (fun y => -y) (flipVariable j S) := by
  have hj := (List.getElem?_eq_some_iff.1 hv).1
  have he : flipVariable j S = { S with
      vars := S.vars.set j ⟨v.variableType, v.cost * -1, some (-u), none, v.shift * -1, !v.flipped⟩
      constraints := { S.constraints with
        data := S.constraints.data.modify j fun c => SVec.scale c (-1) } } := by
    rw [flipVariable, hv]
    simp only [hl, hu]
    rfl
  rw [he]
  refine ⟨rfl, rfl, rfl, rfl, rfl, rfl, rfl, rfl, by simp, fun c hc => ?_, fun y => ?_,
    bounds_set hv rfl (fun y => -y) (fun y => ?_), fun y => ?_⟩
  · obtain ⟨k, hk⟩ := List.mem_iff_getElem?.1 hc
    rw [List.getElem?_modify] at hk
    obtain ⟨c0, h0, h1⟩ := Option.map_eq_some_iff.1 hk
    refine ⟨c0, List.mem_of_getElem? h0, ?_⟩
    by_cases h : j = k
    · rw [if_pos h] at h1; exact .inr h1.symm
    · rw [if_neg h] at h1; exact .inl h1.symm
  · refine forall_congr' fun i => forall_congr' fun t => forall_congr' fun ht => ?_
    have : S.rowValue (Function.update y j (-y j)) i =
        ({ S with
          vars := S.vars.set j ⟨v.variableType, v.cost * -1, some (-u), none, v.shift * -1,
            !v.flipped⟩
          constraints := { S.constraints with
            data := S.constraints.data.modify j fun c => SVec.scale c (-1) } } :
          GeneralForm).rowValue y i := by
      simp only [rowValue, col, List.length_set]
      apply Finset.sum_congr rfl
      intro k hk
      rw [List.getD_eq_getElem?_getD, List.getD_eq_getElem?_getD, List.getElem?_modify,
        List.getElem?_eq_getElem (by rw [hd]; exact Finset.mem_range.1 hk)]
      by_cases h : j = k
      · subst h
        simp only [if_pos, Option.map_eq_map, Option.map_some, Option.getD_some,
          Function.update_self]
        rw [SVec.val_scale]
        ring
      · rw [Function.update_of_ne (Ne.symm h)]
        simp [h]
    rw [this]
  · simp only [InBounds, hl, hu]
    constructor
    · rintro ⟨h1, -⟩
      refine ⟨by simp, fun x hx => ?_⟩
      have := h1 (-u) rfl
      have hx : u = x := by simpa using hx
      linarith
    · rintro ⟨-, h1⟩
      refine ⟨fun x hx => ?_, by simp⟩
      have := h1 u rfl
      have hx : -u = x := by simpa using hx
      linarith
  · rw [obj, cost_set hv rfl, obj, sum_update _ _ _ hj]
    simp only [costOf, hv, Option.map_some, Option.getD_some]
    ring

theorem scale_twice (c : SVec ℕ) : SVec.scale (SVec.scale c (-1)) (-1) = c := by
  simp only [SVec.scale, List.map_map]
  conv_rhs => rw [← List.map_id c]
  apply List.map_congr_left
  intro p _
  simp

theorem StepState.comp {S S' S'' : GeneralForm} {j : ℕ} {v' v'' : Variable} {q q' : ℚ → ℚ}
    (h : StepState S j v' q S') (h' : StepState S' j v'' q' S'') :
    StepState S j v'' (fun y => q (q' y)) S'' where
  vars := by rw [h'.vars, h.vars, List.set_set]
  objective := h'.objective.trans h.objective
  types := h'.types.trans h.types
  original := h'.original.trans h.original
  fromActive := h'.fromActive.trans h.fromActive
  bLength := h'.bLength.trans h.bLength
  minor := h'.minor.trans h.minor
  major := h'.major.trans h.major
  dataLength := h'.dataLength.trans h.dataLength
  columns c hc := by
    obtain ⟨c1, h1, e1⟩ := h'.columns c hc
    obtain ⟨c2, h2, e2⟩ := h.columns c1 h1
    refine ⟨c2, h2, ?_⟩
    rcases e1 with rfl | rfl
    · exact e2
    · rcases e2 with rfl | rfl
      · exact .inr rfl
      · exact .inl (scale_twice _)
  rows y := by
    rw [h'.rows, h.rows, Function.update_idem, Function.update_self]
  bounds y := by
    rw [h'.bounds, h.bounds, Function.update_idem, Function.update_self]
  obj y := by
    rw [h'.obj, h.obj, Function.update_idem, Function.update_self]

/-- One iteration of `transform_variables`. -/
theorem transform_step {S : GeneralForm} {j : ℕ} {v : Variable} (hv : S.vars[j]? = some v)
    (hf : v.shift = 0 ∧ v.flipped = false) (hn : v.lowerBound ≠ none ∨ v.upperBound ≠ none)
    (hb : S.b.length = S.constraintTypes.length)
    (hd : S.constraints.data.length = S.vars.length) :
    ∃ v', StepState S j v' (unshift v') (shiftVariable j (flipVariable j S)) ∧
      v'.lowerBound = some 0 ∧
      ((∀ l ∈ v.lowerBound, ∀ u ∈ v.upperBound, l ≤ u) → ∀ u ∈ v'.upperBound, 0 ≤ u) ∧
      unshift v' 0 = baseValue v := by
  rcases hl : v.lowerBound with _ | l
  · rcases hu : v.upperBound with _ | u
    · simp [hl, hu] at hn
    · have h1 := flip_step hv hl hu hd
      have hv' : (flipVariable j S).vars[j]? = some
          ⟨v.variableType, v.cost * -1, some (-u), none, v.shift * -1, !v.flipped⟩ := by
        rw [h1.vars, List.getElem?_set_self (List.getElem?_eq_some_iff.1 hv).1]
      have h2 := shift_step hv' rfl (by rw [h1.bLength, h1.types, hb])
      have h3 := h1.comp h2
      refine ⟨⟨v.variableType, v.cost * -1, some 0, none, v.shift * -1 - -u, !v.flipped⟩, ?_, rfl,
        by simp, by simp [unshift, baseValue, hl, hu, hf]⟩
      convert h3 using 1
      · rfl
      · funext y
        simp only [unshift, hf]
        simp
        try ring
  · have he : flipVariable j S = S := by
      rw [flipVariable, hv]
      simp only [hl]
    rw [he]
    refine ⟨⟨v.variableType, v.cost, some 0, v.upperBound.map fun upper => upper - l,
      v.shift - l, v.flipped⟩, ?_, rfl, ?_, by simp [unshift, baseValue, hl, hf]⟩
    · have h3 := shift_step hv hl hb
      convert h3 using 1
      funext y
      simp only [unshift, hf]
      simp
    · intro h u hu
      obtain ⟨w, hw, rfl⟩ := Option.map_eq_some_iff.1 hu
      have := h l rfl w hw
      linarith

/-- The values of the variables before shifting and flipping. -/
def point (S : GeneralForm) (y : ℕ → ℚ) (j : ℕ) : ℚ :=
  match S.vars[j]? with
  | some v => unshift v (y j)
  | none => y j

/-- State of `transform_variables`, of which the loop starts with `T`, after `k` variables. -/
structure TransformState (T : GeneralForm) (k : ℕ) (S : GeneralForm) : Prop where
  length : S.vars.length = T.vars.length
  objective : S.objective = T.objective
  types : S.constraintTypes = T.constraintTypes
  original : S.original = T.original
  fromActive : S.fromActive = T.fromActive
  bLength : S.b.length = T.b.length
  minor : S.constraints.minor = T.constraints.minor
  major : S.constraints.major = T.constraints.major
  dataLength : S.constraints.data.length = T.constraints.data.length
  columns : ∀ c' ∈ S.constraints.data, ∃ c ∈ T.constraints.data, c' = c ∨ c' = SVec.scale c (-1)
  rest : ∀ j, k ≤ j → S.vars[j]? = T.vars[j]?
  lower : ∀ (j : ℕ) v, j < k → S.vars[j]? = some v → v.lowerBound = some 0
  upper : ∀ (j : ℕ) v, j < k → S.vars[j]? = some v →
    (∀ v ∈ T.vars, ∀ l ∈ v.lowerBound, ∀ u ∈ v.upperBound, l ≤ u) → ∀ u ∈ v.upperBound, 0 ≤ u
  base : ∀ (j : ℕ) v w, j < k → S.vars[j]? = some v → T.vars[j]? = some w → unshift v 0 = baseValue w
  rows : ∀ y, S.RowsHold y ↔ T.RowsHold (S.point y)
  bounds : ∀ y, S.BoundsHold y ↔ T.BoundsHold (S.point y)
  obj : ∀ y, S.obj y = T.obj (S.point y)

theorem point_fresh {T : GeneralForm} (h : ∀ v ∈ T.vars, v.shift = 0 ∧ v.flipped = false) (y : ℕ → ℚ) :
    T.point y = y := by
  funext j
  rw [point]
  split
  next v hv =>
    have := h v (List.mem_of_getElem? hv)
    simp [unshift, this]
  next => rfl

theorem transform_fold {T : GeneralForm} (hfresh : ∀ v ∈ T.vars, v.shift = 0 ∧ v.flipped = false)
    (hn : ∀ v ∈ T.vars, v.lowerBound ≠ none ∨ v.upperBound ≠ none)
    (hb : T.b.length = T.constraintTypes.length)
    (hd : T.constraints.data.length = T.vars.length) : ∀ k ≤ T.vars.length,
    TransformState T k ((List.range k).foldl (fun G j => shiftVariable j (flipVariable j G)) T) := by
  intro k
  induction k with
  | zero =>
    intro _
    simp only [List.range_zero, List.foldl_nil]
    refine ⟨rfl, rfl, rfl, rfl, rfl, rfl, rfl, rfl, rfl, fun c hc => ⟨c, hc, .inl rfl⟩,
      fun _ _ => rfl, ?_, ?_, ?_, ?_, ?_, ?_⟩
    · intro j v hj; omega
    · intro j v hj; omega
    · intro j v w hj; omega
    · intro y; rw [point_fresh hfresh]
    · intro y; rw [point_fresh hfresh]
    · intro y; rw [point_fresh hfresh]
  | succ k ih =>
    intro hk
    have h := ih (by omega)
    rw [List.range_succ, List.foldl_append, List.foldl_cons, List.foldl_nil]
    generalize (List.range k).foldl (fun G j => shiftVariable j (flipVariable j G)) T = S at h
    have hv : S.vars[k]? = some T.vars[k] := by
      rw [h.rest k le_rfl, List.getElem?_eq_getElem (by omega)]
    have hm : T.vars[k] ∈ T.vars := List.getElem_mem _
    obtain ⟨v', h1, h2, h3, h4⟩ := transform_step hv (hfresh _ hm) (hn _ hm)
      (by rw [h.bLength, h.types, hb]) (by rw [h.dataLength, h.length, hd])
    have hkl : k < S.vars.length := by rw [h.length]; omega
    have hp : ∀ y, S.point (Function.update y k (unshift v' (y k))) =
        (shiftVariable k (flipVariable k S)).point y := by
      intro y
      funext j
      rw [point, point, h1.vars]
      by_cases hj : k = j
      · subst hj
        rw [hv, List.getElem?_set_self hkl]
        simp only [Function.update_self]
        simp [unshift, hfresh _ hm]
      · rw [List.getElem?_set_ne hj, Function.update_of_ne (Ne.symm hj)]
    refine ⟨by rw [h1.vars, List.length_set, h.length], h1.objective.trans h.objective,
      h1.types.trans h.types, h1.original.trans h.original, h1.fromActive.trans h.fromActive,
      h1.bLength.trans h.bLength, h1.minor.trans h.minor, h1.major.trans h.major,
      h1.dataLength.trans h.dataLength, ?_, ?_, ?_, ?_, ?_, ?_, ?_, ?_⟩
    · intro c hc
      obtain ⟨c1, m1, e1⟩ := h1.columns c hc
      obtain ⟨c2, m2, e2⟩ := h.columns c1 m1
      refine ⟨c2, m2, ?_⟩
      rcases e1 with rfl | rfl
      · exact e2
      · rcases e2 with rfl | rfl
        · exact .inr rfl
        · exact .inl (scale_twice _)
    · intro j hj
      rw [h1.vars, List.getElem?_set_ne (by omega), h.rest j (by omega)]
    · intro j v hj hjv
      rw [h1.vars] at hjv
      by_cases he : k = j
      · subst he
        rw [List.getElem?_set_self hkl] at hjv
        cases hjv
        exact h2
      · rw [List.getElem?_set_ne he] at hjv
        exact h.lower j v (by omega) hjv
    · intro j v hj hjv hT
      rw [h1.vars] at hjv
      by_cases he : k = j
      · subst he
        rw [List.getElem?_set_self hkl] at hjv
        cases hjv
        exact h3 (hT _ hm)
      · rw [List.getElem?_set_ne he] at hjv
        exact h.upper j v (by omega) hjv hT
    · intro j v w hj hjv hw
      rw [h1.vars] at hjv
      by_cases he : k = j
      · subst he
        rw [List.getElem?_set_self hkl] at hjv
        rw [List.getElem?_eq_getElem (by omega)] at hw
        cases hjv
        cases hw
        exact h4
      · rw [List.getElem?_set_ne he] at hjv
        exact h.base j v w (by omega) hjv hw
    · intro y
      rw [h1.rows, h.rows, hp]
    · intro y
      rw [h1.bounds, h.bounds, hp]
    · intro y
      rw [h1.obj, h.obj, hp]

end GeneralForm

end Relp
