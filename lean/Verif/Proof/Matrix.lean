import Verif.Proof.Vector
import Mathlib.Data.List.Pairwise
import Mathlib.Data.List.Basic

/-!
# Sparse matrices
-/

namespace Relp

open Spec

/-- Uniqueness of the representation. -/
theorem Spec.Represents.unique {v w : SparseVector} {d : List ℚ} (h : Represents v d)
    (h' : Represents w d) : v = w := by
  have h1 : v.data = w.data := SVec.ext_of_wf h.wf h'.wf fun i => by rw [h.val, h'.val]
  have h2 : v.len = w.len := h.length.trans h'.length.symm
  cases v; cases w; simp_all

theorem Spec.RepresentsMatrix.unique {A B : SparseMatrix} {D : List (List ℚ)}
    (h : RepresentsMatrix A D) (h' : RepresentsMatrix B D) (hm : A.minor = B.minor) : A = B := by
  have h1 : A.major = B.major := h.major.trans h'.major.symm
  have h2 : A.data = B.data := by
    apply List.ext_getElem?
    intro i
    have e1 := h.length
    have e2 := h'.length
    have e3 := h.major
    by_cases hi : i < A.data.length
    · have hi2 : i < B.data.length := by omega
      have hi3 : i < D.length := by omega
      rw [List.getElem?_eq_getElem hi, List.getElem?_eq_getElem hi2]
      have r1 := h.rows i _ _ (List.getElem?_eq_getElem hi) (List.getElem?_eq_getElem hi3)
      have r2 := h'.rows i _ _ (List.getElem?_eq_getElem hi2) (List.getElem?_eq_getElem hi3)
      exact congrArg some (SparseVector.mk.inj (r1.unique r2)).1
    · rw [List.getElem?_eq_none (by omega), List.getElem?_eq_none (by omega)]
  cases A; cases B; simp_all

theorem Spec.RepresentsMatrix.rowLength {A : SparseMatrix} {D : List (List ℚ)}
    (h : RepresentsMatrix A D) {d : List ℚ} (hd : d ∈ D) : d.length = A.minor := by
  obtain ⟨i, hi⟩ := List.mem_iff_getElem?.1 hd
  have h1 := (List.getElem?_eq_some_iff.1 hi).1
  have e1 := h.length
  have e3 := h.major
  exact (h.rows i _ _ (List.getElem?_eq_getElem (by omega)) hi).length.symm

/-! ### Transposition -/

/-- The tuples of the vector with major index `j` after transposition. -/
def transposedTuples (data : List (SVec ℕ)) (j : ℕ) : SVec ℕ :=
  data.zipIdx.flatMap fun minor => (minor.1.filter fun p => p.1 = j).map fun p => (minor.2, p.2)

theorem foldl_modify (i : ℕ) (minor : SVec ℕ) (n : ℕ) (g : ℕ → SVec ℕ) :
    minor.foldl (fun majors p => majors.modify p.1 (· ++ [(i, p.2)])) ((List.range n).map g)
      = (List.range n).map fun j =>
        g j ++ (minor.filter fun p => p.1 = j).map fun p => (i, p.2) := by
  induction minor generalizing g with
  | nil => simp
  | cons p minor ih =>
    have : ((List.range n).map g).modify p.1 (· ++ [(i, p.2)])
        = (List.range n).map fun j => g j ++ if p.1 = j then [(i, p.2)] else [] := by
      apply List.ext_getElem?
      intro k
      rw [List.getElem?_modify, List.getElem?_map, List.getElem?_map]
      by_cases hk : k < n
      · rw [List.getElem?_range hk]
        by_cases hp : p.1 = k <;> simp [hp]
      · rw [List.getElem?_eq_none (by simpa using hk)]; rfl
    rw [List.foldl_cons, this, ih]
    apply List.map_congr_left
    intro j _
    by_cases hp : p.1 = j <;> simp [hp]

theorem fromMinorOrdered_data (data : List (SVec ℕ)) (n : ℕ) :
    (SparseMatrix.fromMinorOrdered data n).data
      = (List.range n).map (transposedTuples data) := by
  unfold SparseMatrix.fromMinorOrdered
  dsimp only
  have hinit : List.replicate n ([] : SVec ℕ) = (List.range n).map fun _ => [] := by
    apply List.ext_getElem?
    intro k
    rw [List.getElem?_map, List.getElem?_replicate]
    by_cases hk : k < n
    · rw [List.getElem?_range hk, if_pos hk]; rfl
    · rw [List.getElem?_eq_none (by simpa using hk), if_neg hk]; rfl
  have key : ∀ (l : List (SVec ℕ × ℕ)) (g : ℕ → SVec ℕ),
      l.foldl (fun majors minor => minor.1.foldl
        (fun majors p => majors.modify p.1 (· ++ [(minor.2, p.2)])) majors) ((List.range n).map g)
      = (List.range n).map fun j => g j ++ l.flatMap fun minor =>
        (minor.1.filter fun p => p.1 = j).map fun p => (minor.2, p.2) := by
    intro l
    induction l with
    | nil => intro g; simp
    | cons minor l ih =>
      intro g
      rw [List.foldl_cons, foldl_modify, ih]
      apply List.map_congr_left
      intro j _
      simp
  rw [hinit, key]
  apply List.map_congr_left
  intro j _
  simp [transposedTuples]

theorem mem_transposedTuples {data : List (SVec ℕ)} {j i : ℕ} {x : ℚ} :
    (i, x) ∈ transposedTuples data j ↔ ∃ v, data[i]? = some v ∧ (j, x) ∈ v := by
  simp only [transposedTuples, List.mem_flatMap, List.mem_map, List.mem_filter, Prod.exists,
    Prod.mk.injEq, List.mem_zipIdx_iff_getElem?, decide_eq_true_eq]
  constructor
  · rintro ⟨v, k, h1, a, b, ⟨h2, rfl⟩, rfl, rfl⟩
    exact ⟨v, h1, h2⟩
  · rintro ⟨v, h1, h2⟩
    exact ⟨v, i, h1, j, x, ⟨h2, rfl⟩, rfl, rfl⟩

theorem transposedTuples_sorted {data : List (SVec ℕ)}
    (hs : ∀ v ∈ data, v.Pairwise fun p q => p.1 < q.1) (j : ℕ) :
    (transposedTuples data j).Pairwise fun p q => p.1 < q.1 := by
  unfold transposedTuples
  rw [List.pairwise_flatMap]
  refine ⟨?_, ?_⟩
  · rintro ⟨v, i⟩ hv
    have hv' : v ∈ data := by
      have := List.mem_zipIdx_iff_getElem?.1 hv
      exact List.mem_of_getElem? this
    dsimp only
    rw [List.pairwise_map, List.pairwise_filter]
    refine (hs v hv').imp ?_
    intro p q hpq hp hq
    simp only [decide_eq_true_eq] at hp hq
    omega
  · have : (data.zipIdx.map Prod.snd).Pairwise (· < ·) := by
      rw [List.zipIdx_map_snd]
      exact List.pairwise_lt_range' (s := 0)
    refine (List.pairwise_map.1 this).imp ?_
    intro a b hab p hp q hq
    obtain ⟨_, _, rfl⟩ := List.mem_map.1 hp
    obtain ⟨_, _, rfl⟩ := List.mem_map.1 hq
    exact hab

theorem transpose_getElem? {n : ℕ} {D : List (List ℚ)} {j : ℕ} (hj : j < n) :
    (transpose n D)[j]? = some (D.map fun row => row.getD j 0) := by
  rw [transpose, List.getElem?_map, List.getElem?_range hj]; rfl

theorem Spec.RepresentsMatrix.transpose {A : SparseMatrix} {D : List (List ℚ)}
    (h : RepresentsMatrix A D) :
    RepresentsMatrix (SparseMatrix.fromMinorOrdered A.data A.minor) (transpose A.minor D) := by
  have e1 := h.length
  have e2 := h.major
  have hrow : ∀ (i : ℕ) v, A.data[i]? = some v → ∃ d, D[i]? = some d ∧ Represents ⟨v, A.minor⟩ d := by
    intro i v hv
    have hi := (List.getElem?_eq_some_iff.1 hv).1
    exact ⟨_, List.getElem?_eq_getElem (show i < D.length by omega),
      h.rows i v _ hv (List.getElem?_eq_getElem (show i < D.length by omega))⟩
  refine ⟨by simp [Spec.transpose, SparseMatrix.fromMinorOrdered], ?_, ?_⟩
  · rw [fromMinorOrdered_data]
    simp [SparseMatrix.fromMinorOrdered]
  · intro j v d hv hd
    rw [fromMinorOrdered_data, List.getElem?_map] at hv
    by_cases hj : j < A.minor
    · rw [List.getElem?_range hj] at hv
      obtain rfl := Option.some.inj hv
      rw [transpose_getElem? hj] at hd
      obtain rfl := Option.some.inj hd
      have hstored : ∀ i x, (i, x) ∈ transposedTuples A.data j ↔
          (D.map fun row => row.getD j 0)[i]? = some x ∧ x ≠ 0 := by
        intro i x
        rw [mem_transposedTuples, List.getElem?_map]
        constructor
        · rintro ⟨v, h1, h2⟩
          obtain ⟨d, h3, h4⟩ := hrow i v h1
          obtain ⟨h5, h6⟩ := (h4.stored j x).1 h2
          rw [h3]
          refine ⟨?_, h6⟩
          simp only [Option.map_some, List.getD_eq_getElem?_getD, h5]
          rfl
        · rintro ⟨h1, h2⟩
          match h3 : D[i]? with
          | none => rw [h3] at h1; simp at h1
          | some d =>
            have hi := (List.getElem?_eq_some_iff.1 h3).1
            have hA := List.getElem?_eq_getElem (show i < A.data.length by omega)
            refine ⟨_, hA, ?_⟩
            refine ((h.rows i _ _ hA h3).stored j x).2 ⟨?_, h2⟩
            rw [h3] at h1
            simp only [Option.map_some, Option.some.injEq, List.getD_eq_getElem?_getD] at h1
            match h5 : d[j]? with
            | none => rw [h5] at h1; exact absurd h1.symm h2
            | some y => rw [h5] at h1; exact congrArg some h1
      refine ⟨?_, fun p hp => ((hstored p.1 p.2).1 hp).2, ?_, ?_, hstored⟩
      · apply transposedTuples_sorted
        intro v hv
        obtain ⟨i, hi⟩ := List.mem_iff_getElem?.1 hv
        obtain ⟨d, _, h4⟩ := hrow i v hi
        exact h4.sorted
      · intro p hp
        obtain ⟨v, h1, _⟩ := mem_transposedTuples.1 hp
        exact (List.getElem?_eq_some_iff.1 h1).1
      · simp only [SparseMatrix.fromMinorOrdered, List.length_map]; omega
    · rw [List.getElem?_eq_none (by simpa using hj)] at hv
      simp at hv

theorem transpose_transpose {n : ℕ} {D : List (List ℚ)} (h : ∀ d ∈ D, d.length = n) :
    transpose D.length (transpose n D) = D := by
  apply List.ext_getElem?
  intro i
  by_cases hi : i < D.length
  · rw [transpose_getElem? hi, List.getElem?_eq_getElem hi]
    congr 1
    apply List.ext_getElem?
    intro j
    have hl := h _ (List.getElem_mem hi)
    rw [List.getElem?_map]
    by_cases hj : j < n
    · rw [transpose_getElem? hj, List.getElem?_eq_getElem (by omega)]
      simp only [Option.map_some, Option.some.injEq, List.getD_eq_getElem?_getD,
        List.getElem?_map, List.getElem?_eq_getElem hi]
      simp [List.getElem?_eq_getElem (show j < D[i].length by omega)]
    · rw [List.getElem?_eq_none (by simpa [transpose] using hj),
        List.getElem?_eq_none (by omega)]
      rfl
  · rw [List.getElem?_eq_none (by simpa [transpose] using hi), List.getElem?_eq_none (by omega)]

theorem Spec.RepresentsMatrix.transpose_twice {A : SparseMatrix} {D : List (List ℚ)}
    (h : RepresentsMatrix A D) :
    SparseMatrix.fromMinorOrdered (SparseMatrix.fromMinorOrdered A.data A.minor).data A.major = A := by
  have h1 := h.transpose.transpose
  have e1 : (SparseMatrix.fromMinorOrdered A.data A.minor).minor = A.major := h.length
  rw [e1, h.major, transpose_transpose fun d hd => h.rowLength hd] at h1
  rw [h.major]
  refine h1.unique h ?_
  change (SparseMatrix.fromMinorOrdered A.data A.minor).data.length = A.minor
  rw [fromMinorOrdered_data]; simp

/-! ### Other operations -/

theorem Spec.RepresentsMatrix.concatenate {A B : SparseMatrix} {D E : List (List ℚ)}
    (h : RepresentsMatrix A D) (h' : RepresentsMatrix B E) (hm : A.minor = B.minor) :
    RepresentsMatrix (A.concatenate B) (D ++ E) := by
  have e1 := h.length
  have e2 := h.major
  have e3 := h'.length
  have e4 := h'.major
  refine ⟨by simp [SparseMatrix.concatenate]; omega, by simp [SparseMatrix.concatenate]; omega, ?_⟩
  intro i v d hv hd
  change (A.data ++ B.data)[i]? = _ at hv
  change Represents ⟨v, A.minor⟩ d
  by_cases hi : i < D.length
  · rw [List.getElem?_append_left (by omega)] at hv
    rw [List.getElem?_append_left hi] at hd
    exact h.rows i v d hv hd
  · rw [List.getElem?_append_right (by omega)] at hv
    rw [List.getElem?_append_right (by omega)] at hd
    rw [hm]
    exact h'.rows _ v d hv (by rw [show A.data.length = D.length by omega]; exact hd)

theorem Spec.RepresentsMatrix.removeMajor {A : SparseMatrix} {D : List (List ℚ)}
    (h : RepresentsMatrix A D) {indices : List ℕ} (hn : indices.Nodup)
    (hr : ∀ i ∈ indices, i < A.major) :
    RepresentsMatrix (A.removeMajor indices) (deleteAt indices D) := by
  have e1 := h.length
  have e2 := h.major
  have hl : (keptIndices indices A.major).length = A.major - indices.length :=
    keptIndices_length hn hr
  refine ⟨?_, ?_, ?_⟩
  · rw [deleteAt_length, ← e2, hl]; rfl
  · change (removeListIndices indices A.data).length = _
    rw [removeListIndices_eq, deleteAt_length, e1, hl]; rfl
  · intro k v d hv hd
    change (removeListIndices indices A.data)[k]? = _ at hv
    rw [removeListIndices_eq, deleteAt_getElem?, e1] at hv
    rw [deleteAt_getElem?, ← e2] at hd
    match hk : (keptIndices indices A.major)[k]? with
    | none => rw [hk] at hv; simp at hv
    | some i =>
      rw [hk] at hv hd
      exact h.rows i v d hv hd

theorem Spec.RepresentsMatrix.removeMinor {A : SparseMatrix} {D : List (List ℚ)}
    (h : RepresentsMatrix A D) {indices : List ℕ} (hn : indices.Nodup)
    (hr : ∀ i ∈ indices, i < A.minor) :
    RepresentsMatrix (A.removeMinor indices) (D.map (deleteAt indices)) := by
  have e1 := h.length
  have e2 := h.major
  refine ⟨by simpa [SparseMatrix.removeMinor] using e2,
    by simpa [SparseMatrix.removeMinor] using e1, ?_⟩
  intro k v d hv hd
  change (A.data.map (removeSparseTuples indices))[k]? = _ at hv
  rw [List.getElem?_map] at hv hd
  match h1 : A.data[k]?, h2 : D[k]? with
  | none, _ => rw [h1] at hv; simp at hv
  | some v', none => rw [h2] at hd; simp at hd
  | some v', some d' =>
    rw [h1] at hv
    rw [h2] at hd
    obtain rfl := Option.some.inj hv
    obtain rfl := Option.some.inj hd
    exact (h.rows k v' d' h1 h2).remove hn hr

theorem Spec.RepresentsMatrix.setValue {A : SparseMatrix} {D : List (List ℚ)}
    (h : RepresentsMatrix A D) (i : ℕ) {j : ℕ} (hj : j < A.minor) {x : ℚ}
    (hx : x ≠ 0) : RepresentsMatrix (A.setValue i j x) (D.modify i fun d => d.set j x) := by
  have e1 := h.length
  have e2 := h.major
  refine ⟨by simpa [SparseMatrix.setValue] using e2, by simpa [SparseMatrix.setValue] using e1, ?_⟩
  intro k v d hv hd
  change (A.data.modify i fun v => SVec.set v j x)[k]? = _ at hv
  rw [List.getElem?_modify] at hv hd
  match h1 : A.data[k]?, h2 : D[k]? with
  | none, _ => rw [h1] at hv; simp at hv
  | some v', none => rw [h2] at hd; simp at hd
  | some v', some d' =>
    rw [h1] at hv
    rw [h2] at hd
    have h3 := h.rows k v' d' h1 h2
    by_cases hik : i = k
    · simp only [hik, if_true] at hv hd
      obtain rfl := Option.some.inj hv
      obtain rfl := Option.some.inj hd
      exact h3.set hj hx
    · simp only [hik, if_false] at hv hd
      obtain rfl := Option.some.inj hv
      obtain rfl := Option.some.inj hd
      exact h3

theorem Spec.Represents.changeSigns {v : SVec ℕ} {n : ℕ} {d : List ℚ} (h : Represents ⟨v, n⟩ d)
    (rows : List ℕ) :
    Represents ⟨v.map fun p => if p.1 ∈ rows then (p.1, p.2 * -1) else p, n⟩
      (d.mapIdx fun i x => if i ∈ rows then -x else x) := by
  have hmem : ∀ i x, (i, x) ∈ (v.map fun p => if p.1 ∈ rows then (p.1, p.2 * -1) else p) ↔
      (d.mapIdx fun i x => if i ∈ rows then -x else x)[i]? = some x ∧ x ≠ 0 := by
    intro i x
    rw [List.mem_map, List.getElem?_mapIdx]
    constructor
    · rintro ⟨⟨k, y⟩, h1, h2⟩
      obtain ⟨h3, h4⟩ := (h.stored k y).1 h1
      by_cases hk : k ∈ rows
      · simp only [hk, if_true, Prod.mk.injEq] at h2
        obtain ⟨rfl, rfl⟩ := h2
        rw [h3]
        simpa [hk] using h4
      · simp only [hk, if_false, Prod.mk.injEq] at h2
        obtain ⟨rfl, rfl⟩ := h2
        rw [h3]
        simpa [hk] using h4
    · rintro ⟨h1, h2⟩
      match h3 : d[i]? with
      | none => rw [h3] at h1; simp at h1
      | some y =>
        rw [h3] at h1
        have h1' := Option.some.inj h1
        dsimp only at h1'
        by_cases hi : i ∈ rows
        · rw [if_pos hi] at h1'
          refine ⟨(i, y), (h.stored i y).2 ⟨h3, ?_⟩, ?_⟩
          · intro hy; rw [hy] at h1'; exact h2 (by simpa using h1'.symm)
          · simp [hi, ← h1']
        · rw [if_neg hi] at h1'
          refine ⟨(i, y), (h.stored i y).2 ⟨h3, h1' ▸ h2⟩, ?_⟩
          simp [hi, ← h1']
  refine ⟨?_, fun p hp => ((hmem p.1 p.2).1 hp).2, ?_, ?_, hmem⟩
  · rw [List.pairwise_map]
    refine h.sorted.imp ?_
    intro p q hpq
    have : ∀ p : ℕ × ℚ, (if p.1 ∈ rows then (p.1, p.2 * -1) else p).1 = p.1 := by
      intro p; split <;> rfl
    rw [this, this]; exact hpq
  · intro p hp
    obtain ⟨q, hq, rfl⟩ := List.mem_map.1 hp
    have : (if q.1 ∈ rows then (q.1, q.2 * -1) else q).1 = q.1 := by split <;> rfl
    rw [this]; exact h.inRange q hq
  · simp only [List.length_mapIdx]; exact h.length

theorem Spec.RepresentsMatrix.changeSigns {A : SparseMatrix} {D : List (List ℚ)}
    (h : RepresentsMatrix A D) (rows : List ℕ) :
    RepresentsMatrix (A.changeMinorSigns rows)
      (D.map fun d => d.mapIdx fun i x => if i ∈ rows then -x else x) := by
  have e1 := h.length
  have e2 := h.major
  refine ⟨by simpa [SparseMatrix.changeMinorSigns] using e2,
    by simpa [SparseMatrix.changeMinorSigns] using e1, ?_⟩
  intro k v d hv hd
  change (A.data.map _)[k]? = _ at hv
  rw [List.getElem?_map] at hv hd
  match h1 : A.data[k]?, h2 : D[k]? with
  | none, _ => rw [h1] at hv; simp at hv
  | some v', none => rw [h2] at hd; simp at hd
  | some v', some d' =>
    rw [h1] at hv
    rw [h2] at hd
    obtain rfl := Option.some.inj hv
    obtain rfl := Option.some.inj hd
    exact (h.rows k v' d' h1 h2).changeSigns rows

theorem RepresentsMatrix.identity (n : ℕ) : RepresentsMatrix (SparseMatrix.identity n)
    ((List.range n).map fun i => (List.replicate n 0).set i 1) := by
  refine ⟨by simp [SparseMatrix.identity], by simp [SparseMatrix.identity], ?_⟩
  intro i v d hv hd
  change ((List.range n).map _)[i]? = _ at hv
  rw [List.getElem?_map] at hv hd
  by_cases hi : i < n
  · rw [List.getElem?_range hi] at hv hd
    obtain rfl := Option.some.inj hv
    obtain rfl := Option.some.inj hd
    exact Represents.standardBasis hi
  · rw [List.getElem?_eq_none (by simpa using hi)] at hv
    simp at hv

end Relp
