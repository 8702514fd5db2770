import Verif.Proof.Matrix

/-!
# Properties of sparse vectors and matrices

C20 and C21. The specification, in `Verif/Spec/Vector.lean`, relates sparse vectors and matrices to
dense ones, which are plain lists.
-/

namespace Relp

open Spec

/-! ### C20 -/

/-- The operations that change a sparse vector. -/
inductive VectorOperation
  | set (i : ℕ) (x : ℚ)
  | shift (i : ℕ) (x : ℚ)
  | addMultiple (c : ℚ) (other : SparseVector)
  | multiply (c : ℚ)
  | divide (c : ℚ)
  | push (x : ℚ)
  | extend (k : ℕ)
  | remove (indices : List ℕ)

/-- What an operation does with a sparse vector. -/
def VectorOperation.apply (v : SparseVector) : VectorOperation → SparseVector
  | set i x => v.set i x
  | shift i x => v.shiftValue i x
  | addMultiple c other => v.addMultiple c other
  | multiply c => v.multiply c
  | divide c => v.divide c
  | push x => v.pushValue x
  | extend k => v.extend k
  | remove indices => v.removeIndices indices

/-- What an operation means for a dense vector `d`, that becomes `e`; this includes the conditions
under which the operation may be called (asserted in debug builds). -/
inductive DenseEffect : VectorOperation → List ℚ → List ℚ → Prop
  | set {i x d} : i < d.length → x ≠ 0 → DenseEffect (.set i x) d (d.set i x)
  | shift {i x d} : i < d.length → DenseEffect (.shift i x) d (d.set i (d.getD i 0 + x))
  | addMultiple {c other e d} : Represents other e → e.length = d.length → c ≠ 0 →
    DenseEffect (.addMultiple c other) d (List.zipWith (fun x y => x + c * y) d e)
  | multiply {c d} : c ≠ 0 → DenseEffect (.multiply c) d (d.map (· * c))
  | divide {c d} : c ≠ 0 → DenseEffect (.divide c) d (d.map (· / c))
  | push {x d} : x ≠ 0 → DenseEffect (.push x) d (d ++ [x])
  | extend {k d} : DenseEffect (.extend k) d (d ++ List.replicate k 0)
  | remove {indices d} : indices.Nodup → (∀ i ∈ indices, i < d.length) →
    DenseEffect (.remove indices) d (deleteAt indices d)

/-- The effect of a sequence of operations. -/
inductive DenseEffects : List VectorOperation → List ℚ → List ℚ → Prop
  | nil {d} : DenseEffects [] d d
  | cons {o os d e f} : DenseEffect o d e → DenseEffects os e f → DenseEffects (o :: os) d f

theorem DenseEffect.represents {o : VectorOperation} {d e : List ℚ} (h : DenseEffect o d e)
    {v : SparseVector} (hv : Represents v d) : Represents (o.apply v) e := by
  have hl := hv.length
  cases h with
  | set hi hx => exact hv.set (by omega) hx
  | shift hi => exact hv.shift (by omega) _
  | addMultiple ho hlen hc => exact hv.add ho (by rw [hl, ho.length, hlen]) hc
  | multiply hc => exact hv.multiply hc
  | divide hc => exact hv.divide hc
  | push hx => exact hv.push hx
  | extend => exact hv.extend _
  | remove hn hr => exact hv.remove hn (by rw [hl]; exact hr)

/-- **C20.** Every sequence of operations on a sparse vector has the effect of the corresponding dense
operations, and leaves a valid representation behind. -/
theorem C20_operations (v : SparseVector) (d : List ℚ) (hv : Represents v d)
    (os : List VectorOperation) (e : List ℚ) (h : DenseEffects os d e) :
    Represents (os.foldl VectorOperation.apply v) e := by
  induction h generalizing v with
  | nil => exact hv
  | cons h _ ih => exact ih _ (h.represents hv)

/-- **C20.** The constructors create valid representations. -/
theorem C20_constructors :
    (∀ items, Represents (SparseVector.fromList items) items) ∧
    ∀ i len, i < len →
      Represents (SparseVector.standardBasis i len) ((List.replicate len 0).set i 1) :=
  ⟨Represents.fromList, fun _ _ => Represents.standardBasis⟩

/-- **C20.** Reading a valid representation gives what reading the dense vector gives: elements (zeros
are not stored), inner products with sparse and with dense vectors, and the squared norm. -/
theorem C20_queries (v w : SparseVector) (d e : List ℚ) (hv : Represents v d)
    (hw : Represents w e) (hlen : d.length = e.length) :
    (∀ i (hi : i < d.length), v.get i = if d[i] = 0 then none else some d[i]) ∧
    v.innerProduct w.data = inner d e ∧
    v.innerProductWithDense e = inner d e ∧
    denseSparseInnerProduct e v.data = inner e d ∧
    v.squaredNorm = inner d d := by
  have h1 := hv.length
  have h2 := hw.length
  refine ⟨fun i hi => ?_, hv.inner hw (by omega), hv.innerDense (by omega),
    hv.denseInner (by omega), hv.norm⟩
  rw [SparseVector.get, SVec.get?_eq hv.wf, hv.val, List.getD_eq_getElem _ _ hi]

/-- **C20.** A dense vector has just one valid representation. -/
theorem C20_unique (v w : SparseVector) (d : List ℚ) (hv : Represents v d) (hw : Represents w d) :
    v = w := hv.unique hw

/-- `(0, 2, 0, 5)`, of which the last element is shifted to zero, after which `-2` times `(1, 1, 0, 0)`
is added and the first position is removed. -/
example : DenseEffects [.shift 3 (-5), .addMultiple (-2) (.fromList [1, 1, 0, 0]), .remove [0]]
    [0, 2, 0, 5] [0, 0, 0] :=
  .cons (.shift (by decide)) (.cons (.addMultiple (Represents.fromList _) rfl (by norm_num))
    (.cons (.remove (by decide) (by decide)) (by
      have : deleteAt [0] (List.zipWith (fun x y => x + -2 * y)
          ([0, 2, 0, 5].set 3 (List.getD [0, 2, 0, 5] 3 0 + -5)) [1, 1, 0, 0])
          = ([0, 0, 0] : List ℚ) := by decide +kernel
      rw [this]; exact .nil)))

/-! ### C21 -/

/-- **C21.** Changing the order of a matrix transposes it. -/
theorem C21_transpose (A : SparseMatrix) (D : List (List ℚ)) (h : RepresentsMatrix A D) :
    RepresentsMatrix (SparseMatrix.fromMinorOrdered A.data A.minor) (transpose A.minor D) :=
  h.transpose

/-- **C21.** Changing the order twice gives the same matrix, as stored. -/
theorem C21_transpose_twice (A : SparseMatrix) (D : List (List ℚ)) (h : RepresentsMatrix A D) :
    SparseMatrix.fromMinorOrdered (SparseMatrix.fromMinorOrdered A.data A.minor).data A.major = A :=
  h.transpose_twice

/-- **C21.** Removing major or minor indices leaves the submatrix of the others. -/
theorem C21_remove (A : SparseMatrix) (D : List (List ℚ)) (h : RepresentsMatrix A D)
    (indices : List ℕ) (hn : indices.Nodup) :
    ((∀ i ∈ indices, i < A.major) → RepresentsMatrix (A.removeMajor indices) (deleteAt indices D)) ∧
    ((∀ i ∈ indices, i < A.minor) →
      RepresentsMatrix (A.removeMinor indices) (D.map (deleteAt indices))) :=
  ⟨h.removeMajor hn, h.removeMinor hn⟩

/-- **C21.** Changing the signs of rows of a column-major matrix does that, and nothing else. -/
theorem C21_change_signs (A : SparseMatrix) (D : List (List ℚ)) (h : RepresentsMatrix A D)
    (rows : List ℕ) : RepresentsMatrix (A.changeMinorSigns rows)
      (D.map fun d => d.mapIdx fun i x => if i ∈ rows then -x else x) := h.changeSigns rows

/-- **C21.** Setting a value, concatenation and the identity. -/
theorem C21_other (A : SparseMatrix) (D : List (List ℚ)) (h : RepresentsMatrix A D) :
    (∀ i j x, j < A.minor → x ≠ 0 →
      RepresentsMatrix (A.setValue i j x) (D.modify i fun d => d.set j x)) ∧
    (∀ B E, RepresentsMatrix B E → A.minor = B.minor →
      RepresentsMatrix (A.concatenate B) (D ++ E)) ∧
    ∀ n, RepresentsMatrix (SparseMatrix.identity n)
      ((List.range n).map fun i => (List.replicate n 0).set i 1) :=
  ⟨fun i _ _ hj hx => h.setValue i hj hx, fun _ _ => h.concatenate, RepresentsMatrix.identity⟩

/-- A matrix with a zero row. -/
example : RepresentsMatrix ⟨[[(0, 1), (2, 3)], []], 2, 3⟩ [[1, 0, 3], [0, 0, 0]] := by
  have h1 : (⟨[(0, 1), (2, 3)], 3⟩ : SparseVector) = .fromList [1, 0, 3] := by
    simp [SparseVector.fromList]
  have h2 : (⟨[], 3⟩ : SparseVector) = .fromList [0, 0, 0] := by
    simp [SparseVector.fromList]
  refine ⟨rfl, rfl, ?_⟩
  intro i v d hv hd
  match i with
  | 0 =>
    obtain rfl := Option.some.inj hv
    obtain rfl := Option.some.inj hd
    rw [h1]; exact Represents.fromList _
  | 1 =>
    obtain rfl := Option.some.inj hv
    obtain rfl := Option.some.inj hd
    rw [h2]; exact Represents.fromList _
  | n + 2 => simp at hv

end Relp
