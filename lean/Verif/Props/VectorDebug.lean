import Verif.Model.VectorDebug
import Verif.Proof.DebugCheck
import Verif.Proof.PresolveDecide
import Verif.Props.Vector

/-!
# Vectors and matrices in a debug build (C76)

The operations on sparse vectors and what they mean for dense ones are in `Props/Vector.lean`.
-/

namespace Relp

open Spec

deriving instance DecidableEq for SparseVector

/-- What an operation does with a sparse vector, in a debug build. -/
def VectorOperation.applyDebug (v : SparseVector) : VectorOperation → Res SparseVector
  | set i x => v.setDebug i x
  | shift i x => v.shiftValueDebug i x
  | addMultiple c other => v.addMultipleDebug c other
  | multiply c => v.multiplyDebug c
  | divide c => v.divideDebug c
  | push x => v.pushValueDebug x
  | extend k => .ok (v.extend k)
  | remove indices => v.removeIndicesDebug indices

/-- The parts of the conditions of operations that are not checked: a multiple of a vector is not the zero
multiple, and the vector is a valid one. -/
def VectorOperation.Proper : VectorOperation → Prop
  | addMultiple c other => c ≠ 0 ∧ ∃ e, Represents other e
  | _ => True

/-- The effect of a sequence of operations of which the indices that are to be removed are sorted, none of which
removes all of the elements. -/
inductive OrderedEffects : List VectorOperation → List ℚ → List ℚ → Prop
  | nil {d} : OrderedEffects [] d d
  | cons {o os d e f} : DenseEffect o d e →
    (∀ indices, o = .remove indices → indices.Pairwise (· ≤ ·) ∧ e ≠ []) → OrderedEffects os e f →
    OrderedEffects (o :: os) d f

theorem OrderedEffects.dense {os : List VectorOperation} {d e : List ℚ} (h : OrderedEffects os d e) :
    DenseEffects os d e := by
  induction h with
  | nil => exact .nil
  | cons h _ _ ih => exact .cons h ih

theorem debugAssert_iff {α : Type} {b : Bool} {y : Res α} {a : α} :
    (debugAssert b >>= fun _ => y) = .ok a ↔ b = true ∧ y = .ok a := by
  cases b
  · constructor
    · intro h; cases h
    · rintro ⟨h, _⟩; cases h
  · exact ⟨fun h => ⟨rfl, h⟩, fun h => h.2⟩

theorem pure_iff {α : Type} {x a : α} : (pure x : Res α) = .ok a ↔ x = a :=
  ⟨fun h => Except.ok.inj h, fun h => by rw [h]; rfl⟩

theorem card_iff {indices : List ℕ} : indices.toFinset.card = indices.length ↔ indices.Nodup := by
  rw [List.card_toFinset]
  constructor
  · intro h
    have := (List.dedup_sublist indices).eq_of_length h
    rw [← this]
    exact List.nodup_dedup _
  · intro h
    rw [h.dedup]

theorem deleteAt_ne_nil {indices : List ℕ} {d : List ℚ} (hn : indices.Nodup) (hr : ∀ i ∈ indices, i < d.length) :
    deleteAt indices d ≠ [] ↔ indices.length < d.length := by
  rw [← List.length_pos_iff_ne_nil, deleteAt_length, keptIndices_length hn hr]
  omega

theorem applyDebug_iff {v w : SparseVector} {d : List ℚ} (hv : Represents v d) {o : VectorOperation}
    (ho : o.Proper) : o.applyDebug v = .ok w ↔ w = o.apply v ∧ ∃ e, DenseEffect o d e ∧
      ∀ indices, o = .remove indices → indices.Pairwise (· ≤ ·) ∧ e ≠ [] := by
  have hl := hv.length
  cases o with
  | set i x =>
    simp only [VectorOperation.applyDebug, SparseVector.setDebug, debugAssert_iff, pure_iff, decide_eq_true_eq,
      VectorOperation.apply]
    constructor
    · rintro ⟨h1, h2, rfl⟩
      exact ⟨rfl, _, .set (by omega) h2, fun _ h => by cases h⟩
    · rintro ⟨rfl, e, h, _⟩
      cases h with
      | set h1 h2 => exact ⟨by omega, h2, rfl⟩
  | shift i x =>
    simp only [VectorOperation.applyDebug, SparseVector.shiftValueDebug, debugAssert_iff, pure_iff,
      decide_eq_true_eq, VectorOperation.apply]
    constructor
    · rintro ⟨h1, rfl⟩
      exact ⟨rfl, _, .shift (by omega), fun _ h => by cases h⟩
    · rintro ⟨rfl, e, h, _⟩
      cases h with
      | shift h1 => exact ⟨by omega, rfl⟩
  | addMultiple c other =>
    obtain ⟨hc, f, hf⟩ := ho
    have hlf := hf.length
    simp only [VectorOperation.applyDebug, SparseVector.addMultipleDebug, debugAssert_iff, pure_iff,
      decide_eq_true_eq, VectorOperation.apply]
    constructor
    · rintro ⟨h1, rfl⟩
      exact ⟨rfl, _, .addMultiple hf (by omega) hc, fun _ h => by cases h⟩
    · rintro ⟨rfl, e, h, _⟩
      cases h with
      | addMultiple h1 h2 =>
        have := h1.length
        exact ⟨by omega, rfl⟩
  | multiply c =>
    simp only [VectorOperation.applyDebug, SparseVector.multiplyDebug, debugAssert_iff, pure_iff,
      decide_eq_true_eq, VectorOperation.apply]
    constructor
    · rintro ⟨h1, rfl⟩
      exact ⟨rfl, _, .multiply h1, fun _ h => by cases h⟩
    · rintro ⟨rfl, e, h, _⟩
      cases h with
      | multiply h1 => exact ⟨h1, rfl⟩
  | divide c =>
    simp only [VectorOperation.applyDebug, SparseVector.divideDebug, debugAssert_iff, pure_iff,
      decide_eq_true_eq, VectorOperation.apply]
    constructor
    · rintro ⟨h1, rfl⟩
      exact ⟨rfl, _, .divide h1, fun _ h => by cases h⟩
    · rintro ⟨rfl, e, h, _⟩
      cases h with
      | divide h1 => exact ⟨h1, rfl⟩
  | push x =>
    simp only [VectorOperation.applyDebug, SparseVector.pushValueDebug, debugAssert_iff, pure_iff,
      decide_eq_true_eq, VectorOperation.apply]
    constructor
    · rintro ⟨h1, rfl⟩
      exact ⟨rfl, _, .push h1, fun _ h => by cases h⟩
    · rintro ⟨rfl, e, h, _⟩
      cases h with
      | push h1 => exact ⟨h1, rfl⟩
  | extend k =>
    simp only [VectorOperation.applyDebug, VectorOperation.apply, Except.ok.injEq]
    constructor
    · rintro rfl
      exact ⟨rfl, _, .extend, fun _ h => by cases h⟩
    · rintro ⟨rfl, _⟩
      rfl
  | remove indices =>
    simp only [VectorOperation.applyDebug, SparseVector.removeIndicesDebug, debugAssert_iff, pure_iff,
      decide_eq_true_eq, VectorOperation.apply, card_iff]
    constructor
    · rintro ⟨h1, h2, h3, h4, rfl⟩
      rw [hl] at h3 h4
      refine ⟨rfl, _, .remove h2 h3, ?_⟩
      rintro _ ⟨⟩
      exact ⟨h1, (deleteAt_ne_nil h2 h3).2 h4⟩
    · rintro ⟨rfl, e, h, hi⟩
      cases h with
      | remove h1 h2 =>
        obtain ⟨h3, h4⟩ := hi indices rfl
        rw [hl]
        exact ⟨h3, h1, h2, (deleteAt_ne_nil h1 h2).1 h4, rfl⟩

/-- **C76** (vectors, partial): a debug build accepts a sequence of operations on a valid vector exactly if each of
them is allowed, and then gives the vector that a release build gives, which is a valid representation of the dense
vector that the operations lead to. Missing: zero multiples and invalid vectors that are added are not detected
(`C76_not_multiple`), and removing all elements is not accepted (`C76_not_remove`). -/
theorem C76_operations_partial (v w : SparseVector) (d : List ℚ) (hv : Represents v d) (os : List VectorOperation)
    (ho : ∀ o ∈ os, o.Proper) :
    os.foldlM VectorOperation.applyDebug v = .ok w ↔
      w = os.foldl VectorOperation.apply v ∧ ∃ e, OrderedEffects os d e ∧ Represents w e := by
  induction os generalizing v d with
  | nil =>
    constructor
    · intro h
      obtain rfl := Except.ok.inj h
      exact ⟨rfl, d, .nil, hv⟩
    · rintro ⟨rfl, _⟩
      rfl
  | cons o os ih =>
    rw [List.foldlM_cons, List.foldl_cons]
    constructor
    · intro h
      cases hx : o.applyDebug v with
      | error x => rw [hx] at h; cases h
      | ok u =>
        rw [hx] at h
        obtain ⟨rfl, e, he, hi⟩ := (applyDebug_iff hv (ho o (by simp))).1 hx
        obtain ⟨h1, f, h2, h3⟩ := (ih _ e (he.represents hv) fun o h => ho o (by simp [h])).1 h
        exact ⟨h1, f, .cons he hi h2, h3⟩
    · rintro ⟨h1, f, h2, h3⟩
      cases h2 with
      | cons he hi h2 =>
        rw [(applyDebug_iff hv (ho o (by simp))).2 ⟨rfl, _, he, hi⟩]
        exact (ih _ _ (he.represents hv) fun o h => ho o (by simp [h])).2 ⟨h1, f, h2, h3⟩

/-- **C76** (constructors and queries, partial): a list that is not empty can be collected, a standard basis vector
can be made exactly for an index in range, and reading an element or multiplying with a dense vector is accepted
exactly for an index in range and for equal lengths. Missing: a vector without elements (`C76_not_empty`). -/
theorem C76_constructors_partial :
    (∀ items v, SparseVector.fromListDebug items = .ok v ↔ items ≠ [] ∧ v = .fromList items) ∧
    (∀ i len v, SparseVector.standardBasisDebug i len = .ok v ↔ i < len ∧ v = .standardBasis i len) ∧
    (∀ (v : SparseVector) (d : List ℚ) i x, Represents v d →
      (v.getDebug i = .ok x ↔ i < d.length ∧ x = v.get i)) ∧
    ∀ (v : SparseVector) (d e : List ℚ) x, Represents v d →
      (v.innerProductWithDenseDebug e = .ok x ↔ e.length = d.length ∧ x = v.innerProductWithDense e) := by
  refine ⟨fun items v => ?_, fun i len v => ?_, fun v d i x hv => ?_, fun v d e x hv => ?_⟩
  · have h := Represents.fromList items
    simp only [SparseVector.fromListDebug, SparseVector.newDebug, debugAssert_iff, pure_iff, decide_eq_true_eq]
    constructor
    · rintro ⟨-, -, -, h1, -, rfl⟩
      refine ⟨fun h2 => h1 (by rw [h2]; rfl), rfl⟩
    · rintro ⟨h1, rfl⟩
      refine ⟨h.inRange, h.sorted.imp fun h => h.le, h.nonzero, ?_, ?_, rfl⟩
      · rw [h.length]
        simpa using h1
      · simp only [SparseVector.fromList, List.length_map]
        exact (List.length_filter_le _ _).trans (by simp)
  · simp only [SparseVector.standardBasisDebug, SparseVector.newDebug, debugAssert_iff, pure_iff,
      decide_eq_true_eq, SVec.standardBasis, List.mem_singleton, forall_eq, List.pairwise_singleton,
      List.length_singleton, SparseVector.standardBasis]
    constructor
    · rintro ⟨h, -, -, -, -, -, rfl⟩
      exact ⟨h, rfl⟩
    · rintro ⟨h, rfl⟩
      have h0 : len ≠ 0 := by omega
      have h1 : 1 ≤ len := by omega
      exact ⟨h, h, trivial, one_ne_zero, h0, decide_eq_true h1, rfl⟩
  · simp only [SparseVector.getDebug, debugAssert_iff, pure_iff, decide_eq_true_eq, hv.length]
    exact and_congr_right fun _ => eq_comm
  · simp only [SparseVector.innerProductWithDenseDebug, debugAssert_iff, pure_iff, decide_eq_true_eq, hv.length]
    exact and_congr_right fun _ => eq_comm

/-- **C76** (matrices, partial): for a matrix that is valid, a debug build accepts a transposition, and accepts
removing indices, setting a value and concatenation exactly if the indices are in range, sorted and distinct, or
the dimensions equal; the result is that of a release build. Missing: setting a value to zero is not detected
(`C76_not_zero`). -/
theorem C76_matrices_partial (A : SparseMatrix) (D : List (List ℚ)) (h : RepresentsMatrix A D) (B : SparseMatrix) :
    SparseMatrix.fromMinorOrderedDebug A.data A.minor = .ok (.fromMinorOrdered A.data A.minor) ∧
    (∀ indices, A.removeMajorDebug indices = .ok B ↔
      indices.Pairwise (· < ·) ∧ (∀ i ∈ indices, i < A.major) ∧ B = A.removeMajor indices) ∧
    (∀ indices, A.removeMinorDebug indices = .ok B ↔
      indices.Pairwise (· < ·) ∧ (∀ i ∈ indices, i < A.minor) ∧ B = A.removeMinor indices) ∧
    (∀ i j x, A.setValueDebug i j x = .ok B ↔ i < A.major ∧ j < A.minor ∧ B = A.setValue i j x) ∧
    (∀ C E, RepresentsMatrix C E →
      (A.concatenateDebug C = .ok B ↔ A.minor = C.minor ∧ B = A.concatenate C)) ∧
    ∀ n, SparseMatrix.identityDebug n = .ok B ↔ n ≠ 0 ∧ B = .identity n := by
  have hvalid : ∀ {C : SparseMatrix} {E : List (List ℚ)}, RepresentsMatrix C E →
      SparseMatrix.newDebug C.data C.major C.minor = .ok C := by
    intro C E hC
    have hrow : ∀ v ∈ C.data, ∃ d, Represents ⟨v, C.minor⟩ d := by
      intro v hv
      obtain ⟨i, hi, rfl⟩ := List.mem_iff_getElem.1 hv
      have hi' : i < E.length := by rw [← hC.major, ← hC.length]; exact hi
      exact ⟨_, hC.rows i _ _ (List.getElem?_eq_getElem hi) (List.getElem?_eq_getElem hi')⟩
    simp only [SparseMatrix.newDebug, debugAssert_iff, pure_iff, decide_eq_true_eq]
    refine ⟨hC.length, fun v hv => ?_, fun v hv => ?_, fun v hv => ?_, trivial⟩
    · obtain ⟨d, hd⟩ := hrow v hv
      exact hd.sorted.imp fun h => h.le
    · obtain ⟨d, hd⟩ := hrow v hv
      exact hd.inRange
    · obtain ⟨d, hd⟩ := hrow v hv
      exact hd.nonzero
  have hsorted : ∀ {indices : List ℕ}, indices.Pairwise (· < ·) ↔ indices.Pairwise (· ≤ ·) ∧ indices.Nodup := by
    intro indices
    constructor
    · intro h
      exact ⟨h.imp fun h => h.le, h.imp fun h => h.ne⟩
    · rintro ⟨h1, h2⟩
      exact h1.imp₂ (fun _ _ h1 h2 => lt_of_le_of_ne h1 h2) h2
  have hcount : ∀ {indices : List ℕ} {n : ℕ}, indices.Nodup → (∀ i ∈ indices, i < n) → indices.length ≤ n := by
    intro indices n h1 h2
    rw [← card_iff.2 h1]
    refine (Finset.card_le_card (t := Finset.range n) fun i hi => ?_).trans (by simp)
    simpa using h2 i (by simpa using hi)
  have hnew := hvalid h
  simp only [SparseMatrix.newDebug, debugAssert_iff, pure_iff, decide_eq_true_eq] at hnew
  obtain ⟨hn1, hn2, hn3, hn4, -⟩ := hnew
  refine ⟨?_, fun indices => ?_, fun indices => ?_, fun i j x => ?_, fun C E hC => ?_, fun n => ?_⟩
  · simp only [SparseMatrix.fromMinorOrderedDebug, debugAssert_iff, decide_eq_true_eq]
    exact ⟨hn2, hn3, hvalid h.transpose⟩
  · simp only [SparseMatrix.removeMajorDebug, debugAssert_iff, pure_iff, decide_eq_true_eq, card_iff, hsorted]
    constructor
    · rintro ⟨-, h1, h2, h3, rfl⟩
      exact ⟨⟨h1, h2⟩, h3, rfl⟩
    · rintro ⟨⟨h1, h2⟩, h3, rfl⟩
      exact ⟨hcount h2 h3, h1, h2, h3, rfl⟩
  · simp only [SparseMatrix.removeMinorDebug, debugAssert_iff, pure_iff, decide_eq_true_eq, card_iff, hsorted]
    constructor
    · rintro ⟨-, h1, h2, h3, rfl⟩
      exact ⟨⟨h1, h2⟩, h3, rfl⟩
    · rintro ⟨⟨h1, h2⟩, h3, rfl⟩
      exact ⟨hcount h2 h3, h1, h2, h3, rfl⟩
  · simp only [SparseMatrix.setValueDebug, debugAssert_iff, pure_iff, decide_eq_true_eq]
    exact and_congr_right fun _ => and_congr_right fun _ => eq_comm
  · simp only [SparseMatrix.concatenateDebug, debugAssert_iff, decide_eq_true_eq]
    refine and_congr_right fun hm => ?_
    rw [show SparseMatrix.newDebug (A.data ++ C.data) (A.major + C.major) A.minor = .ok (A.concatenate C) from
      hvalid (h.concatenate hC hm), Except.ok.injEq]
    exact eq_comm
  · simp only [SparseMatrix.identityDebug, debugAssert_iff, decide_eq_true_eq]
    refine and_congr_right fun _ => ?_
    rw [show SparseMatrix.newDebug (SparseMatrix.identity n).data n n = .ok (SparseMatrix.identity n) from
      hvalid (RepresentsMatrix.identity n), Except.ok.injEq]
    exact eq_comm

/-! ### What is not as it should be -/

/-- **C76** (violated): all elements of a vector can not be removed, also if there are none and nothing is to be
removed. -/
theorem C76_not_remove : (∃ v, Represents v [1] ∧ DenseEffect (.remove [0]) [1] [] ∧
      v.removeIndicesDebug [0] = panic .debugAssertion) ∧
    ∃ v, Represents v [] ∧ DenseEffect (.remove []) [] [] ∧ v.removeIndicesDebug [] = panic .debugAssertion :=
  ⟨⟨_, Represents.fromList [1], .remove (d := [1]) (by simp) (by simp), by decide +kernel⟩,
    _, Represents.fromList [], .remove (d := []) (by simp) (by simp), by decide +kernel⟩

/-- **C76** (violated): a vector without elements can not be collected. -/
theorem C76_not_empty : SparseVector.fromListDebug [] = panic .debugAssertion := by decide +kernel

/-- **C76** (violated): that a multiple is zero is not detected; the vector has a stored zero afterwards. -/
theorem C76_not_multiple : ∃ v w, Represents v [1, 0] ∧ Represents w [0, 1] ∧
    v.addMultipleDebug 0 w = .ok ⟨[(0, 1), (1, 0)], 2⟩ ∧ ∀ d, ¬ Represents ⟨[(0, 1), (1, 0)], 2⟩ d :=
  ⟨_, _, Represents.fromList [1, 0], Represents.fromList [0, 1], by decide +kernel,
    fun _ h => h.nonzero (1, 0) (by simp) rfl⟩

/-- **C76** (violated): an index that occurs twice is not detected; the vector is not valid. -/
theorem C76_not_duplicate : SparseVector.newDebug [(0, 1), (0, 2)] 2 = .ok ⟨[(0, 1), (0, 2)], 2⟩ ∧
    ∀ d, ¬ Represents ⟨[(0, 1), (0, 2)], 2⟩ d :=
  ⟨by decide +kernel, fun _ h => by simpa using h.sorted⟩

/-- **C76** (violated): setting a value of a matrix to zero is not detected; the matrix has a stored zero
afterwards. -/
theorem C76_not_zero : ∃ A D, RepresentsMatrix A D ∧ A.setValueDebug 0 0 0 = .ok ⟨[[(0, 0)]], 1, 1⟩ ∧
    ∀ D, ¬ RepresentsMatrix ⟨[[(0, 0)]], 1, 1⟩ D := by
  refine ⟨_, _, RepresentsMatrix.identity 1, by decide +kernel, fun D h => ?_⟩
  have h1 : 0 < D.length := by rw [← h.major]; exact one_pos
  exact (h.rows 0 [(0, 0)] D[0] rfl (List.getElem?_eq_getElem h1)).nonzero (0, 0) (by simp) rfl

/-- The hypotheses of `C76_operations_partial` are met by the operations of the example of C20, which are
accepted. -/
example : ∃ w, [VectorOperation.shift 3 (-5), .addMultiple (-2) (.fromList [1, 1, 0, 0]), .remove [0]].foldlM
    VectorOperation.applyDebug (.fromList [0, 2, 0, 5]) = .ok w ∧ Represents w [0, 0, 0] := by
  refine ⟨⟨[], 3⟩, by decide +kernel, ?_⟩
  have h : (⟨[], 3⟩ : SparseVector) = .fromList [0, 0, 0] := by simp [SparseVector.fromList]
  rw [h]
  exact Represents.fromList _

example : ∀ o ∈ [VectorOperation.shift 3 (-5), .addMultiple (-2) (.fromList [1, 1, 0, 0]), .remove [0]],
    o.Proper := by
  simp only [List.mem_cons, List.not_mem_nil, or_false, forall_eq_or_imp, forall_eq, VectorOperation.Proper]
  exact ⟨trivial, ⟨by norm_num, _, Represents.fromList _⟩, trivial⟩

/-- The hypothesis of `C76_matrices_partial` is met by an identity matrix: its first row is removed. -/
example : (SparseMatrix.identity 2).removeMajorDebug [0] = .ok ⟨[[(1, 1)]], 1, 2⟩ :=
  ((C76_matrices_partial _ _ (RepresentsMatrix.identity 2) _).2.1 [0]).2
    ⟨by simp, by simp [SparseMatrix.identity], by decide +kernel⟩

end Relp
