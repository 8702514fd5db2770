import Verif.Model.Vector
import Mathlib.Algebra.BigOperators.Group.Finset.Basic
import Mathlib.Data.Fintype.BigOperators

/-!
# Specification: directed graphs, flows and walks
-/

namespace Relp.Spec

/-- An arc of a directed graph, with a number. -/
structure Arc where
  source : ℕ
  target : ℕ
  value : ℚ
  deriving DecidableEq

/-- The arcs of the graph with the given adjacency matrix, of which column `source` has in row `target` the
number of the arc. They are ordered by source and then by target. -/
def arcs (adjacency : SparseMatrix) : List Arc :=
  adjacency.data.zipIdx.flatMap fun p => p.1.map fun q => ⟨p.2, q.1, q.2⟩

/-- A valid adjacency matrix, of a graph without loops: square, with valid sparse columns. -/
structure Adjacency (adjacency : SparseMatrix) : Prop where
  length : adjacency.data.length = adjacency.major
  wf : ∀ v ∈ adjacency.data, SVec.WF v
  inRange : ∀ v ∈ adjacency.data, ∀ p ∈ v, p.1 < adjacency.major
  noLoop : ∀ p ∈ adjacency.data.zipIdx, ∀ q ∈ p.1, q.1 ≠ p.2

section

variable (E : List Arc)

/-- The total flow on arcs that end in `v`. -/
def inflow (f : Fin E.length → ℚ) (v : ℕ) : ℚ := ∑ k, if E[k].target = v then f k else 0

/-- The total flow on arcs that begin in `v`. -/
def outflow (f : Fin E.length → ℚ) (v : ℕ) : ℚ := ∑ k, if E[k].source = v then f k else 0

/-- A flow of one unit from `s` to `t`, in a graph with `n` vertices: at vertices other than `s` and `t` what
flows in flows out, and at `t` one unit more flows in. -/
structure UnitFlow (n s t : ℕ) (f : Fin E.length → ℚ) : Prop where
  nonneg : ∀ k, 0 ≤ f k
  conserved : ∀ v < n, v ≠ s → v ≠ t → inflow E f v = outflow E f v
  arrives : inflow E f t = outflow E f t + 1

/-- The sum of the values of the arcs, weighted with the flow on them. -/
def flowCost (f : Fin E.length → ℚ) : ℚ := ∑ k, E[k].value * f k

/-- A walk is a list of arcs, each beginning where the one before ends. -/
inductive Walk : ℕ → ℕ → List (Fin E.length) → Prop
  | nil (v : ℕ) : Walk v v []
  | cons (k : Fin E.length) {w : ℕ} {p : List (Fin E.length)} (rest : Walk E[k].target w p) :
      Walk E[k].source w (k :: p)

/-- The sum of the values of the arcs of a walk. -/
def walkLength (p : List (Fin E.length)) : ℚ := (p.map fun k => E[k].value).sum

/-- A flow within the capacities of the arcs, that is conserved at vertices other than `s` and `t`. -/
structure CapacityFlow (n s t : ℕ) (f : Fin E.length → ℚ) : Prop where
  nonneg : ∀ k, 0 ≤ f k
  capacity : ∀ k, f k ≤ E[k].value
  conserved : ∀ v < n, v ≠ s → v ≠ t → inflow E f v = outflow E f v

/-- The total capacity of the arcs that leave a set of vertices. -/
def cutCapacity (S : Finset ℕ) : ℚ :=
  ∑ k : Fin E.length, if E[k].source ∈ S ∧ E[k].target ∉ S then E[k].value else 0

end

end Relp.Spec
