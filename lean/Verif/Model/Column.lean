import Verif.Model.MatrixData

/-!
# Model of iterators over columns

Models `/repo/src/algorithm/two_phase/matrix_provider/column/` and the iterators of
`/repo/src/algorithm/two_phase/matrix_provider/matrix_data.rs`. `next` takes the state of an iterator and returns
the item, if there is one, and the state after that. The iterators of the standard library (`vec::IntoIter`,
`option::IntoIter`, `Once`, `Chain` and `Enumerate`) are modelled by their documentation. References are the values
that they refer to.
-/

namespace Relp

namespace Iterate

/-! ### Iterators of the standard library -/

/-- `vec::IntoIter` -/
def listNext {α : Type} : List α → Option α × List α
  | [] => (none, [])
  | a :: l => (some a, l)

/-- `option::IntoIter` and `Once` -/
def optionNext {α : Type} (s : Option α) : Option α × Option α := (s, none)

/-- `Chain`: the first iterator is dropped as soon as it has no items, the second one is not. -/
structure Chain (S T : Type) where
  first : Option S
  second : T

/-- `Iterator::chain` -/
def chain {S T : Type} (s : S) (t : T) : Chain S T := ⟨some s, t⟩

/-- The second part of `Chain::next` -/
def Chain.nextSecond {S T α : Type} (nextT : T → Option α × T) (t : T) : Option α × Chain S T :=
  ((nextT t).1, ⟨none, (nextT t).2⟩)

/-- `Chain::next` -/
def Chain.next {S T α : Type} (nextS : S → Option α × S) (nextT : T → Option α × T) (c : Chain S T) :
    Option α × Chain S T :=
  match c.first with
  | none => Chain.nextSecond nextT c.second
  | some s =>
    match nextS s with
    | (some a, s) => (some a, ⟨some s, c.second⟩)
    | (none, _) => Chain.nextSecond nextT c.second

/-- `Enumerate::next` -/
def enumerateNext {S α : Type} (next : S → Option α × S) (s : S × ℕ) : Option (ℕ × α) × (S × ℕ) :=
  match next s.1 with
  | (some a, t) => (some (s.2, a), (t, s.2 + 1))
  | (none, t) => (none, (t, s.2))

/-- What `size_hint` returns: bounds on the number of items. -/
abbrev SizeHint := ℕ × Option ℕ

/-- `size_hint` of `option::IntoIter` and `Once` -/
def optionSizeHint {α : Type} : Option α → SizeHint
  | none => (0, some 0)
  | some _ => (1, some 1)

/-- `count` of `option::IntoIter` and `Once` -/
def optionCount {α : Type} : Option α → ℕ
  | none => 0
  | some _ => 1

/-- `fold` of `option::IntoIter` and `Once` -/
def optionFold {α β : Type} (f : β → α → β) : Option α → β → β
  | none, b => b
  | some a, b => f b a

/-- `Chain::size_hint` -/
def Chain.sizeHint {S T : Type} (hintS : S → SizeHint) (hintT : T → SizeHint) (c : Chain S T) : SizeHint :=
  match c.first with
  | none => hintT c.second
  | some s =>
    ((hintS s).1 + (hintT c.second).1,
      match (hintS s).2, (hintT c.second).2 with
      | some a, some b => some (a + b)
      | _, _ => none)

/-- `Chain::count` -/
def Chain.count {S T : Type} (countS : S → ℕ) (countT : T → ℕ) (c : Chain S T) : ℕ :=
  match c.first with
  | none => countT c.second
  | some s => countS s + countT c.second

/-- `Chain::fold` -/
def Chain.fold {S T β : Type} (foldS : S → β → β) (foldT : T → β → β) (c : Chain S T) (b : β) : β :=
  match c.first with
  | none => foldT c.second b
  | some s => foldT c.second (foldS s b)

/-! ### Iterators over slices -/

/-- `SparseSliceIterator` (column/mod.rs:123-126). -/
structure SparseSliceIterator where
  creator : SVec ℕ
  dataIndex : ℕ

/-- `new` (column/mod.rs:129-136), without the check in debug builds. -/
def SparseSliceIterator.new (slice : SVec ℕ) : SparseSliceIterator := ⟨slice, 0⟩

/-- `next` (column/mod.rs:142-151). The index is checked before. -/
def SparseSliceIterator.next (s : SparseSliceIterator) : Option (ℕ × ℚ) × SparseSliceIterator :=
  if h : s.dataIndex < s.creator.length then (some s.creator[s.dataIndex], ⟨s.creator, s.dataIndex + 1⟩)
  else (none, s)

/-- `fold`: the default implementation, which calls `next` until there are no items. -/
def SparseSliceIterator.fold {β : Type} (f : β → ℕ × ℚ → β) (s : SparseSliceIterator) (b : β) : β :=
  if h : s.dataIndex < s.creator.length then
    SparseSliceIterator.fold f ⟨s.creator, s.dataIndex + 1⟩ (f b s.creator[s.dataIndex])
  else b
termination_by s.creator.length - s.dataIndex

/-- `SparseOptionIterator` (column/mod.rs:154-157). -/
structure SparseOptionIterator where
  creator : Option (ℕ × ℚ)

/-- `new` (column/mod.rs:160-169), without the check in debug builds. -/
def SparseOptionIterator.new (option : Option (ℕ × ℚ)) : SparseOptionIterator := ⟨option⟩

/-- `next` (column/mod.rs:175-177). -/
def SparseOptionIterator.next (s : SparseOptionIterator) : Option (ℕ × ℚ) × SparseOptionIterator := (s.creator, ⟨none⟩)

/-- `DenseSliceIterator` (column/mod.rs:219-223). -/
structure DenseSliceIterator where
  creator : List ℚ
  dataIndex : ℕ

/-- `new` (column/mod.rs:226-231). -/
def DenseSliceIterator.new (slice : List ℚ) : DenseSliceIterator := ⟨slice, 0⟩

/-- `next` (column/mod.rs:237-249): a loop that ends at the end of the slice. -/
def DenseSliceIterator.next (s : DenseSliceIterator) : Option (ℕ × ℚ) × DenseSliceIterator :=
  if h : s.dataIndex < s.creator.length then
    if s.creator[s.dataIndex] ≠ 0 then (some (s.dataIndex, s.creator[s.dataIndex]), ⟨s.creator, s.dataIndex + 1⟩)
    else DenseSliceIterator.next ⟨s.creator, s.dataIndex + 1⟩
  else (none, s)
termination_by s.creator.length - s.dataIndex

/-! ### Columns -/

/-- The first value with this index, or zero: `index_to_string` of `SparseColumn` (column/mod.rs:105-110) and
`ArcIncidenceColumn` (representation.rs:120-124). Simplified to the number that is shown. -/
def findValue (values : SVec ℕ) (i : ℕ) : ℚ :=
  match values.find? fun p => p.1 = i with
  | none => 0
  | some p => p.2

/-- `iter` and `into_iter` of `SparseColumn` (column/mod.rs:101-103, 117-119). The same code is in
`ArcIncidenceColumn` (representation.rs:108-118) and, for `iter`, in `SparseVector` (sparse.rs:208-210). -/
def sparseIter (inner : SVec ℕ) : SparseSliceIterator := .new inner
@[inherit_doc sparseIter]
def sparseIntoIter (inner : SVec ℕ) : List (ℕ × ℚ) := inner

/-- `iter` of `DenseColumn` (column/mod.rs:208-210). -/
def denseIter (inner : List ℚ) : DenseSliceIterator := .new inner

/-- `into_iter` of `DenseColumn` (column/mod.rs:189-191). -/
def denseIntoIter (inner : List ℚ) : List ℚ × ℕ := (inner, 0)

/-- `index_to_string` of `DenseColumn` (column/mod.rs:212-216), as a number. -/
def denseValue (inner : List ℚ) (i : ℕ) : Option ℚ := inner[i]?

/-- `iter` and `into_iter` of `IdentityColumn` (identity.rs:52-54, 69-71). -/
def identityIter (index : ℕ) : Option (ℕ × ℚ) := some (index, 1)

/-- `index_to_string` of `IdentityColumn` (identity.rs:56-62), as a number. -/
def identityValue (index i : ℕ) : ℚ := if i = index then 1 else 0

end Iterate

namespace DataColumn

open Iterate

/-- `ColumnIntoIterator` (matrix_data.rs:505-509). -/
inductive IntoIterator
  | sparse (iter : Chain (List (ℕ × ℚ)) (Option (ℕ × ℚ)))
  | slack (iter : Option (ℕ × ℚ))
  | twoSlack (iter : Chain (Option (ℕ × ℚ)) (Option (ℕ × ℚ)))

/-- `into_iter` (matrix_data.rs:515-524). -/
def intoIter : DataColumn → IntoIterator
  | .sparse constraintValues bound => .sparse (chain constraintValues bound)
  | .slack tuple => .slack (some tuple)
  | .twoSlack first second => .twoSlack (chain (some first) (some second))

/-- `next` (matrix_data.rs:530-536). -/
def IntoIterator.next : IntoIterator → Option (ℕ × ℚ) × IntoIterator
  | .sparse iter => let r := iter.next listNext optionNext; (r.1, .sparse r.2)
  | .slack iter => let r := optionNext iter; (r.1, .slack r.2)
  | .twoSlack iter => let r := iter.next optionNext optionNext; (r.1, .twoSlack r.2)

/-- `ColumnIterator` (matrix_data.rs:563-568). -/
inductive Iterator
  | sparse (iter : Chain SparseSliceIterator SparseOptionIterator)
  | slack (iter : Option (ℕ × ℚ))
  | twoSlack (iter : Chain (Option (ℕ × ℚ)) (Option (ℕ × ℚ)))

/-- `iter` (matrix_data.rs:620-629). -/
def iter : DataColumn → Iterator
  | .sparse constraintValues bound => .sparse (chain (.new constraintValues) (.new bound))
  | .slack tuple => .slack (some tuple)
  | .twoSlack first second => .twoSlack (chain (some first) (some second))

/-- `next` (matrix_data.rs:573-579). -/
def Iterator.next : Iterator → Option (ℕ × ℚ) × Iterator
  | .sparse iter => let r := iter.next SparseSliceIterator.next SparseOptionIterator.next; (r.1, .sparse r.2)
  | .slack iter => let r := optionNext iter; (r.1, .slack r.2)
  | .twoSlack iter => let r := iter.next optionNext optionNext; (r.1, .twoSlack r.2)

/-- `size_hint` (matrix_data.rs:538-544), with those of the standard library: `vec::IntoIter`, `option::IntoIter` and
`Once` know how many items are left. -/
def IntoIterator.sizeHint : IntoIterator → SizeHint
  | .sparse iter => iter.sizeHint (fun l => (l.length, some l.length)) optionSizeHint
  | .slack iter => optionSizeHint iter
  | .twoSlack iter => iter.sizeHint optionSizeHint optionSizeHint

/-- `fold` (matrix_data.rs:554-560). -/
def IntoIterator.fold {β : Type} (f : β → ℕ × ℚ → β) : IntoIterator → β → β
  | .sparse iter => iter.fold (fun l b => l.foldl f b) (optionFold f)
  | .slack iter => optionFold f iter
  | .twoSlack iter => iter.fold (optionFold f) (optionFold f)

/-- `count` (matrix_data.rs:546-552). -/
def IntoIterator.count : IntoIterator → ℕ
  | .sparse iter => iter.count List.length optionCount
  | .slack iter => optionCount iter
  | .twoSlack iter => iter.count optionCount optionCount

/-- `size_hint` (matrix_data.rs:581-587). The iterators of the crate have the default implementation, which says
nothing. -/
def Iterator.sizeHint : Iterator → SizeHint
  | .sparse iter => iter.sizeHint (fun _ => (0, none)) (fun _ => (0, none))
  | .slack iter => optionSizeHint iter
  | .twoSlack iter => iter.sizeHint optionSizeHint optionSizeHint

/-- `fold` (matrix_data.rs:597-603). -/
def Iterator.fold {β : Type} (f : β → ℕ × ℚ → β) : Iterator → β → β
  | .sparse iter => iter.fold (SparseSliceIterator.fold f) fun s => optionFold f s.creator
  | .slack iter => optionFold f iter
  | .twoSlack iter => iter.fold (optionFold f) (optionFold f)

/-- `count` (matrix_data.rs:589-595). The default implementation of `count` is a `fold`. -/
def Iterator.count : Iterator → ℕ
  | .sparse iter => iter.count (fun s => s.fold (fun n _ => n + 1) 0) fun s => optionFold (fun n _ => n + 1) s.creator 0
  | .slack iter => optionCount iter
  | .twoSlack iter => iter.count optionCount optionCount

/-- `index_to_string` (matrix_data.rs:631-661). Simplified to the number that is shown. -/
def indexValue (i : ℕ) : DataColumn → ℚ
  | .sparse constraintValues bound =>
    match constraintValues.find? fun p => p.1 = i with
    | none =>
      match bound with
      | some (index, v) => if index = i then v else 0
      | none => 0
    | some p => p.2
  | .slack (index, value) => if index = i then value else 0
  | .twoSlack (index1, value1) (index2, value2) => if index1 = i then value1 else if index2 = i then value2 else 0

/-- `identity` (matrix_data.rs:498-502): aborts if the index is out of range. -/
def identity (i len : ℕ) : Except Panic DataColumn := if i < len then .ok (.slack (i, 1)) else .error .indexOutOfBounds

end DataColumn

namespace RemoveRows

/-- `pivot_element_indices` (generic_wrapper.rs:290-294) with `index_utils::remove_sparse_indices`, which drops pairs
by their first index and shifts those of the others. -/
def pivotElementIndices (skip : List ℕ) (inner : List (ℕ × ℕ)) : List (ℕ × ℕ) :=
  (inner.filter fun p => p.1 ∉ skip).map fun p => ((keptIndices skip p.1).length, p.2)

variable (M : MatrixData) (skip : List ℕ)

/-- `RemoveRows` of a `MatrixData` as a matrix provider (generic_wrapper.rs:224-284): `column` (229-233),
`cost_value` (235-239), `right_hand_side` (241-245), `nr_rows` (268-270) and `nr_columns` (272-274). A filtered
column can be filtered again. -/
def toProvider : Provider (M.nrRows - skip.length) M.nrColumns where
  column j := ((M.column j).intoFiltered skip).tuples.toFin (M.nrRows - skip.length)
  cost j := M.costValue j
  rhs i := (rightHandSide skip M.rightHandSide).getD i 0
  filteredColumn rows j :=
    (((M.column j).intoFiltered skip).intoFiltered (rows.map (·.val))).tuples.toFin (keptLen rows)

/-- The initial basis that the solver uses for it (generic_wrapper.rs:286-299). -/
def initialBasis : InitialBasis (M.nrRows - skip.length) M.nrColumns :=
  .partially ((pivotElementIndices skip M.pivotElementIndices).filterMap fun p =>
    if h : p.1 < M.nrRows - skip.length ∧ p.2 < M.nrColumns then some (⟨p.1, h.1⟩, ⟨p.2, h.2⟩) else none)

/-- `reconstruct_solution` (generic_wrapper.rs:278-283): that of the original problem. -/
def reconstructSolution (columnValues : SparseVector) : SparseVector := M.reconstructSolution columnValues

end RemoveRows

end Relp
