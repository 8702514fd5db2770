import Verif.Model.Basic

/-!
# Model of the permutations

Models `/repo/src/algorithm/two_phase/tableau/inverse_maintenance/carry/lower_upper/permutation/`.
The size of a permutation is part of the type: indices are `Fin m`.
-/

namespace Relp

/-- `items.sort_unstable_by_key(|&(i, _)| i)`. All uses have distinct keys, so that stability does not
matter. -/
def sortByIndex {m : ℕ} (items : Sparse m) : Sparse m :=
  items.insertionSort fun p q => p.1 ≤ q.1

/-- `slice[i..].rotate_right(1)`. -/
def rotateRightFrom {m : ℕ} {α : Type} (i : Fin m) (f : Fin m → α) : Fin m → α := fun k =>
  if k < i then f k
  else if k = i then f ⟨m - 1, by have := i.2; omega⟩
  else f ⟨k - 1, by omega⟩

/-- `slice[i..].rotate_left(1)`. -/
def rotateLeftFrom {m : ℕ} {α : Type} (i : Fin m) (f : Fin m → α) : Fin m → α := fun k =>
  if k < i then f k
  else if h : (k : ℕ) + 1 < m then f ⟨k + 1, h⟩
  else f i

/-- `slice.swap(i, j)`. -/
def swapAt {m : ℕ} {α : Type} (i j : Fin m) (f : Fin m → α) : Fin m → α := fun k =>
  if k = i then f j else if k = j then f i else f k

/-- `Permutation` (permutation/mod.rs:17-124): the two directions, and the operations on items that
have default implementations. -/
class Permutation (P : ℕ → Type) where
  /-- `forward` -/
  forward : {m : ℕ} → P m → Fin m → Fin m
  /-- `backward` -/
  backward : {m : ℕ} → P m → Fin m → Fin m
  /-- `forward_unsorted` (permutation/mod.rs:94-100) -/
  forwardUnsorted : {m : ℕ} → P m → Sparse m → Sparse m :=
    fun p items => items.map fun x => (forward p x.1, x.2)
  /-- `backward_unsorted` (permutation/mod.rs:111-117) -/
  backwardUnsorted : {m : ℕ} → P m → Sparse m → Sparse m :=
    fun p items => items.map fun x => (backward p x.1, x.2)
  /-- `forward_sorted` (permutation/mod.rs:61-68) -/
  forwardSorted : {m : ℕ} → P m → Sparse m → Sparse m :=
    fun p items => sortByIndex (items.map fun x => (forward p x.1, x.2))
  /-- `backward_sorted` (permutation/mod.rs:75-82) -/
  backwardSorted : {m : ℕ} → P m → Sparse m → Sparse m :=
    fun p items => sortByIndex (items.map fun x => (backward p x.1, x.2))

/-! ### Full permutation -/

/-- `Full` (permutation/full.rs:15-20). -/
structure Full (m : ℕ) where
  fwd : Fin m → Fin m
  bwd : Fin m → Fin m

namespace Full

variable {m : ℕ}

/-- The sorted `(target, source)` tuples of `Full::new` (full.rs:30-34). -/
def sortedPairs (fwd : Fin m → Fin m) : List (Fin m × Fin m) :=
  ((List.finRange m).map fun i => (fwd i, i)).insertionSort fun p q => p.1 ≤ q.1

theorem length_sortedPairs (fwd : Fin m → Fin m) : (sortedPairs fwd).length = m := by
  simp [sortedPairs]

/-- `Full::new` (full.rs:26-41). -/
def new (fwd : Fin m → Fin m) : Full m where
  fwd
  bwd := fun j => ((sortedPairs fwd).get (j.cast (length_sortedPairs fwd).symm)).2

/-- `Full::identity` (full.rs:50-55). -/
def identity (m : ℕ) : Full m := ⟨fun i => i, fun i => i⟩

/-- `Full::invert` (full.rs:60-62). -/
def invert (p : Full m) : Full m := ⟨p.bwd, p.fwd⟩

/-- `Full::swap` (full.rs:64-73). -/
def swap (p : Full m) (i j : Fin m) : Full m :=
  ⟨swapAt i j p.fwd, swapAt (p.fwd i) (p.fwd j) p.bwd⟩

/-- `Full::swap_inverse` (full.rs:75-84). -/
def swapInverse (p : Full m) (i j : Fin m) : Full m :=
  ⟨swapAt (p.bwd i) (p.bwd j) p.fwd, swapAt i j p.bwd⟩

/-- `Full::rotate_right_from` (full.rs:86-91). -/
def rotateRightFrom (p : Full m) (i : Fin m) : Full m :=
  ⟨Relp.rotateRightFrom i p.fwd, rotateLeftFrom i p.bwd⟩

end Full

/-- `impl Permutation for Full` (full.rs:94-110). -/
instance : Permutation Full where
  forward p i := p.fwd i
  backward p i := p.bwd i

/-! ### Rotate to back -/

/-- `RotateToBack` (permutation/rotate_to_back.rs:14-22). -/
structure RotateToBack (m : ℕ) where
  index : Fin m

namespace RotateToBack

variable {m : ℕ}

/-- `i - 1` on an index. -/
def pred (i : Fin m) : Fin m := ⟨i - 1, by omega⟩

/-- `i + 1` on an index. It is only called for `i + 1 < m` (proved: the results agree with
`backward`); the other branch stands for an index out of range. -/
def succ (i : Fin m) : Fin m := if h : (i : ℕ) + 1 < m then ⟨i + 1, h⟩ else i

/-- `forward` (rotate_to_back.rs:42-50). -/
def forward (q : RotateToBack m) (i : Fin m) : Fin m :=
  if i < q.index then i
  else if i = q.index then ⟨m - 1, by have := q.index.2; omega⟩
  else pred i

/-- `backward` (rotate_to_back.rs:52-63). -/
def backward (q : RotateToBack m) (i : Fin m) : Fin m :=
  if i < q.index then i
  else if h : (i : ℕ) < m - 1 then ⟨i + 1, by omega⟩
  else q.index

/-- `forward_sorted` (rotate_to_back.rs:65-87). The position found by the binary search splits the
sorted items in those below the index and the others. -/
def forwardSorted (q : RotateToBack m) (items : Sparse m) : Sparse m :=
  let before := items.takeWhile fun x => decide (x.1 < q.index)
  match items.dropWhile fun x => decide (x.1 < q.index) with
  | [] => before
  | x :: rest =>
    if x.1 = q.index then
      before ++ (rest.map fun y => (pred y.1, y.2)) ++ [(⟨m - 1, by have := q.index.2; omega⟩, x.2)]
    else before ++ (x :: rest).map fun y => (pred y.1, y.2)

/-- `backward_sorted` (rotate_to_back.rs:89-117). -/
def backwardSorted (q : RotateToBack m) (items : Sparse m) : Sparse m :=
  let before := items.takeWhile fun x => decide (x.1 < q.index)
  let rest := items.dropWhile fun x => decide (x.1 < q.index)
  match rest.getLast? with
  | none => items
  | some x =>
    if (x.1 : ℕ) = m - 1 then
      before ++ (q.index, x.2) :: rest.dropLast.map fun y => (succ y.1, y.2)
    else before ++ rest.map fun y => (succ y.1, y.2)

end RotateToBack

/-- `impl Permutation for RotateToBack` (rotate_to_back.rs:41-122). -/
instance : Permutation RotateToBack where
  forward := RotateToBack.forward
  backward := RotateToBack.backward
  forwardSorted := RotateToBack.forwardSorted
  backwardSorted := RotateToBack.backwardSorted

/-! ### Swap -/

/-- `Swap` (permutation/swap.rs:9-12). -/
structure Swap (m : ℕ) where
  index0 : Fin m
  index1 : Fin m

namespace Swap

variable {m : ℕ}

/-- `forward` (swap.rs:25-35). -/
def forward (s : Swap m) (i : Fin m) : Fin m :=
  if i = s.index0 then s.index1 else if i = s.index1 then s.index0 else i

/-- `binary_search_by_key(&key, |&(i, _)| i)` on sorted items: the position of the key, or the
position at which it would have to be inserted. -/
def searchPosition (items : Sparse m) (key : Fin m) : ℕ :=
  (items.takeWhile fun y => decide (y.1 < key)).length

/-- The closure `rotate` (swap.rs:50-57): the item at position `found` gets the new index, then the
slice between the two positions is rotated by one step. -/
def rotate (items : Sparse m) (found notFound : ℕ) (x : ℚ) (newIndex : Fin m) : Sparse m :=
  if found < notFound then
    items.take found ++ (items.take notFound).drop (found + 1) ++ (newIndex, x) ::
      items.drop notFound
  else if found = notFound then
    items.take found ++ (newIndex, x) :: items.drop (found + 1)
  else
    items.take notFound ++ (newIndex, x) :: (items.take found).drop notFound ++
      items.drop (found + 1)

/-- `forward_sorted` (swap.rs:43-71). -/
def forwardSorted (s : Swap m) (items : Sparse m) : Sparse m :=
  match SVec.get? items s.index0, SVec.get? items s.index1 with
  | none, none => items
  | none, some y =>
    rotate items (searchPosition items s.index1) (searchPosition items s.index0) y s.index0
  | some x, none =>
    rotate items (searchPosition items s.index0) (searchPosition items s.index1) x s.index1
  | some x, some y => items.map fun z =>
      if z.1 = s.index0 then (s.index0, y) else if z.1 = s.index1 then (s.index1, x) else z

end Swap

/-- `impl Permutation for Swap` (swap.rs:24-84); `backward` is `forward`. -/
instance : Permutation Swap where
  forward := Swap.forward
  backward := Swap.forward
  forwardSorted := Swap.forwardSorted
  backwardSorted := Swap.forwardSorted

/-! ### Identity -/

/-- `Identity` (permutation/identity.rs). -/
structure IdentityPermutation (m : ℕ) where

/-- `impl Permutation for Identity` (permutation/identity.rs). -/
instance : Permutation IdentityPermutation where
  forward _ i := i
  backward _ i := i
  forwardUnsorted _ items := items
  backwardUnsorted _ items := items
  forwardSorted _ items := items
  backwardSorted _ items := items

end Relp
