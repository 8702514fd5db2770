import Verif.Proof.LU
import Mathlib.Tactic.FinCases

/-!
# Properties of the permutations

C18 and C19.
-/

namespace Relp

open Permutation

variable {m : ℕ}

namespace Spec

/-- The two directions of a permutation are inverse to each other. -/
def IsBijection {P : ℕ → Type} [Permutation P] (p : P m) : Prop :=
  (∀ i, backward p (forward p i) = i) ∧ ∀ i, forward p (backward p i) = i

/-- The operations on items move the value at each index to the permuted index; the sorting ones,
which are called for sorted items, keep the items sorted (and free of zeros and duplicates). -/
structure PermutesItems {P : ℕ → Type} [Permutation P] (p : P m) : Prop where
  forward_unsorted : ∀ items i,
    SVec.val (forwardUnsorted p items) (forward p i) = SVec.val items i
  backward_unsorted : ∀ items i,
    SVec.val (backwardUnsorted p items) (backward p i) = SVec.val items i
  forward_sorted : ∀ items, SVec.WF items → SVec.WF (forwardSorted p items) ∧
    ∀ i, SVec.val (forwardSorted p items) (forward p i) = SVec.val items i
  backward_sorted : ∀ items, SVec.WF items → SVec.WF (backwardSorted p items) ∧
    ∀ i, SVec.val (backwardSorted p items) (backward p i) = SVec.val items i

end Spec

open Spec

/-! ### C18 -/

/-- **C18**, identity. -/
theorem C18_identity (p : IdentityPermutation m) : IsBijection p ∧ PermutesItems p :=
  ⟨⟨fun _ => rfl, fun _ => rfl⟩, ⟨fun _ _ => rfl, fun _ _ => rfl, fun _ h => ⟨h, fun _ => rfl⟩,
    fun _ h => ⟨h, fun _ => rfl⟩⟩⟩

/-- **C18**, swap of two positions. -/
theorem C18_swap (p : Swap m) : IsBijection p ∧ PermutesItems p := by
  refine ⟨⟨p.forward_forward, p.forward_forward⟩, ?_, ?_, ?_, ?_⟩
  · exact fun items i => SVec.val_map_injective p.forward_injective items i
  · exact fun items i => SVec.val_map_injective p.forward_injective items i
  all_goals
    intro items h
    change SVec.WF (p.forwardSorted items) ∧
      ∀ i, SVec.val (p.forwardSorted items) (p.forward i) = SVec.val items i
    rw [p.forwardSorted_eq h]
    exact ⟨wf_sortByIndex_map p.forward_injective h,
      fun i => val_sortByIndex_map p.forward_injective items i⟩

/-- **C18**, rotation of a position to the back. -/
theorem C18_rotate_to_back (p : RotateToBack m) : IsBijection p ∧ PermutesItems p := by
  refine ⟨⟨p.backward_forward, p.forward_backward⟩, ?_, ?_, ?_, ?_⟩
  · exact fun items i => SVec.val_map_injective p.forward_injective items i
  · exact fun items i => SVec.val_map_injective p.backward_injective items i
  · intro items h
    refine ⟨p.wf_forwardSorted h, fun i => ?_⟩
    exact (p.val_forwardSorted h _).trans (congrArg _ (p.backward_forward i))
  · intro items h
    refine ⟨p.wf_backwardSorted h, fun i => ?_⟩
    exact (p.val_backwardSorted h _).trans (congrArg _ (p.forward_backward i))

/-- **C18**, the forward direction of a swap and of a rotation are what their names say. -/
theorem C18_swap_forward (p : Swap m) (i : Fin m) : forward p i =
    if i = p.index0 then p.index1 else if i = p.index1 then p.index0 else i := rfl

theorem C18_rotate_to_back_forward (p : RotateToBack m) (i : Fin m) : (forward p i : ℕ) =
    if i < p.index then (i : ℕ) else if i = p.index then m - 1 else (i : ℕ) - 1 := by
  change ((p.forward i : Fin m) : ℕ) = _
  unfold RotateToBack.forward RotateToBack.pred
  split
  · rfl
  · split <;> rfl

/-- The explicit permutations that a program can get hold of, with the map from positions to positions
that they stand for. `Full::new` is called with the images of all positions, which have to be
different. -/
inductive FullHistory : Full m → (Fin m → Fin m) → Prop
  | identity : FullHistory (Full.identity m) id
  | new {f : Fin m → Fin m} : Function.Injective f → FullHistory (Full.new f) f
  | invert {p : Full m} {f g : Fin m → Fin m} : FullHistory p f → (∀ i, g (f i) = i) →
    FullHistory p.invert g
  | swap {p : Full m} {f : Fin m → Fin m} (i j : Fin m) : FullHistory p f →
    FullHistory (p.swap i j) (f ∘ Equiv.swap i j)
  | swapInverse {p : Full m} {f : Fin m → Fin m} (i j : Fin m) : FullHistory p f →
    FullHistory (p.swapInverse i j) (Equiv.swap i j ∘ f)

theorem swapAt_eq {α : Type} (i j : Fin m) (f : Fin m → α) :
    swapAt i j f = f ∘ Equiv.swap i j := by
  ext k
  unfold swapAt
  simp only [Function.comp_apply, Equiv.swap_apply_def]
  split
  · rfl
  · split <;> rfl

theorem swapAt_comp {f g : Fin m → Fin m} (h1 : ∀ i, g (f i) = i) (i j : Fin m) (k : Fin m) :
    swapAt (f i) (f j) g (f k) = Equiv.swap i j k := by
  have hinj : Function.Injective f := Function.LeftInverse.injective h1
  unfold swapAt
  simp only [hinj.eq_iff, h1, Equiv.swap_apply_def]

theorem Full.Valid.swap {p : Full m} (h : p.Valid) (i j : Fin m) : (p.swap i j).Valid := by
  constructor
  · intro k
    simp only [Full.swap, swapAt_eq i j, Function.comp_apply]
    rw [swapAt_comp h.bwd_fwd, Equiv.swap_apply_self]
  · intro k
    obtain ⟨l, rfl⟩ : ∃ l, p.fwd l = k := ⟨_, h.fwd_bwd k⟩
    simp only [Full.swap]
    rw [swapAt_comp h.bwd_fwd, swapAt_eq i j, Function.comp_apply, Equiv.swap_apply_self]

theorem Full.Valid.swapInverse {p : Full m} (h : p.Valid) (i j : Fin m) :
    (p.swapInverse i j).Valid := (h.invert.swap i j).invert

theorem FullHistory.valid {p : Full m} {f : Fin m → Fin m} (h : FullHistory p f) :
    p.Valid ∧ ∀ i, p.fwd i = f i := by
  induction h with
  | identity => exact ⟨Full.identity_valid, fun _ => rfl⟩
  | new hf => exact ⟨Full.new_valid hf, fun _ => rfl⟩
  | @invert p f g _ hgf ih =>
    refine ⟨ih.1.invert, fun i => ?_⟩
    obtain ⟨k, rfl⟩ : ∃ k, p.fwd k = i := ⟨_, ih.1.fwd_bwd i⟩
    change p.bwd _ = _
    rw [ih.1.bwd_fwd, ih.2, hgf]
  | swap i j _ ih =>
    refine ⟨ih.1.swap i j, fun k => ?_⟩
    simp only [Full.swap, swapAt_eq, Function.comp_apply, ih.2]
  | @swapInverse p f i j _ ih =>
    refine ⟨ih.1.swapInverse i j, fun k => ?_⟩
    change swapAt (p.bwd i) (p.bwd j) p.fwd k = _
    obtain ⟨l, rfl⟩ : ∃ l, p.bwd l = k := ⟨_, ih.1.bwd_fwd k⟩
    rw [swapAt_comp ih.1.fwd_bwd, Function.comp_apply, ← ih.2, ih.1.fwd_bwd]

/-- **C18**, explicit permutations: after any history of creation, inversion and swaps, the permutation
is a bijection, acts on items as it should, and its forward direction is the map that the history
stands for. -/
theorem C18_full (p : Full m) (f : Fin m → Fin m) (h : FullHistory p f) :
    IsBijection p ∧ PermutesItems p ∧ ∀ i, forward p i = f i := by
  obtain ⟨hv, hf⟩ := h.valid
  refine ⟨⟨hv.bwd_fwd, hv.fwd_bwd⟩, ⟨?_, ?_, ?_, ?_⟩, hf⟩
  · exact fun items i => SVec.val_map_injective hv.fwd_injective items i
  · exact fun items i => SVec.val_map_injective hv.bwd_injective items i
  · exact fun items h => ⟨wf_sortByIndex_map hv.fwd_injective h,
      fun i => val_sortByIndex_map hv.fwd_injective items i⟩
  · exact fun items h => ⟨wf_sortByIndex_map hv.bwd_injective h,
      fun i => val_sortByIndex_map hv.bwd_injective items i⟩

/-- A three-cycle, with the first two positions swapped afterwards. -/
example : FullHistory ((Full.new (m := 3) ![1, 2, 0]).swap 0 1) (![1, 2, 0] ∘ Equiv.swap 0 1) :=
  .swap 0 1 (.new (by decide))

example : forwardSorted (⟨0, 2⟩ : Swap 3) [(0, 5), (1, 7)] = [(1, 7), (2, 5)] := by decide +kernel

/-! ### C19 -/

/-- The cyclic shift of the positions from `i` on: position `i` reads from the last one, each later one
from the position before it. -/
def shiftFrom (i : Fin m) (k : Fin m) : Fin m :=
  if k < i then k
  else if k = i then ⟨m - 1, by have := i.2; omega⟩
  else ⟨k - 1, by have := k.2; omega⟩

theorem shiftFrom_eq (i k : Fin m) : shiftFrom i k = (⟨i⟩ : RotateToBack m).forward k := rfl

theorem rotateLeftFrom_eq {α : Type} (i : Fin m) (f : Fin m → α) (k : Fin m) :
    rotateLeftFrom i f k = f ((⟨i⟩ : RotateToBack m).backward k) := by
  unfold rotateLeftFrom RotateToBack.backward
  have := k.2
  by_cases h1 : k < i
  · simp [h1]
  · by_cases h2 : (k : ℕ) + 1 < m
    · simp [h1, h2, show (k : ℕ) < m - 1 by omega]
    · simp [h1, h2, show ¬ (k : ℕ) < m - 1 by omega]

/-- **C19**, what holds: the forward direction is always the composition with the shift, but the result
is a permutation (its two directions are inverse to each other) exactly if the permutation commutes
with the shift, as the identity does. Missing from the full statement are the permutations that do not
commute, for which it is false: `C19_rotation_breaks_permutation`. -/
theorem C19_rotate_partial (p : Full m) (hp : IsBijection p) (i : Fin m) :
    (∀ k, forward (p.rotateRightFrom i) k = forward p (shiftFrom i k)) ∧
    (IsBijection (p.rotateRightFrom i) ↔
      ∀ k, forward p (shiftFrom i k) = shiftFrom i (forward p k)) := by
  have hfwd : ∀ k, forward (p.rotateRightFrom i) k = forward p (shiftFrom i k) := by
    intro k
    change Relp.rotateRightFrom i p.fwd k = p.fwd (shiftFrom i k)
    unfold Relp.rotateRightFrom shiftFrom
    split
    · rfl
    · split <;> rfl
  refine ⟨hfwd, ?_⟩
  have hbwd : ∀ k, backward (p.rotateRightFrom i) k
      = p.bwd ((⟨i⟩ : RotateToBack m).backward k) := fun k => rotateLeftFrom_eq i p.bwd k
  have h1 : ∀ k, p.bwd (p.fwd k) = k := hp.1
  have h2 : ∀ k, p.fwd (p.bwd k) = k := hp.2
  set q : RotateToBack m := ⟨i⟩ with hq
  have hs : ∀ k, shiftFrom i k = q.forward k := fun k => rfl
  have hf : ∀ k, forward p k = p.fwd k := fun k => rfl
  constructor
  · intro hb k
    have := hb.1 k
    rw [hfwd, hbwd, hf, hs] at this
    rw [hf, hf, hs, hs]
    have h3 := congrArg p.fwd this
    rw [h2] at h3
    rw [← h3, q.forward_backward]
  · intro hc
    have hc' : ∀ k, p.fwd (q.forward k) = q.forward (p.fwd k) := hc
    refine ⟨fun k => ?_, fun k => ?_⟩
    · rw [hfwd, hbwd, hf, hs, hc', q.backward_forward, h1]
    · rw [hfwd, hbwd, hf, hs, hc', h2, q.forward_backward]

/-- The identity meets both sides of the equivalence. -/
example (i : Fin m) : IsBijection ((Full.identity m).rotateRightFrom i) :=
  ((C19_rotate_partial (Full.identity m) ⟨fun _ => rfl, fun _ => rfl⟩ i).2).2 fun _ => rfl

/-- Negation of **C19**: rotating the exchange of the last two of three positions, all positions from
the first on, gives an object of which the two directions are not inverse to each other. -/
theorem C19_rotation_breaks_permutation :
    IsBijection (Full.new (m := 3) ![0, 2, 1]) ∧
    ¬ IsBijection ((Full.new (m := 3) ![0, 2, 1]).rotateRightFrom 0) := by
  refine ⟨⟨?_, ?_⟩, fun h => ?_⟩
  · decide +kernel
  · decide +kernel
  · exact absurd (h.1 0) (by decide +kernel)

end Relp
