import Verif.Model.DebugInverse
import Verif.Proof.LUSolve

/-! # Checks of a debug build that succeed -/

namespace Relp

open Permutation

theorem debugAssert_ok {b : Bool} (h : b = true) : debugAssert b = .ok () := by
  subst h; rfl

theorem forEach_ok {α : Type} {f : α → Res Unit} {l : List α} (h : ∀ a ∈ l, f a = .ok ()) :
    forEach f l = .ok () := by
  induction l with
  | nil => rfl
  | cons a l ih =>
    rw [forEach, h a (by simp)]
    exact ih fun b hb => h b (by simp [hb])

theorem okBind {α : Type} {x : Res Unit} {y : Res α} (h : x = .ok ()) : (do x; y) = y := by
  rw [h]; rfl

theorem bindOk {α β : Type} (a : α) (f : α → Res β) : ((.ok a : Res α) >>= f) = f a := rfl

theorem debugAssert_bind {α : Type} {b : Bool} (h : b = true) (y : Unit → Res α) :
    (debugAssert b >>= y) = y () := by
  subst h; rfl

theorem bindCongr {α β : Type} {x : Res α} {f g : α → Res β} (h : ∀ a, x = .ok a → f a = g a) :
    (x >>= f) = (x >>= g) := by
  cases hx : x with
  | error e => rfl
  | ok a => exact h a hx

theorem wf_length {len : ℕ} {v : SVec (Fin len)} (h : SVec.WF v) : v.length ≤ len := by
  have : (v.map (·.1)).Nodup := (List.pairwise_map.2 h.sorted).imp ne_of_lt
  simpa using this.length_le_card

theorem sparseVectorCheck_ok {len : ℕ} {v : SVec (Fin len)} (h : SVec.WF v) (h0 : 0 < len) :
    sparseVectorCheck v = .ok () := by
  unfold sparseVectorCheck
  rw [okBind (debugAssert_ok (by rw [decide_eq_true_eq]; exact h.sorted.imp le_of_lt)),
    okBind (debugAssert_ok (by rw [decide_eq_true_eq]; exact h.nonzero)),
    okBind (debugAssert_ok (by rw [decide_eq_true_eq]; exact h0.ne')),
    debugAssert_ok (by rw [decide_eq_true_eq]; exact wf_length h)]

variable {m : ℕ}

theorem sortedCheck_ok {v : Sparse m} (h : SVec.WF v) : sortedCheck v = .ok () :=
  debugAssert_ok (decide_eq_true (h.sorted.imp le_of_lt))

theorem strictlySortedCheck_ok {v : Sparse m} (h : SVec.WF v) : strictlySortedCheck v = .ok () :=
  debugAssert_ok (decide_eq_true h.sorted)

theorem forwardSortedDebug_ok {P : ℕ → Type} [Permutation P] (p : P m) {v : Sparse m} (h : SVec.WF v)
    (h2 : SVec.WF (forwardSorted p v)) : forwardSortedDebug p v = .ok (forwardSorted p v) := by
  unfold forwardSortedDebug
  rw [okBind (strictlySortedCheck_ok h), okBind (strictlySortedCheck_ok h2)]
  rfl

theorem backwardSortedDebug_ok {P : ℕ → Type} [Permutation P] (p : P m) {v : Sparse m} (h : SVec.WF v)
    (h2 : SVec.WF (backwardSorted p v)) : backwardSortedDebug p v = .ok (backwardSorted p v) := by
  unfold backwardSortedDebug
  rw [okBind (strictlySortedCheck_ok h), okBind (strictlySortedCheck_ok h2)]
  rfl

end Relp
