import Verif.Proof.Sparse
import Verif.Model.Basic

/-! # Deleting rows -/

namespace Relp

variable {m : ℕ} (rows : List (Fin m))

theorem kept_sorted : (kept rows).Pairwise (· < ·) :=
  (List.pairwise_lt_finRange m).sublist List.filter_sublist

theorem kept_strictMono : StrictMono (kept rows).get :=
  fun _ _ h => List.pairwise_iff_get.1 (kept_sorted rows) _ _ h

theorem kept_injective : Function.Injective (kept rows).get := (kept_strictMono rows).injective

theorem kept_get_notMem (i : Fin (keptLen rows)) : (kept rows).get i ∉ rows :=
  mem_kept.1 (List.get_mem _ _)

theorem exists_kept {i : Fin m} (h : i ∉ rows) : ∃ k, (kept rows).get k = i :=
  List.get_of_mem (mem_kept.2 h)

/-- Sums over all rows split into the remaining and the deleted ones. -/
theorem sum_kept {α : Type} [AddCommMonoid α] (f : Fin m → α) :
    ∑ i, f i = (∑ k, f ((kept rows).get k)) + ∑ i ∈ Finset.univ.filter (· ∈ rows), f i := by
  rw [← Finset.sum_filter_not_add_sum_filter Finset.univ (· ∈ rows) f]
  congr 1
  symm
  refine Finset.sum_bij (fun k _ => (kept rows).get k) ?_ ?_ ?_ ?_
  · intro k _; simpa using kept_get_notMem rows k
  · intro a _ b _ h; exact kept_injective rows h
  · intro i hi
    obtain ⟨k, hk⟩ := exists_kept rows (by simpa using hi)
    exact ⟨k, Finset.mem_univ _, hk⟩
  · intro k _; rfl

theorem idxOf_kept_get (k : Fin (keptLen rows)) : (kept rows).idxOf ((kept rows).get k) = k :=
  List.Nodup.idxOf_getElem ((kept_sorted rows).imp fun h => ne_of_lt h) _ k.isLt

theorem get_idxOf_kept {i : Fin m} (h : i ∉ rows) :
    (kept rows).get ⟨(kept rows).idxOf i, List.idxOf_lt_length_of_mem (mem_kept.2 h)⟩ = i := by
  simp

theorem val_removeSparseIndices (v : Sparse m) (k : Fin (keptLen rows)) :
    SVec.val (removeSparseIndices rows v) k = SVec.val v ((kept rows).get k) := by
  induction v with
  | nil => simp [removeSparseIndices]
  | cons p v ih =>
    rw [SVec.val_cons, ← ih]
    unfold removeSparseIndices
    by_cases h : p.1 ∈ rows
    · have : p.1 ≠ (kept rows).get k := fun he => kept_get_notMem rows k (he ▸ h)
      rw [if_neg this]
      simp [h]
    · rw [List.filterMap_cons]
      simp only [h, dif_neg, not_false_eq_true]
      rw [SVec.val_cons]
      congr 1
      have hiff : (⟨(kept rows).idxOf p.1, List.idxOf_lt_length_of_mem (mem_kept.2 h)⟩ :
          Fin (keptLen rows)) = k ↔ p.1 = (kept rows).get k := by
        constructor
        · intro he; rw [← he, get_idxOf_kept rows h]
        · intro he; apply Fin.ext; simp only; rw [he]; exact idxOf_kept_get rows k
      by_cases hk : p.1 = (kept rows).get k
      · rw [if_pos (hiff.2 hk), if_pos hk]
      · rw [if_neg fun he => hk (hiff.1 he), if_neg hk]

theorem wf_removeSparseIndices {v : Sparse m} (hv : SVec.WF v) :
    SVec.WF (removeSparseIndices rows v) := by
  constructor
  · unfold removeSparseIndices
    rw [List.pairwise_filterMap]
    refine hv.1.imp ?_
    intro p q hpq a ha b hb
    by_cases hp : p.1 ∈ rows
    · simp [hp] at ha
    by_cases hq : q.1 ∈ rows
    · simp [hq] at hb
    simp only [hp, hq, dif_neg, not_false_eq_true, Option.some.injEq] at ha hb
    subst ha hb
    simp only
    have hlt := (kept_strictMono rows).lt_iff_lt
      (a := ⟨(kept rows).idxOf p.1, List.idxOf_lt_length_of_mem (mem_kept.2 hp)⟩)
      (b := ⟨(kept rows).idxOf q.1, List.idxOf_lt_length_of_mem (mem_kept.2 hq)⟩)
    rw [get_idxOf_kept rows hp, get_idxOf_kept rows hq] at hlt
    exact hlt.1 hpq
  · intro p hp
    unfold removeSparseIndices at hp
    rw [List.mem_filterMap] at hp
    obtain ⟨q, hq, hqp⟩ := hp
    by_cases h : q.1 ∈ rows
    · simp [h] at hqp
    · simp only [h, dif_neg, not_false_eq_true, Option.some.injEq] at hqp
      subst hqp
      exact hv.2 q hq

theorem keptLen_eq {m : ℕ} {rows : List (Fin m)} (h : rows.Nodup) :
    keptLen rows = m - rows.length := by
  have h1 : (kept rows).Nodup := (List.nodup_finRange m).filter _
  have h2 : (kept rows).toFinset = Finset.univ \ rows.toFinset := by
    ext i
    simp [mem_kept]
  have h3 := List.toFinset_card_of_nodup h1
  rw [h2, Finset.card_sdiff_of_subset (Finset.subset_univ _), Finset.card_univ, Fintype.card_fin,
    List.toFinset_card_of_nodup h] at h3
  exact h3.symm

end Relp
