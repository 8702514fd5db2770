import Verif.Model.Permutation
import Verif.Proof.Sparse

/-!
# Permutations of sparse vectors
-/

namespace Relp

variable {m : ℕ}

namespace SVec

theorem val_perm {v w : Sparse m} (h : v.Perm w) (i : Fin m) : val v i = val w i :=
  (h.map _).sum_eq

theorem val_append (v w : Sparse m) (i : Fin m) : val (v ++ w) i = val v i + val w i := by
  simp [val]

theorem val_map_injective {f : Fin m → Fin m} (hf : Function.Injective f) (v : Sparse m)
    (i : Fin m) : val (v.map fun p => (f p.1, p.2)) (f i) = val v i := by
  induction v with
  | nil => rfl
  | cons p v ih =>
    rw [List.map_cons, val_cons, val_cons, ih]
    simp [hf.eq_iff]

end SVec

theorem sortByIndex_perm (v : Sparse m) : (sortByIndex v).Perm v := List.perm_insertionSort _ _

theorem val_sortByIndex (v : Sparse m) (i : Fin m) : SVec.val (sortByIndex v) i = SVec.val v i :=
  SVec.val_perm (sortByIndex_perm v) i

theorem wf_sortByIndex {v : Sparse m} (h1 : v.Pairwise fun p q => p.1 ≠ q.1)
    (h2 : ∀ p ∈ v, p.2 ≠ 0) : SVec.WF (sortByIndex v) := by
  have hp := sortByIndex_perm v
  refine ⟨?_, fun p hpm => h2 p (hp.mem_iff.1 hpm)⟩
  have hs : (sortByIndex v).Pairwise fun p q => p.1 ≤ q.1 := List.pairwise_insertionSort _ _
  have hn : (sortByIndex v).Pairwise fun p q => p.1 ≠ q.1 :=
    (hp.pairwise_iff (fun h => Ne.symm h)).2 h1
  exact (hs.and hn).imp fun h => lt_of_le_of_ne h.1 h.2

theorem wf_sortByIndex_map {f : Fin m → Fin m} (hf : Function.Injective f) {v : Sparse m}
    (hv : SVec.WF v) : SVec.WF (sortByIndex (v.map fun p => (f p.1, p.2))) := by
  apply wf_sortByIndex
  · rw [List.pairwise_map]
    exact hv.sorted.imp fun h he => h.ne (hf he)
  · intro p hp
    obtain ⟨q, hq, rfl⟩ := List.mem_map.1 hp
    exact hv.nonzero q hq

theorem val_sortByIndex_map {f : Fin m → Fin m} (hf : Function.Injective f) (v : Sparse m)
    (i : Fin m) : SVec.val (sortByIndex (v.map fun p => (f p.1, p.2))) (f i) = SVec.val v i := by
  rw [val_sortByIndex, SVec.val_map_injective hf]

/-- A sorted permutation of the mapped items is what sorting them gives. -/
theorem eq_sortByIndex_map {f : Fin m → Fin m} (hf : Function.Injective f) {v w : Sparse m}
    (hv : SVec.WF v) (hp : w.Perm (v.map fun p => (f p.1, p.2)))
    (hs : w.Pairwise fun p q => p.1 < q.1) :
    w = sortByIndex (v.map fun p => (f p.1, p.2)) := by
  refine SVec.ext_of_wf ⟨hs, ?_⟩ (wf_sortByIndex_map hf hv) ?_
  · intro p hpm
    obtain ⟨q, hq, rfl⟩ := List.mem_map.1 (hp.mem_iff.1 hpm)
    exact hv.nonzero q hq
  · intro i
    rw [val_sortByIndex, SVec.val_perm hp]

theorem takeWhile_lt {v : Sparse m} {k : Fin m} :
    ∀ p ∈ v.takeWhile fun x => decide (x.1 < k), p.1 < k := by
  induction v with
  | nil => simp
  | cons x v ih =>
    intro p hp
    rw [List.takeWhile_cons] at hp
    split at hp
    · rename_i h
      rcases List.mem_cons.1 hp with rfl | hp
      · simpa using h
      · exact ih p hp
    · simp at hp

theorem dropWhile_le {v : Sparse m} (hv : v.Pairwise fun p q => p.1 < q.1) {k : Fin m} :
    ∀ p ∈ v.dropWhile fun x => decide (x.1 < k), k ≤ p.1 := by
  induction v with
  | nil => simp
  | cons x v ih =>
    have hv' := List.pairwise_cons.1 hv
    intro p hp
    rw [List.dropWhile_cons] at hp
    split at hp
    · exact ih hv'.2 p hp
    · rename_i h
      have hx : k ≤ x.1 := by simpa using h
      rcases List.mem_cons.1 hp with rfl | hp
      · exact hx
      · exact hx.trans (hv'.1 p hp).le

/-! ### Rotate to back -/

namespace RotateToBack

theorem backward_forward (q : RotateToBack m) (i : Fin m) : q.backward (q.forward i) = i := by
  have h1 := i.2
  have h2 := q.index.2
  unfold forward backward pred
  split
  · rename_i h; simp [h]
  · rename_i h
    split
    · rename_i h'
      have : ¬ ((⟨m - 1, by omega⟩ : Fin m) < q.index) := by
        rw [Fin.lt_def]; simp only; omega
      simp [this, h']
    · rename_i h'
      have h3 : (i : ℕ) ≠ q.index := fun h => h' (Fin.ext h)
      have h4 : ¬ (i : ℕ) < q.index := fun h' => h h'
      have : ¬ ((⟨i - 1, by omega⟩ : Fin m) < q.index) := by
        rw [Fin.lt_def]; simp only; omega
      rw [if_neg this, dif_pos (by simp only; omega)]
      apply Fin.ext; simp only; omega

theorem forward_backward (q : RotateToBack m) (i : Fin m) : q.forward (q.backward i) = i := by
  have h1 := i.2
  have h2 := q.index.2
  unfold forward backward pred
  split
  · rename_i h; simp [h]
  · rename_i h
    have h4 : ¬ (i : ℕ) < q.index := fun h' => h h'
    split
    · rename_i h'
      have h5 : ¬ ((⟨i + 1, by omega⟩ : Fin m) < q.index) := by
        rw [Fin.lt_def]; simp only; omega
      have h6 : ¬ ((⟨i + 1, by omega⟩ : Fin m) = q.index) := by
        intro h; have := congrArg Fin.val h; simp only at this; omega
      rw [if_neg h5, if_neg h6]
      apply Fin.ext; simp
    · rename_i h'
      simp only [lt_irrefl, if_false, if_true]
      apply Fin.ext; simp only; omega

theorem forward_injective (q : RotateToBack m) : Function.Injective q.forward :=
  Function.LeftInverse.injective q.backward_forward

theorem backward_injective (q : RotateToBack m) : Function.Injective q.backward :=
  Function.LeftInverse.injective q.forward_backward

theorem forwardSorted_eq (q : RotateToBack m) {v : Sparse m} (hv : SVec.WF v) :
    q.forwardSorted v = sortByIndex (v.map fun p => (q.forward p.1, p.2)) := by
  have hsplit : v = (v.takeWhile fun x => decide (x.1 < q.index)) ++
      v.dropWhile fun x => decide (x.1 < q.index) := (List.takeWhile_append_dropWhile).symm
  have h1 := takeWhile_lt (v := v) (k := q.index)
  have h2 := dropWhile_le hv.sorted (k := q.index)
  have hs := hv.sorted
  unfold forwardSorted
  generalize hA : (v.takeWhile fun x => decide (x.1 < q.index)) = A at *
  generalize hB : (v.dropWhile fun x => decide (x.1 < q.index)) = B at *
  have hAmap : (A.map fun p => (q.forward p.1, p.2)) = A := by
    conv_rhs => rw [← List.map_id A]
    apply List.map_congr_left
    intro p hp
    simp [forward, h1 p hp]
  have hpred : ∀ C : Sparse m, (∀ p ∈ C, q.index < p.1) →
      (C.map fun p => (q.forward p.1, p.2)) = C.map fun p => (pred p.1, p.2) := by
    intro C hC
    apply List.map_congr_left
    intro p hp
    simp [forward, (hC p hp).not_gt, (hC p hp).ne']
  have hpredSorted : ∀ C : Sparse m, (∀ p ∈ C, q.index < p.1) → C.Pairwise (fun p q => p.1 < q.1) →
      (C.map fun p : Fin m × ℚ => (pred p.1, p.2)).Pairwise (fun p q => p.1 < q.1) := by
    intro C hC hs
    rw [List.pairwise_map]
    refine List.Pairwise.imp_of_mem ?_ hs
    intro a b ha hb hab
    have := hC a ha
    have := hC b hb
    simp only [pred, Fin.lt_def] at *
    omega
  rw [hsplit] at hs
  obtain ⟨hsA, hsB, hsAB⟩ := List.pairwise_append.1 hs
  match B, h2, hsB, hsAB, hsplit with
  | [], _, _, _, hsplit =>
    simp only
    apply eq_sortByIndex_map q.forward_injective hv _ hsA
    rw [hsplit]; simp [hAmap]
  | x :: rest, h2, hsB, hsAB, hsplit =>
    have hsB' := List.pairwise_cons.1 hsB
    have hx := h2 x (by simp)
    simp only
    split
    · rename_i hxi
      have hrest : ∀ p ∈ rest, q.index < p.1 := fun p hp => hxi ▸ hsB'.1 p hp
      apply eq_sortByIndex_map q.forward_injective hv
      · rw [hsplit, List.map_append, hAmap, List.map_cons, hpred rest hrest, List.append_assoc]
        apply List.Perm.append_left
        have : q.forward x.1 = ⟨m - 1, by have := q.index.2; omega⟩ := by
          simp [forward, hxi]
        rw [this]
        exact List.perm_append_singleton _ _
      · rw [List.append_assoc, List.pairwise_append]
        refine ⟨hsA, ?_, ?_⟩
        · rw [List.pairwise_append]
          refine ⟨hpredSorted rest hrest hsB'.2, by simp, ?_⟩
          intro a ha b hb
          obtain ⟨p, hp, rfl⟩ := List.mem_map.1 ha
          rw [List.mem_singleton.1 hb]
          have := hrest p hp
          have := p.1.2
          simp only [pred, Fin.lt_def] at *
          omega
        · intro a ha b hb
          have := h1 a ha
          rcases List.mem_append.1 hb with hb | hb
          · obtain ⟨p, hp, rfl⟩ := List.mem_map.1 hb
            have := hrest p hp
            simp only [pred, Fin.lt_def] at *
            omega
          · rw [List.mem_singleton.1 hb]
            have := q.index.2
            simp only [Fin.lt_def] at *
            omega
    · rename_i hxi
      have hall : ∀ p ∈ x :: rest, q.index < p.1 := by
        have hxlt : q.index < x.1 := lt_of_le_of_ne hx (Ne.symm hxi)
        intro p hp
        rcases List.mem_cons.1 hp with rfl | hp
        · exact hxlt
        · exact hxlt.trans (hsB'.1 p hp)
      apply eq_sortByIndex_map q.forward_injective hv
      · rw [hsplit, List.map_append, hAmap, hpred _ hall]
      · rw [List.pairwise_append]
        refine ⟨hsA, hpredSorted _ hall hsB, ?_⟩
        intro a ha b hb
        have := h1 a ha
        obtain ⟨p, hp, rfl⟩ := List.mem_map.1 hb
        have := hall p hp
        simp only [pred, Fin.lt_def] at *
        omega

theorem backwardSorted_eq (q : RotateToBack m) {v : Sparse m} (hv : SVec.WF v) :
    q.backwardSorted v = sortByIndex (v.map fun p => (q.backward p.1, p.2)) := by
  have hsplit : v = (v.takeWhile fun x => decide (x.1 < q.index)) ++
      v.dropWhile fun x => decide (x.1 < q.index) := (List.takeWhile_append_dropWhile).symm
  have h1 := takeWhile_lt (v := v) (k := q.index)
  have h2 := dropWhile_le hv.sorted (k := q.index)
  have hs := hv.sorted
  unfold backwardSorted
  generalize hA : (v.takeWhile fun x => decide (x.1 < q.index)) = A at *
  generalize hB : (v.dropWhile fun x => decide (x.1 < q.index)) = B at *
  have hAmap : (A.map fun p => (q.backward p.1, p.2)) = A := by
    conv_rhs => rw [← List.map_id A]
    apply List.map_congr_left
    intro p hp
    simp [backward, h1 p hp]
  have hsucc : ∀ C : Sparse m, (∀ p ∈ C, q.index ≤ p.1 ∧ (p.1 : ℕ) < m - 1) →
      (C.map fun p => (q.backward p.1, p.2)) = C.map fun p => (succ p.1, p.2) := by
    intro C hC
    apply List.map_congr_left
    intro p hp
    obtain ⟨h3, h4⟩ := hC p hp
    have h5 : (p.1 : ℕ) + 1 < m := by omega
    simp [backward, succ, h3.not_gt, h4, h5]
  have hsuccSorted : ∀ C : Sparse m, (∀ p ∈ C, q.index ≤ p.1 ∧ (p.1 : ℕ) < m - 1) →
      C.Pairwise (fun p q => p.1 < q.1) →
      (C.map fun p : Fin m × ℚ => (succ p.1, p.2)).Pairwise (fun p q => p.1 < q.1) := by
    intro C hC hs
    rw [List.pairwise_map]
    refine List.Pairwise.imp_of_mem ?_ hs
    intro a b ha hb hab
    have ha' := (hC a ha).2
    have hb' := (hC b hb).2
    have h5 : (a.1 : ℕ) + 1 < m := by omega
    have h6 : (b.1 : ℕ) + 1 < m := by omega
    simp only [succ, h5, h6, dif_pos, Fin.lt_def] at *
    omega
  have hsuccAbove : ∀ a : Fin m × ℚ, (a.1 : ℕ) < m - 1 → q.index ≤ a.1 → q.index < succ a.1 := by
    intro a ha hq
    have h5 : (a.1 : ℕ) + 1 < m := by omega
    simp only [succ, h5, dif_pos, Fin.lt_def, Fin.le_def] at *
    omega
  rw [hsplit] at hs
  obtain ⟨hsA, hsB, hsAB⟩ := List.pairwise_append.1 hs
  rcases List.eq_nil_or_concat B with rfl | ⟨C, x, rfl⟩
  · simp only [List.getLast?_nil]
    apply eq_sortByIndex_map q.backward_injective hv _ hv.sorted
    rw [hsplit]; simp [hAmap]
  · rw [List.concat_eq_append] at *
    obtain ⟨hsC, _, hsCx⟩ := List.pairwise_append.1 hsB
    have hC : ∀ p ∈ C, q.index ≤ p.1 ∧ (p.1 : ℕ) < m - 1 := by
      intro p hp
      refine ⟨h2 p (by simp [hp]), ?_⟩
      have := hsCx p hp x (by simp)
      have := x.1.2
      simp only [Fin.lt_def] at *
      omega
    have hx := h2 x (by simp)
    simp only [List.getLast?_append, List.getLast?_singleton, Option.some_or,
      List.dropLast_concat]
    split
    · rename_i hxm
      have hbx : q.backward x.1 = q.index := by
        have : ¬ (x.1 : ℕ) < m - 1 := by omega
        simp [backward, hx.not_gt, this]
      apply eq_sortByIndex_map q.backward_injective hv
      · rw [hsplit, List.map_append, hAmap, List.map_append, hsucc C hC, List.map_singleton, hbx]
        apply List.Perm.append_left
        exact (List.perm_append_singleton _ _).symm
      · rw [List.pairwise_append]
        refine ⟨hsA, ?_, ?_⟩
        · rw [List.pairwise_cons]
          refine ⟨?_, hsuccSorted C hC hsC⟩
          intro a ha
          obtain ⟨p, hp, rfl⟩ := List.mem_map.1 ha
          exact hsuccAbove p (hC p hp).2 (hC p hp).1
        · intro a ha b hb
          have h3 := h1 a ha
          rcases List.mem_cons.1 hb with rfl | hb
          · exact h3
          · obtain ⟨p, hp, rfl⟩ := List.mem_map.1 hb
            exact h3.trans (hsuccAbove p (hC p hp).2 (hC p hp).1)
    · rename_i hxm
      have hxlt : (x.1 : ℕ) < m - 1 := by have := x.1.2; omega
      have hall : ∀ p ∈ C ++ [x], q.index ≤ p.1 ∧ (p.1 : ℕ) < m - 1 := by
        intro p hp
        rcases List.mem_append.1 hp with hp | hp
        · exact hC p hp
        · rw [List.mem_singleton.1 hp]; exact ⟨hx, hxlt⟩
      apply eq_sortByIndex_map q.backward_injective hv
      · conv_rhs => rw [hsplit, List.map_append, hAmap, hsucc _ hall]
      · rw [List.pairwise_append]
        refine ⟨hsA, hsuccSorted _ hall hsB, ?_⟩
        intro a ha b hb
        obtain ⟨p, hp, rfl⟩ := List.mem_map.1 hb
        exact (h1 a ha).trans (hsuccAbove p (hall p hp).2 (hall p hp).1)

end RotateToBack

/-! ### Swap -/

namespace Swap

theorem forward_forward (s : Swap m) (i : Fin m) : s.forward (s.forward i) = i := by
  unfold forward
  split
  · rename_i h; subst h
    split
    · rename_i h; exact h
    · simp
  · rename_i h
    split
    · rename_i h'; subst h'; simp
    · rename_i h'; rfl

theorem forward_injective (s : Swap m) : Function.Injective s.forward :=
  Function.LeftInverse.injective s.forward_forward

theorem searchPosition_append {A B : Sparse m} {x : Fin m × ℚ} {k : Fin m}
    (hA : ∀ p ∈ A, p.1 < k) (hx : ¬ x.1 < k) :
    searchPosition (A ++ x :: B) k = A.length := by
  unfold searchPosition
  rw [List.takeWhile_append_of_pos (by simpa using hA)]
  simp [List.takeWhile_cons, hx]

theorem searchPosition_all {A : Sparse m} {k : Fin m} (hA : ∀ p ∈ A, p.1 < k) :
    searchPosition A k = A.length := by
  unfold searchPosition
  have := List.takeWhile_append_of_pos (p := fun y : Fin m × ℚ => decide (y.1 < k)) (l₁ := A)
    (l₂ := []) (by simpa using hA)
  rw [List.append_nil] at this
  rw [this]; simp

theorem searchPosition_split {A B : Sparse m} {k : Fin m}
    (hA : ∀ p ∈ A, p.1 < k) (hB : ∀ p ∈ B, ¬ p.1 < k) :
    searchPosition (A ++ B) k = A.length := by
  cases B with
  | nil => rw [List.append_nil]; exact searchPosition_all hA
  | cons x B => exact searchPosition_append hA (hB x (by simp))

theorem exists_split {v : Sparse m} (hv : SVec.WF v) (k : Fin m) :
    ∃ A B, v = A ++ B ∧ (∀ p ∈ A, p.1 < k) ∧ ∀ p ∈ B, k ≤ p.1 :=
  ⟨_, _, (List.takeWhile_append_dropWhile).symm, takeWhile_lt, dropWhile_le hv.sorted⟩

theorem rotate_eq {s : Swap m} {v : Sparse m} (hv : SVec.WF v) {a b : Fin m} {x : ℚ}
    (hab : ∀ i, s.forward i = if i = a then b else if i = b then a else i)
    (ha : (a, x) ∈ v) (hb : ∀ p ∈ v, p.1 ≠ b) :
    rotate v (searchPosition v a) (searchPosition v b) x b
      = sortByIndex (v.map fun p => (s.forward p.1, p.2)) := by
  have hne : a ≠ b := hb _ ha
  -- split at `a`
  obtain ⟨A, B', rfl, hA, hB'⟩ := exists_split hv a
  have haB : (a, x) ∈ B' := by
    rcases List.mem_append.1 ha with h | h
    · exact absurd (hA _ h) (lt_irrefl _)
    · exact h
  obtain ⟨hsA, hsB', hsAB⟩ := List.pairwise_append.1 hv.sorted
  obtain ⟨y, B, rfl⟩ : ∃ y B, B' = y :: B := by
    cases B' with
    | nil => simp at haB
    | cons y B => exact ⟨y, B, rfl⟩
  have hsB := List.pairwise_cons.1 hsB'
  have hy : y = (a, x) := by
    rcases List.mem_cons.1 haB with h | h
    · exact h.symm
    · exact absurd (hsB.1 _ h) (not_lt.2 (hB' y (by simp)))
  subst hy
  have hBgt : ∀ p ∈ B, a < p.1 := hsB.1
  have hfix : ∀ p : Fin m × ℚ, p.1 ≠ a → p.1 ≠ b → (s.forward p.1, p.2) = p := by
    intro p h1 h2
    rw [hab, if_neg h1, if_neg h2]
  have hmapA : (A.map fun p => (s.forward p.1, p.2)) = A := by
    conv_rhs => rw [← List.map_id A]
    exact List.map_congr_left fun p hp => hfix p (hA p hp).ne (hb p (by simp [hp]))
  have hmapB : (B.map fun p => (s.forward p.1, p.2)) = B := by
    conv_rhs => rw [← List.map_id B]
    exact List.map_congr_left fun p hp => hfix p (hBgt p hp).ne' (hb p (by simp [hp]))
  have hmap : ((A ++ (a, x) :: B).map fun p => (s.forward p.1, p.2)) = A ++ (b, x) :: B := by
    rw [List.map_append, List.map_cons, hmapA, hmapB, hab, if_pos rfl]
  have hposa : searchPosition (A ++ (a, x) :: B) a = A.length :=
    searchPosition_append hA (lt_irrefl _)
  rw [hposa]
  rcases lt_or_gt_of_ne hne with hlt | hgt
  · -- moves to the right
    have hwfB : SVec.WF B := ⟨hsB.2, fun p hp => hv.nonzero p (by simp [hp])⟩
    obtain ⟨B1, B2, rfl, hB1, hB2⟩ := exists_split hwfB b
    have hB2' : ∀ p ∈ B2, b < p.1 := fun p hp =>
      lt_of_le_of_ne (hB2 p hp) (Ne.symm (hb p (by simp [hp])))
    obtain ⟨hsB1, hsB2, hsB12⟩ := List.pairwise_append.1 hsB.2
    have hposb : searchPosition (A ++ (a, x) :: (B1 ++ B2)) b = A.length + 1 + B1.length := by
      have := searchPosition_split (A := A ++ (a, x) :: B1) (B := B2) (k := b) (by
        intro p hp
        rcases List.mem_append.1 hp with hp | hp
        · exact (hA p hp).trans hlt
        · rcases List.mem_cons.1 hp with rfl | hp
          · exact hlt
          · exact hB1 p hp) (fun p hp => (hB2 p hp).not_gt)
      simp only [List.append_assoc, List.cons_append, List.length_append, List.length_cons] at this
      rw [this]; omega
    rw [hposb]
    unfold rotate
    rw [if_pos (by omega)]
    have e1 : (A ++ (a, x) :: (B1 ++ B2)).take A.length = A := by simp
    have e2 : ((A ++ (a, x) :: (B1 ++ B2)).take (A.length + 1 + B1.length)).drop (A.length + 1)
        = B1 := by
      have h1 : A ++ (a, x) :: (B1 ++ B2) = (A ++ [(a, x)]) ++ B1 ++ B2 := by simp
      rw [h1, List.take_left' (by simp; omega), List.drop_left' (by simp)]
    have e3 : (A ++ (a, x) :: (B1 ++ B2)).drop (A.length + 1 + B1.length) = B2 := by
      have h1 : A ++ (a, x) :: (B1 ++ B2) = (A ++ (a, x) :: B1) ++ B2 := by simp
      rw [h1, List.drop_left' (by simp; omega)]
    rw [e1, e2, e3]
    apply eq_sortByIndex_map s.forward_injective hv
    · rw [hmap, List.append_assoc]
      apply List.Perm.append_left
      exact List.perm_middle
    · rw [List.append_assoc, List.pairwise_append]
      refine ⟨hsA, ?_, ?_⟩
      · rw [List.pairwise_append]
        refine ⟨hsB1, List.pairwise_cons.2 ⟨hB2', hsB2⟩, ?_⟩
        intro p hp q hq
        rcases List.mem_cons.1 hq with rfl | hq
        · exact hB1 p hp
        · exact hsB12 p hp q hq
      · intro p hp q hq
        rcases List.mem_append.1 hq with hq | hq
        · exact hsAB p hp q (by simp [hq])
        · rcases List.mem_cons.1 hq with rfl | hq
          · exact (hA p hp).trans hlt
          · exact hsAB p hp q (by simp [hq])
  · -- moves to the left
    have hwfA : SVec.WF A := ⟨hsA, fun p hp => hv.nonzero p (by simp [hp])⟩
    obtain ⟨A1, A2, rfl, hA1, hA2⟩ := exists_split hwfA b
    have hA2' : ∀ p ∈ A2, b < p.1 := fun p hp =>
      lt_of_le_of_ne (hA2 p hp) (Ne.symm (hb p (by simp [hp])))
    obtain ⟨hsA1, hsA2, hsA12⟩ := List.pairwise_append.1 hsA
    have hposb : searchPosition (A1 ++ A2 ++ (a, x) :: B) b = A1.length := by
      rw [List.append_assoc]
      apply searchPosition_split hA1
      intro p hp
      rcases List.mem_append.1 hp with hp | hp
      · exact (hA2 p hp).not_gt
      · rcases List.mem_cons.1 hp with rfl | hp
        · exact hgt.not_gt
        · exact (hgt.trans (hBgt p hp)).not_gt
    rw [hposb]
    have hgoal : A1 ++ (b, x) :: A2 ++ B
        = sortByIndex ((A1 ++ A2 ++ (a, x) :: B).map fun p => (s.forward p.1, p.2)) := by
      apply eq_sortByIndex_map s.forward_injective hv
      · rw [hmap, List.append_assoc, List.append_assoc]
        apply List.Perm.append_left
        exact List.perm_middle.symm
      · rw [List.append_assoc, List.pairwise_append]
        refine ⟨hsA1, ?_, ?_⟩
        · rw [List.cons_append, List.pairwise_cons]
          refine ⟨?_, List.pairwise_append.2 ⟨hsA2, hsB.2, ?_⟩⟩
          · intro p hp
            rcases List.mem_append.1 hp with hp | hp
            · exact hA2' p hp
            · exact hgt.trans (hBgt p hp)
          · intro p hp q hq
            exact hsAB p (by simp [hp]) q (by simp [hq])
        · intro p hp q hq
          rw [List.cons_append] at hq
          rcases List.mem_cons.1 hq with rfl | hq
          · exact hA1 p hp
          · rcases List.mem_append.1 hq with hq | hq
            · exact hsA12 p hp q hq
            · exact hsAB p (by simp [hp]) q (by simp [hq])
    rw [← hgoal]
    have e4 : (A1 ++ A2 ++ (a, x) :: B).drop ((A1 ++ A2).length + 1) = B := by
      have h1 : A1 ++ A2 ++ (a, x) :: B = (A1 ++ A2 ++ [(a, x)]) ++ B := by simp
      rw [h1, List.drop_left' (by simp; omega)]
    unfold rotate
    rw [if_neg (by simp)]
    split
    · rename_i h
      have h0 : A2 = [] := by
        have : A2.length = 0 := by simp at h; simp [h]
        exact List.length_eq_zero_iff.1 this
      rw [e4]
      subst h0
      simp
    · have e5 : (A1 ++ A2 ++ (a, x) :: B).take A1.length = A1 := by simp
      have e6 : ((A1 ++ A2 ++ (a, x) :: B).take (A1 ++ A2).length).drop A1.length = A2 := by
        rw [List.take_left' rfl, List.drop_left' rfl]
      rw [e4, e5, e6]

theorem forwardSorted_eq (s : Swap m) {v : Sparse m} (hv : SVec.WF v) :
    s.forwardSorted v = sortByIndex (v.map fun p => (s.forward p.1, p.2)) := by
  have hget : ∀ i x, SVec.get? v i = some x → (i, x) ∈ v := by
    intro i x h
    rw [SVec.get?_eq hv] at h
    split at h
    · simp at h
    · rename_i hne
      rw [SVec.mem_iff hv]
      simp only [Option.some.injEq] at h
      rw [← h]; exact ⟨rfl, hne⟩
  have hnone : ∀ i, SVec.get? v i = none → ∀ p ∈ v, p.1 ≠ i := by
    rintro i h p hp rfl
    rw [SVec.get?_eq hv, SVec.val_of_mem hv hp, if_neg (hv.nonzero p hp)] at h
    simp at h
  unfold forwardSorted
  split
  · rename_i h0 h1
    apply eq_sortByIndex_map s.forward_injective hv _ hv.sorted
    have : (v.map fun p => (s.forward p.1, p.2)) = v := by
      conv_rhs => rw [← List.map_id v]
      apply List.map_congr_left
      intro p hp
      simp [forward, hnone _ h0 p hp, hnone _ h1 p hp]
    rw [this]
  · rename_i y h0 h1
    apply rotate_eq hv _ (hget _ _ h1) (hnone _ h0)
    intro i
    unfold forward
    by_cases hi : i = s.index0
    · by_cases hi' : i = s.index1
      · simp [hi, hi ▸ hi']
      · simp [hi, hi ▸ hi']
    · simp [hi]
  · rename_i x h0 h1
    apply rotate_eq hv _ (hget _ _ h0) (hnone _ h1)
    intro i
    rfl
  · rename_i x y h0 h1
    have hx := hget _ _ h0
    have hy := hget _ _ h1
    have hwf : SVec.WF (v.map fun z =>
        if z.1 = s.index0 then (s.index0, y) else if z.1 = s.index1 then (s.index1, x) else z) := by
      have hkey : ∀ z : Fin m × ℚ, (if z.1 = s.index0 then (s.index0, y)
          else if z.1 = s.index1 then (s.index1, x) else z).1 = z.1 := by
        intro z; split
        · rename_i h; exact h.symm
        · split
          · rename_i h; exact h.symm
          · rfl
      constructor
      · rw [List.pairwise_map]
        refine hv.sorted.imp fun h => ?_
        rw [hkey, hkey]; exact h
      · intro p hp
        obtain ⟨z, hz, rfl⟩ := List.mem_map.1 hp
        split
        · exact (SVec.mem_iff hv _ _).1 hy |>.2
        · split
          · exact (SVec.mem_iff hv _ _).1 hx |>.2
          · exact hv.nonzero z hz
    refine SVec.ext_of_wf hwf (wf_sortByIndex_map s.forward_injective hv) fun i => ?_
    have hr : SVec.val (sortByIndex (v.map fun p => (s.forward p.1, p.2))) i
        = SVec.val v (s.forward i) := by
      conv_lhs => rw [← s.forward_forward i]
      rw [val_sortByIndex_map s.forward_injective]
    rw [hr]
    have hmem : ∀ z ∈ v, (if z.1 = s.index0 then (s.index0, y)
          else if z.1 = s.index1 then (s.index1, x) else z) ∈ v.map fun z =>
        if z.1 = s.index0 then (s.index0, y) else if z.1 = s.index1 then (s.index1, x) else z :=
      fun z hz => List.mem_map.2 ⟨z, hz, rfl⟩
    by_cases hi0 : i = s.index0
    · have h2 := hmem _ hx
      rw [if_pos rfl] at h2
      have h3 : s.forward i = s.index1 := by simp [forward, hi0]
      rw [h3, SVec.val_of_mem hv hy, hi0]
      exact SVec.val_of_mem hwf h2
    · by_cases hi1 : i = s.index1
      · have h2 := hmem _ hy
        rw [if_neg (by rw [← hi1]; exact hi0), if_pos rfl] at h2
        have h3 : s.forward i = s.index0 := by simp [forward, hi1]
        rw [h3, SVec.val_of_mem hv hx, hi1]
        exact SVec.val_of_mem hwf h2
      · have h3 : s.forward i = i := by simp [forward, hi0, hi1]
        rw [h3]
        by_cases hz : SVec.val v i = 0
        · rw [hz]
          apply SVec.val_eq_zero_of_notMem
          intro p hp hpi
          obtain ⟨z, hzv, rfl⟩ := List.mem_map.1 hp
          split at hpi
          · exact hi0 hpi.symm
          · split at hpi
            · exact hi1 hpi.symm
            · rw [← hpi, SVec.val_of_mem hv hzv] at hz
              exact hv.nonzero z hzv hz
        · have hzv : (i, SVec.val v i) ∈ v := (SVec.mem_iff hv _ _).2 ⟨rfl, hz⟩
          have h2 := hmem _ hzv
          rw [if_neg hi0, if_neg hi1] at h2
          exact SVec.val_of_mem hwf h2

end Swap

/-! ### Full permutations -/

namespace Full

/-- The two directions are inverse to each other. -/
structure Valid (p : Full m) : Prop where
  bwd_fwd : ∀ i, p.bwd (p.fwd i) = i
  fwd_bwd : ∀ i, p.fwd (p.bwd i) = i

theorem new_valid {fwd : Fin m → Fin m} (h : Function.Injective fwd) : (new fwd).Valid := by
  have hperm : (sortedPairs fwd).Perm ((List.finRange m).map fun i => (fwd i, i)) :=
    List.perm_insertionSort _ _
  have hsorted : (sortedPairs fwd).Pairwise fun p q => p.1 ≤ q.1 :=
    List.pairwise_insertionSort _ _
  have hne : (sortedPairs fwd).Pairwise fun p q => p.1 ≠ q.1 := by
    rw [hperm.pairwise_iff fun h => Ne.symm h, List.pairwise_map]
    exact (List.nodup_finRange m).imp fun hn he => hn (h he)
  have hlt : ((sortedPairs fwd).map (·.1)).Pairwise (· < ·) := by
    rw [List.pairwise_map]
    exact (hsorted.and hne).imp fun h => lt_of_le_of_ne h.1 h.2
  -- strictly increasing keys in `Fin m`, `m` of them: the `k`-th key is `k`
  have hkeys : (sortedPairs fwd).map (·.1) = List.finRange m := by
    have hsurj : Function.Surjective fwd := Finite.injective_iff_surjective.1 h
    have hp : ((sortedPairs fwd).map (·.1)).Perm (List.finRange m) := by
      rw [List.perm_ext_iff_of_nodup (hlt.imp fun h => h.ne) (List.nodup_finRange m)]
      intro a
      constructor
      · intro _; exact List.mem_finRange a
      · intro _
        obtain ⟨i, rfl⟩ := hsurj a
        rw [List.mem_map]
        exact ⟨(fwd i, i), hperm.mem_iff.2 (by simp), rfl⟩
    exact hp.eq_of_pairwise (fun a b _ _ h1 h2 => absurd h1 h2.not_gt) hlt
      (List.pairwise_lt_finRange m)
  have hfst : ∀ j : Fin m,
      ((sortedPairs fwd).get (j.cast (length_sortedPairs fwd).symm)).1 = j := by
    intro j
    have : ((sortedPairs fwd).map (·.1))[(j : ℕ)]? = (List.finRange m)[(j : ℕ)]? := by rw [hkeys]
    rw [List.getElem?_map, List.getElem?_eq_getElem (by rw [length_sortedPairs]; exact j.2),
      List.getElem?_eq_getElem (by simp)] at this
    simpa using this
  have hfb : ∀ j, fwd ((new fwd).bwd j) = j := by
    intro j
    have hmem := List.get_mem (sortedPairs fwd) (j.cast (length_sortedPairs fwd).symm)
    rw [hperm.mem_iff, List.mem_map] at hmem
    obtain ⟨i, _, hi⟩ := hmem
    have h1 := hfst j
    rw [← hi] at h1
    show fwd ((sortedPairs fwd).get (j.cast (length_sortedPairs fwd).symm)).2 = j
    rw [← hi]
    exact h1
  exact ⟨fun i => h (hfb (fwd i)), hfb⟩

theorem identity_valid : (identity m).Valid := ⟨fun _ => rfl, fun _ => rfl⟩

theorem Valid.invert {p : Full m} (h : p.Valid) : p.invert.Valid := ⟨h.fwd_bwd, h.bwd_fwd⟩

theorem Valid.fwd_injective {p : Full m} (h : p.Valid) : Function.Injective p.fwd :=
  Function.LeftInverse.injective h.bwd_fwd

theorem Valid.bwd_injective {p : Full m} (h : p.Valid) : Function.Injective p.bwd :=
  Function.LeftInverse.injective h.fwd_bwd

end Full

end Relp
