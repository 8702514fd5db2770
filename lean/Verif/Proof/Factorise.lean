import Verif.Proof.Elimination
import Verif.Proof.DebugCheck

/-!
# The LU decomposition is a factorisation
-/

namespace Relp.LU

open Matrix Permutation

variable {m : ℕ}

/-! ### Removing the pivot row from the counters -/

theorem removeCounts_ok (l : Sparse m) (k : Fin m) (s : Elimination m) (hr : l.length ≤ s.nnzRow k)
    (hc : ∀ j, (keys l).count j ≤ s.nnzColumn j) :
    ∃ nnzRow, l.foldlM (fun (s : Elimination m) p => do
      let nnzRow ← decrement s.nnzRow k
      let nnzColumn ← decrement s.nnzColumn p.1
      pure { s with nnzRow, nnzColumn }) s
      = .ok { s with nnzRow := nnzRow, nnzColumn := fun j => s.nnzColumn j - (keys l).count j } ∧
      (∀ i, i ≠ k → nnzRow i = s.nnzRow i) ∧ nnzRow k = s.nnzRow k - l.length := by
  induction l generalizing s with
  | nil => exact ⟨s.nnzRow, by simp [pure, Except.pure], fun _ _ => rfl, rfl⟩
  | cons p l ih =>
    have h1 : 1 ≤ s.nnzRow k := by simp at hr; omega
    have h2 : 1 ≤ s.nnzColumn p.1 := by
      have := hc p.1
      simp only [keys, List.map_cons, List.count_cons_self] at this
      omega
    obtain ⟨nnzRow, e, h, hk⟩ := ih { s with
      nnzRow := Function.update s.nnzRow k (s.nnzRow k - 1)
      nnzColumn := Function.update s.nnzColumn p.1 (s.nnzColumn p.1 - 1) }
      (by simp at hr ⊢; omega) (by
        intro j
        have := hc j
        simp only [keys, List.map_cons] at this ⊢
        by_cases hj : j = p.1
        · subst hj; rw [List.count_cons_self] at this; rw [Function.update_self]; omega
        · rw [List.count_cons_of_ne (Ne.symm hj)] at this; rwa [Function.update_of_ne hj])
    refine ⟨nnzRow, ?_, fun i hi => ?_, ?_⟩
    · rw [List.foldlM_cons]
      simp only [decrement_ok h1, decrement_ok h2, bind, Except.bind, pure, Except.pure] at e ⊢
      rw [e]
      congr 2
      funext j
      simp only [keys, List.map_cons]
      by_cases hj : j = p.1
      · subst hj; rw [Function.update_self, List.count_cons_self]; omega
      · rw [Function.update_of_ne hj, List.count_cons_of_ne (Ne.symm hj)]
    · rw [h i hi]; exact Function.update_of_ne hi _ _
    · rw [hk, List.length_cons]
      simp only [Function.update_self]
      omega

/-! ### Collecting the ratios -/

/-- The row without the item in column `k`, which is the first one if it exists. -/
def dropFirst (k : Fin m) : Sparse m → Sparse m
  | [] => []
  | (j, x) :: tail => if j = k then tail else (j, x) :: tail

theorem dropFirst_spec {k : Fin m} {v : Sparse m} (hv : SVec.WF v) (hk : ∀ p ∈ v, k ≤ p.1) :
    SVec.WF (dropFirst k v) ∧ (∀ p ∈ dropFirst k v, k < p.1) ∧
    (∀ j, SVec.val v j = SVec.val (dropFirst k v) j + if j = k then SVec.val v k else 0) ∧
    ∀ j, j ≠ k → (keys (dropFirst k v)).count j = (keys v).count j := by
  cases v with
  | nil => exact ⟨SVec.WF.nil, by simp [dropFirst], by simp [dropFirst], by simp [dropFirst]⟩
  | cons p v =>
    obtain ⟨j0, x⟩ := p
    obtain ⟨h1, h2, h3⟩ := SVec.wf_cons.1 hv
    simp only [dropFirst]
    by_cases hj : j0 = k
    · subst hj
      rw [if_pos rfl]
      refine ⟨h3, h1, fun j => ?_, fun j hj => ?_⟩
      · rw [SVec.val_cons, SVec.val_cons, SVec.val_eq_zero_of_lt (v := v) (i := j0) h1]
        by_cases e : j = j0
        · subst e; simp; rw [SVec.val_eq_zero_of_lt (v := v) (i := j) h1]; simp
        · simp [e, Ne.symm e]
      · simp only [keys, List.map_cons]
        rw [List.count_cons_of_ne (Ne.symm hj)]
    · rw [if_neg hj]
      have hlt : k < j0 := lt_of_le_of_ne (hk (j0, x) (by simp)) (Ne.symm hj)
      have hall : ∀ p ∈ (j0, x) :: v, k < p.1 := by
        intro p hp
        rcases List.mem_cons.1 hp with rfl | hp
        · exact hlt
        · exact hlt.trans (h1 p hp)
      refine ⟨hv, hall, fun j => ?_, fun _ _ => rfl⟩
      rw [SVec.val_eq_zero_of_lt (v := (j0, x) :: v) (i := k) hall]
      simp

theorem collectRatios_ok {k : Fin m} {pv : ℚ} (hpv : pv ≠ 0) (l : List (Fin m)) (s : Elimination m)
    (hnd : l.Nodup) (hwf : ∀ i ∈ l, SVec.WF (s.rows i)) (hne : ∀ i ∈ l, s.rows i ≠ [])
    (hkey : ∀ i ∈ l, ∀ p ∈ s.rows i, k ≤ p.1) (hnr : ∀ i ∈ l, s.nnzRow i = (s.rows i).length)
    (hnc : (l.map fun i => (keys (s.rows i)).count k).sum ≤ s.nnzColumn k) :
    ∃ s' : Elimination m, collectRatios k pv l s = .ok (s', l.filterMap fun i =>
        if SVec.val (s.rows i) k = 0 then none else some (i, SVec.val (s.rows i) k / pv)) ∧
      s'.rowPermutation = s.rowPermutation ∧ s'.columnPermutation = s.columnPermutation ∧
      s'.lowerRowMajor = s.lowerRowMajor ∧
      (∀ i, s'.rows i = if i ∈ l then dropFirst k (s.rows i) else s.rows i) ∧
      (∀ i, s'.nnzRow i = if i ∈ l then (dropFirst k (s.rows i)).length else s.nnzRow i) ∧
      (∀ j, j ≠ k → s'.nnzColumn j = s.nnzColumn j) ∧
      s'.nnzColumn k = s.nnzColumn k - (l.map fun i => (keys (s.rows i)).count k).sum := by
  induction l generalizing s with
  | nil => exact ⟨s, by simp [collectRatios], rfl, rfl, rfl, by simp, by simp, by simp, by simp⟩
  | cons i l ih =>
    obtain ⟨hil, hnd'⟩ := List.nodup_cons.1 hnd
    rw [List.map_cons, List.sum_cons] at hnc
    obtain ⟨⟨j, x⟩, tail, hrow⟩ := List.exists_cons_of_ne_nil (hne i (by simp))
    have hwi := hwf i (by simp)
    have hxne : x ≠ 0 := by
      have := hwi
      rw [hrow] at this
      exact (SVec.wf_cons.1 this).2.1
    by_cases hj : j = k
    · subst hj
      have hval : SVec.val (s.rows i) j = x := by
        have : (j, x) ∈ s.rows i := by rw [hrow]; simp
        exact SVec.val_of_mem hwi this
      have hnri := hnr i (by simp)
      rw [hrow] at hnri
      have h1 : 1 ≤ s.nnzRow i := by rw [hnri]; simp
      have hci : (keys (s.rows i)).count j = 1 := by
        have h2 := count_keys_le hwi j
        have h3 := count_keys_pos (v := s.rows i) (p := (j, x)) (by rw [hrow]; simp)
        simp only at h3
        omega
      have h2 : 1 ≤ s.nnzColumn j := by omega
      set s1 : Elimination m := { s with
        rows := Function.update s.rows i tail
        nnzRow := Function.update s.nnzRow i (s.nnzRow i - 1)
        nnzColumn := Function.update s.nnzColumn j (s.nnzColumn j - 1) } with hs1
      have hsame : ∀ a ∈ l, s1.rows a = s.rows a := fun a ha =>
        Function.update_of_ne (by rintro rfl; exact hil ha) _ _
      have hsamen : ∀ a ∈ l, s1.nnzRow a = s.nnzRow a := fun a ha =>
        Function.update_of_ne (by rintro rfl; exact hil ha) _ _
      obtain ⟨s', e, g1, g2, g3, g4, g5, g6, g7⟩ := ih s1 hnd'
        (fun a ha => by rw [hsame a ha]; exact hwf a (by simp [ha]))
        (fun a ha => by rw [hsame a ha]; exact hne a (by simp [ha]))
        (fun a ha => by rw [hsame a ha]; exact hkey a (by simp [ha]))
        (fun a ha => by rw [hsame a ha, hsamen a ha]; exact hnr a (by simp [ha]))
        (by
          have : (l.map fun a => (keys (s1.rows a)).count j)
              = l.map fun a => (keys (s.rows a)).count j :=
            List.map_congr_left fun a ha => by rw [hsame a ha]
          rw [this]
          simp only [hs1, Function.update_self]
          omega)
      refine ⟨s', ?_, g1, g2, g3, fun a => ?_, fun a => ?_, fun a ha => ?_, ?_⟩
      · have hfm : (l.filterMap fun a => if SVec.val (s1.rows a) j = 0 then none
            else some (a, SVec.val (s1.rows a) j / pv))
            = l.filterMap fun a => if SVec.val (s.rows a) j = 0 then none
              else some (a, SVec.val (s.rows a) j / pv) :=
          List.filterMap_congr fun a ha => by rw [hsame a ha]
        rw [hfm] at e
        rw [collectRatios, hrow]
        simp only [if_true, if_neg hpv, decrement_ok h1, decrement_ok h2, bind, Except.bind, ← hs1,
          e, pure, Except.pure]
        rw [List.filterMap_cons, hval, if_neg hxne]
      · rw [g4]
        by_cases hal : a ∈ l
        · rw [if_pos hal, if_pos (by simp [hal]), hsame a hal]
        · rw [if_neg hal]
          by_cases hai : a = i
          · subst hai
            rw [if_pos (by simp), hrow]
            simp only [hs1, Function.update_self, dropFirst, if_true]
          · rw [if_neg (by simp [hal, hai])]
            exact Function.update_of_ne hai _ _
      · rw [g5]
        by_cases hal : a ∈ l
        · rw [if_pos hal, if_pos (by simp [hal]), hsame a hal]
        · rw [if_neg hal]
          by_cases hai : a = i
          · subst hai
            rw [if_pos (by simp), hrow]
            simp only [hs1, Function.update_self, dropFirst, if_true, hnri]
            simp
          · rw [if_neg (by simp [hal, hai])]
            exact Function.update_of_ne hai _ _
      · rw [g6 a ha]; exact Function.update_of_ne ha _ _
      · rw [g7, List.map_cons, List.sum_cons, hci]
        have : (l.map fun a => (keys (s1.rows a)).count j)
            = l.map fun a => (keys (s.rows a)).count j :=
          List.map_congr_left fun a ha => by rw [hsame a ha]
        rw [this]
        simp only [hs1, Function.update_self]
        omega
    · have hval : SVec.val (s.rows i) k = 0 := by
        have hlt : k < j := lt_of_le_of_ne
          (hkey i (by simp) (j, x) (by rw [hrow]; simp)) (Ne.symm hj)
        rw [hrow]
        rw [hrow] at hwi
        apply SVec.val_eq_zero_of_lt
        intro p hp
        rcases List.mem_cons.1 hp with rfl | hp
        · exact hlt
        · exact hlt.trans ((SVec.wf_cons.1 hwi).1 p hp)
      obtain ⟨s', e, g1, g2, g3, g4, g5, g6, g7⟩ := ih s hnd'
        (fun a ha => hwf a (by simp [ha])) (fun a ha => hne a (by simp [ha]))
        (fun a ha => hkey a (by simp [ha])) (fun a ha => hnr a (by simp [ha])) (by omega)
      have hdf : dropFirst k (s.rows i) = s.rows i := by rw [hrow]; simp [dropFirst, hj]
      have hc0 : (keys (s.rows i)).count k = 0 := by
        rw [List.count_eq_zero]
        intro hm
        obtain ⟨q, hq, hqk⟩ := List.mem_map.1 hm
        have h1 := SVec.val_of_mem hwi hq
        rw [hqk, hval] at h1
        exact hwi.nonzero q hq h1.symm
      refine ⟨s', ?_, g1, g2, g3, fun a => ?_, fun a => ?_, g6, by
        rw [g7, List.map_cons, List.sum_cons, hc0, zero_add]⟩
      · rw [collectRatios, hrow]
        simp only [if_neg hj, e]
        rw [List.filterMap_cons, hval, if_pos rfl]
      · rw [g4]
        by_cases hal : a ∈ l
        · rw [if_pos hal, if_pos (by simp [hal])]
        · rw [if_neg hal]
          by_cases hai : a = i
          · subst hai; rw [if_pos (by simp), hdf]
          · rw [if_neg (by simp [hal, hai])]
      · rw [g5]
        by_cases hal : a ∈ l
        · rw [if_pos hal, if_pos (by simp [hal])]
        · rw [if_neg hal]
          by_cases hai : a = i
          · subst hai; rw [if_pos (by simp), hdf, hnr a (by simp)]
          · rw [if_neg (by simp [hal, hai])]

/-! ### Eliminating rows -/

/-- The invariant while rows are eliminated: `L` are the ratios that are still to be used. -/
structure Mid (B : Matrix (Fin m) (Fin m) ℚ) (s : Elimination m) (k : Fin m) (pv : ℚ)
    (rest L : Sparse m) : Prop where
  row_injective : Function.Injective s.rowPermutation
  column_injective : Function.Injective s.columnPermutation
  wf : ∀ i, SVec.WF (s.rows i)
  key : ∀ i, ∀ p ∈ s.rows i, min ((k : ℕ) + 1) (i : ℕ) ≤ p.1
  diagonal : ∀ i : Fin m, (i : ℕ) < (k : ℕ) + 1 → SVec.val (s.rows i) i ≠ 0
  lower_wf : ∀ i, SVec.WF (lowerRowOf s i)
  lower_key : ∀ i, ∀ p ∈ lowerRowOf s i, (p.1 : ℕ) < min ((k : ℕ) + 1) (i : ℕ)
  fresh : ∀ p ∈ L, ∀ q ∈ lowerRowOf s p.1, q.1 < k
  product : ∀ i j, B (s.rowPermutation i) (s.columnPermutation j)
    = SVec.val (s.rows i) j + ∑ l, SVec.val (lowerRowOf s i) l * SVec.val (s.rows l) j
      + SVec.val L i * if j = k then pv else 0
  nnzRow : ∀ i : Fin m, (k : ℕ) + 1 ≤ (i : ℕ) → s.nnzRow i = (s.rows i).length
  nnzColumn : ∀ j : Fin m, (k : ℕ) + 1 ≤ (j : ℕ) → s.nnzColumn j = columnCount s.rows (k + 1) j
  pivot : s.rows k = (k, pv) :: rest
  ratios : SVec.WF L
  below : ∀ p ∈ L, k < p.1
  zeroRow : s.nnzRow k = 0
  zeroColumn : s.nnzColumn k = 0

theorem columnCount_update (rows : Fin m → Sparse m) (k : ℕ) (i : Fin m) (hi : k ≤ (i : ℕ))
    (new : Sparse m) (j : Fin m) :
    columnCount (Function.update rows i new) k j + (keys (rows i)).count j
      = columnCount rows k j + (keys new).count j := by
  unfold columnCount
  rw [← Finset.add_sum_erase _ _ (Finset.mem_univ i),
    ← Finset.add_sum_erase (f := fun i : Fin m => if k ≤ (i : ℕ) then (keys (rows i)).count j else 0)
      _ (Finset.mem_univ i)]
  rw [if_pos hi, if_pos hi, Function.update_self]
  rw [Finset.sum_congr rfl fun a ha => by rw [Function.update_of_ne (Finset.ne_of_mem_erase ha)]]
  ring

theorem count_le_columnCount (rows : Fin m → Sparse m) (k : ℕ) (i : Fin m) (hi : k ≤ (i : ℕ))
    (j : Fin m) : (keys (rows i)).count j ≤ columnCount rows k j := by
  unfold columnCount
  refine le_trans ?_ (Finset.single_le_sum (fun _ _ => Nat.zero_le _) (Finset.mem_univ i))
  rw [if_pos hi]

theorem lowerRowOf_update {s s' : Elimination m} {i : Fin m} (hi : 0 < (i : ℕ)) {x : Fin m × ℚ}
    (h : s'.lowerRowMajor = Function.update s.lowerRowMajor ⟨i - 1, by omega⟩
      (s.lowerRowMajor ⟨i - 1, by omega⟩ ++ [x])) (a : Fin m) :
    lowerRowOf s' a = if a = i then lowerRowOf s a ++ [x] else lowerRowOf s a := by
  unfold lowerRowOf
  by_cases ha : a = i
  · subst ha
    rw [dif_pos hi, dif_pos hi, if_pos rfl, h, Function.update_self]
  · rw [if_neg ha]
    by_cases ha0 : 0 < (a : ℕ)
    · rw [dif_pos ha0, dif_pos ha0, h, Function.update_of_ne]
      intro e
      have := congrArg Fin.val e
      simp only at this
      exact ha (Fin.ext (by omega))
    · rw [dif_neg ha0, dif_neg ha0]

theorem Mid.eliminate {B : Matrix (Fin m) (Fin m) ℚ} {s : Elimination m} {k : Fin m} {pv : ℚ}
    {rest L : Sparse m} {p : Fin m × ℚ} (h : Mid B s k pv rest (p :: L)) :
    ∃ s', eliminateRow k rest s p = .ok s' ∧ Mid B s' k pv rest L := by
  obtain ⟨i, ratio⟩ := p
  obtain ⟨hL1, hratio, hL2⟩ := SVec.wf_cons.1 h.ratios
  simp only at hratio hL1
  have hki : k < i := h.below (i, ratio) (by simp)
  have hki' : (k : ℕ) + 1 ≤ i := hki
  have hi0 : 0 < (i : ℕ) := by omega
  have hrest : SVec.WF rest ∧ ∀ q ∈ rest, k < q.1 := by
    have := h.wf k
    rw [h.pivot] at this
    exact ⟨(SVec.wf_cons.1 this).2.2, (SVec.wf_cons.1 this).1⟩
  set old := s.rows i with hold
  rcases hsub : subtractMultiple ratio old rest with ⟨new, removed, added⟩
  have hnew : new = SVec.addMultiple (-ratio) old rest := by
    rw [← subtractMultiple_fst, hsub]
  have hcount : ∀ j, (keys new).count j + removed.count j = (keys old).count j + added.count j ∧
      removed.count j ≤ (keys old).count j := by
    intro j
    have := subtractMultiple_count ratio old rest j
    rwa [hsub] at this
  have hnewwf : SVec.WF new := by
    rw [hnew]; exact SVec.wf_addMultiple (neg_ne_zero.2 hratio) (h.wf i) hrest.1
  have holdkey : ∀ q ∈ old, (k : ℕ) + 1 ≤ q.1 := by
    intro q hq
    have := h.key i q hq
    omega
  have hnewkey : ∀ q ∈ new, (k : ℕ) + 1 ≤ q.1 := by
    intro q hq
    rw [hnew] at hq
    rcases SVec.mem_addMultiple hq with ⟨x, hx, hxe⟩ | ⟨x, hx, hxe⟩
    · rw [← hxe]; exact holdkey x hx
    · rw [← hxe]; exact hrest.2 x hx
  have hremoved : ∀ j, removed.count j ≤ s.nnzColumn j := by
    intro j
    by_cases hj : (k : ℕ) + 1 ≤ j
    · rw [h.nnzColumn j hj]
      exact (hcount j).2.trans (count_le_columnCount s.rows _ i hki' j)
    · have : (keys old).count j = 0 := by
        rw [List.count_eq_zero]
        intro hm
        obtain ⟨q, hq, rfl⟩ := List.mem_map.1 hm
        exact hj (holdkey q hq)
      have := (hcount j).2
      omega
  have hnnz := h.nnzRow i hki'
  rw [← hold] at hnnz
  set s' : Elimination m := { s with
    rows := Function.update s.rows i new
    nnzRow := Function.update s.nnzRow i
      (s.nnzRow i - (old.length - new.length) + (new.length - old.length))
    nnzColumn := fun j => s.nnzColumn j - removed.count j + added.count j
    lowerRowMajor := Function.update s.lowerRowMajor ⟨i - 1, by omega⟩
      (s.lowerRowMajor ⟨i - 1, by omega⟩ ++ [(k, ratio)]) } with hs'
  have hlow := lowerRowOf_update (s := s) (s' := s') hi0 (x := (k, ratio)) rfl
  have hrowk : s'.rows k = s.rows k := Function.update_of_ne hki.ne _ _
  refine ⟨s', ?_, ?_⟩
  · unfold eliminateRow
    simp only [← hold, hsub, checkedSub]
    rw [if_pos (by omega)]
    simp only [bind, Except.bind, foldlM_decrement _ _ hremoved, foldl_increment, dif_pos hi0,
      pure, Except.pure]
    rfl
  · refine ⟨h.row_injective, h.column_injective, ?_, ?_, ?_, ?_, ?_, ?_, ?_, ?_, ?_, ?_, hL2, ?_, ?_,
      ?_⟩
    · intro a
      by_cases ha : a = i
      · subst ha; simp only [hs', Function.update_self]; exact hnewwf
      · simp only [hs', Function.update_of_ne ha]; exact h.wf a
    · intro a q hq
      by_cases ha : a = i
      · subst ha; simp only [hs', Function.update_self] at hq
        have := hnewkey q hq
        omega
      · simp only [hs', Function.update_of_ne ha] at hq; exact h.key a q hq
    · intro a ha
      have hai : a ≠ i := by rintro rfl; omega
      simp only [hs', Function.update_of_ne hai]; exact h.diagonal a ha
    · intro a
      rw [hlow]
      split
      · rename_i ha
        subst ha
        exact wf_concat (h.lower_wf a) hratio fun q hq => h.fresh (a, ratio) (by simp) q hq
      · exact h.lower_wf a
    · intro a q hq
      rw [hlow] at hq
      split at hq
      · rename_i ha
        subst ha
        rcases List.mem_append.1 hq with hq | hq
        · exact h.lower_key a q hq
        · rw [List.mem_singleton.1 hq]; simp only; omega
      · exact h.lower_key a q hq
    · intro q hq x hx
      rw [hlow, if_neg (hL1 q hq).ne'] at hx
      exact h.fresh q (by simp [hq]) x hx
    · intro a j
      have hprod := h.product a j
      have hsum : ∀ b, ∑ l, SVec.val (lowerRowOf s b) l * SVec.val (s'.rows l) j
          = ∑ l, SVec.val (lowerRowOf s b) l * SVec.val (s.rows l) j := by
        intro b
        refine Finset.sum_congr rfl fun l _ => ?_
        by_cases hl : l = i
        · subst hl
          rw [SVec.val_eq_zero_of_notMem (v := lowerRowOf s b) (i := l)]
          · simp
          · rintro q hq rfl
            have := h.lower_key b q hq
            omega
        · simp only [hs', Function.update_of_ne hl]
      refine hprod.trans ?_
      rw [hlow]
      by_cases ha : a = i
      · subst ha
        rw [if_pos rfl]
        have hL0 : SVec.val L a = 0 := SVec.val_eq_zero_of_lt hL1
        have hvalrow : SVec.val (s'.rows a) j = SVec.val old j + SVec.val rest j * -ratio := by
          simp only [hs', Function.update_self]
          rw [hnew, SVec.val_addMultiple]; ring
        have hsum2 : ∑ l, SVec.val (lowerRowOf s a ++ [(k, ratio)]) l * SVec.val (s'.rows l) j
            = ∑ l, SVec.val (lowerRowOf s a) l * SVec.val (s.rows l) j
              + ratio * SVec.val (s.rows k) j := by
          rw [← hsum a]
          simp only [SVec.val_append, add_mul, Finset.sum_add_distrib]
          congr 1
          rw [Finset.sum_eq_single k]
          · rw [hrowk]; simp [SVec.val_cons]
          · intro b _ hb
            simp [SVec.val_cons, Ne.symm hb]
          · simp
        rw [hvalrow, hsum2, hL0, SVec.val_cons, h.pivot, SVec.val_cons, hL0]
        by_cases hj : j = k
        · subst hj; simp; ring
        · simp [hj, Ne.symm hj]; ring
      · rw [if_neg ha, hsum, SVec.val_cons, if_neg (Ne.symm ha), zero_add]
        simp only [hs', Function.update_of_ne ha]
    · intro a ha
      by_cases hai : a = i
      · subst hai
        simp only [hs', Function.update_self]
        omega
      · simp only [hs', Function.update_of_ne hai]; exact h.nnzRow a ha
    · intro j hj
      have h1 := columnCount_update s.rows (k + 1) i hki' new j
      rw [← hold] at h1
      have h2 := h.nnzColumn j hj
      have h3 := hcount j
      have h4 := hremoved j
      simp only [hs']
      omega
    · rw [hrowk]; exact h.pivot
    · intro q hq; exact h.below q (by simp [hq])
    · simp only [hs', Function.update_of_ne hki.ne]; exact h.zeroRow
    · have h1 : ∀ v : Sparse m, (∀ q ∈ v, (k : ℕ) + 1 ≤ q.1) → (keys v).count k = 0 := by
        intro v hv
        rw [List.count_eq_zero]
        intro hm
        obtain ⟨q, hq, hqk⟩ := List.mem_map.1 hm
        have := hv q hq
        rw [hqk] at this
        omega
      have h2 := h1 old holdkey
      have h3 := h1 new hnewkey
      have h4 := hcount k
      have h5 := h.zeroColumn
      simp only [hs']
      omega

theorem Mid.eliminateAll {B : Matrix (Fin m) (Fin m) ℚ} {k : Fin m} {pv : ℚ} {rest : Sparse m}
    (L : Sparse m) {s : Elimination m} (h : Mid B s k pv rest L) :
    ∃ s', L.foldlM (eliminateRow k rest) s = .ok s' ∧ Mid B s' k pv rest [] := by
  induction L generalizing s with
  | nil => exact ⟨s, rfl, h⟩
  | cons p L ih =>
    obtain ⟨s1, e1, h1⟩ := h.eliminate
    obtain ⟨s2, e2, h2⟩ := ih h1
    exact ⟨s2, by rw [List.foldlM_cons, e1]; simpa [bind, Except.bind] using e2, h2⟩

theorem columnCount_list (rows : Fin m → Sparse m) (k j : Fin m) :
    (((List.finRange m).filter fun i => decide (k < i)).map fun i => (keys (rows i)).count j).sum
      = columnCount rows (k + 1) j := by
  unfold columnCount
  rw [← List.sum_ofFn, List.ofFn_eq_map]
  generalize List.finRange m = l
  induction l with
  | nil => rfl
  | cons a l ih =>
    rw [List.filter_cons, List.map_cons, List.sum_cons, ← ih]
    by_cases ha : k < a
    · rw [if_pos (by simpa using ha), if_pos (show (k : ℕ) + 1 ≤ a from ha)]
      simp
    · rw [if_neg (by simpa using ha), if_neg (show ¬ (k : ℕ) + 1 ≤ a from ha)]
      simp

theorem columnCount_succ (rows : Fin m → Sparse m) (k j : Fin m) :
    columnCount rows k j = (keys (rows k)).count j + columnCount rows (k + 1) j := by
  unfold columnCount
  rw [← Finset.add_sum_erase _ _ (Finset.mem_univ k), if_pos (le_refl _)]
  congr 1
  rw [← Finset.add_sum_erase (f := fun i : Fin m => if (k : ℕ) + 1 ≤ (i : ℕ) then
    (keys (rows i)).count j else 0) _ (Finset.mem_univ k), if_neg (by omega), zero_add]
  refine Finset.sum_congr rfl fun a ha => ?_
  have hne : (a : ℕ) ≠ k := fun e => Finset.ne_of_mem_erase ha (Fin.ext e)
  by_cases h : (k : ℕ) ≤ a
  · rw [if_pos h, if_pos (by omega)]
  · rw [if_neg h, if_neg (by omega)]

/-- One step, for a matrix of any rank, with a given pivot and if no row below it is empty. -/
theorem Inv.stepAt {B : Matrix (Fin m) (Fin m) ℚ} {s : Elimination m} {k r c : Fin m}
    (h : Inv B s k) (hch : choosePivot s k = .ok (r, c)) (hkr : k ≤ r) (hkc : k ≤ c)
    (hval : SVec.val (s.rows r) c ≠ 0)
    (hne : ∀ i, k < i → (LU.swapColumns (LU.swapRows s r k) c k).rows i ≠ []) :
    ∃ s', eliminationStep s k = .ok s' ∧ Inv B s' (k + 1) ∧
      ((∀ i, k ≤ i → s.rows i ≠ []) → (∀ j, k ≤ j → 0 < columnCount s.rows k j) →
        eliminationStepDebug s k = .ok s') := by
  obtain ⟨h1, hrows1⟩ := h.swapRows hkr
  obtain ⟨h2, hrows2⟩ := h1.swapColumns hkc
  set s2 := LU.swapColumns (LU.swapRows s r k) c k with hs2
  -- the pivot is moved to the diagonal
  have hpivot : SVec.val (s2.rows k) k ≠ 0 := by
    rw [hrows2, hrows1]
    have e1 : (⟨c, k⟩ : Swap m).forward k = c := by
      unfold Swap.forward; split
      · rename_i e; exact e
      · simp
    have e2 : (⟨r, k⟩ : Swap m).forward k = r := by
      unfold Swap.forward; split
      · rename_i e; exact e
      · simp
    rw [e1, e2]; exact hval
  set pv := SVec.val (s2.rows k) k with hpv
  have hkk : ∀ p ∈ s2.rows k, k ≤ p.1 := by
    intro p hp
    have := h2.key k p hp
    rw [Fin.le_def]; omega
  obtain ⟨rest, hrowk⟩ : ∃ rest, s2.rows k = (k, pv) :: rest := by
    obtain ⟨⟨j, x⟩, tail, hrow⟩ := List.exists_cons_of_ne_nil (l := s2.rows k) fun e => hpivot (by
      rw [hpv, e]; rfl)
    have hw := h2.wf k
    have hjk : j = k := by
      by_contra hne
      have hlt : k < j := lt_of_le_of_ne (hkk (j, x) (by rw [hrow]; simp)) (Ne.symm hne)
      apply hpivot
      rw [hpv, hrow]
      rw [hrow] at hw
      apply SVec.val_eq_zero_of_lt
      intro p hp
      rcases List.mem_cons.1 hp with rfl | hp
      · exact hlt
      · exact hlt.trans ((SVec.wf_cons.1 hw).1 p hp)
    subst hjk
    refine ⟨tail, ?_⟩
    have : SVec.val (s2.rows j) j = x := by
      have hm : (j, x) ∈ s2.rows j := by rw [hrow]; simp
      exact SVec.val_of_mem hw hm
    rw [hpv, this]; exact hrow
  -- counters of the pivot row
  have hcount : ∀ j, (keys (s2.rows k)).count j ≤ s2.nnzColumn j := by
    intro j
    by_cases hj : (k : ℕ) ≤ j
    · rw [h2.nnzColumn j hj]
      exact count_le_columnCount _ _ k (le_refl _) j
    · have : (keys (s2.rows k)).count j = 0 := by
        rw [List.count_eq_zero]
        intro hm
        obtain ⟨q, hq, rfl⟩ := List.mem_map.1 hm
        exact hj (hkk q hq)
      omega
  obtain ⟨nnzRow3, e3, hn3, hnk3⟩ := removeCounts_ok (s2.rows k) k s2
    (by rw [h2.nnzRow k (le_refl _)]) hcount
  set s3 : Elimination m := { s2 with
    nnzRow := nnzRow3
    nnzColumn := fun j => s2.nnzColumn j - (keys (s2.rows k)).count j } with hs3
  have hnc3 : ∀ j : Fin m, (k : ℕ) ≤ j → s3.nnzColumn j = columnCount s2.rows (k + 1) j := by
    intro j hj
    simp only [hs3]
    rw [h2.nnzColumn j hj, columnCount_succ]
    omega
  -- the ratios
  set l := (List.finRange m).filter fun i => decide (k < i) with hl
  have hmem : ∀ i, i ∈ l ↔ k < i := fun i => by simp [hl]
  have hkeyl : ∀ i ∈ l, ∀ p ∈ s3.rows i, k ≤ p.1 := by
    intro i hi p hp
    have h5 := h2.key i p hp
    have h6 : (k : ℕ) < i := (hmem i).1 hi
    rw [Fin.le_def]; omega
  obtain ⟨s4, e4, g1, g2, g3, g4, g5, g6, g7⟩ := collectRatios_ok (k := k) (pv := pv) hpivot l s3
    ((List.nodup_finRange m).filter _) (fun i _ => h2.wf i) (fun i hi => hne i ((hmem i).1 hi)) hkeyl
    (fun i hi => by
      have h6 : (k : ℕ) < i := (hmem i).1 hi
      have : s3.nnzRow i = s2.nnzRow i := hn3 i (by rintro rfl; exact lt_irrefl _ h6)
      rw [this]
      exact h2.nnzRow i h6.le)
    (by
      rw [hnc3 k (le_refl _), hl, columnCount_list])
  set L : Sparse m := l.filterMap fun i => if SVec.val (s3.rows i) k = 0 then none
    else some (i, SVec.val (s3.rows i) k / pv) with hL
  have hLmem : ∀ p ∈ L, k < p.1 ∧ p.2 ≠ 0 := by
    intro p hp
    obtain ⟨i, hi, he⟩ := List.mem_filterMap.1 hp
    split at he
    · simp at he
    · rename_i hne
      obtain rfl := Option.some.inj he
      exact ⟨(hmem i).1 hi, div_ne_zero hne hpivot⟩
  have hLwf : SVec.WF L := by
    constructor
    · rw [hL, List.pairwise_filterMap]
      refine ((List.pairwise_lt_finRange m).filter _).imp ?_
      intro a b hab x hx y hy
      split at hx
      · simp at hx
      split at hy
      · simp at hy
      obtain rfl := Option.some.inj hx
      obtain rfl := Option.some.inj hy
      exact hab
    · exact fun p hp => (hLmem p hp).2
  have hLval : ∀ i, SVec.val L i * pv = if k < i then SVec.val (s2.rows i) k else 0 := by
    intro i
    by_cases hki : k < i
    · rw [if_pos hki]
      by_cases hz : SVec.val (s2.rows i) k = 0
      · rw [hz, SVec.val_eq_zero_of_notMem]
        · simp
        · intro p hp he
          obtain ⟨a, ha, h7⟩ := List.mem_filterMap.1 hp
          split at h7
          · simp at h7
          · rename_i hne
            obtain rfl := Option.some.inj h7
            simp only at he
            subst he
            exact hne hz
      · have hm : (i, SVec.val (s2.rows i) k / pv) ∈ L := by
          rw [hL]
          refine List.mem_filterMap.2 ⟨i, (hmem i).2 hki, ?_⟩
          rw [if_neg (show SVec.val (s3.rows i) k ≠ 0 from hz)]
        have := SVec.val_of_mem hLwf hm
        simp only at this
        rw [this]
        field_simp
    · rw [if_neg hki, SVec.val_eq_zero_of_notMem]
      · simp
      · rintro p hp rfl
        exact hki (hLmem p hp).1
  have hrow4 : ∀ i, s4.rows i = if k < i then dropFirst k (s2.rows i) else s2.rows i := by
    intro i
    rw [g4]
    simp only [hmem]
    rfl
  have hlow4 : ∀ i, lowerRowOf s4 i = lowerRowOf s2 i := by
    intro i
    unfold lowerRowOf
    rw [g3]
  have hsp : ∀ i, k < i → _ := fun i hi => dropFirst_spec (k := k) (h2.wf i)
    (fun p hp => hkeyl i ((hmem i).2 hi) p hp)
  have hmid : Mid B s4 k pv rest L := by
    refine ⟨?_, ?_, ?_, ?_, ?_, ?_, ?_, ?_, ?_, ?_, ?_, ?_, hLwf, fun p hp => (hLmem p hp).1, ?_, ?_⟩
    · rw [g1]; exact h2.row_injective
    · rw [g2]; exact h2.column_injective
    · intro i
      rw [hrow4]
      split
      · rename_i hi; exact (hsp i hi).1
      · exact h2.wf i
    · intro i p hp
      rw [hrow4] at hp
      split at hp
      · rename_i hi
        have := (hsp i hi).2.1 p hp
        rw [Fin.lt_def] at this
        omega
      · rename_i hi
        have h8 := h2.key i p hp
        have h9 : ¬ (k : ℕ) < i := hi
        omega
    · intro i hi
      have hnk : ¬ k < i := by rw [Fin.lt_def]; omega
      rw [hrow4, if_neg hnk]
      by_cases hik : i = k
      · subst hik; exact hpivot
      · exact h2.diagonal i (by
          have : (i : ℕ) ≠ k := fun e => hik (Fin.ext e)
          omega)
    · intro i; rw [hlow4]; exact h2.lower_wf i
    · intro i p hp
      rw [hlow4] at hp
      have := h2.lower_key i p hp
      omega
    · intro p hp q hq
      rw [hlow4] at hq
      have := h2.lower_key p.1 q hq
      rw [Fin.lt_def]; omega
    · intro i j
      rw [g1, g2]
      refine (h2.product i j).trans ?_
      have hsum : ∑ l, SVec.val (lowerRowOf s4 i) l * SVec.val (s4.rows l) j
          = ∑ l, SVec.val (lowerRowOf s2 i) l * SVec.val (s2.rows l) j := by
        refine Finset.sum_congr rfl fun b _ => ?_
        rw [hlow4]
        by_cases hb : k < b
        · rw [SVec.val_eq_zero_of_notMem (v := lowerRowOf s2 i) (i := b)]
          · simp
          · rintro q hq rfl
            have h8 := h2.lower_key i q hq
            have h9 : (k : ℕ) < q.1 := hb
            omega
        · rw [hrow4, if_neg hb]
      rw [hsum]
      by_cases hi : k < i
      · have h10 := (hsp i hi).2.2.1 j
        have h11 := hLval i
        rw [if_pos hi] at h11
        rw [hrow4, if_pos hi, h10]
        by_cases hj : j = k
        · simp only [hj, if_true]; rw [h11]; ring
        · simp only [hj, if_false]; ring
      · have h11 := hLval i
        rw [if_neg hi] at h11
        have h12 : SVec.val L i = 0 := by
          rcases mul_eq_zero.1 h11 with h | h
          · exact h
          · exact absurd h hpivot
        rw [hrow4, if_neg hi, h12]; ring
    · intro i hi
      have hki : k < i := hi
      rw [g5, if_pos ((hmem i).2 hki), hrow4, if_pos hki]
    · intro j hj
      have hjk : j ≠ k := by rintro rfl; omega
      rw [g6 j hjk, hnc3 j (by omega)]
      unfold columnCount
      refine Finset.sum_congr rfl fun i _ => ?_
      by_cases hi : (k : ℕ) + 1 ≤ i
      · have hki : k < i := hi
        rw [if_pos hi, if_pos hi, hrow4, if_pos hki, (hsp i hki).2.2.2 j hjk]
      · rw [if_neg hi, if_neg hi]
    · rw [hrow4, if_neg (lt_irrefl k)]; exact hrowk
    · rw [g5, if_neg (by simp [hmem])]
      have : s3.nnzRow k = nnzRow3 k := rfl
      rw [this, hnk3, h2.nnzRow k (le_refl _), Nat.sub_self]
    · rw [g7, hnc3 k (le_refl _), hl, columnCount_list, Nat.sub_self]
  obtain ⟨s5, e5, h5⟩ := hmid.eliminateAll
  have hrowk3 : s3.rows k = (k, pv) :: rest := hrowk
  refine ⟨s5, ?_, ⟨h5.row_injective, h5.column_injective, h5.wf, h5.key, h5.diagonal, h5.lower_wf,
    h5.lower_key, ?_, h5.nnzRow, h5.nnzColumn⟩, fun hnr hnc => ?_⟩
  · unfold eliminationStep removePivotRowCounts
    simp only [hch, bind, Except.bind, ← hs2]
    simp only [bind, Except.bind] at e3
    rw [e3]
    simp only [hrowk3, ← hl, e4]
    exact e5
  · intro i j
    rw [h5.product]; simp
  · have c1 : choosePivotCheck s k = .ok () := by
      unfold choosePivotCheck
      rw [debugAssert_bind (by simpa using k.pos),
        debugAssert_bind (by
          refine decide_eq_true fun i hi => ?_
          rw [h.nnzRow i hi]
          exact List.length_pos_of_ne_nil (hnr i hi)),
        debugAssert_bind (by
          refine decide_eq_true fun j hj => ?_
          rw [h.nnzColumn j hj]
          exact hnc j hj)]
      exact forEach_ok fun i _ => sortedCheck_ok (h.wf i)
    have c2 : swapCheck s r c k = .ok () := by
      unfold swapCheck
      rw [debugAssert_bind (by simpa using ⟨hkr, hkc⟩)]
      split
      · rw [dif_neg (by rintro ⟨e, h0⟩; rw [Fin.le_def] at hkr; omega)]
        rw [bindOk]
        split
        · rename_i hh
          refine debugAssert_ok ?_
          rw [List.isEmpty_iff, List.eq_nil_iff_forall_not_mem]
          intro p hp
          have hp' : p ∈ lowerRowOf s r := by
            unfold lowerRowOf; rw [dif_pos hh.1]; exact hp
          have := h.lower_key r p hp'
          omega
        · rfl
      · rfl
    have c3 : swapColumnsCheck (LU.swapRows s r k) c k = .ok () := by
      unfold swapColumnsCheck
      split
      · rename_i hck
        refine forEach_ok fun i _ => ?_
        have hw := h2.wf i
        simp only [hs2, LU.swapColumns, if_pos hck] at hw
        rw [forwardSortedDebug_ok _ (h1.wf i) hw]
        rfl
      · rfl
    unfold eliminationStepDebug removePivotRowCounts
    rw [c1, bindOk, hch, bindOk]
    simp only []
    rw [c2, bindOk, c3, bindOk]
    simp only [← hs2]
    rw [e3, bindOk]
    simp only [hrowk3]
    rw [forEach_ok (l := (List.finRange m).filter fun i => decide (k < i)) (fun i hi => debugAssert_ok (by
      have := hne i ((hmem i).1 hi)
      simpa using this)), bindOk]
    simp only [← hl, e4, bindOk]
    rw [forEach_ok (fun p hp => debugAssert_ok (by simpa using (hLmem p hp).2)), bindOk, e5, bindOk,
      debugAssert_bind (by simpa using h5.zeroRow), debugAssert_bind (by simpa using h5.zeroColumn),
      debugAssert_bind (decide_eq_true fun i (hi : k < i) => (h5.nnzRow i hi).symm)]
    rfl

theorem Inv.step {B Y : Matrix (Fin m) (Fin m) ℚ} (hB : B * Y = 1) {s : Elimination m} {k : Fin m}
    (h : Inv B s k) : ∃ s', eliminationStep s k = .ok s' ∧ eliminationStepDebug s k = .ok s' ∧
      Inv B s' (k + 1) := by
  obtain ⟨r, c, hch, hkr, hkc, hval⟩ := h.choose hB
  obtain ⟨h1, -⟩ := h.swapRows hkr
  obtain ⟨h2, -⟩ := h1.swapColumns hkc
  obtain ⟨s', e, h', d⟩ := h.stepAt hch hkr hkc hval fun i _ => h2.row_ne_nil hB i
  exact ⟨s', e, d (fun i _ => h.row_ne_nil hB i) fun j hj => h.columnCount_pos hB hj, h'⟩

theorem Inv.run {B Y : Matrix (Fin m) (Fin m) ℚ} (hB : B * Y = 1) {s : Elimination m}
    (h : Inv B s 0) : ∃ s', (List.finRange m).foldlM eliminationStep s = .ok s' ∧
      (List.finRange m).foldlM eliminationStepDebug s = .ok s' ∧ Inv B s' m := by
  have key : ∀ n, n ≤ m → ∀ s, Inv B s (m - n) →
      ∃ s', ((List.finRange m).drop (m - n)).foldlM eliminationStep s = .ok s' ∧
        ((List.finRange m).drop (m - n)).foldlM eliminationStepDebug s = .ok s' ∧ Inv B s' m := by
    intro n
    induction n with
    | zero =>
      intro _ s hs
      refine ⟨s, ?_, ?_, by simpa using hs⟩
      · rw [List.drop_of_length_le (by simp)]
        rfl
      · rw [List.drop_of_length_le (by simp)]
        rfl
    | succ n ih =>
      intro hn s hs
      have hlt : m - (n + 1) < m := by omega
      have hd : (List.finRange m).drop (m - (n + 1))
          = ⟨m - (n + 1), hlt⟩ :: (List.finRange m).drop (m - n) := by
        rw [List.drop_eq_getElem_cons (by simpa using hlt)]
        congr 1
        · simp
        · congr 1; omega
      obtain ⟨s1, e1, d1, h1⟩ := Inv.step hB (k := ⟨m - (n + 1), hlt⟩) hs
      have : (m - (n + 1)) + 1 = m - n := by omega
      simp only [this] at h1
      obtain ⟨s2, e2, d2, h2⟩ := ih (by omega) s1 h1
      refine ⟨s2, ?_, ?_, h2⟩
      · rw [hd, List.foldlM_cons, e1]
        simpa [bind, Except.bind] using e2
      · rw [hd, List.foldlM_cons, d1]
        simpa [bind, Except.bind] using d2
  have := key m (le_refl _) s (by simpa using h)
  simpa using this

end Relp.LU
