import Verif.Proof.PhaseOne
import Mathlib.Data.List.Perm.Basic
import Mathlib.Data.List.Range

/-! # The initial tableaus of phase one -/

set_option linter.unusedSectionVars false

namespace Relp

open Matrix BasisInverse LawfulBasisInverse Tableau

variable {BI : ℕ → Type} [BasisInverse BI] [LawfulBasisInverse BI] {m n N : ℕ}

/-- A tableau whose basis is the identity. -/
theorem Exact.initial {t : Tableau BI m N} {rhs : Fin m → ℚ}
    (wf : ∀ j, SVec.WF (t.kind.column j)) (rep : Rep t.carry.basisInverse 1)
    (unit : ∀ i, SVec.val (t.kind.column (t.carry.basisIndices i)) = Pi.single i 1)
    (hb : t.carry.b = rhs) (hpi : t.carry.minusPi = -t.basisCost)
    (hobj : t.carry.minusObjective = -(t.basisCost ⬝ᵥ rhs))
    (hcols : t.basisColumns = Finset.univ.image t.carry.basisIndices) : t.Exact rhs 1 where
  wf := wf
  rep := rep
  inv := by
    rw [one_mul]
    ext i k
    change SVec.val (t.kind.column (t.carry.basisIndices k)) i = _
    rw [unit, Matrix.one_apply, Pi.single_apply]
  b_eq := by rw [one_mulVec, hb]
  pi_eq := by rw [vecMul_one, hpi]
  obj_eq := by rw [hb, hobj]
  cols := hcols

theorem artificialKind_wf {nrArtificial : ℕ} {P : Provider m n}
    {columnToRow : Fin nrArtificial → Fin m} (hP : ∀ j, SVec.WF (P.column j)) (j) :
    SVec.WF ((artificialKind P columnToRow).column j) := by
  unfold artificialKind
  simp only
  refine Fin.addCases (fun k => ?_) (fun k => ?_) j
  · rw [Fin.addCases_left]; exact SVec.wf_standardBasis _
  · rw [Fin.addCases_right]; exact hP k

theorem artificialKind_artInv {nrArtificial : ℕ} {P : Provider m n}
    {columnToRow : Fin nrArtificial → Fin m} {t : Tableau BI m (nrArtificial + n)}
    (hk : t.kind = artificialKind P columnToRow)
    (unit : ∀ i, SVec.val (t.kind.column (t.carry.basisIndices i)) = Pi.single i 1) :
    ArtInv t := by
  refine ⟨?_, ?_, fun i _ => unit i⟩
  · rw [hk]
    intro j
    refine Fin.addCases (fun k _ => ?_) (fun k hk => ?_) j
    · simp [artificialKind]
    · simp [artificialKind] at hk
  · rw [hk]
    intro j
    refine Fin.addCases (fun k hk => ?_) (fun k _ => ?_) j
    · have := k.isLt
      simp [artificialKind] at hk
      omega
    · simp [artificialKind]

theorem newFully_spec (hm : OkDim BI m) {P : Provider m n} (hP : ∀ j, SVec.WF (P.column j)) :
    ∃ t : Tableau BI m (m + n), newFully P = .ok t ∧ t.Exact P.rhs 1 ∧ ArtInv t ∧
      t.carry.b = P.rhs ∧ t.kind = artificialKind P id := by
  obtain ⟨bi, h1, h2⟩ := identity_ok (BI := BI) hm
  refine ⟨{
      carry := {
        minusObjective := -((List.finRange m).foldl (fun s i => s + P.rhs i) 0)
        minusPi := fun _ => -1
        b := P.rhs
        basisIndices := fun i => Fin.castAdd n i
        basisInverse := bi }
      basisColumns := Finset.univ.image (Fin.castAdd n)
      kind := artificialKind P id }, ?_, ?_, ?_, rfl, rfl⟩
  · unfold newFully Carry.createForFullyArtificial
    simp only [h1, bind, Except.bind, pure, Except.pure]
  · have hunit : ∀ i : Fin m, SVec.val ((artificialKind P id).column (Fin.castAdd n i))
        = Pi.single i 1 := by
      intro i
      simp only [artificialKind, Fin.addCases_left, id]
      exact SVec.val_standardBasis_eq i
    have hcost : ∀ i : Fin m, (artificialKind P id).cost (Fin.castAdd n i) = 1 := by
      intro i; simp [artificialKind]
    refine Exact.initial (artificialKind_wf hP) h2 hunit rfl ?_ ?_ rfl
    · ext i
      change (-1 : ℚ) = -((artificialKind P id).cost (Fin.castAdd n i))
      rw [hcost]
    · change -((List.finRange m).foldl (fun s i => s + P.rhs i) 0)
        = -(∑ i, (artificialKind P id).cost (Fin.castAdd n i) * P.rhs i)
      rw [Carry.foldl_add_finRange]
      simp only [hcost, one_mul]
  · refine artificialKind_artInv rfl ?_
    intro i
    simp only [artificialKind, Fin.addCases_left, id]
    exact SVec.val_standardBasis_eq i

/-! ### A given partial basis -/

theorem skipReal_spec (ith : ℕ) (rest : List ℕ) (i : ℕ) (hs : rest.Pairwise (· < ·))
    (hge : ∀ r ∈ rest, ith + i ≤ r) :
    let s := skipReal ith i rest
    i ≤ s.1 ∧ s.2.Sublist rest ∧ (∀ r ∈ s.2, ith + s.1 < r) ∧
      (∀ r ∈ rest, r ∈ s.2 ∨ r < ith + s.1) ∧ s.1 + s.2.length = i + rest.length := by
  induction rest generalizing i with
  | nil => simp [skipReal]
  | cons r rest ih =>
    rw [skipReal]
    by_cases h : ith + i = r
    · rw [if_pos h]
      have hs' := List.pairwise_cons.1 hs
      obtain ⟨h1, h2, h3, h4, h5⟩ := ih (i + 1) hs'.2 (fun q hq => by
        have := hs'.1 q hq; omega)
      refine ⟨by omega, h2.trans (List.sublist_cons_self _ _), h3, ?_, by simp; omega⟩
      intro q hq
      rcases List.mem_cons.1 hq with rfl | hq
      · right; omega
      · exact h4 q hq
    · rw [if_neg h]
      have hs' := List.pairwise_cons.1 hs
      refine ⟨le_rfl, List.Sublist.refl _, ?_, fun q hq => Or.inl hq, rfl⟩
      intro q hq
      have h1 := hge r (by simp)
      rcases List.mem_cons.1 hq with rfl | hq
      · omega
      · have := hs'.1 q hq
        simp only; omega

theorem artificialRowsFrom_spec (m count ith i : ℕ) (rest : List ℕ)
    (hs : rest.Pairwise (· < ·)) (hge : ∀ r ∈ rest, ith + i ≤ r)
    (hcount : ith + i + count + rest.length = m) :
    let rows := artificialRowsFrom count ith i rest
    rows.Pairwise (· < ·) ∧ (∀ a ∈ rows, ith + i ≤ a ∧ a < m) ∧ (∀ a ∈ rows, a ∉ rest) := by
  induction count generalizing ith i rest with
  | zero => simp [artificialRowsFrom]
  | succ count ih =>
    obtain ⟨h1, h2, h3, h4, h5⟩ := skipReal_spec ith rest i hs hge
    revert h1 h2 h3 h4 h5
    rw [artificialRowsFrom]
    generalize skipReal ith i rest = s
    intro h1 h2 h3 h4 h5
    obtain ⟨g1, g2, g3⟩ := ih (ith + 1) s.1 s.2 (hs.sublist h2) (fun r hr => by
      have := h3 r hr; omega) (by omega)
    refine ⟨List.pairwise_cons.2 ⟨fun a ha => by have := (g2 a ha).1; omega, g1⟩, ?_, ?_⟩
    · intro a ha
      rcases List.mem_cons.1 ha with rfl | ha
      · exact ⟨by omega, by omega⟩
      · have := g2 a ha; exact ⟨by omega, this.2⟩
    · intro a ha har
      rcases List.mem_cons.1 ha with rfl | ha
      · rcases h4 _ har with h | h
        · have := h3 _ h; omega
        · omega
      · rcases h4 _ har with h | h
        · exact g3 a ha h
        · have := (g2 a ha).1; omega

/-- The rows without pivot are exactly the rows that get an artificial variable. -/
theorem artificialRows_spec (m : ℕ) (real : List ℕ) (hs : real.Pairwise (· < ·))
    (hlt : ∀ r ∈ real, r < m) (hlen : real.length ≤ m) :
    (artificialRows m real).Pairwise (· < ·) ∧
      (∀ a, a ∈ artificialRows m real ↔ a < m ∧ a ∉ real) := by
  obtain ⟨h1, h2, h3⟩ := artificialRowsFrom_spec m (m - real.length) 0 0 real hs (by simp) (by omega)
  refine ⟨h1, fun a => ⟨fun ha => ⟨(h2 a ha).2, h3 a ha⟩, fun ha => ?_⟩⟩
  have hnd : (artificialRows m real ++ real).Nodup := by
    rw [List.nodup_append]
    refine ⟨h1.imp ne_of_lt, hs.imp ne_of_lt, ?_⟩
    intro a ha b hb he
    exact h3 a ha (he ▸ hb)
  have hsub : (artificialRows m real ++ real).toFinset ⊆ Finset.range m := by
    intro a ha
    rw [List.mem_toFinset, List.mem_append] at ha
    rw [Finset.mem_range]
    rcases ha with ha | ha
    · exact (h2 a ha).2
    · exact hlt a ha
  have hcard : (artificialRows m real ++ real).toFinset.card = m := by
    rw [List.toFinset_card_of_nodup hnd, List.length_append, artificialRows,
      artificialRowsFrom_length]
    omega
  have heq := Finset.eq_of_subset_of_card_le hsub (by rw [hcard, Finset.card_range])
  have hmem : a ∈ (artificialRows m real ++ real).toFinset := by
    rw [heq, Finset.mem_range]; exact ha.1
  rw [List.mem_toFinset, List.mem_append] at hmem
  exact hmem.resolve_right ha.2

/-- The rows in the order in which `mergeBasis` visits them. -/
def mergeRows {nrArtificial : ℕ} : List (Fin nrArtificial × ℕ) → List (ℕ × Fin n) →
    List (ℕ × Fin (nrArtificial + n))
  | (k, a) :: as, (r, c) :: rs =>
    if a < r then (a, Fin.castAdd n k) :: mergeRows as ((r, c) :: rs)
    else (r, Fin.natAdd nrArtificial c) :: mergeRows ((k, a) :: as) rs
  | (k, a) :: as, [] => (a, Fin.castAdd n k) :: mergeRows as []
  | [], (r, c) :: rs => (r, Fin.natAdd nrArtificial c) :: mergeRows [] rs
  | [], [] => []
termination_by as rs => as.length + rs.length

theorem mergeBasis_eq {nrArtificial : ℕ} (as : List (Fin nrArtificial × ℕ)) (rs : List (ℕ × Fin n)) :
    mergeBasis as rs = (mergeRows as rs).map (·.2) := by
  fun_induction mergeRows as rs with
  | case1 k a as r c rs h ih => rw [mergeBasis, if_pos h, ih]; rfl
  | case2 k a as r c rs h ih => rw [mergeBasis, if_neg h, ih]; rfl
  | case3 k a as ih => rw [mergeBasis, ih]; rfl
  | case4 r c rs ih => rw [mergeBasis, ih]; rfl
  | case5 => rw [mergeBasis]; rfl

theorem mergeRows_perm {nrArtificial : ℕ} (as : List (Fin nrArtificial × ℕ))
    (rs : List (ℕ × Fin n)) :
    (mergeRows as rs).Perm (as.map (fun p => (p.2, Fin.castAdd n p.1)) ++
      rs.map fun p => (p.1, Fin.natAdd nrArtificial p.2)) := by
  fun_induction mergeRows as rs with
  | case1 k a as r c rs h ih => exact ih.cons _
  | case2 k a as r c rs h ih =>
    refine (ih.cons _).trans ?_
    rw [List.map_cons (l := rs)]
    exact List.perm_middle.symm
  | case3 k a as ih => exact ih.cons _
  | case4 r c rs ih => exact ih.cons _
  | case5 => exact List.Perm.refl _

theorem mergeRows_sorted {nrArtificial : ℕ} (as : List (Fin nrArtificial × ℕ))
    (rs : List (ℕ × Fin n)) (h1 : (as.map (·.2)).Pairwise (· < ·))
    (h2 : (rs.map (·.1)).Pairwise (· < ·)) (hd : ∀ p ∈ as, ∀ q ∈ rs, p.2 ≠ q.1) :
    ((mergeRows as rs).map (·.1)).Pairwise (· < ·) := by
  have hmem : ∀ (as : List (Fin nrArtificial × ℕ)) (rs : List (ℕ × Fin n)) (x : ℕ),
      x ∈ (mergeRows as rs).map (·.1) → x ∈ as.map (·.2) ∨ x ∈ rs.map (·.1) := by
    intro as rs x hx
    have := ((mergeRows_perm as rs).map (·.1)).mem_iff.1 hx
    simpa [List.map_append, Function.comp_def] using this
  fun_induction mergeRows as rs with
  | case1 k a as r c rs h ih =>
    rw [List.map_cons, List.pairwise_cons] at h1 h2 ⊢
    refine ⟨?_, ih h1.2 (by rw [List.map_cons, List.pairwise_cons]; exact h2)
      fun p hp q hq => hd p (by simp [hp]) q hq⟩
    intro x hx
    rcases hmem _ _ x hx with hx | hx
    · exact h1.1 x hx
    · rw [List.map_cons, List.mem_cons] at hx
      rcases hx with rfl | hx
      · exact h
      · exact h.trans (h2.1 x hx)
  | case2 k a as r c rs h ih =>
    rw [List.map_cons, List.pairwise_cons] at h1 h2 ⊢
    refine ⟨?_, ih (by rw [List.map_cons, List.pairwise_cons]; exact h1) h2.2
      fun p hp q hq => hd p hp q (by simp [hq])⟩
    have hne := hd (k, a) (by simp) (r, c) (by simp)
    have hlt : r < a := by simp only at hne; omega
    intro x hx
    rcases hmem _ _ x hx with hx | hx
    · rw [List.map_cons, List.mem_cons] at hx
      rcases hx with rfl | hx
      · exact hlt
      · exact hlt.trans (h1.1 x hx)
    · exact h2.1 x hx
  | case3 k a as ih =>
    rw [List.map_cons, List.pairwise_cons] at h1 ⊢
    refine ⟨?_, ih h1.2 h2 (by simp)⟩
    intro x hx
    rcases hmem _ _ x hx with hx | hx
    · exact h1.1 x hx
    · simp at hx
  | case4 r c rs ih =>
    rw [List.map_cons, List.pairwise_cons] at h2 ⊢
    refine ⟨?_, ih h1 h2.2 (by simp)⟩
    intro x hx
    rcases hmem _ _ x hx with hx | hx
    · simp at hx
    · exact h2.1 x hx
  | case5 => simp

theorem eq_range_of_sorted {l : List ℕ} {m : ℕ} (hs : l.Pairwise (· < ·)) (hlen : l.length = m)
    (hlt : ∀ a ∈ l, a < m) : l = List.range m := by
  have hsub : l.toFinset ⊆ Finset.range m := fun a ha => by
    rw [List.mem_toFinset] at ha; rw [Finset.mem_range]; exact hlt a ha
  have hnd : l.Nodup := hs.imp ne_of_lt
  have heq := Finset.eq_of_subset_of_card_le hsub (by
    rw [List.toFinset_card_of_nodup hnd, hlen, Finset.card_range])
  have hperm : l.Perm (List.range m) := by
    rw [List.perm_ext_iff_of_nodup hnd List.nodup_range]
    intro a
    rw [← List.mem_toFinset, heq, Finset.mem_range, List.mem_range]
  exact hperm.eq_of_pairwise (fun a b _ _ h1 h2 => absurd (h1.trans h2) (lt_irrefl _)) hs
    List.pairwise_lt_range

theorem partiallyMinusPi_eq (art rows : List (Fin m)) (hsub : art.Sublist rows) (hnd : rows.Nodup) :
    Carry.partiallyMinusPi art rows = rows.map fun r => if r ∈ art then (-1 : ℚ) else 0 := by
  induction rows generalizing art with
  | nil => simp [Carry.partiallyMinusPi]
  | cons r rest ih =>
    rw [List.nodup_cons] at hnd
    unfold Carry.partiallyMinusPi
    cases art with
    | nil =>
      simp only
      rw [ih [] (List.nil_sublist _) hnd.2]
      simp
    | cons a art =>
      simp only
      by_cases ha : a = r
      · subst ha
        have hsub' : art.Sublist rest := by
          rcases List.sublist_cons_iff.1 hsub with h | ⟨l, h, h'⟩
          · exact (List.sublist_cons_self _ _).trans h
          · rw [List.cons.injEq] at h; rw [h.2]; exact h'
        rw [if_pos rfl, ih art hsub' hnd.2, List.map_cons]
        simp only [List.mem_cons, true_or, if_true, List.cons.injEq, true_and]
        refine List.map_congr_left fun x hx => ?_
        have : x ≠ a := fun he => hnd.1 (he ▸ hx)
        simp [this]
      · have hsub' : (a :: art).Sublist rest := by
          rcases List.sublist_cons_iff.1 hsub with h | ⟨l, h, h'⟩
          · exact h
          · rw [List.cons.injEq] at h; exact absurd h.1 ha
        rw [if_neg ha, ih (a :: art) hsub' hnd.2, List.map_cons]
        have : r ∉ a :: art := fun h => hnd.1 (hsub'.subset h)
        rw [if_neg this]

/-- The sorted list of rows is a sublist of all rows. -/
theorem sublist_finRange {l : List (Fin m)} (h : l.Pairwise (· < ·)) :
    l.Sublist (List.finRange m) :=
  List.sublist_of_subperm_of_pairwise
    (List.Nodup.subperm (h.imp ne_of_lt) (fun a _ => List.mem_finRange a)) h (List.pairwise_lt_finRange m)

/-- What is set up for a list of columns with increasing rows, whatever these columns are. -/
theorem newPartially_shape {pivots : List (Fin m × Fin n)}
    (hpiv : (pivots.map (·.1)).Pairwise (· < ·)) :
    ∃ (columnToRow : Fin (m - pivots.length) → Fin m)
      (basisIndices : Fin m → Fin ((m - pivots.length) + n)), StrictMono columnToRow ∧
      (∀ i : Fin m, (∃ k, columnToRow k = i) ↔ i ∉ pivots.map (·.1)) ∧
      (∀ i : Fin m, (∃ k, columnToRow k = i ∧ basisIndices i = Fin.castAdd n k) ∨
        (∃ c, (i, c) ∈ pivots ∧ basisIndices i = Fin.natAdd (m - pivots.length) c)) ∧
      ∀ (BI : ℕ → Type) [BasisInverse BI] (P : Provider m n), newPartially P pivots = (do
        let carry ← (Carry.createForPartiallyArtificial
          ((List.finRange (m - pivots.length)).map columnToRow) P.rhs basisIndices : Res (Carry BI m _))
        pure {
          carry
          basisColumns := Finset.univ.image basisIndices
          kind := artificialKind P columnToRow }) := by
  have hnd : (pivots.map (·.1)).Nodup := hpiv.imp ne_of_lt
  have hlen : pivots.length ≤ m := by
    have := hnd.length_le_card
    simpa using this
  have hreal : (pivots.map fun p => (p.1 : ℕ)).Pairwise (· < ·) := by
    have := hpiv
    rw [List.pairwise_map] at this ⊢
    exact this
  obtain ⟨hsorted, hmem⟩ := artificialRows_spec m (pivots.map fun p => (p.1 : ℕ)) hreal
    (by
      intro r hr
      obtain ⟨p, -, rfl⟩ := List.mem_map.1 hr
      exact p.1.isLt) (by simpa using hlen)
  have hrlen : (artificialRows m (pivots.map fun p => (p.1 : ℕ))).length = m - pivots.length := by
    simp [artificialRows, artificialRowsFrom_length]
  have hlt : ∀ k : Fin (m - pivots.length),
      (artificialRows m (pivots.map fun p => (p.1 : ℕ))).get (k.cast hrlen.symm) < m :=
    fun k => ((hmem _).1 (List.get_mem _ _)).1
  -- the rows of the artificial variables
  obtain ⟨columnToRow, hctr⟩ : ∃ f : Fin (m - pivots.length) → Fin m, ∀ k, (f k : ℕ)
      = (artificialRows m (pivots.map fun p => (p.1 : ℕ))).get (k.cast hrlen.symm) :=
    ⟨fun k => ⟨_, hlt k⟩, fun k => rfl⟩
  have hmono : StrictMono columnToRow := by
    intro a b hab
    rw [Fin.lt_def, hctr, hctr]
    exact List.pairwise_iff_get.1 hsorted _ _ (by simpa using hab)
  have hctr_mem : ∀ i : Fin m, (∃ k, columnToRow k = i) ↔ i ∉ pivots.map (·.1) := by
    intro i
    have h1 := hmem i
    have h2 : (i : ℕ) ∈ (pivots.map fun p => (p.1 : ℕ)) ↔ i ∈ pivots.map (·.1) := by
      simp only [List.mem_map]
      constructor
      · rintro ⟨p, hp, h⟩; exact ⟨p, hp, Fin.ext h⟩
      · rintro ⟨p, hp, h⟩; exact ⟨p, hp, by rw [h]⟩
    rw [← h2]
    constructor
    · rintro ⟨k, rfl⟩
      refine (h1.1 ?_).2
      rw [hctr]
      exact List.get_mem _ _
    · intro h
      obtain ⟨k, hk⟩ := List.get_of_mem (h1.2 ⟨i.isLt, h⟩)
      exact ⟨k.cast hrlen, Fin.ext (by rw [hctr]; exact hk)⟩
  -- the merged basis
  let as : List (Fin (m - pivots.length) × ℕ) :=
    (List.finRange (m - pivots.length)).map fun k => (k, (columnToRow k : ℕ))
  let rs : List (ℕ × Fin n) := pivots.map fun p => ((p.1 : ℕ), p.2)
  have hmsorted : ((mergeRows as rs).map (·.1)).Pairwise (· < ·) := by
    refine mergeRows_sorted as rs ?_ ?_ ?_
    · rw [List.map_map, List.pairwise_map]
      exact (List.pairwise_lt_finRange _).imp fun h => hmono h
    · rw [List.map_map]; exact hreal
    · intro p hp q hq he
      obtain ⟨k, -, rfl⟩ := List.mem_map.1 hp
      obtain ⟨q, hq', rfl⟩ := List.mem_map.1 hq
      exact (hctr_mem q.1).1 ⟨k, Fin.ext he⟩ (List.mem_map.2 ⟨q, hq', rfl⟩)
  have hmlen : (mergeRows as rs).length = m := by
    rw [(mergeRows_perm as rs).length_eq]
    simp [as, rs]
    omega
  have hmlt : ∀ a ∈ (mergeRows as rs).map (·.1), a < m := by
    intro a ha
    have := ((mergeRows_perm as rs).map (·.1)).mem_iff.1 ha
    simp only [as, rs, List.map_append, List.map_map, List.mem_append, List.mem_map,
      Function.comp_apply] at this
    rcases this with ⟨k, -, rfl⟩ | ⟨p, -, rfl⟩
    · exact (columnToRow k).isLt
    · exact p.1.isLt
  have hrange := eq_range_of_sorted hmsorted (by rw [List.length_map]; exact hmlen) hmlt
  have hblen : (mergeBasis as rs).length = m := by rw [mergeBasis_eq, List.length_map]; exact hmlen
  have hget : ∀ i : Fin m, ((i : ℕ), (mergeBasis as rs).get (i.cast hblen.symm)) ∈ mergeRows as rs := by
    intro i
    have h1 : ((mergeRows as rs).get (i.cast hmlen.symm)).1 = i := by
      have h2 : ((mergeRows as rs).map (·.1))[(i : ℕ)]'(by
          rw [List.length_map, hmlen]; exact i.isLt) = (List.range m)[(i : ℕ)]'(by simp) := by
        simp only [hrange]
      rw [List.getElem_map, List.getElem_range] at h2
      exact h2
    have h3 : (mergeBasis as rs).get (i.cast hblen.symm)
        = ((mergeRows as rs).get (i.cast hmlen.symm)).2 := by
      simp [mergeBasis_eq]
    have h4 := List.get_mem (mergeRows as rs) (i.cast hmlen.symm)
    rw [h3]
    have : ((i : ℕ), ((mergeRows as rs).get (i.cast hmlen.symm)).2)
        = (mergeRows as rs).get (i.cast hmlen.symm) := Prod.ext h1.symm rfl
    rw [this]
    exact h4
  have hcases : ∀ i : Fin m,
      (∃ k, columnToRow k = i ∧ (mergeBasis as rs).get (i.cast hblen.symm) = Fin.castAdd n k) ∨
      (∃ c, (i, c) ∈ pivots ∧ (mergeBasis as rs).get (i.cast hblen.symm)
        = Fin.natAdd (m - pivots.length) c) := by
    intro i
    have := (mergeRows_perm as rs).mem_iff.1 (hget i)
    rw [List.mem_append, List.mem_map, List.mem_map] at this
    rcases this with ⟨p, hp, he⟩ | ⟨p, hp, he⟩
    · obtain ⟨k, -, rfl⟩ := List.mem_map.1 hp
      rw [Prod.mk.injEq] at he
      exact Or.inl ⟨k, Fin.ext he.1, he.2.symm⟩
    · obtain ⟨q, hq, rfl⟩ := List.mem_map.1 hp
      rw [Prod.mk.injEq] at he
      refine Or.inr ⟨q.2, ?_, he.2.symm⟩
      have : q.1 = i := Fin.ext he.1
      rw [← this]
      exact hq
  have hctr_eq : (fun k : Fin (m - pivots.length) => (⟨_, hlt k⟩ : Fin m)) = columnToRow := by
    ext k; rw [hctr]
  refine ⟨columnToRow, fun i => (mergeBasis as rs).get (i.cast hblen.symm), hmono, hctr_mem, hcases, ?_⟩
  subst hctr_eq
  intro BI _ P
  unfold newPartially
  rw [if_neg (by omega)]
  simp only
  rw [dif_pos hlt, dif_pos hblen]

theorem newPartially_spec (hm : OkDim BI m) {P : Provider m n} (hP : ∀ j, SVec.WF (P.column j))
    {pivots : List (Fin m × Fin n)} (hpiv : PivotsOk P pivots) :
    ∃ (t : Tableau BI m ((m - pivots.length) + n)) (columnToRow : Fin (m - pivots.length) → Fin m),
      newPartially P pivots = .ok t ∧ t.Exact P.rhs 1 ∧ ArtInv t ∧
      t.carry.b = P.rhs ∧ t.kind = artificialKind P columnToRow := by
  obtain ⟨bi, hid, hrep⟩ := identity_ok (BI := BI) hm
  obtain ⟨columnToRow, basisIndices, hmono, hctr_mem, hcases, hnew⟩ := newPartially_shape (n := n) hpiv.sorted
  have hunit : ∀ i : Fin m, SVec.val ((artificialKind P columnToRow).column
      (basisIndices i)) = Pi.single i 1 := by
    intro i
    rcases hcases i with ⟨k, rfl, h⟩ | ⟨c, hc, h⟩
    · rw [h]
      simp only [artificialKind, Fin.addCases_left]
      exact SVec.val_standardBasis_eq _
    · rw [h]
      simp only [artificialKind, Fin.addCases_right]
      exact hpiv.unit _ hc
  have hcost : ∀ i : Fin m, (artificialKind P columnToRow).cost
      (basisIndices i) = if ∃ k, columnToRow k = i then 1 else 0 := by
    intro i
    rcases hcases i with ⟨k, rfl, h⟩ | ⟨c, hc, h⟩
    · rw [h, if_pos ⟨k, rfl⟩]
      simp [artificialKind]
    · rw [h, if_neg]
      · simp [artificialKind]
      · rw [hctr_mem, not_not]
        exact List.mem_map.2 ⟨_, hc, rfl⟩
  have hartlist : ((List.finRange (m - pivots.length)).map columnToRow).Pairwise (· < ·) := by
    rw [List.pairwise_map]
    exact (List.pairwise_lt_finRange _).imp fun h => hmono h
  refine ⟨{
      carry := {
        minusObjective := -(((List.finRange (m - pivots.length)).map columnToRow).foldl
          (fun s i => s + P.rhs i) 0)
        minusPi := fun i => (Carry.partiallyMinusPi
          ((List.finRange (m - pivots.length)).map columnToRow) (List.finRange m)).get
            (i.cast (by simp [Carry.partiallyMinusPi_length]))
        b := P.rhs
        basisIndices
        basisInverse := bi }
      basisColumns := Finset.univ.image basisIndices
      kind := artificialKind P columnToRow }, columnToRow, ?_, ?_, ?_, rfl, rfl⟩
  · rw [hnew]
    unfold Carry.createForPartiallyArtificial
    simp only [hid, bind, Except.bind, pure, Except.pure]
  · refine Exact.initial (artificialKind_wf hP) hrep hunit rfl ?_ ?_ rfl
    · ext i
      change (Carry.partiallyMinusPi _ _).get _ = -((artificialKind P columnToRow).cost
        (basisIndices i))
      rw [hcost]
      have h1 := partiallyMinusPi_eq _ _ (sublist_finRange hartlist) (List.nodup_finRange m)
      simp only [List.get_eq_getElem, h1, List.getElem_map, List.getElem_finRange]
      simp only [List.mem_map, List.mem_finRange, true_and]
      by_cases h : ∃ k, columnToRow k = i
      · simp [h]
      · simp [h]
    · change -(((List.finRange (m - pivots.length)).map columnToRow).foldl
          (fun s i => s + P.rhs i) 0)
        = -(∑ i, (artificialKind P columnToRow).cost
            (basisIndices i) * P.rhs i)
      simp only [hcost]
      rw [Carry.foldl_add, zero_add, List.map_map, ← List.ofFn_eq_map, List.sum_ofFn]
      congr 1
      simp only [ite_mul, one_mul, zero_mul]
      rw [← Finset.sum_filter]
      refine Finset.sum_bij (fun k _ => columnToRow k) ?_ ?_ ?_ ?_
      · intro k _; simp
      · intro a _ b _ h; exact hmono.injective h
      · intro i hi
        rw [Finset.mem_filter] at hi
        obtain ⟨k, hk⟩ := hi.2
        exact ⟨k, Finset.mem_univ _, hk⟩
      · intro k _; rfl
  · exact artificialKind_artInv rfl hunit

end Relp
