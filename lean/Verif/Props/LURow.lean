import Verif.Model.LURow
import Verif.Props.BasisInverse

/-!
# C16: a single value of a column

`left_multiply_by_upper_inverse_row` stops at the requested row. After any history of basis changes, it gives what the
solve of the entire column has there.
-/

namespace Relp

open Matrix BasisInverse Spec

variable {m : ℕ}

namespace LU

theorem leftUpperRow_eq {lu : LU m} (hu : UpperOk lu) (t : Fin m) (fuel k : ℕ) (hf : k ≤ fuel) (rhs : Sparse m)
    (hr : SVec.WF rhs) (hk : ∀ p ∈ rhs, (p.1 : ℕ) < k) (x : Sparse m) (hx : lu.leftUpper fuel rhs = .ok x) :
    lu.leftUpperRow t fuel rhs = .ok (if SVec.val x t = 0 then none else some (SVec.val x t)) := by
  induction fuel generalizing k rhs x with
  | zero =>
    cases rhs with
    | nil =>
      unfold leftUpper at hx
      obtain rfl := Except.ok.inj hx
      unfold leftUpperRow
      rfl
    | cons p rhs =>
      have := hk p (by simp)
      omega
  | succ fuel ih =>
    rcases List.eq_nil_or_concat rhs with rfl | ⟨rhs', p, rfl⟩
    · unfold leftUpper at hx
      obtain rfl := Except.ok.inj hx
      unfold leftUpperRow
      rfl
    · rw [List.concat_eq_append] at *
      obtain ⟨row, value⟩ := p
      obtain ⟨hr', hv, hlt⟩ := of_wf_concat hr
      simp only at hv
      have hkrow : (row : ℕ) < k := hk (row, value) (by simp)
      have hd := hu.diagonal row
      have hres : value / lu.upperDiagonal row ≠ 0 := div_ne_zero hv hd
      have hnew : SVec.WF (lu.updateRhs row (value / lu.upperDiagonal row) rhs') ∧
          ∀ p ∈ lu.updateRhs row (value / lu.upperDiagonal row) rhs', (p.1 : ℕ) < row := by
        unfold updateRhs
        by_cases h : 0 < (row : ℕ)
        · obtain ⟨h1, h2, h3⟩ := foldl_insertOrShift (lu.upperColumn row h) _ hres
            (fun p hp => (hu.wf _).nonzero p hp) (K := fun i => (i : ℕ) < row)
            (fun p hp => by
              have := hu.lt _ p hp
              simp only at this; omega) rhs' hr' (fun p hp => hlt p hp)
          rw [dif_pos h]
          exact ⟨h1, h3⟩
        · rw [dif_neg h]
          exact ⟨hr', fun p hp => hlt p hp⟩
      obtain ⟨y, g1, g2, g3, -⟩ := leftUpper_spec hu fuel row (by omega) _ hnew.1 hnew.2
      unfold leftUpper at hx
      simp only [List.getLast?_append, List.getLast?_singleton, Option.some_or,
        List.dropLast_concat, if_neg hd, g1] at hx
      obtain rfl := Except.ok.inj hx
      have hy (i : Fin m) (hi : row ≤ i) : SVec.val y i = 0 := by
        by_contra hne
        obtain ⟨p, hp, he⟩ : ∃ p ∈ y, p.1 = i := by
          by_contra hno
          push Not at hno
          exact hne (SVec.val_eq_zero_of_notMem hno)
        have := g3 p hp
        rw [he] at this
        have : row.val ≤ i.val := hi
        omega
      unfold leftUpperRow
      simp only [List.getLast?_append, List.getLast?_singleton, Option.some_or, List.dropLast_concat, if_neg hd]
      rw [val_concat, SVec.val_cons]
      by_cases h1 : row < t
      · rw [if_pos h1, if_neg (ne_of_lt h1), hy t h1.le, add_zero, if_pos rfl]
      · rw [if_neg h1]
        by_cases h2 : row = t
        · subst h2
          rw [if_pos rfl, if_pos rfl, hy row le_rfl, add_zero, if_neg hres]
        · rw [if_neg h2, if_neg h2, zero_add]
          exact ih row (by omega) _ hnew.1 hnew.2 y g1

end LU

/-- **C16** (a single value). After any history of basis changes, in any dimension from two on, solving with the upper
factor succeeds for every right-hand side, and the version that computes a single value gives what the solution has in
that row, `None` if that is zero. -/
theorem C16_single_value (hm : 2 ≤ m) (lu : LU m) (B : Matrix (Fin m) (Fin m) ℚ) (h : History lu B) (rhs : Sparse m)
    (hr : SVec.WF rhs) : ∃ x, lu.leftUpper m rhs = .ok x ∧
      ∀ t, lu.leftUpperRow t m rhs = .ok (if SVec.val x t = 0 then none else some (SVec.val x t)) := by
  obtain ⟨M, h1, h2⟩ := LU.history_rep hm h
  obtain ⟨x, e, -⟩ := LU.leftUpper_spec h1.upper m m le_rfl rhs hr (fun p _ => p.1.2)
  exact ⟨x, e, fun t => LU.leftUpperRow_eq h1.upper t m m le_rfl rhs hr (fun p _ => p.1.2) x e⟩

/-- An upper triangle with rows `(2, 1, 3)`, `(0, 1, 0)`, `(0, 0, 4)`. -/
example :
    let lu : LU 3 := ⟨Full.identity 3, Full.identity 3, fun _ => [], ![[(0, 1)], [(0, 3)]], ![2, 1, 4], []⟩
    lu.leftUpper 3 [(0, 7), (2, 8)] = .ok [(0, 1/2), (2, 2)] ∧
    lu.leftUpperRow 0 3 [(0, 7), (2, 8)] = .ok (some (1/2)) ∧ lu.leftUpperRow 1 3 [(0, 7), (2, 8)] = .ok none := by
  refine ⟨?_, ?_, ?_⟩ <;> decide +kernel

end Relp
