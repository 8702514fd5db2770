import Verif.Proof.Compare

/-!
# Properties of comparing solutions (C67)

`round` is the rounding of a fraction to a floating-point number.
-/

namespace Relp

open GeneralForm Spec

variable (round : ℚ → ℚ) (s t : Solution) (minEqual : ℚ)

/-- **C67, for ten variables and more, and the fraction exceeded.** Two solutions that have each variable once are
taken to be equal iff they have the same objective value and the same variables, and more than the given fraction of
the variables has the same value in both, up to the rounding of the fraction. Missing: with fewer variables all values
may be different (`C67_not_few`), and the fraction is not enough if it is met exactly (`C67_not_itself`). -/
theorem C67_equal_partial (hs : (s.values.map (·.1)).Nodup) (ht : (t.values.map (·.1)).Nodup)
    (h : 10 ≤ s.values.length) :
    s.isProbablyEqualTo round t minEqual = true ↔
      s.objectiveValue = t.objectiveValue ∧ SameNames s.values t.values ∧
        minEqual < round (nrAgreeing s.values t.values / s.values.length) := by
  unfold Solution.isProbablyEqualTo
  rw [Solution.nrEqual_eq hs ht]
  by_cases h1 : s.objectiveValue = t.objectiveValue
  · rw [if_neg (not_not.2 h1)]
    by_cases h2 : SameNames s.values t.values
    · have h3 := Solution.sameKeys_iff.2 h2
      have h4 : s.values.length = t.values.length := by
        have := h3.1
        unfold Solution.keys at this
        rwa [List.Nodup.dedup hs, List.Nodup.dedup ht, List.length_map, List.length_map] at this
      rw [if_neg (not_not.2 h4), if_neg (not_not.2 h3), if_neg (by omega)]
      simp [h1, h2]
    · have h3 : ¬ (s.keys.length = t.keys.length ∧ ∀ k ∈ s.keys, k ∈ t.keys) := fun h3 => h2 (Solution.sameKeys_iff.1 h3)
      rw [if_pos h3]
      simp [h2]
  · rw [if_pos h1]
    simp [h1]

/-- With exact arithmetic, or if the rounding is monotone: a solution that is taken to be equal agrees in more than
the given fraction. -/
theorem C67_fraction (hr : Rounding round minEqual) (hs : (s.values.map (·.1)).Nodup)
    (ht : (t.values.map (·.1)).Nodup) (h : 10 ≤ s.values.length)
    (he : s.isProbablyEqualTo round t minEqual = true) :
    minEqual * s.values.length < nrAgreeing s.values t.values := by
  have h1 := ((C67_equal_partial round s t minEqual hs ht h).1 he).2.2
  have hpos : (0 : ℚ) < s.values.length := by
    have : 0 < s.values.length := by omega
    exact_mod_cast this
  by_contra hc
  have h2 : (nrAgreeing s.values t.values / s.values.length : ℚ) ≤ minEqual := by
    rw [div_le_iff₀ hpos]
    exact not_lt.1 hc
  have := hr.mono _ _ h2
  rw [hr.exact] at this
  exact absurd h1 (not_lt.2 this)

/-- The order does not matter. -/
theorem C67_symmetric : s.isProbablyEqualTo round t minEqual = t.isProbablyEqualTo round s minEqual := by
  unfold Solution.isProbablyEqualTo
  by_cases h1 : s.objectiveValue = t.objectiveValue
  · by_cases h2 : s.values.length = t.values.length
    · by_cases h3 : s.keys.length = t.keys.length ∧ ∀ k ∈ s.keys, k ∈ t.keys
      · have hp := Solution.sameKeys h3.1 h3.2
        have h4 : t.keys.length = s.keys.length ∧ ∀ k ∈ t.keys, k ∈ s.keys :=
          ⟨h3.1.symm, fun k hk => hp.mem_iff.2 hk⟩
        rw [if_neg (not_not.2 h1), if_neg (not_not.2 h2), if_neg (not_not.2 h3), if_neg (not_not.2 h1.symm),
          if_neg (not_not.2 h2.symm), if_neg (not_not.2 h4), h2, (hp.filter _).length_eq]
        simp only [eq_comm]
      · have h4 : ¬ (t.keys.length = s.keys.length ∧ ∀ k ∈ t.keys, k ∈ s.keys) := fun h4 =>
          h3 ⟨h4.1.symm, fun k hk => (Solution.sameKeys h4.1 h4.2).mem_iff.2 hk⟩
        rw [if_neg (not_not.2 h1), if_neg (not_not.2 h2), if_pos h3, if_neg (not_not.2 h1.symm),
          if_neg (not_not.2 h2.symm), if_pos h4]
    · rw [if_neg (not_not.2 h1), if_pos h2, if_neg (not_not.2 h1.symm), if_pos (Ne.symm h2)]
  · rw [if_pos h1, if_pos (Ne.symm h1)]

/-- With fewer than ten variables, solutions with the same objective value and the same variables are always taken to
be equal: the values are not compared. -/
theorem C67_not_few (hs : (s.values.map (·.1)).Nodup) (ht : (t.values.map (·.1)).Nodup)
    (hn : s.values.length < 10) (h1 : s.objectiveValue = t.objectiveValue)
    (h2 : SameNames s.values t.values) : s.isProbablyEqualTo round t minEqual = true := by
  have h3 := Solution.sameKeys_iff.2 h2
  have h4 : s.values.length = t.values.length := by
    have := h3.1
    unfold Solution.keys at this
    rwa [List.Nodup.dedup hs, List.Nodup.dedup ht, List.length_map, List.length_map] at this
  unfold Solution.isProbablyEqualTo
  rw [if_neg (not_not.2 h1), if_neg (not_not.2 h4), if_neg (not_not.2 h3), if_pos hn]

/-- With ten variables or more, no solution is equal to itself if all values are asked to be equal. -/
theorem C67_not_itself (hr : Rounding round 1) (hs : (s.values.map (·.1)).Nodup)
    (h : 10 ≤ s.values.length) : s.isProbablyEqualTo round s 1 = false := by
  rw [← Bool.not_eq_true, C67_equal_partial round s s 1 hs hs h]
  rintro ⟨-, -, h3⟩
  have e : nrAgreeing s.values s.values = s.values.length := by
    unfold nrAgreeing
    rw [List.filter_eq_self.2]
    simp
  have hne : (s.values.length : ℚ) ≠ 0 := by
    have : s.values.length ≠ 0 := by omega
    exact_mod_cast this
  rw [e, div_self hne, hr.exact] at h3
  exact lt_irrefl _ h3

/-! ### Concrete solutions -/

/-- Ten variables, nine of which have the value that they have in `Example.firstSolution`. -/
def Example.firstSolution : Solution := .new 5 [("a", 1), ("b", 2), ("c", 3), ("d", 4), ("e", 5), ("f", 6), ("g", 7),
  ("h", 8), ("i", 9), ("j", 10)]
@[inherit_doc Example.firstSolution]
def Example.secondSolution : Solution := .new 5 [("j", 10), ("i", 9), ("h", 8), ("g", 7), ("f", 6), ("e", 5), ("d", 4),
  ("c", 3), ("b", 2), ("a", 0)]

example : Example.firstSolution.isProbablyEqualTo id Example.secondSolution (4/5) = true ∧
    Example.firstSolution.isProbablyEqualTo id Example.secondSolution (9/10) = false ∧
    (Example.firstSolution.values.map (·.1)).Nodup ∧ Rounding id (4/5) := by
  refine ⟨by decide +kernel, by decide +kernel, by decide +kernel, ⟨fun _ _ h => h, rfl⟩⟩

example : (Solution.new 5 [("a", 1), ("b", 2)]).isProbablyEqualTo id (.new 5 [("b", 7), ("a", 8)]) 1 = true ∧
    (Solution.new 5 [("a", 1), ("b", 2)]).isProbablyEqualTo id (.new 5 [("c", 1), ("b", 2)]) 0 = false := by
  decide +kernel

example : Example.firstSolution.isProbablyEqualTo id Example.firstSolution 1 = false :=
  C67_not_itself id _ ⟨fun _ _ h => h, rfl⟩ (by decide +kernel) (by decide)

end Relp
