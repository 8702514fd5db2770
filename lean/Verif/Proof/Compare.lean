import Verif.Model.Solution
import Verif.Spec.Compare
import Mathlib.Data.List.Perm.Subperm
import Mathlib.Data.Finset.Card

/-!
# Lemmas for comparing solutions
-/

namespace Relp.GeneralForm.Solution

theorem mem_keys {s : Solution} {name : String} : name ∈ s.keys ↔ ∃ x, (name, x) ∈ s.values := by
  simp [keys]

theorem nodup_keys (s : Solution) : s.keys.Nodup := List.nodup_dedup _

theorem sameKeys {s t : Solution} (h : s.keys.length = t.keys.length) (hk : ∀ k ∈ s.keys, k ∈ t.keys) :
    s.keys.Perm t.keys :=
  (s.nodup_keys.subperm hk).perm_of_length_le h.ge

theorem sameKeys_iff {s t : Solution} : (s.keys.length = t.keys.length ∧ ∀ k ∈ s.keys, k ∈ t.keys) ↔
    Spec.SameNames s.values t.values := by
  constructor
  · rintro ⟨h1, h2⟩ name
    rw [← mem_keys, ← mem_keys]
    exact (sameKeys h1 h2).mem_iff
  · intro h
    have hm : ∀ k, k ∈ s.keys ↔ k ∈ t.keys := fun k => by rw [mem_keys, mem_keys]; exact h k
    exact ⟨((List.perm_ext_iff_of_nodup s.nodup_keys t.nodup_keys).2 hm).length_eq, fun k => (hm k).1⟩

/-- With distinct names, a variable has one value. -/
theorem get_eq {s : Solution} (hd : (s.values.map (·.1)).Nodup) {name : String} {x : ℚ}
    (h : (name, x) ∈ s.values) : s.get name = some x := by
  unfold get
  have hp : ∀ p ∈ s.values, p.1 = name → p = (name, x) := fun p hp he =>
    List.inj_on_of_nodup_map hd hp h he
  cases hf : s.values.reverse.find? fun p => decide (p.1 = name) with
  | none =>
    have := List.find?_eq_none.1 hf (name, x) (by simpa using h)
    simp at this
  | some p =>
    have h1 := List.find?_some hf
    have h2 := List.mem_of_find?_eq_some hf
    rw [hp p (by simpa using h2) (by simpa using h1)]
    rfl

theorem get_none {s : Solution} {name : String} (h : ¬ ∃ x, (name, x) ∈ s.values) : s.get name = none := by
  unfold get
  rw [Option.map_eq_none_iff, List.find?_eq_none]
  intro p hp hc
  simp only [decide_eq_true_eq] at hc
  exact h ⟨p.2, by rw [← hc]; simpa using hp⟩

/-- How many values are equal. -/
theorem nrEqual_eq {s t : Solution} (hs : (s.values.map (·.1)).Nodup)
    (ht : (t.values.map (·.1)).Nodup) :
    (s.keys.filter fun name => decide (s.get name = t.get name)).length =
      Spec.nrAgreeing s.values t.values := by
  unfold Spec.nrAgreeing keys
  rw [List.Nodup.dedup hs, List.filter_map, List.length_map]
  congr 1
  apply List.filter_congr
  intro p hp
  simp only [Function.comp, decide_eq_decide]
  have h1 : s.get p.1 = some p.2 := get_eq hs hp
  rw [h1]
  constructor
  · intro h2
    by_cases hc : ∃ x, (p.1, x) ∈ t.values
    · obtain ⟨x, hx⟩ := hc
      rw [get_eq ht hx] at h2
      cases h2
      exact hx
    · rw [get_none hc] at h2
      cases h2
  · intro h2
    exact (get_eq ht h2).symm

end Relp.GeneralForm.Solution
