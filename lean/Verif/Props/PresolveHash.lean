import Verif.Proof.PresolveKeys
import Verif.Props.Presolve

/-!
# C77: presolving does not depend on the order of hash containers

The changes that presolving finds are kept in hash maps, and the standard library iterates over a hash map in
an order that differs from run to run. `presolveHashed` follows the code and takes the orders as a parameter.
-/

namespace Relp

open Presolve

/-- **C77**: whatever the orders in which the hash containers are iterated, presolving has the same result: the
same problem, the same verdict, or the same abort. -/
theorem C77_same {G : GeneralForm} (hG : G.Fresh) (o o' : HashOrder) (fuel : ℕ) :
    presolveHashed o fuel G = presolveHashed o' fuel G := by
  unfold presolveHashed
  cases hs : Index.new G with
  | error e => rfl
  | ok s =>
    simp only [bind, Except.bind]
    cases hl : presolveLoop G fuel s 0 with
    | error e => rfl
    | ok t =>
      have ht := (end_keyed hG hs hl).1
      have h := fun o => finish_hashed o hG.bLength (by rw [hG.identity, List.length_range]) ht.varsNodup ht.varsRange
        ht.rowsNodup
      simp only [h]

/-- **C77**: that result is the one of `presolve`, the model that all other theorems about presolving are
about; so the shortcuts that it takes after the last step make no difference. -/
theorem C77_model {G : GeneralForm} (hG : G.Fresh) (o : HashOrder) (fuel : ℕ) :
    presolveHashed o fuel G = presolve fuel G := by
  unfold presolveHashed presolve
  cases hs : Index.new G with
  | error e => rfl
  | ok s =>
    simp only [bind, Except.bind]
    cases hl : presolveLoop G fuel s 0 with
    | error e => rfl
    | ok t =>
      have ht := (end_keyed hG hs hl).1
      simp only [finish_hashed o hG.bLength (by rw [hG.identity, List.length_range]) ht.varsNodup ht.varsRange
        ht.rowsNodup]
      rfl

/-- **C77**: the lists that the model iterates over have every entry of the hash maps exactly once; in
particular, no key is out of range. -/
theorem C77_maps {G : GeneralForm} (hG : G.Fresh) (fuel : ℕ) {s t : Index} (h : Index.new G = .ok s)
    (h' : presolveLoop G fuel s 0 = .ok t) :
    (∀ i v, (i, v) ∈ entries G.constraintTypes.length t.updates.b ↔ t.updates.b i = some v) ∧
    (∀ i v, (i, v) ∈ entries G.constraintTypes.length t.updates.constraints ↔ t.updates.constraints i = some v) ∧
    (∀ j d v, ((j, d), v) ∈ directedEntries G.vars.length t.updates.bounds ↔ t.updates.bounds j d = some v) ∧
    (∀ j d v, ((j, d), v) ∈ directedEntries G.vars.length t.updates.activityBounds ↔
      t.updates.activityBounds j d = some v) ∧
    ((entries G.constraintTypes.length t.updates.b).map (·.1)).Nodup ∧
    ((entries G.constraintTypes.length t.updates.constraints).map (·.1)).Nodup ∧
    ((directedEntries G.vars.length t.updates.bounds).map (·.1)).Nodup ∧
    ((directedEntries G.vars.length t.updates.activityBounds).map (·.1)).Nodup := by
  obtain ⟨-, hk⟩ := end_keyed hG h h'
  have he : ∀ {α : Type} (f : ℕ → Option α), (∀ i, f i ≠ none → i < G.constraintTypes.length) →
      ∀ i v, (i, v) ∈ entries G.constraintTypes.length f ↔ f i = some v := by
    intro α f hf i v
    rw [← hashGet_some (entries_nodup _ f), hashGet_entries]
    constructor
    · intro h
      split at h
      · exact h
      · cases h
    · intro h
      rw [if_pos (hf i (by rw [h]; simp))]
      exact h
  have hd : ∀ (f : ℕ → BoundDirection → Option ℚ), (∀ j d, f j d ≠ none → j < G.vars.length) →
      ∀ j d v, ((j, d), v) ∈ directedEntries G.vars.length f ↔ f j d = some v := by
    intro f hf j d v
    rw [mem_directedEntries]
    exact ⟨fun h => h.2, fun h => ⟨hf j d (by rw [h]; simp), h⟩⟩
  exact ⟨he _ hk.b, he _ hk.constraints, hd _ hk.bounds, hd _ hk.activityBounds, entries_nodup _ _,
    entries_nodup _ _, directedEntries_nodup _ _, directedEntries_nodup _ _⟩

/-! Concrete cases. -/

example : presolveHashed .reversed 100 Example.textbook = .ok Example.textbookLeft := by
  rw [C77_model Example.textbook_fresh.1]
  exact Example.textbook_presolved

example : presolveHashed .reversed 100 Example.textbook = presolveHashed .listed 100 Example.textbook :=
  C77_same Example.textbook_fresh.1 _ _ 100

/-- The maps of that problem do have entries. -/
example : (match Index.new Example.textbook >>= fun s => presolveLoop Example.textbook 100 s 0 with
    | .ok t => (directedEntries 3 t.updates.activityBounds).length
    | .error _ => 0) ≥ 2 := by
  decide +kernel

end Relp
