import Verif.Model.PresolveHash
import Verif.Proof.PresolveShape

/-!
# Hash containers: the order of iteration does not matter
-/

namespace Relp

namespace Presolve

section Hash

variable {κ α : Type} [DecidableEq κ]

theorem hashGet_nil (k : κ) : hashGet k ([] : List (κ × α)) = none := rfl

theorem hashGet_cons (k : κ) (p : κ × α) (l : List (κ × α)) :
    hashGet k (p :: l) = if p.1 = k then some p.2 else hashGet k l := by
  unfold hashGet
  rw [List.find?_cons]
  by_cases h : p.1 = k <;> simp [h]

theorem hashGet_none {k : κ} {l : List (κ × α)} : hashGet k l = none ↔ k ∉ l.map (·.1) := by
  induction l with
  | nil => simp [hashGet_nil]
  | cons p l ih =>
    rw [hashGet_cons]
    by_cases h : p.1 = k
    · simp [h]
    · rw [if_neg h, ih]
      simp [Ne.symm h]

theorem hashGet_some {k : κ} {v : α} {l : List (κ × α)} (hl : (l.map (·.1)).Nodup) :
    hashGet k l = some v ↔ (k, v) ∈ l := by
  induction l with
  | nil => simp [hashGet_nil]
  | cons p l ih =>
    rw [List.map_cons, List.nodup_cons] at hl
    rw [hashGet_cons, List.mem_cons]
    by_cases h : p.1 = k
    · rw [if_pos h]
      constructor
      · intro e
        cases e
        exact .inl (by rw [← h])
      · rintro (e | e)
        · rw [← e]
        · exact absurd (List.mem_map.2 ⟨_, e, rfl⟩) (by rw [← h]; exact hl.1)
    · rw [if_neg h, ih hl.2]
      constructor
      · exact .inr
      · rintro (e | e)
        · exact absurd (by rw [← e]) h
        · exact e

theorem hashGet_perm {k : κ} {l l' : List (κ × α)} (hl : (l.map (·.1)).Nodup) (h : l.Perm l') :
    hashGet k l' = hashGet k l := by
  have hl' : (l'.map (·.1)).Nodup := (h.map _).nodup_iff.1 hl
  apply Option.ext
  intro v
  rw [hashGet_some hl, hashGet_some hl', h.mem_iff]

theorem hashGet_remove (k k' : κ) (l : List (κ × α)) :
    hashGet k (hashRemove k' l) = if k = k' then none else hashGet k l := by
  induction l with
  | nil => simp [hashRemove, hashGet_nil]
  | cons p l ih =>
    unfold hashRemove at ih ⊢
    rw [List.filter_cons]
    by_cases h : p.1 = k'
    · rw [if_neg (by simpa using h), ih, hashGet_cons]
      by_cases h' : k = k'
      · simp [h']
      · rw [if_neg h', if_neg h', if_neg (by rw [h]; exact Ne.symm h')]
    · rw [if_pos (by simpa using h), hashGet_cons, ih, hashGet_cons]
      by_cases h' : p.1 = k
      · rw [if_pos h', if_pos h', if_neg (by rw [← h']; exact h)]
      · rw [if_neg h', if_neg h']

theorem hashRemove_nodup {k : κ} {l : List (κ × α)} (hl : (l.map (·.1)).Nodup) :
    ((hashRemove k l).map (·.1)).Nodup :=
  hl.sublist (List.filter_sublist.map _)

theorem hashGet_insert (k k' : κ) (v : α) (l : List (κ × α)) :
    hashGet k (hashInsert k' v l) = if k = k' then some v else hashGet k l := by
  unfold hashInsert
  rw [hashGet_cons, hashGet_remove]
  by_cases h : k = k'
  · simp [h]
  · rw [if_neg (fun e => h e.symm), if_neg h, if_neg h]

theorem hashInsert_nodup {k : κ} {v : α} {l : List (κ × α)} (hl : (l.map (·.1)).Nodup) :
    ((hashInsert k v l).map (·.1)).Nodup := by
  unfold hashInsert
  rw [List.map_cons, List.nodup_cons]
  refine ⟨?_, hashRemove_nodup hl⟩
  simp [hashRemove]

theorem hashGet_filter {k : κ} {l : List (κ × α)} (hl : (l.map (·.1)).Nodup) (p : κ × α → Bool) :
    hashGet k (l.filter p) = (hashGet k l).filter fun v => p (k, v) := by
  have hl' : ((l.filter p).map (·.1)).Nodup := hl.sublist (List.filter_sublist.map _)
  apply Option.ext
  intro v
  rw [hashGet_some hl', List.mem_filter, Option.filter_eq_some_iff, hashGet_some hl]

/-- The entries of a map are found again. -/
theorem hashGet_entries (n : ℕ) (f : ℕ → Option α) (i : ℕ) :
    hashGet i (entries n f) = if i < n then f i else none := by
  unfold entries
  induction n with
  | zero => simp [hashGet_nil]
  | succ n ih =>
    rw [List.range_succ, List.filterMap_append]
    have happ : ∀ (l l' : List (ℕ × α)), hashGet i (l ++ l') = (hashGet i l).or (hashGet i l') := by
      intro l l'
      induction l with
      | nil => simp [hashGet_nil]
      | cons p l ih => rw [List.cons_append, hashGet_cons, hashGet_cons, ih]; split <;> simp
    rw [happ, ih]
    rcases lt_trichotomy i n with h | h | h
    · rw [if_pos h, if_pos (by omega)]
      cases hf : f i with
      | some v => simp
      | none =>
        cases hn : f n with
        | none => simp [hn, hashGet_nil]
        | some w => simp [hn, hashGet_cons, hashGet_nil]; omega
    · subst h
      rw [if_neg (by omega), if_pos (by omega)]
      cases hf : f i <;> simp [hf, hashGet_cons, hashGet_nil]
    · rw [if_neg (by omega), if_neg (by omega)]
      cases hn : f n with
      | none => simp [hn, hashGet_nil]
      | some w => simp [hn, hashGet_cons, hashGet_nil]; omega

theorem entries_keys (n : ℕ) (f : ℕ → Option α) :
    (entries n f).map (·.1) = (List.range n).filter fun i => (f i).isSome := by
  unfold entries
  induction List.range n with
  | nil => rfl
  | cons i l ih =>
    rw [List.filterMap_cons, List.filter_cons]
    cases f i with
    | none => simpa using ih
    | some v => simpa using ih

theorem entries_nodup (n : ℕ) (f : ℕ → Option α) : ((entries n f).map (·.1)).Nodup := by
  rw [entries_keys]
  exact List.nodup_range.filter _

theorem mem_directedEntries {n : ℕ} {f : ℕ → BoundDirection → Option ℚ} {j : ℕ} {d : BoundDirection} {v : ℚ} :
    ((j, d), v) ∈ directedEntries n f ↔ j < n ∧ f j d = some v := by
  unfold directedEntries
  simp only [List.mem_flatMap, List.mem_range, List.mem_append, Option.mem_toList, Option.mem_def,
    Option.map_eq_some_iff, Prod.mk.injEq]
  constructor
  · rintro ⟨k, hk, ⟨w, hw, ⟨rfl, rfl⟩, rfl⟩ | ⟨w, hw, ⟨rfl, rfl⟩, rfl⟩⟩
    · exact ⟨hk, hw⟩
    · exact ⟨hk, hw⟩
  · rintro ⟨hj, hv⟩
    cases d with
    | lower => exact ⟨j, hj, .inl ⟨v, hv, ⟨rfl, rfl⟩, rfl⟩⟩
    | upper => exact ⟨j, hj, .inr ⟨v, hv, ⟨rfl, rfl⟩, rfl⟩⟩

theorem directedEntries_nodup (n : ℕ) (f : ℕ → BoundDirection → Option ℚ) :
    ((directedEntries n f).map (·.1)).Nodup := by
  unfold directedEntries
  rw [List.map_flatMap, List.nodup_flatMap]
  constructor
  · intro j _
    cases f j .lower <;> cases f j .upper <;> simp
  · refine List.nodup_range.imp ?_
    intro a b hab p hp hp'
    simp only [List.map_append, List.mem_append, List.mem_map, Option.mem_toList, Option.mem_def,
      Option.map_eq_some_iff] at hp hp'
    have ha : p.1 = a := by
      rcases hp with ⟨_, ⟨_, _, rfl⟩, rfl⟩ | ⟨_, ⟨_, _, rfl⟩, rfl⟩ <;> rfl
    have hb : p.1 = b := by
      rcases hp' with ⟨_, ⟨_, _, rfl⟩, rfl⟩ | ⟨_, ⟨_, _, rfl⟩, rfl⟩ <;> rfl
    exact hab (ha.symm.trans hb)

theorem hashGet_directedEntries (n : ℕ) (f : ℕ → BoundDirection → Option ℚ) (j : ℕ) (d : BoundDirection) :
    hashGet (j, d) (directedEntries n f) = if j < n then f j d else none := by
  apply Option.ext
  intro v
  rw [hashGet_some (directedEntries_nodup n f), mem_directedEntries]
  by_cases h : j < n <;> simp [h]

/-- Entries are removed one after the other. -/
theorem withoutRows_spec (removed : List ℕ) : ∀ (l : List (ℕ × α)), (l.map (·.1)).Nodup →
    ((withoutRows removed l).map (·.1)).Nodup ∧
      ∀ i, hashGet i (withoutRows removed l) = if i ∈ removed then none else hashGet i l := by
  unfold withoutRows
  induction removed with
  | nil => exact fun l hl => ⟨hl, fun i => by simp⟩
  | cons k removed ih =>
    intro l hl
    obtain ⟨h1, h2⟩ := ih (hashRemove k l) (hashRemove_nodup hl)
    refine ⟨h1, fun i => ?_⟩
    rw [List.foldl_cons, h2, hashGet_remove]
    by_cases h : i = k
    · simp [h]
    · simp [h]

theorem withoutVariables_spec (removed : List (ℕ × RemovedVariable)) :
    ∀ (l : List ((ℕ × BoundDirection) × ℚ)), (l.map (·.1)).Nodup →
    ((withoutVariables removed l).map (·.1)).Nodup ∧
      ∀ j d, hashGet (j, d) (withoutVariables removed l)
        = if j ∈ removed.map (·.1) then none else hashGet (j, d) l := by
  unfold withoutVariables
  induction removed with
  | nil => exact fun l hl => ⟨hl, fun i => by simp⟩
  | cons p removed ih =>
    intro l hl
    obtain ⟨h1, h2⟩ := ih _ (hashRemove_nodup (k := (p.1, BoundDirection.upper))
      (hashRemove_nodup (k := (p.1, BoundDirection.lower)) hl))
    refine ⟨h1, fun j d => ?_⟩
    rw [List.foldl_cons, h2, hashGet_remove, hashGet_remove]
    by_cases h : j = p.1
    · cases d <;> simp [h]
    · rw [if_neg (show ¬(j, d) = (p.1, BoundDirection.upper) by simp [h]),
        if_neg (show ¬(j, d) = (p.1, BoundDirection.lower) by simp [h])]
      simp only [List.map_cons, List.mem_cons, h, false_or]

/-- Entries are inserted one after the other. -/
theorem insertAll_spec (P : κ → Bool) (l : List (κ × α)) : ∀ (m : List (κ × α)), (l.map (·.1)).Nodup →
    (m.map (·.1)).Nodup →
    let r := l.foldl (fun m p => if P p.1 then hashInsert p.1 p.2 m else m) m
    (r.map (·.1)).Nodup ∧
      ∀ k, hashGet k r = if P k then (hashGet k l).or (hashGet k m) else hashGet k m := by
  induction l with
  | nil => exact fun m _ hm => ⟨hm, fun k => by simp [hashGet_nil]⟩
  | cons p l ih =>
    intro m hl hm
    rw [List.map_cons, List.nodup_cons] at hl
    simp only [List.foldl_cons]
    have hm' : ((if P p.1 then hashInsert p.1 p.2 m else m).map (·.1)).Nodup := by
      split
      · exact hashInsert_nodup hm
      · exact hm
    obtain ⟨h1, h2⟩ := ih _ hl.2 hm'
    refine ⟨h1, fun k => ?_⟩
    rw [h2, hashGet_cons]
    by_cases hp : P p.1 = true
    · rw [if_pos hp, hashGet_insert]
      by_cases h : k = p.1
      · subst h
        have := hashGet_none.2 hl.1
        simp [hp, this]
      · rw [if_neg h, if_neg (show ¬p.1 = k from fun e => h e.symm)]
    · rw [if_neg hp]
      by_cases h : k = p.1
      · subst h
        simp [hp]
      · rw [if_neg (show ¬p.1 = k from fun e => h e.symm)]

/-- Values are assigned one after the other. -/
theorem assignAll_spec {l : List (ℕ × α)} : ∀ (b : List α), (l.map (·.1)).Nodup → ∀ i,
    (l.foldl (fun b p => b.set p.1 p.2) b)[i]? = (b[i]?).map fun x => (hashGet i l).getD x := by
  induction l with
  | nil => intro b _ i; simp [hashGet_nil]
  | cons p l ih =>
    intro b hl i
    rw [List.map_cons, List.nodup_cons] at hl
    rw [List.foldl_cons, ih _ hl.2, hashGet_cons, List.getElem?_set]
    by_cases h : p.1 = i
    · subst h
      rw [if_pos rfl, if_pos rfl, hashGet_none.2 hl.1]
      by_cases h' : p.1 < b.length
      · simp [h']
      · simp [h']
    · rw [if_neg h, if_neg h]

theorem assignBounds_spec {l : List ((ℕ × BoundDirection) × ℚ)} : ∀ (vars : List Variable),
    (l.map (·.1)).Nodup → ∀ j : ℕ,
    (l.foldl assignBound vars)[j]? = (vars[j]?).map fun v : Variable =>
      { v with lowerBound := (hashGet (j, BoundDirection.lower) l).or v.lowerBound
               upperBound := (hashGet (j, BoundDirection.upper) l).or v.upperBound } := by
  induction l with
  | nil => intro vars _ i; simp [hashGet_nil]
  | cons p l ih =>
    intro vars hl j
    obtain ⟨⟨k, d⟩, value⟩ := p
    rw [List.map_cons, List.nodup_cons] at hl
    have hnone := hashGet_none.2 hl.1
    rw [List.foldl_cons, ih _ hl.2, hashGet_cons, hashGet_cons]
    unfold assignBound
    rw [List.getElem?_modify]
    by_cases h : k = j
    · subst h
      cases d <;> cases vars[k]? <;> simp_all
    · cases d <;> simp [h]

end Hash

/-! ### Moving the remaining entries together -/

/-- What the `while` loop does. -/
theorem advance_spec {S : List ℕ} {j : ℕ} (k : ℕ) (hk : k ≤ S.length)
    (h1 : ∀ i (hi : i < S.length), i < k → S[i] ≤ j + i)
    (h2 : ∀ i (hi : i < S.length), k ≤ i → j + i ≤ S[i]) (hS : S.Pairwise (· < ·)) :
    advance S j k ≤ S.length ∧ k ≤ advance S j k ∧
      (∀ i (hi : i < S.length), i < advance S j k → S[i] ≤ j + i) ∧
      ∀ i (hi : i < S.length), advance S j k ≤ i → j + i < S[i] := by
  induction hn : S.length - k generalizing k with
  | zero =>
    have : advance S j k = k := by
      rw [advance, if_neg]
      omega
    rw [this]
    exact ⟨hk, le_refl _, h1, fun i hi hki => by omega⟩
  | succ n ih =>
    rw [advance]
    split
    · rename_i h
      have hlt := h.1
      rw [List.getElem?_eq_getElem hlt] at h
      have he : S[k] = j + k := by simpa using h.2
      obtain ⟨a1, a2, a3, a4⟩ := ih (k + 1) (by omega) (fun i hi hik => by
        rcases Nat.lt_succ_iff_lt_or_eq.1 hik with h' | h'
        · exact h1 i hi h'
        · subst h'; omega) (fun i hi hki => h2 i hi (by omega)) (by omega)
      exact ⟨a1, by omega, a3, a4⟩
    · rename_i h
      refine ⟨hk, le_refl _, h1, fun i hi hki => ?_⟩
      have hlt : k < S.length := by omega
      have hne : S[k] ≠ j + k := fun e => h ⟨hlt, by rw [List.getElem?_eq_getElem hlt, e]⟩
      have hk2 := h2 k hlt (le_refl _)
      have hmono : ∀ t, (ht : k + t < S.length) → S[k] + t ≤ S[k + t] := by
        intro t
        induction t with
        | zero => intro _; exact le_refl _
        | succ t iht =>
          intro ht
          have := iht (by omega)
          have hlt' := List.pairwise_iff_getElem.1 hS (k + t) (k + (t + 1)) (by omega) ht (by omega)
          omega
      have := hmono (i - k) (by omega)
      simp only [Nat.add_sub_cancel' hki] at this
      omega

/-- An index that is kept, by the number of indices that are skipped before it. -/
theorem kept_at {S : List ℕ} {n j k : ℕ} (hS : S.Pairwise (· < ·)) (hr : ∀ i ∈ S, i < n) (hk : k ≤ S.length)
    (h1 : ∀ i (hi : i < S.length), i < k → S[i] ≤ j + i)
    (h2 : ∀ i (hi : i < S.length), k ≤ i → j + i < S[i]) (hj : j < n - S.length) :
    j + k < n ∧ (keptIndices S n)[j]? = some (j + k) := by
  have hnot : j + k ∉ S := by
    intro hmem
    obtain ⟨i, hi, he⟩ := List.mem_iff_getElem.1 hmem
    rcases Nat.lt_or_ge i k with h | h
    · have := h1 i hi h; omega
    · have := h2 i hi h; omega
  have hnd : S.Nodup := hS.imp fun h => Nat.ne_of_lt h
  have hlen : (keptIndices S (j + k)).length = j := by
    have e : keptIndices S (j + k) = keptIndices (S.take k) (j + k) := by
      unfold keptIndices
      apply List.filter_congr
      intro x hx
      rw [List.mem_range] at hx
      rw [decide_eq_decide]
      constructor
      · exact fun h h' => h (List.mem_of_mem_take h')
      · intro h h'
        obtain ⟨i, hi, he⟩ := List.mem_iff_getElem.1 h'
        rcases Nat.lt_or_ge i k with h'' | h''
        · refine h (List.mem_iff_getElem.2 ⟨i, by rw [List.length_take]; omega, ?_⟩)
          rw [List.getElem_take]
          exact he
        · have := h2 i hi h''; omega
    rw [e, keptIndices_length (hnd.sublist (List.take_sublist _ _)), List.length_take]
    · omega
    · intro x hx
      obtain ⟨i, hi, he⟩ := List.mem_iff_getElem.1 hx
      rw [List.length_take] at hi
      rw [List.getElem_take] at he
      have := h1 i (by omega) (by omega)
      omega
  have hlt : j + k < n := by
    by_contra hc
    -- then all of the first `j` kept indices are below `n`, too many of them
    have hle : (keptIndices S n).length ≤ n - S.length := (keptIndices_length hnd hr).le
    have hall : k = S.length := by
      by_contra hne
      have hk' : k < S.length := by omega
      have := h2 k hk' (le_refl _)
      have := hr _ (List.getElem_mem hk')
      omega
    omega
  refine ⟨hlt, ?_⟩
  have := keptIndices_getElem hlt hnot
  rwa [hlen] at this

theorem compact_eq {S l : List ℕ} (hS : S.Pairwise (· < ·)) (hr : ∀ i ∈ S, i < l.length) :
    compact S l = removeListIndices S l := by
  have hnd : S.Nodup := hS.imp fun h => Nat.ne_of_lt h
  have hkl := keptIndices_length hnd hr
  cases hSe : S with
  | nil =>
    apply List.ext_getElem?
    intro i
    rw [removeListIndices_eq, deleteAt_getElem?]
    have : keptIndices [] l.length = List.range l.length := by simp [keptIndices]
    rw [this]
    by_cases h : i < l.length
    · rw [List.getElem?_range h]; rfl
    · simp [compact, h]
  | cons first rest =>
    have hlenS : S.length ≤ l.length := by
      have := (List.subperm_of_subset hnd (fun x hx => List.mem_range.2 (hr x hx))).length_le
      rwa [List.length_range] at this
    rw [← hSe]
    have hfirst : ∀ (h : 0 < S.length), S[0] = first := by
      intro h; simp [hSe]
    have hpos : 0 < S.length := by rw [hSe]; simp
    have hdef : compact S l = ((List.range' first (l.length - S.length - first)).foldl
        (fun s j => (advance S j s.1, s.2.set j (s.2.getD (j + advance S j s.1) 0))) (1, l)).2.take
          (l.length - S.length) := by
      rw [hSe]; rfl
    rw [hdef]
    have hmono : ∀ i (hi : i < S.length), first + i ≤ S[i] := by
      intro i
      induction i with
      | zero => intro hi; rw [hfirst hi]; exact le_refl _
      | succ i ih =>
        intro hi
        have := ih (by omega)
        have := List.pairwise_iff_getElem.1 hS i (i + 1) (by omega) hi (by omega)
        omega
    -- the loop
    have hloop : ∀ (t : ℕ), first + t ≤ l.length - S.length ∨ t = 0 →
        let r := (List.range' first t).foldl
          (fun s j => (advance S j s.1, s.2.set j (s.2.getD (j + advance S j s.1) 0))) (1, l)
        r.1 ≤ S.length ∧ 1 ≤ r.1 ∧ (∀ i (hi : i < S.length), i < r.1 → S[i] ≤ first + t + i) ∧
          (∀ i (hi : i < S.length), r.1 ≤ i → first + t + i ≤ S[i]) ∧ r.2.length = l.length ∧
          (∀ i, first + t ≤ i → r.2[i]? = l[i]?) ∧
          ∀ i, i < first + t → i < l.length - S.length →
            r.2[i]? = ((keptIndices S l.length)[i]?).bind fun k => l[k]? := by
      intro t
      induction t with
      | zero =>
        intro _
        refine ⟨by simp; omega, by simp, ?_, ?_, rfl, fun i _ => rfl, ?_⟩
        · intro i hi hi1
          have : i = 0 := by simp at hi1; omega
          subst this
          rw [hfirst hi]
          simp
        · intro i hi _
          simpa using hmono i hi
        · intro i hi hi'
          have := kept_at (k := 0) hS hr (by omega) (fun _ _ h => absurd h (by omega))
            (j := i) (fun m hm _ => by have := hmono m hm; omega) hi'
          rw [this.2]
          simp
      | succ t ih =>
        intro ht
        have ht' : first + (t + 1) ≤ l.length - S.length := by omega
        obtain ⟨a1, a2, a3, a4, a5, a6, a7⟩ := ih (.inl (by omega))
        simp only [List.range'_1_concat, List.foldl_append, List.foldl_cons, List.foldl_nil]
        generalize (List.range' first t).foldl
          (fun s j => (advance S j s.1, s.2.set j (s.2.getD (j + advance S j s.1) 0))) (1, l) = r at *
        obtain ⟨b1, b2, b3, b4⟩ := advance_spec r.1 a1 a3 a4 hS
        obtain ⟨c1, c2⟩ := kept_at hS hr b1 b3 b4 (by omega)
        refine ⟨b1, by omega, fun i hi h => ?_, fun i hi h => ?_, by simp [a5], fun i hi => ?_, fun i hi hi' => ?_⟩
        · have := b3 i hi h; omega
        · have := b4 i hi h; omega
        · rw [List.getElem?_set, if_neg (by omega)]
          exact a6 i (by omega)
        · rw [List.getElem?_set]
          by_cases h : first + t = i
          · subst h
            have hlt : first + t + advance S (first + t) r.1 < r.2.length := by omega
            rw [if_pos rfl, if_pos (by omega), c2, List.getD_eq_getElem?_getD,
              a6 _ (by omega)]
            rw [List.getElem?_eq_getElem c1]
            simp [List.getElem?_eq_getElem c1]
          · rw [if_neg h]
            exact a7 i (by omega) hi'
    apply List.ext_getElem?
    intro i
    rw [removeListIndices_eq, deleteAt_getElem?, List.getElem?_take]
    by_cases h : i < l.length - S.length
    · rw [if_pos h]
      by_cases hf : first ≤ l.length - S.length
      · exact (hloop (l.length - S.length - first) (.inl (by omega))).2.2.2.2.2.2 i (by omega) h
      · have := (hloop 0 (.inr rfl)).2.2.2.2.2.2 i (by omega) h
        rw [show l.length - S.length - first = 0 by omega]
        exact this
    · rw [if_neg h, List.getElem?_eq_none (by omega)]
      rfl

/-! ### The whole -/

theorem removeList_congr {α : Type} {I J : List ℕ} {l l' : List α} (hlen : l.length = l'.length)
    (hI : ∀ i, i ∈ I ↔ i ∈ J) (h : ∀ i, i ∉ I → l[i]? = l'[i]?) :
    removeListIndices I l = removeListIndices J l' := by
  have hk : keptIndices I l.length = keptIndices J l'.length := by
    unfold keptIndices
    rw [hlen]
    exact List.filter_congr fun i _ => by rw [decide_eq_decide, hI]
  apply List.ext_getElem?
  intro k
  rw [removeListIndices_eq, removeListIndices_eq, deleteAt_getElem?, deleteAt_getElem?, ← hk]
  cases hi : (keptIndices I l.length)[k]? with
  | none => rfl
  | some i => exact h i (mem_keptIndices.1 (List.mem_of_getElem? hi)).2

theorem removeSparse_congr {I J : List ℕ} (hI : ∀ i, i ∈ I ↔ i ∈ J) (v : SVec ℕ) :
    removeSparseTuples I v = removeSparseTuples J v := by
  unfold removeSparseTuples keptIndices
  simp only [hI]

/-- The order in which variables are marked does not matter. -/
theorem mark_perm {l l' : List (ℕ × RemovedVariable)} (h : l.Perm l') (hn : (l.map (·.1)).Nodup)
    (original : List (String × OriginalVariable)) :
    l.foldl (fun original p => original.modify p.1 fun q => (q.1, OriginalVariable.removed p.2)) original
      = l'.foldl (fun original p => original.modify p.1 fun q => (q.1, .removed p.2)) original := by
  refine h.foldl_eq' (fun p hp q hq z => ?_) original
  by_cases he : p.1 = q.1
  · have : p = q := List.inj_on_of_nodup_map hn hp hq he
    rw [this]
  · apply List.ext_getElem?
    intro i
    simp only [List.getElem?_modify]
    by_cases h1 : p.1 = i
    · by_cases h2 : q.1 = i
      · exact absurd (h1.trans h2.symm) he
      · simp [h1, h2]
    · by_cases h2 : q.1 = i
      · simp [h1, h2]
      · simp [h1, h2]

theorem mergeSort_strict {l : List ℕ} (hn : l.Nodup) : l.mergeSort.Pairwise (· < ·) := by
  have h1 : l.mergeSort.Pairwise (· ≤ ·) := by
    have := List.pairwise_mergeSort (le := fun a b : ℕ => decide (a ≤ b)) (by simp; omega) (by simp; omega) l
    simpa using this
  have h2 : l.mergeSort.Nodup := (List.mergeSort_perm _ _).nodup_iff.2 hn
  exact (h1.and h2).imp fun h => lt_of_le_of_ne h.1 h.2

/-- Leaving out what is not a change makes no difference. -/
theorem unchanged_getD {α : Type} [DecidableEq α] {l : List α} {i : ℕ} (hi : i < l.length) (w : Option α) :
    (w.filter fun v => decide (l[i]? ≠ some v)).getD l[i] = w.getD l[i] := by
  cases w with
  | none => rfl
  | some v =>
    rw [List.getElem?_eq_getElem hi]
    by_cases he : l[i] = v
    · simp [Option.filter, he]
    · simp [Option.filter, he]

/-- The part of presolving after the loop. -/
theorem finish_hashed (o : HashOrder) {G : GeneralForm} {u : Updates} (hb : G.b.length = G.constraintTypes.length)
    (hf : G.fromActive.length = G.vars.length)
    (hn : (u.removedVariables.map (·.1)).Nodup) (hr : ∀ j ∈ u.removedVariables.map (·.1), j < G.vars.length)
    (hn' : u.constraintsRemoved.Nodup) :
    removeRowsAndColumnsSorted (updateValuesThatRemain o G (intoChanges o G u)) (intoChanges o G u).constraintsRemoved
        ((intoChanges o G u).removedVariables.map (·.1))
      = removeRowsAndColumns (updateRemaining G u) u.constraintsRemoved (u.removedVariables.map (·.1)) := by
  have hrows : ∀ i, i ∈ (u.constraintsRemoved.mergeSort).mergeSort ↔ i ∈ u.constraintsRemoved := by
    intro i
    rw [List.mem_mergeSort, List.mem_mergeSort]
  have hpermV : (u.removedVariables.mergeSort fun p q => decide (p.1 ≤ q.1)).Perm u.removedVariables :=
    List.mergeSort_perm _ _
  have hV : (((u.removedVariables.mergeSort fun p q => decide (p.1 ≤ q.1)).map (·.1)).mergeSort).Perm
      (u.removedVariables.map (·.1)) := (List.mergeSort_perm _ _).trans (hpermV.map _)
  have hvars : ∀ j, j ∈ ((u.removedVariables.mergeSort fun p q => decide (p.1 ≤ q.1)).map (·.1)).mergeSort ↔
      j ∈ u.removedVariables.map (·.1) := fun j => hV.mem_iff
  -- the maps
  obtain ⟨b1, b2⟩ := withoutRows_spec u.constraintsRemoved _ (entries_nodup G.constraintTypes.length u.b)
  obtain ⟨c1, c2⟩ := withoutRows_spec u.constraintsRemoved _ (entries_nodup G.constraintTypes.length u.constraints)
  obtain ⟨v1, v2⟩ := withoutVariables_spec u.removedVariables _ (directedEntries_nodup G.vars.length u.bounds)
  obtain ⟨w1, w2⟩ := withoutVariables_spec u.removedVariables _
    (directedEntries_nodup G.vars.length u.activityBounds)
  -- right-hand sides
  have eb : removeListIndices (u.constraintsRemoved.mergeSort).mergeSort
        (updateValuesThatRemain o G (intoChanges o G u)).b
      = removeListIndices u.constraintsRemoved (updateRemaining G u).b := by
    have hget : ∀ i, (updateValuesThatRemain o G (intoChanges o G u)).b[i]? = (G.b[i]?).map fun x =>
        (if i ∈ u.constraintsRemoved then none else u.b i).getD x := by
      intro i
      have hp := o.perm 2 (withoutRows u.constraintsRemoved (entries G.constraintTypes.length u.b))
      have n2 : ((o.order 2 (withoutRows u.constraintsRemoved
          (entries G.constraintTypes.length u.b))).map (·.1)).Nodup := (hp.map _).nodup_iff.2 b1
      have n3 := n2.sublist ((List.filter_sublist (p := fun p : ℕ × ℚ => decide (G.b[p.1]? ≠ some p.2))).map (·.1))
      have hp4 := o.perm 4 ((o.order 2 (withoutRows u.constraintsRemoved
          (entries G.constraintTypes.length u.b))).filter fun p => decide (G.b[p.1]? ≠ some p.2))
      refine (assignAll_spec _ ((hp4.map _).nodup_iff.2 n3) i).trans ?_
      rw [hashGet_perm n3 hp4.symm, hashGet_filter n2,
        hashGet_perm b1 hp.symm, b2, hashGet_entries]
      by_cases hi : i < G.b.length
      · rw [List.getElem?_eq_getElem hi, if_pos (show i < G.constraintTypes.length by omega)]
        simp only [Option.map_some]
        congr 1
        exact unchanged_getD hi _
      · rw [List.getElem?_eq_none (by omega)]
        rfl
    apply removeList_congr _ hrows
    · intro i hi
      rw [hrows] at hi
      rw [hget, if_neg hi]
      simp only [updateRemaining, List.getElem?_map, List.getElem?_zipIdx]
      cases G.b[i]? <;> simp
    · simp only [updateRemaining, List.length_map, List.length_zipIdx]
      have : ∀ (l : List (ℕ × ℚ)) (b : List ℚ), (l.foldl (fun b p => b.set p.1 p.2) b).length = b.length := by
        intro l
        induction l with
        | nil => intro b; rfl
        | cons p l ih => intro b; rw [List.foldl_cons, ih, List.length_set]
      exact this _ _
  have ec : removeListIndices (u.constraintsRemoved.mergeSort).mergeSort
        (updateValuesThatRemain o G (intoChanges o G u)).constraintTypes
      = removeListIndices u.constraintsRemoved (updateRemaining G u).constraintTypes := by
    have hget : ∀ i, (updateValuesThatRemain o G (intoChanges o G u)).constraintTypes[i]?
        = (G.constraintTypes[i]?).map fun x => (if i ∈ u.constraintsRemoved then none else u.constraints i).getD x := by
      intro i
      have hp := o.perm 3 (withoutRows u.constraintsRemoved (entries G.constraintTypes.length u.constraints))
      have n2 : ((o.order 3 (withoutRows u.constraintsRemoved
          (entries G.constraintTypes.length u.constraints))).map (·.1)).Nodup := (hp.map _).nodup_iff.2 c1
      have n3 := n2.sublist ((List.filter_sublist
        (p := fun p : ℕ × ConstraintType => decide (G.constraintTypes[p.1]? ≠ some p.2))).map (·.1))
      refine (assignAll_spec _ n3 i).trans ?_
      rw [hashGet_filter n2, hashGet_perm c1 hp.symm, c2, hashGet_entries]
      by_cases hi : i < G.constraintTypes.length
      · rw [List.getElem?_eq_getElem hi, if_pos (show i < G.constraintTypes.length by omega)]
        simp only [Option.map_some]
        congr 1
        exact unchanged_getD hi _
      · rw [List.getElem?_eq_none (by omega)]
        rfl
    apply removeList_congr _ hrows
    · intro i hi
      rw [hrows] at hi
      rw [hget, if_neg hi]
      simp only [updateRemaining, List.getElem?_map, List.getElem?_zipIdx]
      cases G.constraintTypes[i]? <;> simp
    · simp only [updateRemaining, List.length_map, List.length_zipIdx]
      have : ∀ (l : List (ℕ × ConstraintType)) (b : List ConstraintType),
          (l.foldl (fun b p => b.set p.1 p.2) b).length = b.length := by
        intro l
        induction l with
        | nil => intro b; rfl
        | cons p l ih => intro b; rw [List.foldl_cons, ih, List.length_set]
      exact this _ _
  have ev : removeListIndices (((u.removedVariables.mergeSort fun p q => decide (p.1 ≤ q.1)).map (·.1)).mergeSort)
        (updateValuesThatRemain o G (intoChanges o G u)).vars
      = removeListIndices (u.removedVariables.map (·.1)) (updateRemaining G u).vars := by
    have hget : ∀ j, j ∉ u.removedVariables.map (·.1) →
        (updateValuesThatRemain o G (intoChanges o G u)).vars[j]? = (updateRemaining G u).vars[j]? := by
      intro j hj
      have hp0 := o.perm 0 (withoutVariables u.removedVariables (directedEntries G.vars.length u.activityBounds))
      have hp1 := o.perm 1 (withoutVariables u.removedVariables (directedEntries G.vars.length u.activityBounds))
      have n1 := (hp1.map (·.1)).nodup_iff.2 w1
      set bounds := withoutVariables u.removedVariables (directedEntries G.vars.length u.bounds) with hbounds
      set act := withoutVariables u.removedVariables (directedEntries G.vars.length u.activityBounds) with hact
      set free := ((o.order 0 act).map (·.1.1)).filter (restrictable G bounds) with hfree
      have hI := insertAll_spec (fun k : ℕ × BoundDirection => decide (k.1 ∈ free)) (o.order 1 act) bounds n1 v1
      simp only [decide_eq_true_eq] at hI
      obtain ⟨i1, i2⟩ := hI
      have hp5 := o.perm 5 ((o.order 1 act).foldl
        (fun bounds p => if p.1.1 ∈ free then hashInsert p.1 p.2 bounds else bounds) bounds)
      show (List.foldl assignBound G.vars (o.order 5 ((o.order 1 act).foldl
        (fun bounds p => if p.1.1 ∈ free then hashInsert p.1 p.2 bounds else bounds) bounds)))[j]? = _
      rw [assignBounds_spec _ ((hp5.map _).nodup_iff.2 i1), hashGet_perm i1 hp5.symm, hashGet_perm i1 hp5.symm]
      simp only [updateRemaining, List.getElem?_map, List.getElem?_zipIdx]
      by_cases hlt : j < G.vars.length
      · have hbj : ∀ d, hashGet (j, d) bounds = u.bounds j d := by
          intro d
          rw [v2, if_neg hj, hashGet_directedEntries, if_pos hlt]
        have haj : ∀ d, hashGet (j, d) act = u.activityBounds j d := by
          intro d
          rw [w2, if_neg hj, hashGet_directedEntries, if_pos hlt]
        have hkeep : restrictable G bounds j = keepsActivityBounds G u j := by
          unfold restrictable keepsActivityBounds originalBound
          rw [hbj, hbj, List.getElem?_eq_getElem hlt]
          simp
        have hnew : ∀ d, (if j ∈ free then (hashGet (j, d) (o.order 1 act)).or (hashGet (j, d) bounds)
            else hashGet (j, d) bounds) = u.newBound G j d := by
          intro d
          rw [hashGet_perm w1 hp1.symm, haj, hbj]
          unfold Updates.newBound
          by_cases hk : keepsActivityBounds G u j = true
          · rw [if_pos hk]
            by_cases hm : j ∈ free
            · rw [if_pos hm]
            · rw [if_neg hm]
              have hnone : u.activityBounds j d = none := by
                by_contra hne
                obtain ⟨v, hv⟩ := Option.ne_none_iff_exists'.1 hne
                apply hm
                rw [hfree, List.mem_filter]
                refine ⟨List.mem_map.2 ⟨((j, d), v), hp0.mem_iff.2 ?_, rfl⟩, by rw [hkeep]; exact hk⟩
                rw [← hashGet_some w1, haj]
                exact hv
              rw [hnone]
              rfl
          · rw [if_neg hk]
            have hm : j ∉ free := by
              intro hm
              rw [hfree, List.mem_filter, hkeep] at hm
              exact hk hm.2
            rw [if_neg hm]
        rw [List.getElem?_eq_getElem hlt]
        simp only [Option.map_some, i2, hnew]
        simp
      · rw [List.getElem?_eq_none (by omega)]
        rfl
    apply removeList_congr _ hvars
    · intro j hj
      rw [hvars] at hj
      exact hget j hj
    · simp only [updateRemaining, List.length_map, List.length_zipIdx]
      have : ∀ (l : List ((ℕ × BoundDirection) × ℚ)) (b : List Variable),
          (l.foldl assignBound b).length = b.length := by
        intro l
        induction l with
        | nil => intro b; rfl
        | cons p l ih => intro b; rw [List.foldl_cons, ih]; simp [assignBound]
      exact this _ _
  have eo : (updateValuesThatRemain o G (intoChanges o G u)).original = (updateRemaining G u).original :=
    (mark_perm hpermV.symm hn G.original).symm
  have ef : compact (((u.removedVariables.mergeSort fun p q => decide (p.1 ≤ q.1)).map (·.1)).mergeSort) G.fromActive
      = removeListIndices (u.removedVariables.map (·.1)) G.fromActive := by
    rw [compact_eq (mergeSort_strict ((hpermV.map _).nodup_iff.2 hn)) (fun i hi => by
      rw [hf]; exact hr i ((hvars i).1 hi))]
    exact removeList_congr rfl hvars fun _ _ => rfl
  have em : ((G.constraints.removeMajor
        (((u.removedVariables.mergeSort fun p q => decide (p.1 ≤ q.1)).map (·.1)).mergeSort)).removeMinor
        (u.constraintsRemoved.mergeSort).mergeSort)
      = (G.constraints.removeMajor (u.removedVariables.map (·.1))).removeMinor u.constraintsRemoved := by
    unfold SparseMatrix.removeMinor SparseMatrix.removeMajor
    congr 1
    · rw [removeList_congr rfl hvars fun _ _ => rfl]
      exact List.map_congr_left fun v _ => removeSparse_congr hrows v
    · rw [hV.length_eq]
    · simp only [List.length_mergeSort]
  have he : (((u.removedVariables.mergeSort fun p q => decide (p.1 ≤ q.1)).map (·.1)).mergeSort).isEmpty
      = (u.removedVariables.map (·.1)).isEmpty := by
    rw [Bool.eq_iff_iff, List.isEmpty_iff_length_eq_zero, List.isEmpty_iff_length_eq_zero, hV.length_eq]
  unfold removeRowsAndColumnsSorted removeRowsAndColumns
  have h1 : (intoChanges o G u).constraintsRemoved = u.constraintsRemoved.mergeSort := rfl
  have h2 : (intoChanges o G u).removedVariables
    = u.removedVariables.mergeSort fun p q => decide (p.1 ≤ q.1) := rfl
  simp only [h1, h2, eb, ec, ev, eo, he]
  have h3 : (updateValuesThatRemain o G (intoChanges o G u)).fromActive = G.fromActive := rfl
  have h4 : (updateValuesThatRemain o G (intoChanges o G u)).constraints = G.constraints := rfl
  have h5 : (updateRemaining G u).fromActive = G.fromActive := rfl
  have h6 : (updateRemaining G u).constraints = G.constraints := rfl
  rw [h3, h4, h5, h6, ef, em]
  rfl

end Presolve

end Relp
