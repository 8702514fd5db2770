import Verif.Spec.Mps
import Verif.Proof.Vector
import Mathlib.Tactic.Linarith

/-!
# The bounds that result from an MPS program
-/

namespace Relp.Mps

/-! ### Loops that update elements -/

variable {σ α : Type}

theorem mem_valuesOf {l : List (ℕ × α)} {i : ℕ} {a : α} : a ∈ valuesOf l i ↔ (i, a) ∈ l := by
  simp [valuesOf]

theorem valuesOf_cons (q : ℕ × α) (l : List (ℕ × α)) (i : ℕ) :
    valuesOf (q :: l) i = if q.1 = i then q.2 :: valuesOf l i else valuesOf l i := by
  unfold valuesOf
  rw [List.filter_cons]
  by_cases h : q.1 = i
  · rw [if_pos (by simpa using h), if_pos h, List.map_cons]
  · rw [if_neg (by simpa using h), if_neg h]

theorem updateAt_cases {f : σ → α → Import σ} {states : List σ} {q : ℕ × α} {r} (h : updateAt f states q = r) :
    (states.length ≤ q.1 ∧ r = .error .panic) ∨
    ∃ s, states[q.1]? = some s ∧ ((∃ e, f s q.2 = .error e ∧ r = .error e) ∨
      ∃ s', f s q.2 = .ok s' ∧ r = .ok (states.set q.1 s')) := by
  unfold updateAt at h
  split at h
  · rename_i hn
    exact Or.inl ⟨List.getElem?_eq_none_iff.1 hn, h.symm⟩
  · rename_i s hs
    refine Or.inr ⟨s, hs, ?_⟩
    match hf : f s q.2 with
    | .error e =>
      rw [hf] at h
      exact Or.inl ⟨e, rfl, h.symm⟩
    | .ok s' =>
      rw [hf] at h
      exact Or.inr ⟨s', rfl, h.symm⟩

theorem foldlM_updateAt_ok {f : σ → α → Import σ} {l : List (ℕ × α)} {states states' : List σ}
    (h : l.foldlM (updateAt f) states = .ok states') :
    states'.length = states.length ∧ (∀ q ∈ l, q.1 < states.length) ∧
    ∀ i s, states[i]? = some s →
      ∃ s', states'[i]? = some s' ∧ (valuesOf l i).foldlM f s = .ok s' := by
  induction l generalizing states with
  | nil =>
    cases h
    exact ⟨rfl, by simp, fun i s hs => ⟨s, hs, rfl⟩⟩
  | cons q l ih =>
    rw [List.foldlM_cons] at h
    rcases updateAt_cases (f := f) (states := states) (q := q) rfl with ⟨-, h1⟩ | ⟨s, h1, ⟨e, -, h3⟩ | ⟨s', h2, h3⟩⟩
    · rw [h1] at h; cases h
    · rw [h3] at h; cases h
    · rw [h3] at h
      obtain ⟨h4, h5, h6⟩ := ih h
      rw [List.length_set] at h4 h5
      have hq := (List.getElem?_eq_some_iff.1 h1).1
      refine ⟨h4, ?_, ?_⟩
      · intro q' hq'
        rcases List.mem_cons.1 hq' with rfl | hq'
        · exact hq
        · exact h5 q' hq'
      · intro i t ht
        by_cases hi : q.1 = i
        · subst hi
          have e : s = t := by rw [h1] at ht; injection ht
          subst e
          obtain ⟨s'', h7, h8⟩ := h6 q.1 s' (by rw [List.getElem?_set_self hq])
          refine ⟨s'', h7, ?_⟩
          rw [valuesOf_cons, if_pos rfl, List.foldlM_cons, h2]
          exact h8
        · obtain ⟨s'', h7, h8⟩ := h6 i t (by rw [List.getElem?_set_ne hi, ht])
          exact ⟨s'', h7, by rw [valuesOf_cons, if_neg hi]; exact h8⟩

theorem foldlM_updateAt_error {f : σ → α → Import σ} {l : List (ℕ × α)} {states : List σ} {e}
    (h : l.foldlM (updateAt f) states = .error e) :
    (e = .panic ∧ ∃ q ∈ l, states.length ≤ q.1) ∨
    ∃ i s, states[i]? = some s ∧ (valuesOf l i).foldlM f s = .error e := by
  induction l generalizing states with
  | nil => cases h
  | cons q l ih =>
    rw [List.foldlM_cons] at h
    rcases updateAt_cases (f := f) (states := states) (q := q) rfl with ⟨h0, h1⟩ | ⟨s, h1, ⟨e, h2, h3⟩ | ⟨s', h2, h3⟩⟩
    · rw [h1] at h
      cases h
      exact Or.inl ⟨rfl, q, by simp, h0⟩
    · rw [h3] at h
      cases h
      refine Or.inr ⟨q.1, s, h1, ?_⟩
      rw [valuesOf_cons, if_pos rfl, List.foldlM_cons, h2]
      rfl
    · rw [h3] at h
      have hq := (List.getElem?_eq_some_iff.1 h1).1
      rcases ih h with ⟨h4, q', h5, h6⟩ | ⟨i, t, h4, h5⟩
      · rw [List.length_set] at h6
        exact Or.inl ⟨h4, q', by simp [h5], h6⟩
      · refine Or.inr ?_
        by_cases hi : q.1 = i
        · subst hi
          rw [List.getElem?_set_self hq] at h4
          cases h4
          refine ⟨q.1, s, h1, ?_⟩
          rw [valuesOf_cons, if_pos rfl, List.foldlM_cons, h2]
          exact h5
        · rw [List.getElem?_set_ne hi] at h4
          exact ⟨i, t, h4, by rw [valuesOf_cons, if_neg hi]; exact h5⟩

/-! ### Bounds -/

theorem replaceExistingWith_gt (o : Option ℚ) (v x : ℚ) :
    (∀ l ∈ replaceExistingWith o v .gt, l ≤ x) ↔ (∀ l ∈ o, l ≤ x) ∧ v ≤ x := by
  cases o with
  | none => simp [replaceExistingWith]
  | some w =>
    unfold replaceExistingWith
    simp only [Option.mem_def, Option.some.injEq, forall_eq']
    split_ifs with h
    · rw [compare_gt_iff_gt] at h
      simp only [Option.some.injEq, forall_eq']
      exact ⟨fun h1 => ⟨le_trans (le_of_lt h) h1, h1⟩, fun h1 => h1.2⟩
    · rw [compare_gt_iff_gt, not_lt] at h
      simp only [Option.some.injEq, forall_eq']
      exact ⟨fun h1 => ⟨h1, le_trans h h1⟩, fun h1 => h1.1⟩

theorem replaceExistingWith_lt (o : Option ℚ) (v x : ℚ) :
    (∀ u ∈ replaceExistingWith o v .lt, x ≤ u) ↔ (∀ u ∈ o, x ≤ u) ∧ x ≤ v := by
  cases o with
  | none => simp [replaceExistingWith]
  | some w =>
    unfold replaceExistingWith
    simp only [Option.mem_def, Option.some.injEq, forall_eq']
    split_ifs with h
    · rw [compare_lt_iff_lt] at h
      simp only [Option.some.injEq, forall_eq']
      exact ⟨fun h1 => ⟨le_trans h1 (le_of_lt h), h1⟩, fun h1 => h1.2⟩
    · rw [compare_lt_iff_lt, not_lt] at h
      simp only [Option.some.injEq, forall_eq']
      exact ⟨fun h1 => ⟨h1, le_trans h1 h⟩, fun h1 => h1.1⟩

theorem replaceExistingWith_isSome (o : Option ℚ) (v : ℚ) (c : Ordering) :
    (replaceExistingWith o v c).isSome = true := by
  cases o with
  | none => rfl
  | some w =>
    unfold replaceExistingWith
    dsimp only
    split_ifs <;> rfl

/-- The bounds of a variable hold. -/
def Within (v : Variable) (x : ℚ) : Prop := (∀ l ∈ v.lowerBound, l ≤ x) ∧ ∀ u ∈ v.upperBound, x ≤ u

/-- What is left unchanged by bounds. -/
def SameRest (v w : Variable) : Prop := w.cost = v.cost ∧ w.shift = v.shift ∧ w.flipped = v.flipped

/-- A variable has a bound. -/
def IsBounded (v : Variable) : Prop := v.lowerBound.isSome = true ∨ v.upperBound.isSome = true

theorem processBound_ok {t : BoundType} {v w : Variable} {needsDefault isFree : Bool}
    (h : processBound t v = .ok (w, needsDefault, isFree)) :
    (∀ x, Within w x ↔ Within v x ∧ t.Holds x) ∧ SameRest v w ∧ (needsDefault = true ↔ t.IsUpper) ∧
    (needsDefault = true → w.lowerBound = v.lowerBound) ∧
    (isFree = true ↔ t = .free) ∧ (t ≠ .free → IsBounded w) ∧ (t = .free → ¬IsBounded v ∧ w = v) ∧
    (IsBounded v → IsBounded w) ∧ (∀ a b, t ≠ .semiContinuous a b) ∧
    w.variableType = (match t with
      | .binary | .lowerInteger _ | .upperInteger _ => .integer
      | _ => v.variableType) := by
  cases t with
  | free =>
    unfold processBound at h
    dsimp only at h
    split_ifs at h with hb
    injection h with h
    injection h with h1 h2
    injection h2 with h2 h3
    subst h1 h2 h3
    simp only [Bool.or_eq_true, not_or, Bool.not_eq_true] at hb
    have hn : ¬IsBounded v := by rintro (h | h) <;> simp_all
    exact ⟨fun x => by simp [BoundType.Holds], ⟨rfl, rfl, rfl⟩, by simp [BoundType.IsUpper], by simp, by simp,
      by simp, fun _ => ⟨hn, rfl⟩, id, by simp, rfl⟩
  | semiContinuous a b => cases h
  | lowerContinuous b | lowerInteger b | upperInfinity =>
    injection h with h
    injection h with h1 h2
    injection h2 with h2 h3
    subst h1 h2 h3
    refine ⟨fun x => ?_, ⟨rfl, rfl, rfl⟩, by simp [BoundType.IsUpper], by simp, by simp,
      fun _ => Or.inl (replaceExistingWith_isSome _ _ _), by simp,
      fun _ => Or.inl (replaceExistingWith_isSome _ _ _), by simp, rfl⟩
    simp only [Within, BoundType.Holds, replaceExistingWith_gt]
    tauto
  | upperContinuous b | upperInteger b | lowerMinusInfinity =>
    injection h with h
    injection h with h1 h2
    injection h2 with h2 h3
    subst h1 h2 h3
    refine ⟨fun x => ?_, ⟨rfl, rfl, rfl⟩, by simp [BoundType.IsUpper], by simp, by simp,
      fun _ => Or.inr (replaceExistingWith_isSome _ _ _), by simp,
      fun _ => Or.inr (replaceExistingWith_isSome _ _ _), by simp, rfl⟩
    simp only [Within, BoundType.Holds, replaceExistingWith_lt]
    tauto
  | fixed b | binary =>
    injection h with h
    injection h with h1 h2
    injection h2 with h2 h3
    subst h1 h2 h3
    refine ⟨fun x => ?_, ⟨rfl, rfl, rfl⟩, by simp [BoundType.IsUpper], by simp, by simp,
      fun _ => Or.inr (replaceExistingWith_isSome _ _ _), by simp,
      fun _ => Or.inr (replaceExistingWith_isSome _ _ _), by simp, rfl⟩
    simp only [Within, BoundType.Holds, replaceExistingWith_lt, replaceExistingWith_gt]
    first | (rw [le_antisymm_iff (a := x)]; tauto) | tauto

theorem processBound_error {t : BoundType} {v : Variable} {e} (h : processBound t v = .error e) :
    (e = .inconsistency ∧ t = .free ∧ IsBounded v) ∨ e = .panic ∧ ∃ a b, t = .semiContinuous a b := by
  cases t <;> try cases h
  · unfold processBound at h
    dsimp only at h
    split_ifs at h with hb
    injection h with h
    refine Or.inl ⟨h.symm, rfl, ?_⟩
    simpa [IsBounded] using hb
  · exact Or.inr ⟨rfl, _, _, rfl⟩

/-- The type of a variable after bounds. -/
def integral (ts : List BoundType) : Prop :=
  ∃ t ∈ ts, t = .binary ∨ ∃ b, t = .lowerInteger b ∨ t = .upperInteger b

theorem foldlM_processBound_ok {ts : List BoundType} {s s' : BoundState}
    (h : ts.foldlM processBoundState s = .ok s') :
    (∀ x, Within s'.var x ↔ Within s.var x ∧ ∀ t ∈ ts, t.Holds x) ∧ SameRest s.var s'.var ∧
    (s'.needsDefault = true ↔ s.needsDefault = true ∧ ∀ t ∈ ts, t.IsUpper) ∧
    (s'.needsDefault = true → s'.var.lowerBound = s.var.lowerBound) ∧
    (s'.isFree = true ↔ s.isFree = true ∨ .free ∈ ts) ∧
    (IsBounded s'.var ↔ IsBounded s.var ∨ ∃ t ∈ ts, t ≠ .free) ∧
    (∀ a b, .semiContinuous a b ∉ ts) ∧
    ((s'.var.variableType = .integer ↔ s.var.variableType = .integer ∨ integral ts)) := by
  induction ts generalizing s with
  | nil =>
    cases h
    simp [SameRest, integral]
  | cons t ts ih =>
    rw [List.foldlM_cons] at h
    have hstep : ∃ s1, processBoundState s t = .ok s1 ∧ ts.foldlM processBoundState s1 = .ok s' := by
      match hs : processBoundState s t with
      | .ok s1 => rw [hs] at h; exact ⟨s1, rfl, h⟩
      | .error e => rw [hs] at h; cases h
    obtain ⟨s1, h1, h2⟩ := hstep
    unfold processBoundState at h1
    match hp : processBound t s.var with
    | .error e => rw [hp] at h1; cases h1
    | .ok (v, needsDefault, isFree) =>
      rw [hp] at h1
      injection h1 with h1
      obtain ⟨a1, a2, a3, a4, a5, a6, a7, a8, a9, a10⟩ := processBound_ok hp
      obtain ⟨b1, b2, b3, b4, b5, b6, b7, b8⟩ := ih h2
      subst h1
      simp only at b1 b2 b3 b4 b5 b6 b8
      refine ⟨fun x => ?_, ⟨b2.1.trans a2.1, b2.2.1.trans a2.2.1, b2.2.2.trans a2.2.2⟩, ?_, ?_, ?_, ?_, ?_, ?_⟩
      · rw [b1, a1, List.forall_mem_cons, and_assoc]
      · rw [b3, Bool.and_eq_true, a3, List.forall_mem_cons, and_assoc]
      · intro hn
        rw [b4 hn]
        exact a4 ((Bool.and_eq_true _ _ ▸ (b3.1 hn).1).2)
      · rw [b5, Bool.or_eq_true, a5, List.mem_cons, or_assoc, eq_comm (a := t)]
      · rw [b6]
        simp only [List.mem_cons, exists_eq_or_imp]
        by_cases ht : t = .free
        · rw [(a7 ht).2]
          simp [ht]
        · exact iff_of_true (Or.inl (a6 ht)) (Or.inr (Or.inl ht))
      · intro a b hm
        rcases List.mem_cons.1 hm with hm | hm
        · exact a9 a b hm.symm
        · exact b7 a b hm
      · rw [b8, a10]
        unfold integral
        simp only [List.mem_cons, exists_eq_or_imp]
        cases t <;> simp

theorem foldlM_processBound_error {ts : List BoundType} {s : BoundState} {e}
    (h : ts.foldlM processBoundState s = .error e) :
    (e = .inconsistency ∧ .free ∈ ts ∧ (IsBounded s.var ∨ ∃ t ∈ ts, t ≠ .free)) ∨
      e = .panic ∧ ∃ a b, .semiContinuous a b ∈ ts := by
  induction ts generalizing s with
  | nil => cases h
  | cons t ts ih =>
    rw [List.foldlM_cons] at h
    unfold processBoundState at h
    match hp : processBound t s.var with
    | .error e' =>
      rw [hp] at h
      injection h with h
      subst h
      rcases processBound_error hp with ⟨h1, rfl, h3⟩ | ⟨h1, a, b, rfl⟩
      · exact Or.inl ⟨h1, by simp, Or.inl h3⟩
      · exact Or.inr ⟨h1, a, b, by simp⟩
    | .ok (v, needsDefault, isFree) =>
      rw [hp] at h
      obtain ⟨a1, a2, a3, a4, a5, a6, a7, a8, a9, a10⟩ := processBound_ok hp
      rcases ih h with ⟨h1, h2, h3⟩ | ⟨h1, a, b, h2⟩
      · refine Or.inl ⟨h1, List.mem_cons_of_mem _ h2, ?_⟩
        rcases h3 with h3 | ⟨t', h3, h4⟩
        · by_cases ht : t = .free
          · rw [(a7 ht).2] at h3
            exact Or.inl h3
          · exact Or.inr ⟨t, by simp, ht⟩
        · exact Or.inr ⟨t', List.mem_cons_of_mem _ h3, h4⟩
      · exact Or.inr ⟨h1, a, b, List.mem_cons_of_mem _ h2⟩

/-- The bounds that result for all variables. -/
theorem processBounds_ok {vars vars' : List Variable} {bounds : List (Listing BoundType)}
    (hv : ∀ v ∈ vars, v.lowerBound = none ∧ v.upperBound = none)
    (h : processBounds vars bounds = .ok vars') :
    vars'.length = vars.length ∧ (∀ q ∈ flatten bounds, q.1 < vars.length) ∧
    (∀ j a b, (j, .semiContinuous a b) ∉ flatten bounds) ∧
    (∀ j t, (j, .free) ∈ flatten bounds → (j, t) ∈ flatten bounds → t = .free) ∧
    ∀ j v, vars[j]? = some v → ∃ v', vars'[j]? = some v' ∧ SameRest v v' ∧
      (v'.variableType = .integer ↔ v.variableType = .integer ∨ integral (valuesOf (flatten bounds) j)) ∧
      ∀ x, Within v' x ↔ (∀ t, (j, t) ∈ flatten bounds → t.Holds x) ∧
        ((∀ t, (j, t) ∈ flatten bounds → t.IsUpper) → 0 ≤ x) := by
  unfold processBounds at h
  match hf : (flatten bounds).foldlM (updateAt processBoundState) (vars.map fun v => ⟨v, true, false⟩) with
  | .error e => rw [hf] at h; cases h
  | .ok states =>
    rw [hf] at h
    simp only [bind, Except.bind] at h
    split_ifs at h with hfree
    injection h with h
    obtain ⟨h1, h2, h3⟩ := foldlM_updateAt_ok hf
    rw [List.length_map] at h1 h2
    have h4 : ∀ j v, vars[j]? = some v → ∃ s', states[j]? = some s' ∧
        (valuesOf (flatten bounds) j).foldlM processBoundState ⟨v, true, false⟩ = .ok s' := by
      intro j v hj
      exact h3 j _ (by rw [List.getElem?_map, hj]; rfl)
    refine ⟨by rw [← h, List.length_map, h1], h2, ?_, ?_, ?_⟩
    · intro j a b hm
      have hj := h2 _ hm
      obtain ⟨s', -, h6⟩ := h4 j _ (List.getElem?_eq_getElem hj)
      exact (foldlM_processBound_ok h6).2.2.2.2.2.2.1 a b (mem_valuesOf.2 hm)
    · intro j t hm ht
      have hj := h2 _ hm
      obtain ⟨s', h5, h6⟩ := h4 j _ (List.getElem?_eq_getElem hj)
      obtain ⟨-, -, -, -, b5, b6, -, -⟩ := foldlM_processBound_ok h6
      by_contra hc
      refine hfree (List.any_eq_true.2 ⟨s', List.mem_of_getElem? h5, ?_⟩)
      rw [Bool.and_eq_true, Bool.or_eq_true]
      exact ⟨b5.2 (Or.inr (mem_valuesOf.2 hm)), b6.2 (Or.inr ⟨t, mem_valuesOf.2 ht, hc⟩)⟩
    · intro j v hj
      obtain ⟨s', h5, h6⟩ := h4 j v hj
      obtain ⟨b1, b2, b3, b4, b5, b6, b7, b8⟩ := foldlM_processBound_ok h6
      obtain ⟨hl, hu⟩ := hv v (List.mem_of_getElem? hj)
      have h0 : ∀ x, Within v x := fun x => by simp [Within, hl, hu]
      simp only [mem_valuesOf] at b1 b3
      refine ⟨if s'.needsDefault then { s'.var with lowerBound := some 0 } else s'.var, ?_, ?_, ?_, ?_⟩
      · rw [← h, List.getElem?_map, h5]
        rfl
      · split_ifs
        · exact b2
        · exact b2
      · rw [← b8]
        split_ifs
        · rfl
        · rfl
      · intro x
        have hb := b1 x
        by_cases hn : s'.needsDefault = true
        · rw [if_pos hn]
          have hlow := (b4 hn).trans hl
          have hup := (b3.1 hn).2
          have hw : Within s'.var x ↔ ∀ u ∈ s'.var.upperBound, x ≤ u := by simp [Within, hlow]
          have hd : Within { s'.var with lowerBound := some 0 } x ↔ 0 ≤ x ∧ ∀ u ∈ s'.var.upperBound, x ≤ u := by
            simp [Within]
          rw [hd, ← hw, hb]
          exact ⟨fun h => ⟨h.2.2, fun _ => h.1⟩, fun h => ⟨h.2 hup, h0 x, h.1⟩⟩
        · rw [if_neg hn, hb]
          have : ¬∀ t, (j, t) ∈ flatten bounds → t.IsUpper := fun hc => hn (b3.2 ⟨trivial, hc⟩)
          simp [h0, this]

theorem processBounds_error {vars : List Variable} {bounds : List (Listing BoundType)} {e}
    (hv : ∀ v ∈ vars, v.lowerBound = none ∧ v.upperBound = none)
    (h : processBounds vars bounds = .error e) :
    (e = .inconsistency ∧ ∃ j t, (j, .free) ∈ flatten bounds ∧ (j, t) ∈ flatten bounds ∧ t ≠ .free) ∨
    e = .panic ∧ ((∃ q ∈ flatten bounds, vars.length ≤ q.1) ∨
      ∃ j a b, (j, .semiContinuous a b) ∈ flatten bounds) := by
  unfold processBounds at h
  have hnb : ∀ v ∈ vars, ¬IsBounded v := by
    intro v hm
    obtain ⟨h1, h2⟩ := hv v hm
    simp [IsBounded, h1, h2]
  match hf : (flatten bounds).foldlM (updateAt processBoundState) (vars.map fun v => ⟨v, true, false⟩) with
  | .error e' =>
    rw [hf] at h
    injection h with h
    subst h
    rcases foldlM_updateAt_error hf with ⟨h1, q, h2, h3⟩ | ⟨j, s, h1, h2⟩
    · rw [List.length_map] at h3
      exact Or.inr ⟨h1, Or.inl ⟨q, h2, h3⟩⟩
    · rw [List.getElem?_map, Option.map_eq_some_iff] at h1
      obtain ⟨v, h1, rfl⟩ := h1
      rcases foldlM_processBound_error h2 with ⟨h3, h4, h5 | ⟨t, h5, h6⟩⟩ | ⟨h3, a, b, h4⟩
      · exact absurd h5 (hnb v (List.mem_of_getElem? h1))
      · exact Or.inl ⟨h3, j, t, mem_valuesOf.1 h4, mem_valuesOf.1 h5, h6⟩
      · exact Or.inr ⟨h3, Or.inr ⟨j, a, b, mem_valuesOf.1 h4⟩⟩
  | .ok states =>
    rw [hf] at h
    simp only [bind, Except.bind] at h
    split_ifs at h with hfree
    · injection h with h
      refine Or.inl ⟨h.symm, ?_⟩
      obtain ⟨s', h1, h2⟩ := List.any_eq_true.1 hfree
      obtain ⟨j, hj⟩ := List.getElem?_of_mem h1
      obtain ⟨h3, h4, h5⟩ := foldlM_updateAt_ok hf
      have hlt : j < vars.length := by
        have := (List.getElem?_eq_some_iff.1 hj).1
        rwa [h3, List.length_map] at this
      obtain ⟨s'', h6, h7⟩ := h5 j ⟨vars[j], true, false⟩
        (by rw [List.getElem?_map, List.getElem?_eq_getElem hlt]; rfl)
      rw [hj] at h6
      cases h6
      obtain ⟨-, -, -, -, b5, b6, -, -⟩ := foldlM_processBound_ok h7
      rw [Bool.and_eq_true, Bool.or_eq_true] at h2
      rcases b5.1 h2.1 with hc | hc
      · cases hc
      · rcases b6.1 h2.2 with hd | ⟨t, hd, he⟩
        · exact absurd hd (hnb _ (List.getElem_mem hlt))
        · exact ⟨j, t, mem_valuesOf.1 hc, mem_valuesOf.1 hd, he⟩
    · cases h

end Relp.Mps
