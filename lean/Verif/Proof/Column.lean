import Verif.Model.Column
import Verif.Spec.Column
import Verif.Proof.Filter

/-!
# Iterators over columns
-/

namespace Relp

open Spec

namespace Iterate

variable {S T α : Type}

theorem yields_unique {next : S → Option α × S} {s : S} {l l' : List α} (h : Yields next s l) (h' : Yields next s l') :
    l = l' := by
  induction h generalizing l' with
  | done h =>
    cases h' with
    | done _ => rfl
    | item e _ =>
      have := h 0
      rw [Function.iterate_zero, id, e] at this
      cases this
  | item e _ ih =>
    cases h' with
    | done h' =>
      have := h' 0
      rw [Function.iterate_zero, id, e] at this
      cases this
    | item e' h' =>
      rw [e] at e'
      cases e'
      rw [ih h']

/-- An iterator in a state in which it stays without items. -/
theorem yields_nil {next : S → Option α × S} {s : S} (h : next s = (none, s)) : Yields next s [] := by
  refine .done fun n => ?_
  rw [Function.iterate_fixed (by rw [h])]
  rw [h]

theorem yields_list (l : List α) : Yields listNext l l := by
  induction l with
  | nil => exact yields_nil rfl
  | cons a l ih => exact .item rfl ih

theorem yields_option (o : Option α) : Yields optionNext o o.toList := by
  cases o with
  | none => exact yields_nil rfl
  | some a => exact .item rfl (yields_nil rfl)

theorem yields_map {next : S → Option α × S} {next' : T → Option α × T} (f : S → T)
    (h : ∀ s, next' (f s) = ((next s).1, f (next s).2)) {s : S} {l : List α} (hl : Yields next s l) :
    Yields next' (f s) l := by
  induction hl with
  | @done s hn =>
    refine .done fun n => ?_
    have : ∀ n, (fun t => (next' t).2)^[n] (f s) = f ((fun s => (next s).2)^[n] s) := by
      intro n
      induction n with
      | zero => rfl
      | succ n ih => rw [Function.iterate_succ_apply', Function.iterate_succ_apply', ih, h]
    rw [this, h]
    exact hn n
  | item e _ ih => exact .item (by rw [h, e]) ih

theorem yields_second {nextS : S → Option α × S} {nextT : T → Option α × T} {t : T} {l : List α}
    (h : Yields nextT t l) : Yields (Chain.next nextS nextT) ⟨none, t⟩ l :=
  yields_map (next := nextT) (fun t => (⟨none, t⟩ : Chain S T)) (fun _ => rfl) h

theorem yields_chain {nextS : S → Option α × S} {nextT : T → Option α × T} {s : S} {t : T} {l l' : List α}
    (h : Yields nextS s l) (h' : Yields nextT t l') : Yields (Chain.next nextS nextT) (chain s t) (l ++ l') := by
  induction h with
  | @done s hn =>
    have h0 : (nextS s).1 = none := hn 0
    have e : Chain.next nextS nextT (chain s t) = Chain.nextSecond nextT t := by
      unfold Chain.next chain
      simp only
      rcases hs : nextS s with ⟨_ | a, s'⟩
      · rfl
      · rw [hs] at h0
        cases h0
    rw [List.nil_append]
    cases h' with
    | done ht =>
      refine .done fun n => ?_
      cases n with
      | zero =>
        rw [Function.iterate_zero, id, e]
        exact ht 0
      | succ n =>
        rw [Function.iterate_succ_apply, e]
        have := yields_second (nextS := nextS) (t := (nextT t).2) (nextT := nextT) (.done fun n => by
          have := ht (n + 1)
          rwa [Function.iterate_succ_apply] at this)
        cases this with
        | done h => exact h n
    | item e' h' =>
      refine .item ?_ (yields_second h')
      rw [e]
      unfold Chain.nextSecond
      rw [e']
  | @item s s' a l e _ ih =>
    refine .item (t := chain s' t) ?_ ih
    unfold Chain.next chain
    simp only [e]

theorem yields_slice (v : SVec ℕ) : Yields SparseSliceIterator.next (.new v) v := by
  have key : ∀ n, Yields SparseSliceIterator.next ⟨v, v.length - n⟩ (v.drop (v.length - n)) := by
    intro n
    induction n with
    | zero =>
      rw [Nat.sub_zero, List.drop_length]
      exact yields_nil (by unfold SparseSliceIterator.next; rw [dif_neg (by simp)])
    | succ n ih =>
      by_cases h : v.length - (n + 1) < v.length ∧ n + 1 ≤ v.length
      · rw [List.drop_eq_getElem_cons h.1]
        refine .item (t := ⟨v, v.length - (n + 1) + 1⟩) ?_ ?_
        · unfold SparseSliceIterator.next
          rw [dif_pos h.1]
        · have : v.length - (n + 1) + 1 = v.length - n := by omega
          rw [this]
          exact ih
      · have : v.length - (n + 1) = v.length - n := by omega
        rw [this]
        exact ih
  have := key v.length
  rwa [Nat.sub_self] at this

theorem yields_slice_at (s : SparseSliceIterator) : Yields SparseSliceIterator.next s (s.creator.drop s.dataIndex) := by
  obtain ⟨v, k⟩ := s
  induction hn : v.length - k generalizing k with
  | zero =>
    rw [List.drop_eq_nil_of_le (show v.length ≤ k by omega)]
    exact yields_nil (by unfold SparseSliceIterator.next; rw [dif_neg (by simp only; omega)])
  | succ n ih =>
    have hk : k < v.length := by omega
    dsimp only
    rw [List.drop_eq_getElem_cons hk]
    refine .item (t := ⟨v, k + 1⟩) ?_ (ih (k + 1) (by omega))
    unfold SparseSliceIterator.next
    rw [dif_pos hk]

theorem slice_fold {β : Type} (f : β → ℕ × ℚ → β) (s : SparseSliceIterator) (b : β) :
    s.fold f b = (s.creator.drop s.dataIndex).foldl f b := by
  obtain ⟨v, k⟩ := s
  induction hn : v.length - k generalizing k b with
  | zero =>
    rw [List.drop_eq_nil_of_le (show v.length ≤ k by omega), SparseSliceIterator.fold, dif_neg (by simp only; omega)]
    rfl
  | succ n ih =>
    have hk : k < v.length := by omega
    rw [SparseSliceIterator.fold, dif_pos hk]
    dsimp only
    rw [ih _ _ (by omega)]
    dsimp only
    rw [List.drop_eq_getElem_cons hk, List.foldl_cons]

theorem foldl_count (l : List (ℕ × ℚ)) (n : ℕ) : l.foldl (fun n _ => n + 1) n = n + l.length := by
  induction l generalizing n with
  | nil => rfl
  | cons a l ih => rw [List.foldl_cons, ih, List.length_cons]; omega

theorem yields_sparseOption (o : Option (ℕ × ℚ)) : Yields SparseOptionIterator.next (.new o) o.toList :=
  yields_map (next := optionNext) (fun o => (⟨o⟩ : SparseOptionIterator)) (fun _ => rfl) (yields_option o)

/-- The entries of a dense list that are not zero, with their indices from `n` on. -/
def denseEntries (n : ℕ) : List ℚ → SVec ℕ
  | [] => []
  | x :: l => if x ≠ 0 then (n, x) :: denseEntries (n + 1) l else denseEntries (n + 1) l

theorem yields_dense_aux (v : List ℚ) : ∀ (l pre : List ℚ), v = pre ++ l →
    Yields DenseSliceIterator.next ⟨v, pre.length⟩ (denseEntries pre.length l) := by
  intro l
  induction l with
  | nil =>
    rintro pre rfl
    refine yields_nil ?_
    rw [DenseSliceIterator.next, dif_neg (by simp)]
  | cons x l ih =>
    rintro pre rfl
    have hlt : pre.length < (pre ++ x :: l).length := by simp
    have hx : (pre ++ x :: l)[pre.length] = x := by simp
    have ih := ih (pre ++ [x]) (by simp)
    rw [List.length_append, List.length_singleton] at ih
    unfold denseEntries
    by_cases h0 : x ≠ 0
    · rw [if_pos h0]
      refine .item ?_ ih
      rw [DenseSliceIterator.next, dif_pos hlt]
      simp only
      rw [if_pos (by rwa [hx]), hx]
    · rw [if_neg h0]
      have e : DenseSliceIterator.next ⟨pre ++ x :: l, pre.length⟩ =
          DenseSliceIterator.next ⟨pre ++ x :: l, pre.length + 1⟩ := by
        conv_lhs => rw [DenseSliceIterator.next, dif_pos hlt]
        simp only
        rw [if_neg (by rwa [hx])]
      cases hi : denseEntries (pre.length + 1) l with
      | nil =>
        rw [hi] at ih
        cases ih with
        | done h =>
          refine .done fun n => ?_
          cases n with
          | zero => rw [Function.iterate_zero, id, e]; exact h 0
          | succ n =>
            have := h (n + 1)
            rwa [Function.iterate_succ_apply, ← e, ← Function.iterate_succ_apply (fun s => (DenseSliceIterator.next s).2)] at this
      | cons a l' =>
        rw [hi] at ih
        cases ih with
        | item e' h => exact .item (e.trans e') h

theorem yields_dense (v : List ℚ) : Yields DenseSliceIterator.next (denseIter v) (denseEntries 0 v) :=
  yields_dense_aux v v [] rfl

theorem denseEntries_lower (l : List ℚ) : ∀ n, ∀ p ∈ denseEntries n l, n ≤ p.1 := by
  induction l with
  | nil => simp [denseEntries]
  | cons x l ih =>
    intro n p hp
    unfold denseEntries at hp
    split at hp
    · rcases List.mem_cons.1 hp with rfl | hp
      · exact le_refl _
      · have := ih _ p hp; omega
    · have := ih _ p hp; omega

theorem denseEntries_entries (l : List ℚ) : ∀ n, ((denseEntries n l).map (·.1)).Pairwise (· < ·) ∧
    ∀ i x, (i, x) ∈ denseEntries n l ↔ n ≤ i ∧ l.getD (i - n) 0 = x ∧ x ≠ 0 := by
  induction l with
  | nil =>
    intro n
    refine ⟨.nil, fun i x => ?_⟩
    simp [denseEntries]
    rintro _ rfl
    rfl
  | cons y l ih =>
    intro n
    obtain ⟨h1, h2⟩ := ih (n + 1)
    have key : ∀ i x, (i, x) ∈ denseEntries (n + 1) l ↔ n + 1 ≤ i ∧ (y :: l).getD (i - n) 0 = x ∧ x ≠ 0 := by
      intro i x
      rw [h2]
      constructor
      · rintro ⟨a, b, c⟩
        refine ⟨a, ?_, c⟩
        have : i - n = i - (n + 1) + 1 := by omega
        rw [this, List.getD_cons_succ]
        exact b
      · rintro ⟨a, b, c⟩
        refine ⟨a, ?_, c⟩
        have : i - n = i - (n + 1) + 1 := by omega
        rw [this, List.getD_cons_succ] at b
        exact b
    unfold denseEntries
    split
    · rename_i hy
      refine ⟨?_, fun i x => ?_⟩
      · rw [List.map_cons, List.pairwise_cons]
        refine ⟨fun i hi => ?_, h1⟩
        obtain ⟨p, hp, rfl⟩ := List.mem_map.1 hi
        have := denseEntries_lower l (n + 1) p hp
        simp only
        omega
      · rw [List.mem_cons, key, Prod.mk.injEq]
        constructor
        · rintro (⟨rfl, rfl⟩ | ⟨a, b⟩)
          · exact ⟨le_refl _, by simp, hy⟩
          · exact ⟨by omega, b⟩
        · rintro ⟨a, b, c⟩
          by_cases hin : i = n
          · subst hin
            left
            rw [Nat.sub_self, List.getD_cons_zero] at b
            exact ⟨rfl, b.symm⟩
          · exact Or.inr ⟨by omega, b, c⟩
    · rename_i hy
      refine ⟨h1, fun i x => ?_⟩
      rw [key]
      constructor
      · rintro ⟨a, b⟩
        exact ⟨by omega, b⟩
      · rintro ⟨a, b, c⟩
        refine ⟨?_, b, c⟩
        by_contra hc
        have hin : i - n = 0 := by omega
        rw [hin, List.getD_cons_zero] at b
        exact hy (b ▸ c)

theorem yields_enumerate (l : List α) : ∀ n, Yields (enumerateNext listNext) (l, n)
    ((l.zipIdx n).map fun p => (p.2, p.1)) := by
  induction l with
  | nil => exact fun n => yields_nil rfl
  | cons a l ih => exact fun n => .item rfl (ih (n + 1))

/-- Well-formed tuples are the entries of the column that they stand for. -/
theorem entries_of_wf {v : SVec ℕ} (h : SVec.WF v) : EntriesOf (SVec.val v) v := by
  refine ⟨?_, fun i x => ⟨fun hm => ?_, fun hm => ?_⟩⟩
  · rw [List.pairwise_map]
    exact h.1
  · exact ⟨SVec.val_of_mem h hm, h.2 _ hm⟩
  · obtain ⟨rfl, hx⟩ := hm
    by_contra hc
    apply hx
    apply SVec.val_eq_zero_of_notMem
    rintro p hp rfl
    apply hc
    rw [SVec.val_of_mem h hp]
    exact hp

theorem findValue_eq {v : SVec ℕ} (h : SVec.WF v) (i : ℕ) : findValue v i = SVec.val v i := by
  unfold findValue
  split
  · rename_i hf
    rw [List.find?_eq_none] at hf
    exact (SVec.val_eq_zero_of_notMem fun p hp => by simpa using hf p hp).symm
  · rename_i p hf
    have h1 := List.find?_some hf
    have h2 := List.mem_of_find?_eq_some hf
    simp only [decide_eq_true_eq] at h1
    rw [← h1, SVec.val_of_mem h h2]

end Iterate

namespace DataColumn

open Iterate

theorem yields_iter (c : DataColumn) : Yields Iterator.next c.iter c.tuples := by
  cases c with
  | sparse v o =>
    exact yields_map (next := Chain.next SparseSliceIterator.next SparseOptionIterator.next) Iterator.sparse
      (fun _ => rfl) (yields_chain (yields_slice v) (yields_sparseOption o))
  | slack p => exact yields_map (next := optionNext) Iterator.slack (fun _ => rfl) (yields_option (some p))
  | twoSlack p q =>
    exact yields_map (next := Chain.next optionNext optionNext) Iterator.twoSlack (fun _ => rfl)
      (yields_chain (yields_option (some p)) (yields_option (some q)))

theorem yields_intoIter (c : DataColumn) : Yields IntoIterator.next c.intoIter c.tuples := by
  cases c with
  | sparse v o =>
    exact yields_map (next := Chain.next listNext optionNext) IntoIterator.sparse
      (fun _ => rfl) (yields_chain (yields_list v) (yields_option o))
  | slack p => exact yields_map (next := optionNext) IntoIterator.slack (fun _ => rfl) (yields_option (some p))
  | twoSlack p q =>
    exact yields_map (next := Chain.next optionNext optionNext) IntoIterator.twoSlack (fun _ => rfl)
      (yields_chain (yields_option (some p)) (yields_option (some q)))

theorem indexValue_eq {c : DataColumn} (h : SVec.WF c.tuples) (i : ℕ) : c.indexValue i = SVec.val c.tuples i := by
  rw [← findValue_eq h]
  cases c with
  | sparse v o =>
    unfold indexValue findValue tuples
    simp only
    rw [List.find?_append]
    split
    · rename_i hf
      rw [hf, Option.none_or]
      rcases o with _ | ⟨j, x⟩
      · rfl
      · simp only [Option.toList_some, List.find?_cons, List.find?_nil]
        by_cases hj : j = i <;> simp [hj]
    · rename_i p hf
      rw [hf, Option.some_or]
  | slack p =>
    obtain ⟨j, x⟩ := p
    unfold indexValue findValue tuples
    simp only [List.find?_cons, List.find?_nil]
    by_cases hj : j = i <;> simp [hj]
  | twoSlack p q =>
    obtain ⟨j, x⟩ := p
    obtain ⟨k, y⟩ := q
    unfold indexValue findValue tuples
    simp only [List.find?_cons, List.find?_nil]
    by_cases hj : j = i <;> by_cases hk : k = i <;> simp [hj, hk]

end DataColumn

end Relp
