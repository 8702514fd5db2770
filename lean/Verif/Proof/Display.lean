import Verif.Model.Display
import Verif.Spec.Display

/-!
# Lemmas on displayed texts
-/

namespace Relp.Display

open Spec

theorem length_center {width : ℕ} {text : Line} (h : text.length ≤ width) : (center width text).length = width := by
  simp [center]; omega

theorem length_alignRight {width : ℕ} {text : Line} (h : text.length ≤ width) :
    (alignRight width text).length = width := by
  simp [alignRight]; omega

theorem center_nil {width : ℕ} : (center width []).length = width := length_center (by simp)

/-- The position of a cell, after the beginning of the cells. -/
def offset (widths : List ℕ) (k : ℕ) : ℕ := ((widths.take k).map (1 + ·)).sum + 1

theorem length_cells : ∀ (widths : List ℕ) (texts : List Line), widths.length = texts.length →
    (∀ p ∈ widths.zip texts, p.2.length ≤ p.1) → (cells widths texts).length = (widths.map (1 + ·)).sum
  | [], [], _, _ => by simp [cells]
  | w :: ws, t :: ts, hl, h => by
    have ih := length_cells ws ts (by simpa using hl) fun p hp => h p (by simp [hp])
    have hw : t.length ≤ w := h (w, t) (by simp)
    simp only [cells, List.zip_cons_cons, List.flatMap_cons, List.cons_append, List.length_cons,
      List.length_append, List.map_cons, List.sum_cons] at ih ⊢
    rw [length_center hw, ih]; omega

theorem cells_at : ∀ (widths : List ℕ) (texts : List Line) (k w : ℕ) (t : Line),
    (∀ p ∈ widths.zip texts, p.2.length ≤ p.1) → widths[k]? = some w → texts[k]? = some t →
    ((cells widths texts).drop (offset widths k)).take w = center w t
  | [], _, k, w, t, _, hw, _ => by simp at hw
  | _ :: _, [], k, w, t, _, _, ht => by simp at ht
  | w' :: ws, t' :: ts, 0, w, t, h, hw, ht => by
    simp only [List.getElem?_cons_zero, Option.some.injEq] at hw ht
    subst hw ht
    have hfit : t'.length ≤ w' := h (w', t') (by simp)
    simp [cells, offset, List.take_append, length_center hfit]
  | w' :: ws, t' :: ts, k + 1, w, t, h, hw, ht => by
    simp only [List.getElem?_cons_succ] at hw ht
    have hfit : t'.length ≤ w' := h (w', t') (by simp)
    have ih := cells_at ws ts k w t (fun p hp => h p (by simp [hp])) hw ht
    have hoff : offset (w' :: ws) (k + 1) = (' ' :: center w' t').length + offset ws k := by
      simp only [offset, List.take_succ_cons, List.map_cons, List.sum_cons, List.length_cons,
        length_center hfit]
      omega
    rw [hoff]
    have hc : cells (w' :: ws) (t' :: ts) = (' ' :: center w' t') ++ cells ws ts := by simp [cells]
    rw [hc, List.drop_append, List.drop_eq_nil_of_le (by omega), List.nil_append]
    simpa using ih

theorem offset_le (widths : List ℕ) {k w : ℕ} (hw : widths[k]? = some w) :
    offset widths k + w ≤ (widths.map (1 + ·)).sum := by
  induction widths generalizing k with
  | nil => simp at hw
  | cons w' ws ih =>
    cases k with
    | zero =>
      simp only [List.getElem?_cons_zero, Option.some.injEq] at hw
      subst hw
      simp [offset]
    | succ k =>
      simp only [List.getElem?_cons_succ] at hw
      have := ih hw
      simp only [offset, List.take_succ_cons, List.map_cons, List.sum_cons] at this ⊢
      omega

theorem offset_separated (widths : List ℕ) {j k w : ℕ} (hjk : j < k) (hw : widths[j]? = some w) (hk : k < widths.length) :
    offset widths j + w < offset widths k := by
  induction widths generalizing j k with
  | nil => simp at hw
  | cons w' ws ih =>
    obtain ⟨k, rfl⟩ : ∃ k', k = k' + 1 := ⟨k - 1, by omega⟩
    cases j with
    | zero =>
      simp only [List.getElem?_cons_zero, Option.some.injEq] at hw
      subst hw
      simp [offset]; omega
    | succ j =>
      simp only [List.getElem?_cons_succ] at hw
      have := ih (by omega : j < k) hw (by simpa using hk)
      simp only [offset, List.take_succ_cons, List.map_cons, List.sum_cons] at this ⊢
      omega

theorem shown_center {line : Line} {start width : ℕ} {text : Line} (h : start + width ≤ line.length)
    (hc : (line.drop start).take width = center width text) : ShownAt line start width text :=
  ⟨h, _, _, hc⟩

/-- A cell of a line that has something before the cells. -/
theorem cells_shown (before : Line) (widths : List ℕ) (texts : List Line) {k w : ℕ} {t : Line}
    (hl : widths.length = texts.length) (h : ∀ p ∈ widths.zip texts, p.2.length ≤ p.1)
    (hw : widths[k]? = some w) (ht : texts[k]? = some t) :
    ShownAt (before ++ cells widths texts) (before.length + offset widths k) w t := by
  refine shown_center ?_ ?_
  · have := offset_le widths hw
    rw [List.length_append, length_cells widths texts hl h]; omega
  · rw [List.drop_append, List.drop_eq_nil_of_le (by omega), List.nil_append]
    simpa using cells_at widths texts k w t h hw ht

/-! ### Widths -/

theorem foldl_max (lines : List Line) (w : ℕ) :
    w ≤ lines.foldl (fun w l => max w l.length) w ∧
      ∀ l ∈ lines, l.length ≤ lines.foldl (fun w l => max w l.length) w := by
  induction lines generalizing w with
  | nil => simp
  | cons l ls ih =>
    obtain ⟨h1, h2⟩ := ih (max w l.length)
    simp only [List.foldl_cons, List.mem_cons, forall_eq_or_imp]
    exact ⟨le_trans (le_max_left _ _) h1, le_trans (le_max_right _ _) h1, h2⟩

theorem maxLength_ok {lines : List Line} {w : ℕ} (h : maxLength lines = .ok w) : ∀ l ∈ lines, l.length ≤ w := by
  cases lines with
  | nil => simp
  | cons l ls =>
    simp only [maxLength, Except.ok.injEq] at h
    subst h
    have := foldl_max ls l.length
    simpa using this

theorem maxLength_iff {lines : List Line} : (∃ w, maxLength lines = .ok w) ↔ lines ≠ [] := by
  cases lines <;> simp [maxLength]

theorem mapM_ok {α β ε : Type} {f : α → Except ε β} : ∀ {l : List α} {r : List β}, l.mapM f = .ok r →
    r.length = l.length ∧ ∀ (k : ℕ) (a : α), l[k]? = some a → ∃ b, r[k]? = some b ∧ f a = .ok b
  | [], r, h => by
    simp only [List.mapM_nil, pure, Except.pure, Except.ok.injEq] at h
    subst h; simp
  | a :: l, r, h => by
    rw [List.mapM_cons] at h
    simp only [bind, Except.bind, pure, Except.pure] at h
    cases hfa : f a with
    | error e => simp [hfa] at h
    | ok b =>
      cases hl : l.mapM f with
      | error e => simp [hfa, hl] at h
      | ok r' =>
        simp only [hfa, hl, Except.ok.injEq] at h
        subst h
        obtain ⟨h1, h2⟩ := mapM_ok hl
        refine ⟨by simp [h1], ?_⟩
        intro k x hx
        cases k with
        | zero =>
          simp only [List.getElem?_cons_zero, Option.some.injEq] at hx
          subst hx
          exact ⟨b, by simp, hfa⟩
        | succ k =>
          simp only [List.getElem?_cons_succ] at hx ⊢
          exact h2 k x hx

theorem mapM_isOk {α β ε : Type} {f : α → Except ε β} {l : List α} (h : ∀ a ∈ l, ∃ b, f a = .ok b) :
    ∃ r, l.mapM f = .ok r := by
  induction l with
  | nil => exact ⟨[], by simp [pure, Except.pure]⟩
  | cons a l ih =>
    obtain ⟨b, hb⟩ := h a (by simp)
    obtain ⟨r, hr⟩ := ih fun x hx => h x (by simp [hx])
    exact ⟨b :: r, by simp [List.mapM_cons, bind, Except.bind, pure, Except.pure, hb, hr]⟩

theorem tabulateM_iff {α : Type} : ∀ {m : ℕ} {f : Fin m → Res α},
    (∃ g, tabulateM f = .ok g) ↔ ∀ i, ∃ a, f i = .ok a
  | 0, f => by simp [tabulateM]
  | m + 1, f => by
    have ih := tabulateM_iff (f := fun i : Fin m => f i.succ)
    constructor
    · rintro ⟨g, hg⟩
      unfold tabulateM at hg
      cases h0 : f 0 with
      | error e => simp [h0] at hg
      | ok a =>
        cases h1 : tabulateM (fun i : Fin m => f i.succ) with
        | error e => simp [h0, h1] at hg
        | ok g' => exact Fin.cases ⟨a, h0⟩ (ih.1 ⟨g', h1⟩)
    · intro h
      obtain ⟨a, h0⟩ := h 0
      obtain ⟨g, hg⟩ := ih.2 fun i => h i.succ
      exact ⟨Fin.cons a g, by unfold tabulateM; simp [h0, hg]⟩

theorem tabulateM_get {α : Type} : ∀ {m : ℕ} {f : Fin m → Res α} {g : Fin m → α},
    tabulateM f = .ok g → ∀ i, f i = .ok (g i)
  | 0, _, _, _ => fun i => i.elim0
  | m + 1, f, g, h => by
    unfold tabulateM at h
    cases h0 : f 0 with
    | error e => simp [h0] at h
    | ok a =>
      cases h1 : tabulateM (fun i : Fin m => f i.succ) with
      | error e => simp [h0, h1] at h
      | ok g' =>
        simp only [h0, h1, Except.ok.injEq] at h
        subst h
        exact Fin.cases (by simpa using h0) fun i => by simpa using tabulateM_get h1 i

theorem digits_length {n k : ℕ} (h : 0 < k) : (digits n).length ≤ k ↔ n < 10 ^ k :=
  Nat.length_toDigits_le_iff (by omega) h

/-! ### Lines of a tableau -/

section

variable {counter : Line} {bWidth : ℕ} {b : Line} {widths : List ℕ} {texts : List Line}

theorem tableauLine_length (hc : counter.length ≤ 4) (hb : b.length ≤ bWidth) (hl : widths.length = texts.length)
    (h : ∀ p ∈ widths.zip texts, p.2.length ≤ p.1) :
    (tableauLine counter bWidth b widths texts).length =
      4 + 1 + 1 + (1 + bWidth + 1) + 1 + (widths.map (1 + ·)).sum := by
  simp only [tableauLine, List.length_append, length_alignRight hc, length_center hb, length_cells widths texts hl h,
    List.length_cons, List.length_nil]
  omega

theorem tableauLine_cell (hc : counter.length ≤ 4) (hb : b.length ≤ bWidth) (hl : widths.length = texts.length)
    (h : ∀ p ∈ widths.zip texts, p.2.length ≤ p.1) {k w : ℕ} {t : Line} (hw : widths[k]? = some w)
    (ht : texts[k]? = some t) :
    ShownAt (tableauLine counter bWidth b widths texts) (9 + bWidth + offset widths k) w t := by
  have := cells_shown (alignRight 4 counter ++ [' ', '|', ' '] ++ center bWidth b ++ [' ', '|']) widths texts hl h hw ht
  have hlen : (alignRight 4 counter ++ [' ', '|', ' '] ++ center bWidth b ++ [' ', '|']).length = 9 + bWidth := by
    simp only [List.length_append, length_alignRight hc, length_center hb, List.length_cons, List.length_nil]
    omega
  rw [hlen] at this
  exact this

theorem tableauLine_b (hc : counter.length ≤ 4) (hb : b.length ≤ bWidth) :
    ShownAt (tableauLine counter bWidth b widths texts) 7 bWidth b := by
  have hlen : (alignRight 4 counter ++ [' ', '|', ' ']).length = 7 := by
    simp [length_alignRight hc]
  refine shown_center ?_ ?_
  · simp only [tableauLine, List.length_append, length_alignRight hc, length_center hb, List.length_cons,
      List.length_nil]
    omega
  · unfold tableauLine
    rw [List.append_assoc, List.append_assoc, ← hlen, List.drop_left, List.take_append_of_le_length
      (le_of_eq (length_center hb).symm), List.take_of_length_le (le_of_eq (length_center hb))]

theorem tableauLine_counter (hc : counter.length ≤ 4) :
    ShownAt (tableauLine counter bWidth b widths texts) 0 4 counter := by
  refine ⟨?_, 4 - counter.length, 0, ?_⟩
  · simp only [tableauLine, List.length_append, length_alignRight hc]
    omega
  · unfold tableauLine
    rw [List.append_assoc, List.append_assoc, List.append_assoc, List.drop_zero, List.take_append_of_le_length
      (le_of_eq (length_alignRight hc).symm), List.take_of_length_le (le_of_eq (length_alignRight hc))]
    simp [alignRight]

end

/-- The texts that are written in one line fit in the columns. -/
theorem fits {N : ℕ} {widths : List ℕ} (w : Fin N → ℕ) (hw : ∀ j : Fin N, widths[j.val]? = some (w j))
    {f : Fin N → Line} (hf : ∀ j, (f j).length ≤ w j) :
    ∀ p ∈ widths.zip ((List.finRange N).map f), p.2.length ≤ p.1 := by
  intro p hp
  obtain ⟨k, hk, rfl⟩ := List.getElem_of_mem hp
  have hkN : k < N := by simp at hk; omega
  have h := hw ⟨k, hkN⟩
  have hk1 : k < widths.length := by simp at hk; omega
  rw [List.getElem?_eq_getElem hk1, Option.some.injEq] at h
  simp only [List.getElem_zip, List.getElem_map, List.getElem_finRange, h]
  exact hf ⟨k, hkN⟩

theorem range_digits (N : ℕ) : (List.range N).map digits = (List.finRange N).map fun j : Fin N => digits j.val := by
  rw [← List.map_coe_finRange_eq_range, List.map_map]; rfl

end Relp.Display

namespace Relp.Display

open Spec

/-! ### Basis inverses -/

theorem digits_mono {i n : ℕ} (h : i ≤ n) : (digits i).length ≤ (digits n).length := by
  have hpos : 0 < (digits n).length := Nat.length_toDigits_pos
  exact (digits_length hpos).2 (lt_of_le_of_lt h ((digits_length hpos).1 le_rfl))

theorem flatten_at {w : ℕ} : ∀ (blocks : List Line) (k : ℕ) (block : Line), (∀ l ∈ blocks, l.length = w) →
    blocks[k]? = some block → (blocks.flatten.drop (k * w)).take w = block
  | [], k, block, _, h => by simp at h
  | l :: ls, 0, block, hl, h => by
    simp only [List.getElem?_cons_zero, Option.some.injEq] at h
    subst h
    have := hl l (by simp)
    simp [List.take_append, this]
  | l :: ls, k + 1, block, hl, h => by
    simp only [List.getElem?_cons_succ] at h
    have hw := hl l (by simp)
    have ih := flatten_at ls k block (fun x hx => hl x (by simp [hx])) h
    rw [List.flatten_cons, List.drop_append, List.drop_eq_nil_of_le (by rw [Nat.add_mul]; omega), List.nil_append,
      show (k + 1) * w - l.length = k * w by rw [Nat.add_mul]; omega]
    exact ih

theorem flatten_length {w : ℕ} : ∀ (blocks : List Line), (∀ l ∈ blocks, l.length = w) →
    blocks.flatten.length = blocks.length * w
  | [], _ => by simp
  | l :: ls, h => by
    have := flatten_length ls fun x hx => h x (by simp [hx])
    have hl := h l (by simp)
    simp only [List.flatten_cons, List.length_append, List.length_cons, Nat.add_mul, Nat.one_mul]
    omega

theorem take_center {text : Line} (h : text.length ≤ 9) :
    ∃ before after, (center 10 text).take 9 = List.replicate before ' ' ++ text ++ List.replicate after ' ' := by
  refine ⟨(10 - text.length) / 2, 10 - text.length - (10 - text.length) / 2 - 1, ?_⟩
  unfold center
  rw [List.take_append, List.take_of_length_le (by simp; omega), List.take_replicate]
  congr 2
  simp only [List.length_append, List.length_replicate]
  omega

/-! ### Lists of items -/

theorem separate {α : Type} (part : α → Line) (sep : Line) (P : α → Prop) [DecidablePred P] (last : α)
    (hlast : ¬P last) : ∀ l : List α, (∀ a ∈ l, P a) →
    (l ++ [last]).flatMap (fun a => part a ++ if P a then sep else []) =
      List.intercalate sep ((l ++ [last]).map part)
  | [], _ => by simp [hlast, List.intercalate]
  | a :: l, h => by
    have ih := separate part sep P last hlast l fun x hx => h x (by simp [hx])
    have ha : P a := h a (by simp)
    obtain ⟨b, r, hr⟩ : ∃ b r, l ++ [last] = b :: r := by
      cases l with
      | nil => exact ⟨last, [], rfl⟩
      | cons b r => exact ⟨b, r ++ [last], rfl⟩
    rw [List.cons_append, List.flatMap_cons, ih, hr]
    simp [ha, List.intercalate]

theorem length_parts {α : Type} (part : α → Line) (P : α → Prop) [DecidablePred P] (l : List α) :
    (l.flatMap fun a => part a ++ if P a then [',', ' '] else []).length =
      (l.map fun a => (part a).length).sum + 2 * l.countP (fun a => decide (P a)) := by
  induction l with
  | nil => simp
  | cons a l ih =>
    by_cases h : P a <;> simp [h, ih] <;> omega

theorem length_intercalate {α : Type} (part : α → Line) (last : α) : ∀ l : List α,
    (List.intercalate [',', ' '] ((l ++ [last]).map part)).length =
      ((l ++ [last]).map fun a => (part a).length).sum + 2 * l.length
  | [] => by simp [List.intercalate]
  | a :: l => by
    have ih := length_intercalate part last l
    obtain ⟨b, r, hr⟩ : ∃ b r, l ++ [last] = b :: r := by
      cases l with
      | nil => exact ⟨last, [], rfl⟩
      | cons b r => exact ⟨b, r ++ [last], rfl⟩
    rw [hr] at ih
    rw [List.cons_append, hr]
    simp [List.intercalate] at ih ⊢
    omega

/-- Strictly increasing numbers are at least their position. -/
theorem position_le : ∀ (l : List ℕ) (base : ℕ), (∀ a ∈ l, base ≤ a) → l.Pairwise (· < ·) →
    ∀ (k a : ℕ), l[k]? = some a → base + k ≤ a
  | [], _, _, _, k, a, h => by simp at h
  | x :: l, base, hb, _, 0, a, h => by
    simp only [List.getElem?_cons_zero, Option.some.injEq] at h
    subst h
    exact hb x (by simp)
  | x :: l, base, hb, hp, k + 1, a, h => by
    simp only [List.getElem?_cons_succ] at h
    rw [List.pairwise_cons] at hp
    have := position_le l (base + 1) (fun y hy => by
      have := hp.1 y hy
      have := hb x (by simp)
      omega) hp.2 k a h
    omega

/-- Strictly increasing numbers below their number are all at their position. -/
theorem position_eq : ∀ (l : List ℕ) (base : ℕ), (∀ a ∈ l, base ≤ a) → l.Pairwise (· < ·) →
    (∀ a ∈ l, a < base + l.length) → ∀ (k a : ℕ), l[k]? = some a → a = base + k := by
  intro l base hb hp hlt k a h
  have h1 := position_le l base hb hp k a h
  by_contra hne
  have hk : k < l.length := by
    rw [List.getElem?_eq_some_iff] at h
    exact h.1
  have h2 := position_le (l.drop k) (base + k + 1) ?_ (hp.sublist (List.drop_sublist _ _))
    (l.length - k - 1) (l[l.length - 1]'(by omega)) ?_
  · have := hlt (l[l.length - 1]'(by omega)) (List.getElem_mem _)
    omega
  · intro y hy
    rw [List.drop_eq_getElem_cons hk] at hy
    have hka : l[k] = a := by
      rw [List.getElem?_eq_getElem hk, Option.some.injEq] at h
      exact h
    have hpd := hp.sublist (List.drop_sublist k l)
    rw [List.drop_eq_getElem_cons hk, List.pairwise_cons] at hpd
    rcases List.mem_cons.1 hy with rfl | hy
    · omega
    · have := hpd.1 y hy
      omega
  · rw [List.getElem?_drop, show k + (l.length - k - 1) = l.length - 1 by omega, List.getElem?_eq_getElem]

end Relp.Display
