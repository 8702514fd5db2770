import Verif.Spec.NumberFloat
import Verif.Proof.Number
import Mathlib.Tactic.Linarith
import Mathlib.Tactic.NormNum
import Mathlib.Tactic.Positivity
import Mathlib.Algebra.Order.Round
import Mathlib.Data.Rat.Floor
import Mathlib.Tactic.FieldSimp

/-!
# C79: numbers that are read as floating point numbers

The specification of the standard library is in `Spec/NumberFloat.lean`.
-/

namespace Relp.Number

open Spec

variable {std : Text → Option Double} {round : ℚ → ℚ}

/-- Rounding preserves order. -/
theorem round_mono (h : Rounds round) {q r : ℚ} (hqr : q ≤ r) : round q ≤ round r := by
  rcases eq_or_lt_of_le hqr with rfl | hlt
  · exact le_rfl
  by_contra hgt
  push Not at hgt
  have h1 := h.nearest q r
  have h2 := h.nearest r q
  rcases abs_cases (q - round q) with ⟨a1, _⟩ | ⟨a1, _⟩ <;> rcases abs_cases (q - round r) with ⟨a2, _⟩ | ⟨a2, _⟩ <;>
    rcases abs_cases (r - round r) with ⟨a3, _⟩ | ⟨a3, _⟩ <;> rcases abs_cases (r - round q) with ⟨a4, _⟩ | ⟨a4, _⟩ <;>
    linarith

/-- What remains of C79: a decimal numeral with a value of at least `1e-10` and at most `1e10` in magnitude is read
as the closest double. -/
theorem C79_read_partial (hr : Rounds round) (hs : ReadsDoubles std round) (n : Numeral) (hn : n.Proper)
    (hsmall : 1 / 10 ^ 10 ≤ |n.value|) (hlarge : |n.value| ≤ 10 ^ 10) :
    parseDouble std n.text = .ok (.finite (round n.value)) := by
  have hstd : std n.text = some (.finite (round n.value)) := by
    rcases hs.numeral n hn with h | ⟨h, _⟩
    · exact h
    · exact absurd h (not_lt.2 (le_trans hlarge (pow_le_pow_right₀ (by norm_num) (by norm_num))))
  have hmin : (0 : ℚ) < minimumMagnitude := by norm_num [minimumMagnitude]
  have hle : minimumMagnitude ≤ |round n.value| := by
    rcases le_total 0 n.value with h0 | h0
    · rw [abs_of_nonneg h0] at hsmall
      have := round_mono hr hsmall
      rw [hr.small] at this
      exact le_trans this (le_abs_self _)
    · rw [abs_of_nonpos h0] at hsmall
      have := round_mono hr (show n.value ≤ -(1 / 10 ^ 10) by linarith)
      rw [hr.smallNegative] at this
      exact le_trans (by linarith) (neg_le_abs _)
  have hge : |round n.value| ≤ maximumMagnitude := by
    have h1 := round_mono hr (abs_le.1 hlarge).2
    have h2 := round_mono hr (abs_le.1 hlarge).1
    rw [hr.large] at h1
    rw [hr.largeNegative] at h2
    have : (maximumMagnitude : ℚ) = 10 ^ 10 := by norm_num [maximumMagnitude]
    rw [this]
    exact abs_le.2 ⟨h2, h1⟩
  simp [parseDouble, hstd, Double.magnitudeBelow, Double.magnitudeAbove, not_lt.2 hle, not_lt.2 hge]

/-- C79: a text is read exactly if the standard library reads it, as not a number or as a double of at least
`1e-10` and at most `1e10` in magnitude, and it is then read as what the standard library gives. -/
theorem C79_read_iff (text : Text) (value : Double) :
    parseDouble std text = .ok value ↔ std text = some value ∧
      (value = .nan ∨ ∃ q, value = .finite q ∧ minimumMagnitude ≤ |q| ∧ |q| ≤ maximumMagnitude) := by
  unfold parseDouble
  cases hstd : std text with
  | none => simp
  | some v =>
    cases v with
    | nan =>
      simp only [Double.magnitudeBelow, Double.magnitudeAbove, Bool.false_eq_true, if_false, Except.ok.injEq,
        Option.some.injEq]
      constructor
      · rintro rfl; simp
      · exact fun h => h.1
    | infinite s =>
      simp only [Double.magnitudeBelow, Double.magnitudeAbove, Bool.false_eq_true, if_false, if_true, reduceCtorEq,
        Option.some.injEq, false_iff]
      rintro ⟨rfl, h | ⟨q, h, _⟩⟩ <;> cases h
    | finite q =>
      simp only [Double.magnitudeBelow, Double.magnitudeAbove, decide_eq_true_eq, Option.some.injEq]
      split_ifs with h1 h2
      · simp only [reduceCtorEq, false_iff]
        rintro ⟨rfl, h | ⟨q', h, h', _⟩⟩
        · cases h
        · cases h; linarith
      · simp only [reduceCtorEq, false_iff]
        rintro ⟨rfl, h | ⟨q', h, _, h'⟩⟩
        · cases h
        · cases h; linarith
      · simp only [Except.ok.injEq]
        constructor
        · rintro rfl
          exact ⟨rfl, .inr ⟨q, rfl, not_lt.1 h1, not_lt.1 h2⟩⟩
        · exact fun h => h.1

/-- C79 does not hold: zero is refused, however it is written. -/
theorem C79_not_zero (hr : Rounds round) (hs : ReadsDoubles std round) (n : Numeral) (hn : n.Proper)
    (h0 : n.value = 0) : parseDouble std n.text = .error .parse := by
  have hstd : std n.text = some (.finite 0) := by
    rcases hs.numeral n hn with h | ⟨h, _⟩
    · rw [h, h0, hr.zero]
    · rw [h0, abs_zero] at h
      exact absurd h (not_lt.2 (by positivity))
  simp [parseDouble, hstd, Double.magnitudeBelow, minimumMagnitude]

/-- C79 does not hold: a text that is not a number is read. -/
theorem C79_not_nan (hs : ReadsDoubles std round) : parseDouble std "NaN".toList = .ok .nan :=
  (C79_read_iff _ _).2 ⟨hs.nan, .inl rfl⟩

/-! ### The hypotheses can be met -/

/-- For the example: rounding to a multiple of `2 ^ -86`. -/
def exampleRound (q : ℚ) : ℚ := _root_.round (q * 2 ^ 86) / 2 ^ 86

theorem exampleRound_rounds : Rounds exampleRound where
  nearest q r := by
    have h := round_le (q * 2 ^ 86) (_root_.round (r * 2 ^ 86))
    unfold exampleRound
    have e (z : ℤ) : |q - (z : ℚ) / 2 ^ 86| = |q * 2 ^ 86 - z| / 2 ^ 86 := by
      rw [show q - (z : ℚ) / 2 ^ 86 = (q * 2 ^ 86 - z) / 2 ^ 86 by field_simp, abs_div,
        abs_of_pos (show (0 : ℚ) < 2 ^ 86 by norm_num)]
    rw [e, e]
    exact div_le_div_of_nonneg_right h (by norm_num)
  zero := by simp [exampleRound]
  small := by
    have : _root_.round ((1 / 10 ^ 10 : ℚ) * 2 ^ 86) = 7737125245533627 := by
      rw [round_eq, Int.floor_eq_iff]; norm_num
    rw [exampleRound, this]; norm_num [minimumMagnitude]
  smallNegative := by
    have : _root_.round (-(1 / 10 ^ 10 : ℚ) * 2 ^ 86) = -7737125245533627 := by
      rw [round_eq, Int.floor_eq_iff]; norm_num
    rw [exampleRound, this]; norm_num [minimumMagnitude]
  large := by
    have : _root_.round ((10 ^ 10 : ℚ) * 2 ^ 86) = 10 ^ 10 * 2 ^ 86 := by
      rw [round_eq, Int.floor_eq_iff]; norm_num
    rw [exampleRound, this]; norm_num
  largeNegative := by
    have : _root_.round ((-10 ^ 10 : ℚ) * 2 ^ 86) = -10 ^ 10 * 2 ^ 86 := by
      rw [round_eq, Int.floor_eq_iff]; norm_num
    rw [exampleRound, this]; norm_num

theorem char_inj : ∀ d e : Digit, Digit.char d = Digit.char e → d = e := by decide

theorem body_inj {n k : Numeral} (h : body n = body k) : n.whole = k.whole ∧ n.decimals = k.decimals := by
  have hmap {d e : List Digit} (h : d.map Digit.char = e.map Digit.char) : d = e :=
    List.map_injective_iff.2 char_inj h
  have hs := congrArg splitAtPoint h
  obtain ⟨n0, n1, n2⟩ := n
  obtain ⟨k0, k1, k2⟩ := k
  cases n2 <;> cases k2 <;>
    simp only [body, List.append_nil, splitAtPoint_none, splitAtPoint_some, Prod.mk.injEq, Option.some.injEq,
      reduceCtorEq, and_false, and_true] at hs ⊢
  · exact hmap hs
  · exact ⟨hmap hs.1, hmap hs.2⟩

theorem text_body (n : Numeral) : n.text = (if n.negative then ['-'] else []) ++ body n := by
  rw [body, ← List.append_assoc]; rfl

/-- A text is that of one numeral only. -/
theorem text_inj {n k : Numeral} (h : n.text = k.text) : n = k := by
  have key : n.negative = k.negative ∧ body n = body k := by
    cases ht : n.text with
    | nil =>
      have hk := h.symm.trans ht
      rw [text_body] at ht hk
      simp only [List.append_eq_nil_iff] at ht hk
      cases hn : n.negative <;> cases hk' : k.negative <;> simp_all
    | cons first tail =>
      obtain ⟨-, h1, h2⟩ := text_first n ht
      obtain ⟨-, h3, h4⟩ := text_first k (h.symm.trans ht)
      have hneg := h1.symm.trans h3
      rw [← h2, ← h4, hneg]
      exact ⟨rfl, rfl⟩
  obtain ⟨hw, hd⟩ := body_inj key.2
  obtain ⟨n0, n1, n2⟩ := n
  obtain ⟨k0, k1, k2⟩ := k
  simp only at hw hd key
  rw [hw, hd, key.1]

open Classical in
/-- For the example: the standard library reads numerals and `NaN`. -/
noncomputable def exampleStd (text : Text) : Option Double :=
  if h : ∃ n : Numeral, n.text = text then some (.finite (exampleRound h.choose.value)) else
  if text = "NaN".toList then some .nan else none

theorem exampleStd_reads : ReadsDoubles exampleStd exampleRound where
  numeral n _ := by
    have h : ∃ k : Numeral, k.text = n.text := ⟨n, rfl⟩
    left
    unfold exampleStd
    rw [dif_pos h, text_inj h.choose_spec]
  nan := by
    have h : ¬∃ n : Numeral, n.text = "NaN".toList := by
      rintro ⟨n, hn⟩
      obtain ⟨-, h1, h2⟩ := text_first n (first := 'N') (tail := ['a', 'N']) (hn.trans (by decide))
      have hneg : n.negative = false := by rw [← h1]; decide
      rw [hneg] at h2
      simp only [Bool.false_eq_true, if_false, body] at h2
      cases hw : n.whole with
      | nil =>
        rw [hw] at h2
        cases hd : n.decimals <;> rw [hd] at h2 <;> simp at h2
      | cons d ds =>
        rw [hw] at h2
        simp only [List.map_cons, List.cons_append, List.cons.injEq] at h2
        exact char_ne d 'N' rfl h2.1.symm
    unfold exampleStd
    rw [dif_neg h, if_pos rfl]

example : parseDouble exampleStd "-2.5".toList = .ok (.finite (exampleRound (-2.5))) := by
  have hv : (⟨true, [2], some [5]⟩ : Numeral).value = -2.5 := by
    norm_num [Numeral.value, Numeral.magnitude, digitsValue, Numeral.places]
  have := C79_read_partial exampleRound_rounds exampleStd_reads ⟨true, [2], some [5]⟩ (by decide)
    (by rw [hv]; norm_num) (by rw [hv]; norm_num)
  rw [hv] at this
  exact this

example : parseDouble exampleStd "0.00".toList = .error .parse :=
  C79_not_zero exampleRound_rounds exampleStd_reads ⟨false, [0], some [0, 0]⟩ (by decide)
    (by norm_num [Numeral.value, Numeral.magnitude, digitsValue, Numeral.places])

end Relp.Number
