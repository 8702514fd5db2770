import Verif.Proof.Number

/-!
# Properties of the number parser (C37, C51)
-/

namespace Relp

open Spec Number

/-- **C37.** A decimal numeral whose digits fit in 64 bits is read as the number that it denotes. -/
theorem C37_decimal (n : Numeral) (hp : n.Proper) (hf : n.Fits) : Number.parse n.text = .ok n.value := by
  have hne : n.text ≠ [] := by
    intro h
    rw [Numeral.text, List.append_eq_nil_iff, List.append_eq_nil_iff, List.map_eq_nil_iff] at h
    rcases hp with h1 | h1
    · exact h1 h.1.2
    · cases hd : n.decimals with
      | none => rw [hd] at h1; exact h1 rfl
      | some l => rw [hd] at h; cases h.2
  unfold Number.parse
  rw [tryFrom_text n hne hf]
  simp only [bind, Except.bind, pure, Except.pure, Except.ok.injEq]
  unfold Raw.toRational Numeral.value
  rw [magnitude_eq]
  have h10 : 10 ^ n.places % u64 = 10 ^ n.places := Nat.mod_eq_of_lt hf.2
  split
  · rename_i h
    by_cases h0 : digitsValue (n.whole ++ n.decimals.getD []) = 0
    · rw [h0]; simp
    · rw [if_neg h0] at h
      split_ifs at h
  · rename_i h
    by_cases h0 : digitsValue (n.whole ++ n.decimals.getD []) = 0
    · rw [if_pos h0] at h; cases h
    · rw [if_neg h0] at h
      split_ifs at h with h1
      simp only [h1, h10]
      push_cast
      rfl
  · rename_i h
    by_cases h0 : digitsValue (n.whole ++ n.decimals.getD []) = 0
    · rw [if_pos h0] at h; cases h
    · rw [if_neg h0] at h
      split_ifs at h with h1
      simp only [h1, h10]
      push_cast
      rfl

namespace Example

/-- The numeral -1234.56. -/
def numeral : Numeral := ⟨true, [1, 2, 3, 4], some [5, 6]⟩

end Example

example : Example.numeral.text = "-1234.56".toList ∧ Number.parse Example.numeral.text = .ok (-30864 / 25) := by
  refine ⟨by decide +kernel, ?_⟩
  rw [C37_decimal Example.numeral (by decide) (by decide +kernel)]
  exact congrArg _ (by decide +kernel)

/-- **C51**, partial: a text that is accepted is an optional minus sign and one or two parts separated by a
point, each of them empty or consisting of digits, but a part may have a plus sign in front.

Missing: that there is at least one digit, that there is no plus sign after a minus sign or a point, and
that the digits together fit, see `C51_not_rejected` and `C51_not_overflow`. -/
theorem C51_rejected_partial (text : Text) (value : ℚ) (h : Number.parse text = .ok value) :
    ∃ (minus : Text) (whole : Text) (a : ℕ), text ≠ [] ∧ (minus = [] ∨ minus = ['-']) ∧ Part whole a ∧
      (text = minus ++ whole ∨ ∃ (decimals : Text) (b : ℕ), Part decimals b ∧
        text = minus ++ whole ++ '.' :: decimals) := by
  unfold Number.parse at h
  match text, h with
  | first :: rest, h =>
    unfold Raw.tryFrom at h
    simp only at h
    by_cases h1 : 128 ≤ first.toNat
    · rw [if_pos h1] at h
      cases h
    · rw [if_neg h1] at h
      have key : ∀ t : Text, (∃ r, parseMagnitude t = .ok r) → ∃ whole a, Part whole a ∧
          (t = whole ∨ ∃ decimals b, Part decimals b ∧ t = whole ++ '.' :: decimals) := by
        rintro t ⟨r, hr⟩
        unfold parseMagnitude at hr
        have hs := splitAtPoint_eq t
        split at hr
        · rename_i whole e
          rw [e] at hs
          match hw : parsePart whole, hr with
          | .ok a, _ => exact ⟨whole, a, parsePart_iff.1 hw, Or.inl (by simpa using hs)⟩
        · rename_i whole decimals e
          rw [e] at hs
          match hw : parsePart whole, hr with
          | .ok a, hr =>
            match hd : parsePart decimals, hr with
            | .ok b, _ =>
              exact ⟨whole, a, parsePart_iff.1 hw, Or.inr ⟨decimals, b, parsePart_iff.1 hd, by simpa using hs⟩⟩
            | .error e, hr =>
              simp only [bind, Except.bind] at hr
              cases hr
      have hm : ∃ r, parseMagnitude (if decide (first = '-') = true then rest else first :: rest) = .ok r := by
        match hm : parseMagnitude (if decide (first = '-') = true then rest else first :: rest) with
        | .ok r => exact ⟨r, rfl⟩
        | .error e =>
          rw [hm] at h
          cases h
      obtain ⟨whole, a, hw, ht⟩ := key _ hm
      by_cases hf : first = '-'
      · rw [if_pos (decide_eq_true hf)] at ht
        refine ⟨['-'], whole, a, by simp, Or.inr rfl, hw, ?_⟩
        rcases ht with ht | ⟨decimals, b, hd, ht⟩
        · exact Or.inl (by rw [hf, ht]; rfl)
        · exact Or.inr ⟨decimals, b, hd, by rw [hf, ht]; rfl⟩
      · rw [if_neg (by simpa using hf)] at ht
        refine ⟨[], whole, a, by simp, Or.inl rfl, hw, ?_⟩
        rcases ht with ht | ⟨decimals, b, hd, ht⟩
        · exact Or.inl (by rw [ht]; rfl)
        · exact Or.inr ⟨decimals, b, hd, by rw [ht]; rfl⟩

example : ∃ minus whole a, "-3.5".toList ≠ [] ∧ (minus = [] ∨ minus = ['-']) ∧ Part whole a ∧
    ("-3.5".toList = minus ++ whole ∨ ∃ decimals b, Part decimals b ∧
      "-3.5".toList = minus ++ whole ++ '.' :: decimals) :=
  C51_rejected_partial "-3.5".toList (-7 / 2) (by decide +kernel)

/-- **C51 is false**: a plus sign after the point is read as a digit zero, a sign or a point without digits
as zero; and no text, or one that starts with a character outside of ASCII, aborts instead of being
rejected. -/
theorem C51_not_rejected : Number.parse "1.+5".toList = .ok (105 / 100) ∧
    Number.parse "-".toList = .ok 0 ∧ Number.parse ".".toList = .ok 0 ∧ Number.parse "-+.".toList = .error .parse ∧
    Number.parse "-+5".toList = .ok (-5) ∧
    Number.parse "".toList = .error .panic ∧ Number.parse "½".toList = .error .panic := by
  decide +kernel

/-- **C51 is false**: a numeral whose digits do not fit is read as another number, if each of its parts
fits. -/
theorem C51_not_overflow : ∃ n : Numeral, n.Proper ∧ ¬n.Fits ∧
    ∃ value, Number.parse n.text = .ok value ∧ value ≠ n.value :=
  ⟨⟨false, [2, 0, 0, 0, 0, 0, 0, 0, 0, 0, 0], some [0, 0, 0, 0, 0, 0, 0, 0, 0, 0]⟩, by decide,
    by decide +kernel, 15532559262904483840 / 10000000000, by decide +kernel, by decide +kernel⟩

end Relp
