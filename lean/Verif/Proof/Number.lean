import Verif.Model.Number
import Verif.Spec.Number
import Mathlib.Data.List.TakeWhile
import Mathlib.Tactic.Ring
import Mathlib.Tactic.Linarith
import Mathlib.Tactic.FieldSimp

/-!
# The number parser reads what is written
-/

namespace Relp

open Spec

namespace Number

theorem char_toNat (d : Digit) : (Digit.char d).toNat = '0'.toNat + d := by
  revert d
  decide

theorem digit?_char (d : Digit) : digit? (Digit.char d) = some d.val := by
  revert d
  decide

theorem digit?_some {c : Char} {k : ℕ} (h : digit? c = some k) : ∃ d : Digit, c = Digit.char d ∧ d.val = k := by
  unfold digit? at h
  split_ifs at h with hc
  injection h with h
  have e0 : '0'.toNat = 48 := rfl
  have e9 : '9'.toNat = 57 := rfl
  rw [e0, e9] at hc
  rw [e0] at h
  have hk : k < 10 := by omega
  refine ⟨⟨k, hk⟩, ?_, rfl⟩
  have : c = Char.ofNat c.toNat := (Char.ofNat_toNat c).symm
  rw [this, Digit.char, e0]
  congr 1
  simp only
  omega

theorem le_foldl (digits : List Digit) (n : ℕ) :
    n ≤ digits.foldl (fun n (d : Digit) => 10 * n + d.val) n := by
  induction digits generalizing n with
  | nil => exact le_rfl
  | cons d digits ih =>
    rw [List.foldl_cons]
    exact le_trans (by omega) (ih _)

theorem foldl_eq (digits : List Digit) (n : ℕ) :
    digits.foldl (fun n (d : Digit) => 10 * n + d.val) n = n * 10 ^ digits.length + digitsValue digits := by
  unfold digitsValue
  induction digits generalizing n with
  | nil => simp
  | cons d digits ih =>
    rw [List.foldl_cons, List.foldl_cons, ih, ih (10 * 0 + d.val), List.length_cons]
    ring

theorem digitsValue_append (a b : List Digit) :
    digitsValue (a ++ b) = digitsValue a * 10 ^ b.length + digitsValue b := by
  rw [← foldl_eq, digitsValue, digitsValue, List.foldl_append]

theorem parseDigits_map (digits : List Digit) (n : ℕ)
    (h : digits.foldl (fun n (d : Digit) => 10 * n + d.val) n < u64) :
    parseDigits n (digits.map Digit.char) =
      some (digits.foldl (fun n (d : Digit) => 10 * n + d.val) n) := by
  induction digits generalizing n with
  | nil => rfl
  | cons d digits ih =>
    rw [List.foldl_cons] at h ⊢
    rw [List.map_cons, parseDigits, digit?_char]
    dsimp only
    rw [if_pos (lt_of_le_of_lt (le_foldl digits _) h), ih _ h]

theorem parseDigits_some {text : Text} {n k : ℕ} (h : parseDigits n text = some k) :
    ∃ digits : List Digit, text = digits.map Digit.char ∧
      digits.foldl (fun n (d : Digit) => 10 * n + d.val) n = k ∧ (text ≠ [] → k < u64) := by
  induction text generalizing n with
  | nil =>
    injection h with h
    exact ⟨[], rfl, h, fun h => absurd rfl h⟩
  | cons c text ih =>
    rw [parseDigits] at h
    split at h
    · cases h
    · rename_i d hd
      split_ifs at h with hlt
      obtain ⟨digits, h1, h2, h3⟩ := ih h
      obtain ⟨e, rfl, rfl⟩ := digit?_some hd
      refine ⟨e :: digits, by rw [h1, List.map_cons], by rw [List.foldl_cons, h2], fun _ => ?_⟩
      by_cases he : text = []
      · rw [he] at h
        injection h with h
        rwa [← h]
      · exact h3 he

theorem char_ne (d : Digit) (c : Char) (h : digit? c = none) : Digit.char d ≠ c := by
  intro e
  rw [← e, digit?_char] at h
  cases h

theorem parseU64_map (digits : List Digit) (hne : digits ≠ []) (h : digitsValue digits < u64) :
    parseU64 (digits.map Digit.char) = some (digitsValue digits) := by
  match digits, hne with
  | d :: digits, _ =>
    rw [List.map_cons]
    unfold parseU64
    split
    · rename_i h1
      cases h1
    · rename_i h1
      injection h1 with h1
      exact absurd h1 (char_ne d _ rfl)
    · rw [← List.map_cons]
      exact parseDigits_map _ _ h

theorem parsePart_map (digits : List Digit) (h : digitsValue digits < u64) :
    parsePart (digits.map Digit.char) = .ok (digitsValue digits) := by
  unfold parsePart
  by_cases hne : digits = []
  · rw [hne]
    rfl
  · rw [if_neg (by simpa using hne), parseU64_map digits hne h]

theorem mem_map_ne (digits : List Digit) : ∀ c ∈ digits.map Digit.char, (decide (c ≠ '.')) = true := by
  intro c hc
  obtain ⟨d, -, rfl⟩ := List.mem_map.1 hc
  exact decide_eq_true (char_ne d '.' rfl)

theorem splitAtPoint_none (digits : List Digit) :
    splitAtPoint (digits.map Digit.char) = (digits.map Digit.char, none) := by
  unfold splitAtPoint
  rw [List.dropWhile_eq_nil_iff.2 (mem_map_ne digits)]
  simp only
  rw [List.takeWhile_eq_self_iff.2 (mem_map_ne digits)]

theorem splitAtPoint_some (digits : List Digit) (rest : Text) :
    splitAtPoint (digits.map Digit.char ++ '.' :: rest) = (digits.map Digit.char, some rest) := by
  unfold splitAtPoint
  rw [List.dropWhile_append_of_pos (mem_map_ne digits), List.takeWhile_append_of_pos (mem_map_ne digits)]
  simp

theorem splitAtPoint_eq (text : Text) : text = (splitAtPoint text).1 ++
    match (splitAtPoint text).2 with
    | none => []
    | some rest => '.' :: rest := by
  unfold splitAtPoint
  have h := List.takeWhile_append_dropWhile (p := fun c => decide (c ≠ '.')) (l := text)
  split
  · rename_i e
    rw [e] at h
    exact h.symm
  · rename_i c rest e
    have hc : c = '.' := by
      have := List.head?_dropWhile_not (fun c => decide (c ≠ '.')) text
      rw [e] at this
      simpa using this
    rw [e, hc] at h
    exact h.symm

theorem magnitude_eq (n : Numeral) :
    n.magnitude = digitsValue (n.whole ++ n.decimals.getD []) / 10 ^ n.places := by
  rw [digitsValue_append, Numeral.magnitude]
  have : (10 : ℚ) ^ n.places ≠ 0 := by positivity
  rw [eq_div_iff this, add_mul, div_mul_cancel₀ _ this]
  push_cast
  rfl

/-- The text of a numeral without its sign. -/
def body (n : Numeral) : Text := n.whole.map Digit.char ++
  match n.decimals with
  | none => []
  | some decimals => '.' :: decimals.map Digit.char

/-- The first character of the text of a numeral. -/
theorem text_first (n : Numeral) {first : Char} {tail : Text} (hn : n.text = first :: tail) :
    first.toNat < 128 ∧ (decide (first = '-') = n.negative) ∧
      (if n.negative then tail else first :: tail) = body n := by
  have htext : n.text = (if n.negative then ['-'] else []) ++ body n := by
    rw [body, ← List.append_assoc]
    rfl
  rw [htext] at hn
  cases hneg : n.negative with
  | true =>
    rw [hneg] at hn
    simp only [if_true, List.cons_append, List.nil_append] at hn
    injection hn with e1 e2
    subst e1
    exact ⟨by decide, by decide, by simp [e2]⟩
  | false =>
    rw [hneg] at hn
    simp only [Bool.false_eq_true, if_false, List.nil_append] at hn
    have hc : (∃ d, first = Digit.char d) ∨ first = '.' := by
      match hw : n.whole with
      | d :: ds =>
        rw [body, hw] at hn
        injection hn with e1 e2
        exact Or.inl ⟨d, e1.symm⟩
      | [] =>
        rw [body, hw] at hn
        split at hn
        · cases hn
        · injection hn with e1 e2
          exact Or.inr e1.symm
    refine ⟨?_, ?_, by simp [hn]⟩
    · rcases hc with ⟨d, rfl⟩ | rfl
      · rw [char_toNat]
        have : '0'.toNat = 48 := rfl
        omega
      · decide
    · rcases hc with ⟨d, rfl⟩ | rfl
      · exact decide_eq_false (char_ne d _ rfl)
      · decide

/-- The number parser on the text of a numeral. -/
theorem tryFrom_text (n : Numeral) (hne : n.text ≠ []) (hf : n.Fits) :
    Raw.tryFrom n.text = .ok
      ⟨if digitsValue (n.whole ++ n.decimals.getD []) = 0 then .zero
        else if n.negative then .negative else .positive,
        digitsValue (n.whole ++ n.decimals.getD []), n.places⟩ := by
  obtain ⟨h1, h2⟩ := hf
  change _ < u64 at h1
  change _ < u64 at h2
  have hpart : parseMagnitude (body n) = .ok (digitsValue (n.whole ++ n.decimals.getD []), n.places) := by
    unfold parseMagnitude
    match hd : n.decimals with
    | none =>
      rw [hd] at h1
      simp only [List.append_nil, Option.getD_none] at h1 ⊢
      rw [body, hd]
      simp only [List.append_nil]
      rw [splitAtPoint_none]
      dsimp only
      rw [parsePart_map _ h1, Numeral.places, hd]
      rfl
    | some decimals =>
      rw [hd] at h1
      simp only [Option.getD_some] at h1 ⊢
      rw [digitsValue_append] at h1 ⊢
      rw [body, hd]
      simp only
      rw [splitAtPoint_some]
      dsimp only
      rw [Numeral.places, hd] at h2 ⊢
      simp only [Option.getD_some] at h2 ⊢
      have h3 : digitsValue n.whole < u64 := by
        refine lt_of_le_of_lt ?_ h1
        have : 1 ≤ 10 ^ decimals.length := Nat.one_le_pow _ _ (by norm_num)
        nlinarith
      rw [parsePart_map _ h3, parsePart_map _ (by omega)]
      simp only [bind, Except.bind, pure, Except.pure]
      rw [List.length_map, Nat.mod_eq_of_lt h2, Nat.mod_eq_of_lt h1]
  match hn : n.text, hne with
  | first :: tail, _ =>
    obtain ⟨f1, f2, f3⟩ := text_first n hn
    unfold Raw.tryFrom
    simp only
    rw [if_neg (by omega), f2]
    simp only [f3]
    rw [hpart]
    rfl

/-- The exact form of the texts that are accepted: an optional minus sign, and one or two parts separated
by a point, which each are empty, or digits that fit, with or without a plus sign. -/
inductive Part : Text → ℕ → Prop
  | empty : Part [] 0
  | digits (d : List Digit) : d ≠ [] → digitsValue d < u64 → Part (d.map Digit.char) (digitsValue d)
  | plus (d : List Digit) : d ≠ [] → digitsValue d < u64 → Part ('+' :: d.map Digit.char) (digitsValue d)

theorem parsePart_iff {text : Text} {k : ℕ} : parsePart text = .ok k ↔ Part text k := by
  constructor
  · intro h
    unfold parsePart at h
    split_ifs at h with he
    · injection h with h
      rw [List.isEmpty_iff] at he
      rw [he, ← h]
      exact .empty
    · split at h
      · rename_i value hv
        injection h with h
        subst h
        unfold parseU64 at hv
        split at hv
        · cases hv
        · rename_i text
          split_ifs at hv with h1
          obtain ⟨digits, rfl, h3, h4⟩ := parseDigits_some hv
          have hd : digits ≠ [] := by
            rintro rfl
            exact h1 rfl
          have h5 := h4 (by simpa using hd)
          rw [← h3] at h5 ⊢
          exact .plus digits hd h5
        · obtain ⟨digits, rfl, h3, h4⟩ := parseDigits_some hv
          have hd : digits ≠ [] := by
            rintro rfl
            exact he rfl
          have h5 := h4 (by simpa using hd)
          rw [← h3] at h5 ⊢
          exact .digits digits hd h5
      · cases h
  · intro h
    cases h with
    | empty => rfl
    | digits d hd hlt => exact parsePart_map d hlt
    | plus d hd hlt =>
      unfold parsePart
      have : parseU64 ('+' :: d.map Digit.char) = some (digitsValue d) := by
        have h1 : ((d.map Digit.char).isEmpty) = false := by simpa using hd
        change (if (d.map Digit.char).isEmpty then none else parseDigits 0 (d.map Digit.char)) = _
        rw [h1]
        exact parseDigits_map d 0 hlt
      rw [if_neg (by simp), this]

end Number

end Relp
