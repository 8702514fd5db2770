import Verif.Spec.WhiteSpace
import Verif.Spec.MpsText
import Verif.Proof.MpsTotal

/-!
# Whitespace in MPS files (C55)

The specification of MPS files in `Spec/MpsText.lean` uses `isWhitespace` of the model. Here it is compared with the
list of characters in `Spec/WhiteSpace.lean`.
-/

namespace Relp.Mps

open Relp.Spec

/-- **C55**, whitespace: what separates words is the whitespace of Unicode, and nothing else. -/
theorem C55_white_space (c : Char) : isWhitespace c = true ↔ WhiteSpace c := by
  simp only [isWhitespace, WhiteSpace, whiteSpace, Bool.or_eq_true, Bool.and_eq_true, decide_eq_true_eq, beq_iff_eq,
    List.mem_cons, List.not_mem_nil, or_false]
  omega

/-- The words of a line have no whitespace, are not empty, and are the line without its whitespace. -/
theorem C55_words (line : Text) :
    (∀ word ∈ splitWhitespace line, word ≠ [] ∧ ∀ c ∈ word, ¬WhiteSpace c) ∧
      (splitWhitespace line).flatten = line.filter fun c => c.toNat ∉ whiteSpace := by
  have key : ∀ (t acc : Text), (∀ c ∈ acc, isWhitespace c = false) →
      (∀ word ∈ splitWords t acc, word ≠ [] ∧ ∀ c ∈ word, isWhitespace c = false) ∧
        (splitWords t acc).flatten = acc.reverse ++ t.filter fun c => !isWhitespace c := by
    intro t
    induction t with
    | nil =>
      intro acc h
      cases acc with
      | nil => simp [splitWords]
      | cons a l =>
        refine ⟨?_, by simp [splitWords]⟩
        intro word hw
        simp only [splitWords, List.isEmpty_cons, Bool.false_eq_true, if_false, List.mem_singleton] at hw
        subst hw
        exact ⟨by simp, fun d hd => h d (List.mem_reverse.1 hd)⟩
    | cons c t ih =>
      intro acc h
      by_cases hc : isWhitespace c = true
      · obtain ⟨h1, h2⟩ := ih [] (by simp)
        cases acc with
        | nil => simpa [splitWords, hc] using And.intro h1 h2
        | cons a l =>
          refine ⟨?_, by simp [splitWords, hc, h2]⟩
          intro word hw
          simp only [splitWords, hc, if_true, List.isEmpty_cons, Bool.false_eq_true, if_false, List.mem_cons] at hw
          rcases hw with rfl | hw
          · exact ⟨by simp, fun d hd => h d (List.mem_reverse.1 hd)⟩
          · exact h1 word hw
      · have hc' : isWhitespace c = false := by simpa using hc
        obtain ⟨h1, h2⟩ := ih (c :: acc) (by simpa [hc'] using h)
        simpa [splitWords, hc'] using And.intro h1 h2
  obtain ⟨h1, h2⟩ := key line [] (by simp)
  refine ⟨fun word hw => ⟨(h1 word hw).1, fun c hc => ?_⟩, ?_⟩
  swap
  · have : (fun c : Char => decide (c.toNat ∉ whiteSpace)) = fun c => !isWhitespace c := by
      funext c
      have := C55_white_space c
      rw [WhiteSpace] at this
      by_cases hc : isWhitespace c = true
      · simp [hc, this.1 hc]
      · have h : c.toNat ∉ whiteSpace := fun h => hc (this.2 h)
        simp [h, hc]
    rw [this]
    simpa [splitWhitespace] using h2
  rw [← C55_white_space, (h1 word hw).2 c hc]
  simp

/-- A line that ends with a carriage return, starts with a tab and has a no-break space. -/
example : splitWhitespace "\tN\u00a0 COST\r".toList = ["N".toList, "COST".toList] := by decide

example : WhiteSpace '\r' ∧ ¬WhiteSpace 'x' := by
  constructor <;> simp [WhiteSpace, whiteSpace]

end Relp.Mps
