import Verif.Spec.MpsText
import Mathlib.Data.List.TakeWhile

/-!
# Lemmas about texts: words, lines, slices
-/

namespace Relp.Mps

open Spec

/-! ### Words -/

theorem splitWords_blanks {blanks : Text} (h : ∀ c ∈ blanks, isWhitespace c) (t : Text) :
    splitWords (blanks ++ t) [] = splitWords t [] := by
  induction blanks with
  | nil => rfl
  | cons c blanks ih =>
    rw [List.cons_append, splitWords, if_pos (h c (by simp))]
    exact ih fun c hc => h c (List.mem_cons_of_mem _ hc)

theorem splitWords_word {word : Text} (h : ∀ c ∈ word, ¬isWhitespace c) (t acc : Text) :
    splitWords (word ++ t) acc = splitWords t (word.reverse ++ acc) := by
  induction word generalizing acc with
  | nil => rfl
  | cons c word ih =>
    rw [List.cons_append, splitWords, if_neg (h c (by simp)), ih fun c hc => h c (List.mem_cons_of_mem _ hc)]
    simp

theorem splitWhitespace_words {t : Text} {words : List Text} (h : Words t words) : splitWhitespace t = words := by
  unfold splitWhitespace
  induction h with
  | nil h =>
    have := splitWords_blanks h []
    rw [List.append_nil] at this
    rw [this]; rfl
  | @cons blanks word rest words h1 h2 h3 h4 _ ih =>
    rw [List.append_assoc, splitWords_blanks h1, splitWords_word h3, List.append_nil]
    have hne : word.reverse.isEmpty = false := by
      cases word with
      | nil => exact absurd rfl h2
      | cons a l => simp
    rcases h4 with rfl | ⟨c, t, rfl, hc⟩
    · rw [← ih, splitWords, hne]
      simp [splitWords]
    · rw [← ih, splitWords, if_pos hc, hne, splitWords, if_pos hc]
      simp

/-! ### Trimming -/

theorem dropWhile_of_head {p : Char → Bool} {t : Text} (h : ∀ c, t.head? = some c → ¬p c) : t.dropWhile p = t := by
  cases t with
  | nil => rfl
  | cons c t => rw [List.dropWhile_cons_of_neg (by simpa using h c rfl)]

theorem trimStart_spaces (n : ℕ) (t : Text) : trimStart (spaces n ++ t) = trimStart t := by
  induction n with
  | zero => rfl
  | succ n ih =>
    rw [show spaces (n + 1) = ' ' :: spaces n from rfl, List.cons_append]
    exact ih

theorem trimStart_right {n : ℕ} {word : Text} (h : IsFigure n word) : trimStart (right n word) = word := by
  unfold right
  rw [trimStart_spaces]
  exact dropWhile_of_head h.2.1

theorem trimEnd_spaces (n : ℕ) (t : Text) : trimEnd (t ++ spaces n) = trimEnd t := by
  unfold trimEnd
  rw [List.reverse_append, show (spaces n).reverse = spaces n from List.reverse_replicate]
  exact congrArg _ (trimStart_spaces n _)

theorem trimEnd_of_last {t : Text} (h : ∀ c, t.getLast? = some c → ¬isWhitespace c) : trimEnd t = t := by
  unfold trimEnd
  rw [dropWhile_of_head (by simpa using h), List.reverse_reverse]

theorem trimEnd_left {n : ℕ} {word : Text} (h : IsName n word) : trimEnd (left n word) = word := by
  unfold left
  rw [trimEnd_spaces, trimEnd_of_last h.2.1]

/-! ### Slices -/

/-- All characters are from ASCII. -/
def Ascii (t : Text) : Prop := ∀ c ∈ t, c.toNat < 128

theorem utf8Size_ascii {c : Char} (h : c.toNat < 128) : c.utf8Size = 1 := by
  rw [Char.utf8Size_eq_one_iff]
  have h' : c.val.toNat < 128 := h
  rw [UInt32.le_iff_toNat_le]
  show c.val.toNat ≤ 127
  omega

theorem byteLength_ascii {t : Text} (h : Ascii t) : byteLength t = t.length := by
  unfold byteLength
  induction t with
  | nil => rfl
  | cons c t ih =>
    rw [List.map_cons, List.sum_cons, utf8Size_ascii (h c (by simp)), ih fun c hc => h c (List.mem_cons_of_mem _ hc),
      List.length_cons, Nat.add_comm]

theorem byteLength_append (s t : Text) : byteLength (s ++ t) = byteLength s + byteLength t := by
  unfold byteLength
  rw [List.map_append, List.sum_append]

theorem dropBytes_append {s : Text} (h : Ascii s) (t : Text) : dropBytes s.length (s ++ t) = .ok t := by
  induction s with
  | nil => cases t <;> rfl
  | cons c s ih =>
    rw [List.length_cons, List.cons_append, dropBytes, utf8Size_ascii (h c (by simp)), if_pos (by omega),
      Nat.add_sub_cancel]
    exact ih fun c hc => h c (List.mem_cons_of_mem _ hc)

theorem takeBytes_append {s : Text} (h : Ascii s) (t : Text) : takeBytes s.length (s ++ t) = .ok s := by
  induction s with
  | nil => cases t <;> rfl
  | cons c s ih =>
    rw [List.length_cons, List.cons_append, takeBytes, utf8Size_ascii (h c (by simp)), if_pos (by omega),
      Nat.add_sub_cancel, ih fun c hc => h c (List.mem_cons_of_mem _ hc)]
    rfl

theorem slice_append {a b : ℕ} {r s : Text} (hr : Ascii r) (hs : Ascii s) (ha : r.length = a) (hb : a + s.length = b)
    (t : Text) : slice a b (r ++ (s ++ t)) = .ok s := by
  subst ha
  unfold slice
  rw [dropBytes_append hr]
  show takeBytes (b - r.length) (s ++ t) = _
  rw [show b - r.length = s.length by omega, takeBytes_append hs]

theorem ascii_append {s t : Text} (hs : Ascii s) (ht : Ascii t) : Ascii (s ++ t) := by
  intro c hc
  rcases List.mem_append.1 hc with h | h
  · exact hs c h
  · exact ht c h

theorem ascii_spaces (n : ℕ) : Ascii (spaces n) := by
  intro c hc
  rw [List.eq_of_mem_replicate hc]
  decide

theorem length_spaces (n : ℕ) : (spaces n).length = n := List.length_replicate

theorem ascii_left {n : ℕ} {word : Text} (h : IsName n word) : Ascii (left n word) := ascii_append h.1 (ascii_spaces _)

theorem ascii_right {n : ℕ} {word : Text} (h : IsFigure n word) : Ascii (right n word) :=
  ascii_append (ascii_spaces _) h.1

theorem length_left {n : ℕ} {word : Text} (h : IsName n word) : (left n word).length = n := by
  have := h.2.2
  unfold left
  rw [List.length_append, length_spaces]
  omega

theorem length_right {n : ℕ} {word : Text} (h : IsFigure n word) : (right n word).length = n := by
  have := h.2.2
  unfold right
  rw [List.length_append, length_spaces]
  omega

/-! ### Lines -/

theorem splitLines_line {line : Text} (h : '\n' ∉ line) (t acc : Text) :
    splitLines (line ++ t) acc = splitLines t (line.reverse ++ acc) := by
  induction line generalizing acc with
  | nil => rfl
  | cons c line ih =>
    have hc : c ≠ '\n' := fun e => h (by simp [e])
    have : splitLines (c :: line ++ t) acc = splitLines (line ++ t) (c :: acc) := by
      show splitLines (c :: (line ++ t)) acc = _
      unfold splitLines
      rw [if_neg hc]
      cases line ++ t <;> rfl
    rw [this, ih fun hc => h (List.mem_cons_of_mem _ hc)]
    simp

/-- Removes a carriage return in front. -/
def stripReturn (acc : Text) : Text :=
  match acc with
  | '\r' :: acc => acc.reverse
  | acc => acc.reverse

theorem splitLines_newline (t acc : Text) :
    splitLines ('\n' :: t) acc = stripReturn acc :: splitLines t [] := by
  conv_lhs => unfold splitLines
  rw [if_pos rfl]
  rfl

theorem stripReturn_eq {line : Text} (h : line.getLast? ≠ some '\r') : stripReturn line.reverse = line := by
  have hh : line.reverse.head? ≠ some '\r' := by simpa using h
  unfold stripReturn
  split
  · rename_i l e
    rw [e] at hh
    exact absurd rfl hh
  · simp

/-- The lines that are kept. -/
def keep (line : Text) : Bool := decide ((trimStart line).head? ≠ some '*') && !line.isEmpty

theorem intoLines_eq (t : Text) : intoLines t = (lines t).filter keep := by
  unfold intoLines keep
  rw [List.filter_filter]
  congr 1
  funext line
  rw [Bool.and_comm]

theorem comment_iff (line : Text) : Comment line ↔ (trimStart line).head? = some '*' := by
  constructor
  · rintro ⟨blanks, t, h, rfl⟩
    have : trimStart (blanks ++ '*' :: t) = '*' :: t := by
      unfold trimStart
      rw [List.dropWhile_append_of_pos h]
      rfl
    rw [this]; rfl
  · intro h
    refine ⟨line.takeWhile isWhitespace, (trimStart line).tail, fun c hc => by simpa using List.mem_takeWhile_imp hc, ?_⟩
    have : trimStart line = '*' :: (trimStart line).tail := by
      cases ht : trimStart line with
      | nil => rw [ht] at h; cases h
      | cons c t =>
        rw [ht] at h
        simp only [List.head?_cons, Option.some.injEq] at h
        rw [h]; rfl
    rw [← this]
    exact (List.takeWhile_append_dropWhile).symm

theorem keep_iff (line : Text) : keep line = true ↔ line ≠ [] ∧ ¬Comment line := by
  unfold keep
  rw [comment_iff]
  cases line <;> simp

theorem comment_return {line : Text} (h : Comment line) :
    Comment (stripReturn line.reverse) := by
  unfold stripReturn
  split
  · rename_i l e
    have e' : line = l.reverse ++ ['\r'] := by
      have := congrArg List.reverse e
      simpa using this
    obtain ⟨blanks, t, h1, h2⟩ := h
    rw [e'] at h2
    cases ht : t.reverse with
    | nil =>
      have ht' : t = [] := by simpa using ht
      subst ht'
      have := congrArg List.getLast? h2
      simp at this
    | cons c t' =>
      have ht' : t = t'.reverse ++ [c] := by
        have := congrArg List.reverse ht
        simpa using this
      subst ht'
      refine ⟨blanks, t'.reverse, h1, ?_⟩
      have h3 : l.reverse ++ ['\r'] = (blanks ++ '*' :: t'.reverse) ++ [c] := by simpa using h2
      exact (List.append_inj' h3 rfl).1
  · simpa using h

theorem intoLines_contents {t : Text} {ls : List Text} (h : Contents t ls) : intoLines t = ls := by
  rw [intoLines_eq]
  unfold lines
  induction h with
  | nil => rfl
  | @lastComment line h1 h2 =>
    have := splitLines_line h1 [] []
    rw [List.append_nil, List.append_nil] at this
    rw [this, splitLines]
    split
    · rfl
    · rw [List.reverse_reverse, List.filter_cons, if_neg (by rw [keep_iff]; exact fun h => h.2 h2)]
      rfl
  | @last line h1 h2 h3 h4 =>
    have := splitLines_line h1 [] []
    rw [List.append_nil, List.append_nil] at this
    rw [this, splitLines, if_neg (by simpa using h3), List.reverse_reverse, List.filter_cons,
      if_pos ((keep_iff _).2 ⟨h3, h4⟩)]
    rfl
  | @comment line text ls h1 h2 _ ih =>
    rw [splitLines_line h1, splitLines_newline, List.append_nil, List.filter_cons, if_neg, ih]
    rw [keep_iff]
    rintro ⟨h4, h5⟩
    rcases h2 with rfl | rfl | h2
    · exact h4 rfl
    · exact h4 rfl
    · exact h5 (comment_return h2)
  | @line line text ls h1 h2 h3 h4 _ ih =>
    rw [splitLines_line h1, splitLines_newline, List.append_nil, stripReturn_eq h2, List.filter_cons,
      if_pos ((keep_iff _).2 ⟨h3, h4⟩), ih]
  | @lineReturn line text ls h1 h3 h4 _ ih =>
    rw [splitLines_line h1, show '\r' :: '\n' :: text = ['\r'] ++ '\n' :: text from rfl,
      splitLines_line (by decide), splitLines_newline]
    rw [show stripReturn (['\r'].reverse ++ (line.reverse ++ [])) = line by simp [stripReturn], List.filter_cons,
      if_pos ((keep_iff _).2 ⟨h3, h4⟩), ih]

end Relp.Mps
