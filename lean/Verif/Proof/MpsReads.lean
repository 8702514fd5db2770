import Verif.Proof.MpsText

/-!
# Reading lines in the free and in the fixed format
-/

namespace Relp.Mps

open Spec

/-- What a way to read lines gives for lines with a layout. -/
structure Reads (CR : Retriever) (L : Layout) : Prop where
  name : ∀ {line name : Text} {more : List Text}, Words line (name :: more) → CR.twoOrThree line = .ok name
  rowSpace : ∀ {type name line : Text}, L.row type name line → line.head? = some ' '
  row : ∀ {type : Option Relation} {name line : Text}, L.row (rowCode type) name line →
    ∃ text, CR.oneAndTwo line = .ok (text, name) ∧ rowTypeFromStr text = .ok type
  markerSpace : ∀ {kind line : Text}, L.marker kind line → line.head? = some ' '
  marker : ∀ {kind line : Text}, kind.length = 8 → L.marker kind line →
    CR.isColumnMarkerLine line = .ok (.marker kind)
  entriesSpace : ∀ {name line : Text} {first : Text × Text} {second : Option (Text × Text)},
    L.entries name first second line → line.head? = some ' '
  column : ∀ {name line : Text} {first : Text × Text} {second : Option (Text × Text)},
    L.entries name first second line → first.1 ≠ "'MARKER'".toList →
    ∃ rest, CR.isColumnMarkerLine line = .ok (.data name first.1 first.2 rest) ∧ CR.fiveAndSix rest = .ok second
  entries : ∀ {name line : Text} {first : Text × Text} {second : Option (Text × Text)},
    L.entries name first second line →
    ∃ rest, CR.twoThroughFour line = .ok ((name, first.1, first.2), rest) ∧ CR.fiveAndSix rest = .ok second
  boundSpace : ∀ {type group column line : Text} {number : Option Text},
    L.bound type group column number line → line.head? = some ' '
  bound : ∀ {type group column line : Text} {number : Option Text}, type.length = 2 →
    L.bound type group column number line →
    ∃ rest, CR.oneThroughThree line = .ok ((type, group, column), rest) ∧
      ∀ v, number = some v → CR.four rest = .ok v

theorem rowTypeFromStr_code (type : Option Relation) (more : Text) :
    rowTypeFromStr (rowCode type ++ more) = .ok type := by
  have h : ∀ c : Char, c.utf8Size = 1 → slice 0 1 (c :: more) = .ok [c] := by
    intro c hc
    unfold slice
    simp only [dropBytes, takeBytes, hc, bind, Except.bind, pure, Except.pure]
    simp [takeBytes]
  rcases type with _ | (_ | _ | _)
  all_goals
    unfold rowTypeFromStr rowCode
    simp only [List.cons_append, List.nil_append]
    rw [h _ (by decide)]
    rfl

theorem free_reads : Reads free freeLayout where
  name h := by
    show (match splitWhitespace _ with | name :: _ => _ | _ => _) = _
    rw [splitWhitespace_words h]
  rowSpace h := h.1
  row {type name line} h := by
    refine ⟨rowCode type, ?_, ?_⟩
    · show (match splitWhitespace _ with | one :: two :: _ => _ | _ => _) = _
      rw [splitWhitespace_words h.2]
    · simpa using rowTypeFromStr_code type []
  markerSpace h := h.1
  marker {kind line} _ h := by
    obtain ⟨name, h⟩ := h.2
    show (match splitWhitespace _ with | two :: three :: four :: parts => _ | _ => _) = _
    rw [splitWhitespace_words h]
    exact congrArg Except.ok (if_pos rfl)
  entriesSpace h := h.1
  column {name line first second} h hm := by
    cases second with
    | none =>
      refine ⟨[], ?_, rfl⟩
      show (match splitWhitespace _ with | two :: three :: four :: parts => _ | _ => _) = _
      rw [splitWhitespace_words h.2]
      exact congrArg Except.ok (if_neg hm)
    | some second =>
      refine ⟨[second.1, second.2], ?_, rfl⟩
      show (match splitWhitespace _ with | two :: three :: four :: parts => _ | _ => _) = _
      rw [splitWhitespace_words h.2]
      exact congrArg Except.ok (if_neg hm)
  entries {name line first second} h := by
    cases second with
    | none =>
      refine ⟨[], ?_, rfl⟩
      show (match splitWhitespace _ with | two :: three :: four :: parts => _ | _ => _) = _
      rw [splitWhitespace_words h.2]
      rfl
    | some second =>
      refine ⟨[second.1, second.2], ?_, rfl⟩
      show (match splitWhitespace _ with | two :: three :: four :: parts => _ | _ => _) = _
      rw [splitWhitespace_words h.2]
      rfl
  boundSpace h := h.1
  bound {type group column line number} _ h := by
    obtain ⟨more, h⟩ := h.2
    refine ⟨number.toList ++ more, ?_, ?_⟩
    · show (match splitWhitespace _ with | one :: two :: three :: parts => _ | _ => _) = _
      rw [splitWhitespace_words h]
      rfl
    · rintro v rfl
      rfl

/-! ### The fixed format -/

theorem dropBytes_exact {n : ℕ} {s : Text} (h : Ascii s) (hn : s.length = n) (t : Text) :
    dropBytes n (s ++ t) = .ok t := by
  subst hn; exact dropBytes_append h t

theorem byteLength_ge {s : Text} (h : Ascii s) (t : Text) : s.length ≤ byteLength (s ++ t) := by
  rw [byteLength_append, byteLength_ascii h]
  exact Nat.le_add_right _ _

theorem byteLength_prefix {n : ℕ} {s : Text} (h : Ascii s) (hn : n ≤ s.length) (t : Text) :
    n ≤ byteLength (s ++ t) := hn.trans (byteLength_ge h t)

theorem spaces_append (m n : ℕ) : spaces m ++ spaces n = spaces (m + n) := List.replicate_append_replicate

theorem trimEnd_only_spaces (n : ℕ) : trimEnd (spaces n) = [] := by
  have := trimEnd_spaces n []
  rw [List.nil_append] at this
  rw [this]; rfl

/-- The parts of a line with entries. -/
theorem fixed_parts {name rest : Text} {first : Text × Text} (h1 : IsName 8 name) (h2 : IsName 8 first.1)
    (h3 : IsFigure 12 first.2) :
    let line := spaces 4 ++ left 8 name ++ spaces 2 ++ left 8 first.1 ++ spaces 2 ++ right 12 first.2 ++ rest
    36 ≤ byteLength line ∧ slice 4 12 line = .ok (left 8 name) ∧ slice 14 22 line = .ok (left 8 first.1) ∧
      slice 24 36 line = .ok (right 12 first.2) ∧ dropBytes 36 line = .ok rest := by
  have a1 := ascii_left h1
  have a2 := ascii_left h2
  have a3 := ascii_right h3
  have l1 := length_left h1
  have l2 := length_left h2
  have l3 := length_right h3
  have s2 := ascii_spaces 2
  have s4 := ascii_spaces 4
  have b1 : Ascii (spaces 4 ++ left 8 name ++ spaces 2) := ascii_append (ascii_append s4 a1) s2
  have b2 : Ascii (spaces 4 ++ left 8 name ++ spaces 2 ++ left 8 first.1 ++ spaces 2) :=
    ascii_append (ascii_append b1 a2) s2
  have b3 := ascii_append b2 a3
  refine ⟨byteLength_prefix b3 ?_ _, ?_, ?_, ?_, dropBytes_exact b3 ?_ _⟩
  · simp only [List.length_append, length_spaces, l1, l2, l3]; omega
  · simp only [List.append_assoc]
    exact slice_append s4 a1 (length_spaces 4) (by rw [l1]) _
  · have := slice_append (a := 14) (b := 22) b1 a2
      (by simp only [List.length_append, length_spaces, l1]) (by rw [l2]) (spaces 2 ++ right 12 first.2 ++ rest)
    simpa only [List.append_assoc] using this
  · have := slice_append (a := 24) (b := 36) b2 a3
      (by simp only [List.length_append, length_spaces, l1, l2]) (by rw [l3]) rest
    simpa only [List.append_assoc] using this
  · simp only [List.length_append, length_spaces, l1, l2, l3]

theorem fixed_rest {second : Option (Text × Text)} {rest : Text}
    (h : match second with
      | none => ∃ k, rest = spaces k
      | some second => IsName 8 second.1 ∧ second.1 ≠ [] ∧ IsFigure 12 second.2 ∧ second.2 ≠ [] ∧
        ∃ more, rest = spaces 3 ++ left 8 second.1 ++ spaces 2 ++ right 12 second.2 ++ more) :
    fixed.fiveAndSix rest = .ok second := by
  cases second with
  | none =>
    obtain ⟨k, rfl⟩ := h
    show (if 25 ≤ byteLength (spaces k) then _ else _) = _
    rw [byteLength_ascii (ascii_spaces k), length_spaces]
    split
    · rename_i hk
      have e : spaces k = spaces 3 ++ (spaces 8 ++ (spaces 2 ++ (spaces 12 ++ spaces (k - 25)))) := by
        simp only [spaces_append]
        congr 1
        omega
      have e1 : slice 3 11 (spaces k) = .ok (spaces 8) := by
        rw [e]
        exact slice_append (ascii_spaces 3) (ascii_spaces 8) (length_spaces 3) (by rw [length_spaces]) _
      have e2 : slice 13 25 (spaces k) = .ok (spaces 12) := by
        have := slice_append (a := 13) (b := 25) (ascii_spaces 13) (ascii_spaces 12) (length_spaces 13)
          (by rw [length_spaces]) (spaces (k - 25))
        rw [← this]
        simp only [spaces_append]
        congr 2
        omega
      simp only [e1, e2, bind, Except.bind, pure, Except.pure]
      rw [trimEnd_only_spaces]
      rfl
    · rfl
  | some second =>
    obtain ⟨h1, h2, h3, h4, more, rfl⟩ := h
    have a1 := ascii_left h1
    have a3 := ascii_right h3
    have l1 := length_left h1
    have l3 := length_right h3
    have b1 : Ascii (spaces 3 ++ left 8 second.1 ++ spaces 2) :=
      ascii_append (ascii_append (ascii_spaces 3) a1) (ascii_spaces 2)
    have b2 := ascii_append b1 a3
    have e0 : 25 ≤ byteLength (spaces 3 ++ left 8 second.1 ++ spaces 2 ++ right 12 second.2 ++ more) :=
      byteLength_prefix b2 (by simp only [List.length_append, length_spaces, l1, l3]; omega) _
    have e1 : slice 3 11 (spaces 3 ++ left 8 second.1 ++ spaces 2 ++ right 12 second.2 ++ more) =
        .ok (left 8 second.1) := by
      simp only [List.append_assoc]
      exact slice_append (ascii_spaces 3) a1 (length_spaces 3) (by rw [l1]) _
    have e2 : slice 13 25 (spaces 3 ++ left 8 second.1 ++ spaces 2 ++ right 12 second.2 ++ more) =
        .ok (right 12 second.2) := by
      have := slice_append (a := 13) (b := 25) b1 a3
        (by simp only [List.length_append, length_spaces, l1]) (by rw [l3]) more
      simpa only [List.append_assoc] using this
    show (if 25 ≤ byteLength _ then _ else _) = _
    rw [if_pos e0]
    simp only [e1, e2, bind, Except.bind, pure, Except.pure]
    rw [trimEnd_left h1, trimStart_right h3]
    simp [h2, h4]

theorem left_full {n : ℕ} {word : Text} (h : word.length = n) : left n word = word := by
  unfold left
  rw [h, Nat.sub_self]
  exact List.append_nil _

theorem left_eq_marker {word : Text} (h : IsName 8 word) (he : left 8 word = columnSectionMarker) :
    word = columnSectionMarker := by
  have := trimEnd_left h
  rw [he] at this
  rw [← this]
  decide

theorem fixed_row {type : Option Relation} {name line : Text} (h : fixedLayout.row (rowCode type) name line) :
    ∃ text, fixed.oneAndTwo line = .ok (text, name) ∧ rowTypeFromStr text = .ok type := by
  obtain ⟨h1, h2, h3, k, rfl⟩ := h
  refine ⟨left 2 (rowCode type), ?_, rowTypeFromStr_code type _⟩
  have a1 := ascii_left h1
  have l1 := length_left h1
  have b1 : Ascii (spaces 1 ++ left 2 (rowCode type) ++ spaces 1) :=
    ascii_append (ascii_append (ascii_spaces 1) a1) (ascii_spaces 1)
  have lb1 : (spaces 1 ++ left 2 (rowCode type) ++ spaces 1).length = 4 := by
    simp only [List.length_append, length_spaces, l1]
  have b2 : Ascii (spaces 1 ++ left 2 (rowCode type) ++ spaces 1 ++ name ++ spaces k) :=
    ascii_append (ascii_append b1 h2.1) (ascii_spaces k)
  have len : byteLength (spaces 1 ++ left 2 (rowCode type) ++ spaces 1 ++ name ++ spaces k) =
      4 + (name.length + k) := by
    rw [byteLength_ascii b2]
    simp only [List.length_append, length_spaces, l1]
    omega
  have hpos : 0 < name.length := List.length_pos_iff.2 h3
  have e1 : slice 1 3 (spaces 1 ++ left 2 (rowCode type) ++ spaces 1 ++ name ++ spaces k) =
      .ok (left 2 (rowCode type)) := by
    simp only [List.append_assoc]
    exact slice_append (ascii_spaces 1) a1 (length_spaces 1) (by rw [l1]) _
  have hle := h2.2.2
  have e2 : slice 4 (min 12 (byteLength (spaces 1 ++ left 2 (rowCode type) ++ spaces 1 ++ name ++ spaces k)))
      (spaces 1 ++ left 2 (rowCode type) ++ spaces 1 ++ name ++ spaces k) =
      .ok (name ++ spaces (min (8 - name.length) k)) := by
    rw [len]
    have : spaces k = spaces (min (8 - name.length) k) ++ spaces (k - min (8 - name.length) k) := by
      rw [spaces_append]
      congr 1
      omega
    rw [this]
    have := slice_append (a := 4) (b := min 12 (4 + (name.length + k)))
      (s := name ++ spaces (min (8 - name.length) k)) b1
      (ascii_append h2.1 (ascii_spaces _)) lb1
      (by simp only [List.length_append, length_spaces]; omega) (spaces (k - min (8 - name.length) k))
    simpa only [List.append_assoc] using this
  show (if 4 < byteLength _ then _ else _) = _
  rw [if_pos (by rw [len]; omega)]
  simp only [e1, e2, bind, Except.bind, pure, Except.pure]
  rw [trimEnd_spaces, trimEnd_of_last h2.2.1, if_neg (by simpa using h3)]

theorem fixed_marker {kind line : Text} (hk : kind.length = 8) (h : fixedLayout.marker kind line) :
    fixed.isColumnMarkerLine line = .ok (.marker kind) := by
  obtain ⟨h1, name, more, h2, rfl⟩ := h
  rw [left_full hk]
  have a1 := ascii_left h2
  have l1 := length_left h2
  have am : Ascii "'MARKER'".toList := by unfold Ascii; decide
  have b1 : Ascii (spaces 4 ++ left 8 name ++ spaces 2) :=
    ascii_append (ascii_append (ascii_spaces 4) a1) (ascii_spaces 2)
  have b2 : Ascii (spaces 4 ++ left 8 name ++ spaces 2 ++ "'MARKER'".toList ++ spaces 17) :=
    ascii_append (ascii_append b1 am) (ascii_spaces 17)
  have b3 := ascii_append b2 h1.1
  have lm : ("'MARKER'".toList).length = 8 := rfl
  have lb3 : (spaces 4 ++ left 8 name ++ spaces 2 ++ "'MARKER'".toList ++ spaces 17 ++ kind).length = 47 := by
    simp only [List.length_append, length_spaces, l1, lm, hk]
  have e1 : slice 14 22 (spaces 4 ++ left 8 name ++ spaces 2 ++ "'MARKER'".toList ++ spaces 17 ++ kind ++ more) =
      .ok "'MARKER'".toList := by
    have := slice_append (a := 14) (b := 22) b1 am
      (by simp only [List.length_append, length_spaces, l1]) (by rw [lm]) (spaces 17 ++ kind ++ more)
    simpa only [List.append_assoc] using this
  have e2 : slice 39 47 (spaces 4 ++ left 8 name ++ spaces 2 ++ "'MARKER'".toList ++ spaces 17 ++ kind ++ more) =
      .ok kind := by
    have := slice_append (a := 39) (b := 47) b2 h1.1
      (by simp only [List.length_append, length_spaces, l1, lm]) (by rw [hk]) more
    simpa only [List.append_assoc] using this
  show @Eq (Import (ColumnLineContent Text)) (if 36 ≤ byteLength _ then _ else _) _
  rw [if_pos (byteLength_prefix (n := 36) b3 (by rw [lb3]; omega) more)]
  have e3 := byteLength_prefix (n := 47) b3 (by rw [lb3]) more
  simp only [e1, e2, e3, bind, Except.bind, pure, Except.pure]
  rfl

theorem fixed_column {name line : Text} {first : Text × Text} {second : Option (Text × Text)}
    (h : fixedLayout.entries name first second line) (hm : first.1 ≠ "'MARKER'".toList) :
    ∃ rest, fixed.isColumnMarkerLine line = .ok (.data name first.1 first.2 rest) ∧
      fixed.fiveAndSix rest = .ok second := by
  obtain ⟨h1, h2, h3, rest, rfl, hr⟩ := h
  refine ⟨rest, ?_, fixed_rest hr⟩
  obtain ⟨e0, e1, e2, e3, e4⟩ := fixed_parts (rest := rest) h1 h2 h3
  show @Eq (Import (ColumnLineContent Text)) (if 36 ≤ byteLength _ then _ else _) _
  rw [if_pos e0]
  simp only [e1, e2, e3, e4, bind, Except.bind, pure, Except.pure]
  rw [if_neg fun he => hm (left_eq_marker h2 he), trimEnd_left h1, trimEnd_left h2, trimStart_right h3]
  rfl

theorem fixed_entries {name line : Text} {first : Text × Text} {second : Option (Text × Text)}
    (h : fixedLayout.entries name first second line) :
    ∃ rest, fixed.twoThroughFour line = .ok ((name, first.1, first.2), rest) ∧
      fixed.fiveAndSix rest = .ok second := by
  obtain ⟨h1, h2, h3, rest, rfl, hr⟩ := h
  refine ⟨rest, ?_, fixed_rest hr⟩
  obtain ⟨e0, e1, e2, e3, e4⟩ := fixed_parts (rest := rest) h1 h2 h3
  show @Eq (Import ((Text × Text × Text) × Text)) (if 36 ≤ byteLength _ then _ else _) _
  rw [if_pos e0]
  simp only [e1, e2, e3, e4, bind, Except.bind, pure, Except.pure]
  rw [trimEnd_left h1, trimEnd_left h2, trimStart_right h3]
  rfl

theorem fixed_bound {type group column line : Text} {number : Option Text} (ht : type.length = 2)
    (h : fixedLayout.bound type group column number line) :
    ∃ rest, fixed.oneThroughThree line = .ok ((type, group, column), rest) ∧
      ∀ v, number = some v → fixed.four rest = .ok v := by
  obtain ⟨h1, h2, h3, rest, rfl, hr⟩ := h
  refine ⟨rest, ?_, ?_⟩
  · rw [left_full ht]
    have a2 := ascii_left h2
    have l2 := length_left h2
    have a3 := ascii_left h3
    have l3 := length_left h3
    have b1 : Ascii (spaces 1 ++ type ++ spaces 1) :=
      ascii_append (ascii_append (ascii_spaces 1) h1.1) (ascii_spaces 1)
    have b2 : Ascii (spaces 1 ++ type ++ spaces 1 ++ left 8 group ++ spaces 2) :=
      ascii_append (ascii_append b1 a2) (ascii_spaces 2)
    have b3 := ascii_append b2 a3
    have lb3 : (spaces 1 ++ type ++ spaces 1 ++ left 8 group ++ spaces 2 ++ left 8 column).length = 22 := by
      simp only [List.length_append, length_spaces, l2, l3, ht]
    have e1 : slice 1 3 (spaces 1 ++ type ++ spaces 1 ++ left 8 group ++ spaces 2 ++ left 8 column ++ rest) =
        .ok type := by
      simp only [List.append_assoc]
      exact slice_append (ascii_spaces 1) h1.1 (length_spaces 1) (by rw [ht]) _
    have e2 : slice 4 12 (spaces 1 ++ type ++ spaces 1 ++ left 8 group ++ spaces 2 ++ left 8 column ++ rest) =
        .ok (left 8 group) := by
      have := slice_append (a := 4) (b := 12) b1 a2
        (by simp only [List.length_append, length_spaces, ht]) (by rw [l2]) (spaces 2 ++ left 8 column ++ rest)
      simpa only [List.append_assoc] using this
    have e3 : slice 14 22 (spaces 1 ++ type ++ spaces 1 ++ left 8 group ++ spaces 2 ++ left 8 column ++ rest) =
        .ok (left 8 column) := by
      have := slice_append (a := 14) (b := 22) b2 a3
        (by simp only [List.length_append, length_spaces, ht, l2]) (by rw [l3]) rest
      simpa only [List.append_assoc] using this
    show @Eq (Import ((Text × Text × Text) × Text)) (if 14 ≤ byteLength _ then _ else _) _
    rw [if_pos (byteLength_prefix b3 (by rw [lb3]; omega) _)]
    simp only [e1, e2, e3, dropBytes_exact b3 lb3, bind, Except.bind, pure, Except.pure]
    rw [trimEnd_left h2, trimEnd_left h3]
    rfl
  · rintro v rfl
    obtain ⟨h4, more, rfl⟩ := hr
    have a4 := ascii_right h4
    have l4 := length_right h4
    show (if 14 ≤ byteLength _ then _ else _) = _
    have e1 : slice 2 14 (spaces 2 ++ right 12 v ++ more) = .ok (right 12 v) := by
      simp only [List.append_assoc]
      exact slice_append (ascii_spaces 2) a4 (length_spaces 2) (by rw [l4]) _
    rw [if_pos (byteLength_prefix (ascii_append (ascii_spaces 2) a4)
      (by simp only [List.length_append, length_spaces, l4]; omega) _)]
    simp only [e1, bind, Except.bind, pure, Except.pure]
    rw [trimStart_right h4]

theorem fixed_reads : Reads fixed fixedLayout where
  name h := free_reads.name h
  rowSpace h := by
    obtain ⟨_, _, _, k, rfl⟩ := h
    rfl
  row := fixed_row
  markerSpace h := by
    obtain ⟨_, _, _, _, rfl⟩ := h
    rfl
  marker := fixed_marker
  entriesSpace h := by
    obtain ⟨_, _, _, _, rfl, _⟩ := h
    rfl
  column := fixed_column
  entries := fixed_entries
  boundSpace h := by
    obtain ⟨_, _, _, _, rfl, _⟩ := h
    rfl
  bound := fixed_bound

end Relp.Mps
