import Verif.Proofs.Condition2

/-!
C25 and C26: filter conditions.
-/

namespace NextPlaid.Props
open NextPlaid.Spec NextPlaid.Condition NextPlaid.Proofs.Condition

/-! ### C25 -/

/-- C25: an accepted text is a condition of the documented grammar, a boolean combination of tests of existing
columns against placeholders; the one exception is a number, an equals sign and a number. -/
theorem C25_accepted_well_formed (U : Uni) (hU : U.Lawful) (cols : List (List Char)) (text : List Char)
    (h : validateCondition U cols text = .ok ()) : NumericIdiom U text ∨ ∃ c, WellFormedCondition U cols text c := by
  unfold validateCondition at h
  split at h
  · rename_i hn
    exact .inl (numeric_sound hn)
  · right
    obtain ⟨_, _, h⟩ := bind_ok h
    obtain ⟨ts, ht, hv⟩ := bind_ok h
    obtain ⟨us, rfl, hs⟩ := tokenizeFrom_sound hU _ _ _ ht
    obtain ⟨c, hc, hn⟩ := (validate_iff (spells_noEof hs)).1 hv
    exact ⟨c, us, hs, hc, hn⟩

/-- C25: an accepted text has no comment, no statement separator and none of the reserved words in it, whether the
characters stand between quotes or not. -/
theorem C25_accepted_safe (U : Uni) (hw : ∀ w ∈ reservedWords, ∀ c ∈ w, U.reWord c = true) (cols : List (List Char))
    (text : List Char) (h : validateCondition U cols text = .ok ()) (hnum : ¬ NumericIdiom U text) :
    ¬ Contains text ['-', '-'] ∧ ¬ Contains text ['/', '*'] ∧ ¬ Contains text ['*', '/'] ∧ ';' ∉ text ∧
      ∀ w ∈ reservedWords, ¬ HasWord U (U.upper text) w := by
  unfold validateCondition at h
  rw [if_neg fun hn => hnum (numeric_sound hn)] at h
  obtain ⟨_, hq, _⟩ := bind_ok h
  unfold quickSafetyCheck at hq
  split at hq
  · cases hq
  · rename_i h1
    split at hq
    · cases hq
    · rename_i h2
      split at hq
      · cases hq
      · rename_i h3
        simp only [Bool.or_eq_true, not_or] at h1
        refine ⟨fun hc => h1.1.1 (containsSub_of (by simp) hc), fun hc => h1.1.2 (containsSub_of (by simp) hc),
          fun hc => h1.2 (containsSub_of (by simp) hc), fun hc => h2 (List.contains_iff_mem.2 hc), ?_⟩
        intro w hmem hh
        apply h3
        rw [List.any_eq_true]
        refine ⟨w, hmem, findWord_of_hasWord ?_ (hw w hmem) hh⟩
        rintro rfl
        revert hmem
        decide

/-- C25: a text says one condition at most. -/
theorem C25_one_reading (U : Uni) (hU : U.Lawful) (cols : List (List Char)) (text : List Char) (c c' : Cond)
    (h : WellFormedCondition U cols text c) (h' : WellFormedCondition U cols text c') : c = c' := by
  obtain ⟨ts, hs, hc, _⟩ := h
  obtain ⟨ts', hs', hc', _⟩ := h'
  have e := tokenize_complete hU hs (text.length + 1) (by omega)
  rw [tokenize_complete hU hs' (text.length + 1) (by omega)] at e
  have e2 : ts' = ts := (List.append_inj' (by injection e) rfl).1
  subst e2
  exact (says_unique hc hc' (r := []) (r' := []) rfl (by simp [follows, current]) (by simp [follows, current])).1

/-! ### C26 -/

/-- C26: the grammar check accepts every condition of the documented grammar over existing columns, at any nesting
depth and with any white space, and refuses every other text. -/
theorem C26_grammar_check (U : Uni) (hU : U.Lawful) (cols : List (List Char)) (text : List Char) :
    (tokenize U text >>= fun ts => validate U cols ts) = .ok () ↔ ∃ c, WellFormedCondition U cols text c := by
  constructor
  · intro h
    obtain ⟨ts, ht, hv⟩ := bind_ok h
    obtain ⟨us, rfl, hs⟩ := tokenizeFrom_sound hU _ _ _ ht
    obtain ⟨c, hc, hn⟩ := (validate_iff (spells_noEof hs)).1 hv
    exact ⟨c, us, hs, hc, hn⟩
  · rintro ⟨c, ts, hs, hc, hn⟩
    unfold tokenize
    rw [tokenize_complete hU hs _ (by omega)]
    exact (validate_iff (spells_noEof hs)).2 ⟨c, hc, hn⟩

/-- C26: the whole check accepts every condition of the grammar that is written in ASCII, when the columns have names
the library accepts and none of them is a reserved word. -/
theorem C26_condition_accepted (U : Uni) (hU : U.Lawful) (hA : U.Ascii) (cols : List (List Char))
    (hcols : ∀ c ∈ cols, ColumnName c ∧ c.map Char.toUpper ∉ reservedWords) (text : List Char) (hasc : IsAscii text)
    (c : Cond) (h : WellFormedCondition U cols text c) : validateCondition U cols text = .ok () := by
  unfold validateCondition
  split
  · rfl
  · have hg := (C26_grammar_check U hU cols text).2 ⟨c, h⟩
    obtain ⟨ts, hs, hc, hn⟩ := h
    have hsub : ∀ n, Token.ident n ∈ ts → ∀ x ∈ n, x ∈ text := ident_chars hs
    have hcol : ∀ n, Token.ident n ∈ ts → ColumnName n ∧ n.map Char.toUpper ∉ reservedWords := by
      intro n hmem
      obtain ⟨k, hk, e⟩ := hn n (ident_column hc n hmem)
      have han : IsAscii n := fun x hx => hasc x (hsub n hmem x hx)
      have hak : IsAscii k := fun x hx => alnum_ascii x ((hcols k hk).1 x hx)
      rw [hA.lower k hak, hA.lower n han] at e
      have hup : n.map Char.toUpper = k.map Char.toUpper := by
        have h1 : (n.map Char.toLower).map Char.toUpper = n.map Char.toUpper := by
          rw [List.map_map]
          exact List.map_congr_left fun x hx => upper_lower x (han x hx)
        have h2 : (k.map Char.toLower).map Char.toUpper = k.map Char.toUpper := by
          rw [List.map_map]
          exact List.map_congr_left fun x hx => upper_lower x (hak x hx)
        rw [← h1, ← h2, e]
      refine ⟨?_, by rw [hup]; exact (hcols k hk).2⟩
      intro x hx
      have hm : x.toLower ∈ k.map Char.toLower := by
        rw [e]
        exact List.mem_map.2 ⟨x, hx, rfl⟩
      obtain ⟨y, hy, hxy⟩ := List.mem_map.1 hm
      have h1 := lower_word x (han x hx)
      rw [← hxy, lower_word y (hak y hy)] at h1
      have h2 : (y.isAlphanum || y == '_') = true := by simpa using (hcols k hk).1 y hy
      rw [h2] at h1
      simpa using h1.symm
    have hch := spells_chars hA hs hasc fun n hn => (hcol n hn).1
    have hbad : ∀ x ∈ ['-', '/', '*', ';'], x ∉ text := by
      intro x hx hm
      have := hch x hm
      simp only [List.mem_cons, List.not_mem_nil, or_false] at hx
      rcases hx with rfl | rfl | rfl | rfl <;> exact absurd this (by decide)
    have hq : quickSafetyCheck U text = .ok () := by
      unfold quickSafetyCheck
      have hno : ∀ a b : Char, a ∈ ['-', '/', '*', ';'] → containsSub [a, b] text = false := by
        intro a b ha
        rw [Bool.eq_false_iff]
        intro hh
        obtain ⟨p, q, e⟩ := (containsSub_iff (by simp)).1 hh
        exact hbad a ha (by rw [e]; simp)
      rw [hno '-' '-' (by simp), hno '/' '*' (by simp), hno '*' '/' (by simp)]
      rw [if_neg (by decide), if_neg (by rw [List.contains_iff_mem]; exact hbad ';' (by simp)), if_neg]
      rw [List.any_eq_true]
      rintro ⟨kw, hkw, hf⟩
      rw [hA.upper text hasc] at hf
      have hkc : ∀ w ∈ dangerousKeywords, w ≠ [] ∧ (∀ x ∈ w, x.toNat < 128 ∧ (x.isAlphanum || x == '_') = true) := by decide
      rcases spells_words hA (hkc kw hkw).1 (fun x hx => by
          rw [hA.word x ((hkc kw hkw).2 x hx).1, ((hkc kw hkw).2 x hx).2]) hs hasc (fun n hn => (hcol n hn).1) none hf with
        ⟨t, ht⟩ | ⟨n, hn, e⟩
      · cases ht <;> exact absurd hkw (by decide)
      · refine (hcol n hn).2 ?_
        rw [e]
        exact hkw
    rw [hq]
    exact hg

/-! ### The hypotheses are met, and the limits of the two properties -/

deriving instance DecidableEq for Except

/-- Tables that know ASCII only. -/
@[reducible] def asciiUni : Uni where
  isSpace := fun c => [' ', '\t', '\n', '\r', '\x0b', '\x0c'].contains c
  isAlpha := Char.isAlpha
  isAlnum := Char.isAlphanum
  upper := fun s => s.map Char.toUpper
  lower := fun s => s.map Char.toLower
  reWord := fun c => c.isAlphanum || c == '_'
  reDigit := Char.isDigit
  reSpace := fun c => [' ', '\t', '\n', '\r', '\x0b', '\x0c'].contains c

theorem asciiUni_lawful : asciiUni.Lawful where
  alpha_alnum := by
    intro c h
    change (c.isAlpha || c.isDigit) = true
    change c.isAlpha = true at h
    rw [h]
    rfl
  space_alpha := by
    intro c h
    have hm : ∀ c ∈ [' ', '\t', '\n', '\r', '\x0b', '\x0c'], Char.isAlpha c = false := by decide
    have : c ∈ [' ', '\t', '\n', '\r', '\x0b', '\x0c'] := List.contains_iff_mem.1 h
    exact hm c this
  sign_alpha := by decide
  sign_space := by decide

theorem asciiUni_ascii : asciiUni.Ascii where
  upper := fun _ _ => rfl
  lower := fun _ _ => rfl
  word := fun _ _ => rfl
  alnum := fun _ _ => rfl
  space := fun _ _ h => List.contains_iff_mem.1 h

/-- `NOT (name LIKE ? or "Score" in (?,?)) AND n <= ?` with columns `name`, `score` and `n`. -/
def sampleText : List Char := ['N', 'O', 'T', ' ', '(', 'n', 'a', 'm', 'e', ' ', 'L', 'I', 'K', 'E', ' ', '?', ' ', 'o', 'r', ' ', '"', 'S', 'c', 'o', 'r', 'e', '"', ' ', 'i', 'n', ' ', '(', '?', ',', '?', ')', ')', ' ', 'A', 'N', 'D', ' ', 'n', ' ', '<', '=', ' ', '?']

def sampleCols : List (List Char) := [['n', 'a', 'm', 'e'], ['s', 'c', 'o', 'r', 'e'], ['n']]

example : validateCondition asciiUni sampleCols sampleText = .ok () := by decide +kernel

theorem sample_well_formed : ∃ c, WellFormedCondition asciiUni sampleCols sampleText c :=
  (C26_grammar_check asciiUni asciiUni_lawful sampleCols sampleText).1 (by decide +kernel)

example : IsAscii sampleText := by unfold IsAscii; decide +kernel

example : ∀ c ∈ sampleCols, ColumnName c ∧ c.map Char.toUpper ∉ reservedWords := by unfold ColumnName; decide +kernel

example : ∀ w ∈ reservedWords, ∀ c ∈ w, asciiUni.reWord c = true := by decide +kernel

/-- `name = ? OR 1` is refused. -/
example : validateCondition asciiUni sampleCols ['n', 'a', 'm', 'e', ' ', '=', ' ', '?', ' ', 'O', 'R', ' ', '1'] = .error .err := by decide +kernel

/-- C25: the exception is real: ` 1 = 23` is accepted and is not a condition of the grammar. -/
theorem C25_numbers_accepted : ∃ text, validateCondition asciiUni sampleCols text = .ok () ∧ NumericIdiom asciiUni text ∧
    ¬ ∃ c, WellFormedCondition asciiUni sampleCols text c := by
  refine ⟨[' ', '1', ' ', '=', ' ', '2', '3'], by decide +kernel, numeric_sound (by decide +kernel), ?_⟩
  rw [← C26_grammar_check asciiUni asciiUni_lawful]
  decide +kernel

/-- C26 does not extend to every column the library lets one create: with a column `update` the condition
`update = ?` is of the grammar and is refused. -/
theorem C26_reserved_column_refused : ∃ cols text, (∀ c ∈ cols, ColumnName c) ∧ (∃ c, WellFormedCondition asciiUni cols text c) ∧
    validateCondition asciiUni cols text = .error .err := by
  refine ⟨[['u', 'p', 'd', 'a', 't', 'e']], ['u', 'p', 'd', 'a', 't', 'e', ' ', '=', ' ', '?'], by unfold ColumnName; decide +kernel,
    (C26_grammar_check asciiUni asciiUni_lawful _ _).1 (by decide +kernel), by decide +kernel⟩

end NextPlaid.Props
