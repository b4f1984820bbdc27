import Verif.Proofs.TextQuery2

/-!
Property theorems C27 and C43 (keyword queries and identifier tokens).

`Spec.ftsLex` is the lexer of the FTS5 query language; `none` is a syntax error.
-/

namespace NextPlaid.Props
open NextPlaid.Text NextPlaid.Spec

/-! ### C27 -/

/-- C27: for every query without NUL characters, FTS5 reads the sanitised query as a sequence of quoted
phrases and nothing else, one for each word kept, and each phrase is the literal text of a word of the
query without its non-alphanumeric edges: not empty, and not a boolean operator. -/
theorem C27_only_phrases (u : Chars) (q : List Char) (hnul : ∀ c ∈ q, c.toNat ≠ 0) :
    ∃ ws : List (List Char), ftsLex (sanitize u q) = some (ws.map .phrase) ∧ ∀ w, w ∈ ws ↔
      w ≠ [] ∧ u.upper w ∉ [['A', 'N', 'D'], ['O', 'R'], ['N', 'O', 'T'], ['N', 'E', 'A', 'R']] ∧
      ∃ word a b, IsWord u.white q word ∧ word = a ++ w ++ b ∧ (∀ c ∈ a ++ b, u.alnum c = false) ∧
        (∀ c, w.head? = some c → u.alnum c = true) ∧ (∀ c, w.getLast? = some c → u.alnum c = true) := by
  have hmem : ∀ w, w ∈ keptWords u q ↔
      w ≠ [] ∧ u.upper w ∉ operators ∧ ∃ word a b, IsWord u.white q word ∧ word = a ++ w ++ b ∧
        (∀ c ∈ a ++ b, u.alnum c = false) ∧ (∀ c, w.head? = some c → u.alnum c = true) ∧
        (∀ c, w.getLast? = some c → u.alnum c = true) := by
    intro w
    unfold keptWords
    rw [List.mem_filterMap]
    constructor
    · rintro ⟨word, hword, hw⟩
      unfold cleanWord at hw
      simp only at hw
      split at hw
      · cases hw
      · next hne =>
        split at hw
        · cases hw
        · next hop =>
          cases hw
          obtain ⟨a, b, h1, h2, h3, h4, h5⟩ := trimMatches_spec (fun c => !u.alnum c) word
          refine ⟨hne, by simpa using hop, word, a, b, (mem_words _ _ _).1 hword, h1, ?_, ?_, ?_⟩
          · intro c hc
            rcases List.mem_append.1 hc with hc | hc
            · simpa using h2 c hc
            · simpa using h3 c hc
          · intro c hc; simpa using h4 c hc
          · intro c hc; simpa using h5 c hc
    · rintro ⟨hne, hop, word, a, b, hword, he, hab, hh, hl⟩
      refine ⟨word, (mem_words _ _ _).2 hword, ?_⟩
      have ht : trimMatches (fun c => !u.alnum c) word = w := by
        unfold trimMatches
        have h1 : word.dropWhile (fun c => !u.alnum c) = w ++ b := by
          rw [he, List.append_assoc]
          have : ∀ (a : List Char), (∀ c ∈ a, u.alnum c = false) →
              (a ++ (w ++ b)).dropWhile (fun c => !u.alnum c) = w ++ b := by
            intro a
            induction a with
            | nil =>
              intro _
              cases w with
              | nil => exact absurd rfl hne
              | cons c w =>
                simp [hh c rfl]
            | cons c a ih =>
              intro h
              rw [List.cons_append, List.dropWhile_cons, if_pos (by simp [h c (by simp)])]
              exact ih fun c hc => h c (by simp [hc])
          exact this a fun c hc => hab c (List.mem_append_left _ hc)
        rw [h1, List.reverse_append]
        have h2 : (b.reverse ++ w.reverse).dropWhile (fun c => !u.alnum c) = w.reverse := by
          have : ∀ (b : List Char), (∀ c ∈ b, u.alnum c = false) →
              (b ++ w.reverse).dropWhile (fun c => !u.alnum c) = w.reverse := by
            intro b
            induction b with
            | nil =>
              intro _
              cases hw : w.reverse with
              | nil => simp at hw; exact absurd hw hne
              | cons c l =>
                have : w.getLast? = some c := by
                  rw [← List.head?_reverse, hw]; rfl
                simp [hl c this]
            | cons c b ih =>
              intro h
              rw [List.cons_append, List.dropWhile_cons, if_pos (by simp [h c (by simp)])]
              exact ih fun c hc => h c (by simp [hc])
          exact this b.reverse fun c hc => hab c (List.mem_append_right _ (List.mem_reverse.1 hc))
        rw [h2, List.reverse_reverse]
      unfold cleanWord
      rw [ht]
      simp only
      rw [if_neg hne, if_neg (by simpa using hop)]
  refine ⟨keptWords u q, ?_, hmem⟩
  apply lex_joined
  intro w hw c hc
  obtain ⟨_, _, word, a, b, hword, he, _⟩ := (hmem w).1 hw
  obtain ⟨_, _, a', b', hq, _⟩ := hword
  apply hnul c
  rw [hq, he]
  simp [hc]

/-- C27: nothing searchable remains exactly when the sanitised query is empty: every word of the query
has no alphanumeric character or is, without its edges, an operator. -/
theorem C27_empty (u : Chars) (q : List Char) : sanitize u q = [] ↔
    ∀ word, IsWord u.white q word → (∀ c ∈ word, u.alnum c = false) ∨
      ∃ a w b, word = a ++ w ++ b ∧ (∀ c ∈ a ++ b, u.alnum c = false) ∧
        u.upper w ∈ [['A', 'N', 'D'], ['O', 'R'], ['N', 'O', 'T'], ['N', 'E', 'A', 'R']] ∧
        (∀ c, w.head? = some c → u.alnum c = true) ∧ (∀ c, w.getLast? = some c → u.alnum c = true) := by
  unfold sanitize
  rw [joinWith_eq_nil]
  unfold keptWords
  rw [List.filterMap_eq_nil_iff]
  constructor
  · intro h word hword
    have := h word ((mem_words _ _ _).2 hword)
    unfold cleanWord at this
    simp only at this
    obtain ⟨a, b, h1, h2, h3, h4, h5⟩ := trimMatches_spec (fun c => !u.alnum c) word
    split at this
    · next hn =>
      left
      intro c hc
      simpa using (trimMatches_nil _ _).1 hn c hc
    · split at this
      · next hop =>
        right
        refine ⟨a, _, b, h1, ?_, by simpa [operators] using hop, ?_, ?_⟩
        · intro c hc
          rcases List.mem_append.1 hc with hc | hc
          · simpa using h2 c hc
          · simpa using h3 c hc
        · intro c hc; simpa using h4 c hc
        · intro c hc; simpa using h5 c hc
      · cases this
  · intro h word hword
    have hword' := (mem_words _ _ _).1 hword
    unfold cleanWord
    simp only
    split
    · rfl
    · next hne =>
      split
      · rfl
      · next hop =>
        exfalso
        rcases h word hword' with h | ⟨a, w, b, he, hab, hw, hh, hl⟩
        · exact hne ((trimMatches_nil _ _).2 fun c hc => by simpa using h c hc)
        · by_cases hwn : w = []
          · subst hwn
            apply hne
            rw [trimMatches_nil]
            intro c hc
            rw [he, List.append_nil] at hc
            simpa using hab c hc
          · -- the trimmed word is w
            obtain ⟨a', b', h1, h2, h3, h4, h5⟩ := trimMatches_spec (fun c => !u.alnum c) word
            have key : ∀ (a a' w w' : List Char), w ≠ [] → w' ≠ [] → (∀ c ∈ a, u.alnum c = false) →
                (∀ c ∈ a', u.alnum c = false) → (∀ c, w.head? = some c → u.alnum c = true) →
                (∀ c, w'.head? = some c → u.alnum c = true) → a ++ w = a' ++ w' → w = w' := by
              intro a
              induction a with
              | nil =>
                intro a' w w' hw hw' _ ha' hh hh' he
                cases a' with
                | nil => exact he
                | cons c a' =>
                  rw [List.nil_append] at he
                  have := hh c (by rw [he]; rfl)
                  rw [ha' c (by simp)] at this
                  cases this
              | cons c a ih =>
                intro a' w w' hw hw' ha ha' hh hh' he
                cases a' with
                | nil =>
                  rw [List.nil_append] at he
                  have := hh' c (by rw [← he]; rfl)
                  rw [ha c (by simp)] at this
                  cases this
                | cons d a' =>
                  simp only [List.cons_append, List.cons.injEq] at he
                  exact ih a' w w' hw hw' (fun c hc => ha c (by simp [hc])) (fun c hc => ha' c (by simp [hc]))
                    hh hh' he.2
            have e1 : w ++ b = trimMatches (fun c => !u.alnum c) word ++ b' := by
              apply key a a' (w ++ b) _ (by simp [hwn]) (by simp [hne])
              · exact fun c hc => hab c (List.mem_append_left _ hc)
              · intro c hc; simpa using h2 c hc
              · intro c hc
                cases w with
                | nil => exact absurd rfl hwn
                | cons d w => exact hh c (by simpa using hc)
              · intro c hc
                cases ht : trimMatches (fun c => !u.alnum c) word with
                | nil => exact absurd ht hne
                | cons d l =>
                  rw [ht] at hc
                  simpa using h4 c (by rw [ht]; simpa using hc)
              · rw [← List.append_assoc, ← he, ← List.append_assoc, ← h1]
            have e2 : w.reverse = (trimMatches (fun c => !u.alnum c) word).reverse := by
              apply key b.reverse b'.reverse
              · simpa using hwn
              · simpa using hne
              · exact fun c hc => hab c (List.mem_append_right _ (List.mem_reverse.1 hc))
              · intro c hc; simpa using h3 c (List.mem_reverse.1 hc)
              · intro c hc; rw [List.head?_reverse] at hc; exact hl c hc
              · intro c hc; rw [List.head?_reverse] at hc; simpa using h5 c hc
              · rw [← List.reverse_append, ← List.reverse_append, e1]
            have e3 : w = trimMatches (fun c => !u.alnum c) word := by
              simpa using congrArg List.reverse e2
            rw [← e3] at hop
            exact hop (by simpa [operators] using hw)

/-- C27, the identifier form: for every query (NUL or not) FTS5 reads the sanitised query as quoted
phrases separated by the operator `OR`; the phrases are the distinct identifier tokens of the query and
consist of letters, digits and underscores. -/
theorem C27_or_only_phrases (q : List Char) :
    ∃ ws : List (List Char), ftsLex (sanitizeOr q) = some (between (.operator ['O', 'R']) (ws.map .phrase)) ∧ ws.Nodup ∧
      (∀ w, w ∈ ws ↔ w ∈ tokenizeIdentifiers q ∧ w ≠ []) ∧
      ∀ w ∈ ws, ∀ c ∈ w, (c.isAlphanum = true ∨ c = '_') := by
  refine ⟨firstSeen [] (tokenizeIdentifiers q), ?_, firstSeen_nodup _ _, ?_, ?_⟩
  · apply lex_joined_or
    intro w hw c hc
    exact (tokenize_chars q w ((mem_firstSeen _ _ _).1 hw).1 c hc).2
  · intro w
    rw [mem_firstSeen]
    simp
  · intro w hw c hc
    have := (tokenize_chars q w ((mem_firstSeen _ _ _).1 hw).1 c hc).1
    unfold identTail isAlphaA isDigitA at this
    unfold Char.isAlphanum
    simpa [or_assoc] using this

/-- ASCII tables, for the examples. -/
def asciiChars : Chars := ⟨fun c => c == ' ', fun c => c.isAlphanum, fun w => w.map Char.toUpper⟩

/-- A query that tries to close the quote, use a column filter, a prefix operator and boolean operators. -/
example : ftsLex (sanitize asciiChars
      ['a', '"', 'b', '*', ' ', 'O', 'R', ' ', 'c', ':', 'd', ' ', '"', 'n', 'o', 't', '"', ' ', '-', '(']) =
    some [.phrase ['a', '"', 'b'], .phrase ['c', ':', 'd']] := by decide +kernel

example : ftsLex (sanitizeOr ['m', 'y', 'F', 'n', '(', '"', ')']) =
    some [.phrase ['m', 'y', 'f', 'n'], .operator ['O', 'R'], .phrase ['m', 'y'], .operator ['O', 'R'],
      .phrase ['f', 'n'], .operator ['O', 'R'], .phrase ['m', 'y', '_', 'f', 'n']] := by decide +kernel

/-- Why NUL is excluded: FTS5 stops reading at a NUL character, inside the quoted phrase, and reports an
unterminated string.  The sanitiser keeps a NUL that stands inside a word
(/repo/next-plaid/src/text_search.rs:955-965). -/
theorem C27_nul_is_a_syntax_error : ftsLex (sanitize asciiChars ['a', Char.ofNat 0, 'b']) = none := by
  decide +kernel

/-! ### C43 -/

/-- C43: the identifiers of a text are exactly its maximal runs of ASCII letters, digits and underscores,
without leading digits. -/
theorem C43_identifiers (text w : List Char) : w ∈ identLoop [] text ↔
    ∃ run, IsWord (fun c => !(c.isAlpha || c.isDigit || c == '_')) text run ∧ w = run.dropWhile Char.isDigit ∧ w ≠ [] :=
  mem_idents text w

/-- C43: every identifier of a text is, lower-cased, one of its tokens; its parts put together give the
lower-cased identifier without its underscores, so no letter or digit is lost; no part is empty; and every
part is a word of a token (FTS5 splits tokens at underscores). -/
theorem C43_nothing_lost (text w : List Char) (h : w ∈ identLoop [] text) :
    w.map Char.toLower ∈ tokenizeIdentifiers text ∧
    (identParts w).flatten = (w.filter (· ≠ '_')).map Char.toLower ∧
    (∀ p ∈ identParts w, p ≠ [] ∧ ∃ t ∈ tokenizeIdentifiers text, p ∈ splitUnderscore [] t) := by
  have hi := idents_isIdent h
  refine ⟨?_, (identParts_spec hi).1, ?_⟩
  · apply List.mem_flatMap.2
    refine ⟨w, h, ?_⟩
    unfold splitIdentifier
    split <;> simp [lowerA]
  · intro p hp
    refine ⟨((identParts_spec hi).2 p hp).1, ?_⟩
    obtain ⟨t, ht, hpt⟩ := mem_splitUnderscore_of_part hi p hp
    exact ⟨t, List.mem_flatMap.2 ⟨w, h, ht⟩, hpt⟩

/-- C43: tokens consist of ASCII letters, digits and underscores only, so joining them with spaces and
splitting again gives them back. -/
theorem C43_tokens_plain (text t : List Char) (ht : t ∈ tokenizeIdentifiers text) (c : Char) (hc : c ∈ t) :
    c.isAlpha = true ∨ c.isDigit = true ∨ c = '_' := by
  have := (tokenize_chars text t ht c hc).1
  unfold identTail isAlphaA isDigitA at this
  simpa [or_assoc] using this

example : tokenizeIdentifiers ['x', '(', '9', 'H', 'T', 'T', 'P', 'R', 'e', 's', '2', ')'] =
    [['x'], ['h', 't', 't', 'p', 'r', 'e', 's', '2'], ['h', 't', 't', 'p'], ['r', 'e', 's'], ['2'],
      ['h', 't', 't', 'p', '_', 'r', 'e', 's'], ['r', 'e', 's', '_', '2']] := by decide +kernel

/-- Text outside ASCII identifiers is dropped: a document or query without an ASCII letter or underscore
has no tokens (/repo/next-plaid/src/text_search.rs:226-246). -/
theorem C43_no_identifier (text : List Char) (h : ∀ c ∈ text, c.isAlpha = false ∧ c ≠ '_') :
    tokenizeIdentifiers text = [] := by
  unfold tokenizeIdentifiers
  have : identLoop [] text = [] := by
    rw [List.eq_nil_iff_forall_not_mem]
    intro w hw
    obtain ⟨run, ⟨_, hr, a, b, he, _⟩, rfl, hne⟩ := (mem_idents text w).1 hw
    apply hne
    rw [dropWhile_nil_iff]
    intro c hc
    have h1 := hr c hc
    have h2 := h c (by rw [he]; simp [hc])
    unfold identTail isAlphaA at h1
    simp only [Bool.not_eq_eq_eq_not, Bool.not_false] at h1
    rw [h2.1] at h1
    simpa [h2.2] using h1
  rw [this]
  rfl

end NextPlaid.Props
