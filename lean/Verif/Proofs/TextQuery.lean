import Verif.Model.TextQuery
import Verif.Spec.TextQuery
import Mathlib.Data.List.Basic

/-! Lemmas about the query sanitisers and the identifier tokenizer. -/

namespace NextPlaid.Text
open NextPlaid.Spec

/-! ### Lexing quoted words -/

theorem ftsLexFrom_cons (s : LexState) (c : Char) (cs : List Char) (h : c.toNat ≠ 0) :
    ftsLexFrom s (c :: cs) = match lexStep s c with
      | none => none
      | some (ts, s') => (ftsLexFrom s' cs).map fun r => ts ++ r := by
  rw [ftsLexFrom, if_neg h]
  rfl

theorem option_map_nil {α : Type} (o : Option (List α)) : o.map (fun r => [] ++ r) = o := by
  cases o <;> rfl

/-- Reading the escaped word inside a string. -/
theorem lex_escaped : ∀ (w acc rest : List Char), (∀ c ∈ w, c.toNat ≠ 0) →
    ftsLexFrom (.inString acc) (escapeQuotes w ++ rest) = ftsLexFrom (.inString (acc ++ w)) rest
  | [], acc, rest, _ => by simp [escapeQuotes]
  | c :: w, acc, rest, h => by
    have hc := h c (by simp)
    have hw : ∀ c ∈ w, c.toNat ≠ 0 := fun c hc => h c (by simp [hc])
    have ih := lex_escaped w (acc ++ [c]) rest hw
    have e : escapeQuotes (c :: w) = (if c = '"' then ['"', '"'] else [c]) ++ escapeQuotes w := rfl
    rw [e]
    by_cases hq : c = '"'
    · subst hq
      rw [if_pos rfl]
      show ftsLexFrom _ ('"' :: '"' :: (escapeQuotes w ++ rest)) = _
      rw [ftsLexFrom_cons _ _ _ hc]
      show (ftsLexFrom (.afterQuote acc) ('"' :: (escapeQuotes w ++ rest))).map _ = _
      rw [option_map_nil, ftsLexFrom_cons _ _ _ hc]
      show (ftsLexFrom (.inString (acc ++ ['"'])) (escapeQuotes w ++ rest)).map _ = _
      rw [option_map_nil, ih]
      simp
    · rw [if_neg hq]
      show ftsLexFrom _ (c :: (escapeQuotes w ++ rest)) = _
      rw [ftsLexFrom_cons _ _ _ hc]
      have : lexStep (.inString acc) c = some ([], .inString (acc ++ [c])) := by
        simp [lexStep, hq]
      rw [this]
      simp only
      rw [option_map_nil, ih]
      simp

theorem lex_quoteWord (w rest : List Char) (h : ∀ c ∈ w, c.toNat ≠ 0) :
    ftsLexFrom .between (quoteWord w ++ rest) = ftsLexFrom (.afterQuote w) rest := by
  unfold quoteWord
  show ftsLexFrom .between ('"' :: (escapeQuotes w ++ ['"'] ++ rest)) = _
  rw [ftsLexFrom_cons _ _ _ (by decide)]
  show (ftsLexFrom (.inString []) (escapeQuotes w ++ ['"'] ++ rest)).map _ = _
  rw [option_map_nil, List.append_assoc, lex_escaped w [] _ h, List.nil_append]
  show ftsLexFrom (.inString w) ('"' :: rest) = _
  rw [ftsLexFrom_cons _ _ _ (by decide)]
  show (ftsLexFrom (.afterQuote w) rest).map _ = _
  rw [option_map_nil]

theorem lex_space (w rest : List Char) : ftsLexFrom (.afterQuote w) (' ' :: rest) =
    (ftsLexFrom .between rest).map fun r => .phrase w :: r := by
  rw [ftsLexFrom_cons _ _ _ (by decide)]
  rfl

theorem lex_joined : ∀ (ws : List (List Char)), (∀ w ∈ ws, ∀ c ∈ w, c.toNat ≠ 0) →
    ftsLexFrom .between (joinWith [' '] (ws.map quoteWord)) = some (ws.map .phrase)
  | [], _ => rfl
  | [w], h => by
    have := lex_quoteWord w [] (h w (by simp))
    rw [List.append_nil] at this
    show ftsLexFrom .between (quoteWord w) = _
    rw [this]
    rfl
  | w :: w' :: ws, h => by
    have ih := lex_joined (w' :: ws) (fun x hx => h x (List.mem_cons_of_mem _ hx))
    rw [List.map_cons, List.map_cons, joinWith, List.append_assoc, lex_quoteWord w _ (h w (by simp))]
    show ftsLexFrom (.afterQuote w) (' ' :: joinWith [' '] (quoteWord w' :: ws.map quoteWord)) = _
    rw [lex_space]
    rw [List.map_cons] at ih
    rw [ih]
    rfl

theorem lex_or (w rest : List Char) : ftsLexFrom (.afterQuote w) (' ' :: 'O' :: 'R' :: ' ' :: rest) =
    (ftsLexFrom .between rest).map fun r => .phrase w :: .operator ['O', 'R'] :: r := by
  rw [lex_space, ftsLexFrom_cons _ _ _ (by decide)]
  show ((ftsLexFrom (.inBare ['O']) ('R' :: ' ' :: rest)).map _).map _ = _
  rw [option_map_nil, ftsLexFrom_cons _ _ _ (by decide)]
  show ((ftsLexFrom (.inBare ['O', 'R']) (' ' :: rest)).map _).map _ = _
  rw [option_map_nil, ftsLexFrom_cons _ _ _ (by decide)]
  have : lexStep (.inBare ['O', 'R']) ' ' = some ([.operator ['O', 'R']], .between) := rfl
  rw [this]
  simp only [Option.map_map]
  rfl

theorem lex_joined_or : ∀ (ws : List (List Char)), (∀ w ∈ ws, ∀ c ∈ w, c.toNat ≠ 0) →
    ftsLexFrom .between (joinWith [' ', 'O', 'R', ' '] (ws.map quoteWord)) =
      some (between (.operator ['O', 'R']) (ws.map .phrase))
  | [], _ => rfl
  | [w], h => by
    have := lex_quoteWord w [] (h w (by simp))
    rw [List.append_nil] at this
    show ftsLexFrom .between (quoteWord w) = _
    rw [this]
    rfl
  | w :: w' :: ws, h => by
    have ih := lex_joined_or (w' :: ws) (fun x hx => h x (List.mem_cons_of_mem _ hx))
    rw [List.map_cons, List.map_cons, joinWith, List.append_assoc, lex_quoteWord w _ (h w (by simp))]
    show ftsLexFrom (.afterQuote w) (' ' :: 'O' :: 'R' :: ' ' ::
      joinWith [' ', 'O', 'R', ' '] (quoteWord w' :: ws.map quoteWord)) = _
    rw [lex_or]
    rw [List.map_cons] at ih
    rw [ih]
    rfl

theorem joinWith_eq_nil (sep : List Char) (ws : List (List Char)) :
    joinWith sep (ws.map quoteWord) = [] ↔ ws = [] := by
  cases ws with
  | nil => simp [joinWith]
  | cons w ws =>
    cases ws with
    | nil => simp [joinWith, quoteWord]
    | cons w' ws => simp [joinWith, quoteWord]

/-! ### Words -/

/-- Splitting with a run in progress. -/
theorem mem_splitWhite (sep : Char → Bool) : ∀ (text cur w : List Char), (∀ c ∈ cur, sep c = false) →
    (w ∈ splitWhite sep cur text ↔
      w ≠ [] ∧ (∀ c ∈ w, sep c = false) ∧
        ∃ a b, cur ++ text = a ++ w ++ b ∧ (∀ c, a.getLast? = some c → sep c = true) ∧
          (∀ c, b.head? = some c → sep c = true))
  | [], cur, w, hcur => by
    rw [splitWhite, List.append_nil]
    constructor
    · intro h
      split at h
      · simp at h
      · next hne =>
        simp only [List.mem_singleton] at h
        subst h
        exact ⟨hne, hcur, [], [], by simp, by simp, by simp⟩
    · rintro ⟨hne, hw, a, b, he, ha, hb⟩
      have ha' : a = [] := by
        rcases List.eq_nil_or_concat a with h | ⟨a', c, rfl⟩
        · exact h
        · have h1 := ha c (by simp)
          have h2 := hcur c (by rw [he]; simp)
          rw [h1] at h2; cases h2
      have hb' : b = [] := by
        cases b with
        | nil => rfl
        | cons c b =>
          have h1 := hb c rfl
          have h2 := hcur c (by rw [he]; simp)
          rw [h1] at h2; cases h2
      subst ha' hb'
      simp only [List.nil_append, List.append_nil] at he
      subst he
      rw [if_neg hne]
      simp
  | c :: cs, cur, w, hcur => by
    rw [splitWhite]
    by_cases hc : sep c = true
    · rw [if_pos hc]
      have key : (∃ a b, cur ++ c :: cs = a ++ w ++ b ∧ (∀ c, a.getLast? = some c → sep c = true) ∧
          (∀ c, b.head? = some c → sep c = true)) ∧ w ≠ [] ∧ (∀ c ∈ w, sep c = false) ↔
          (cur = w ∧ w ≠ []) ∨ (w ≠ [] ∧ (∀ c ∈ w, sep c = false) ∧
            ∃ a b, [] ++ cs = a ++ w ++ b ∧ (∀ c, a.getLast? = some c → sep c = true) ∧
              (∀ c, b.head? = some c → sep c = true)) := by
        constructor
        · rintro ⟨⟨a, b, he, ha, hb⟩, hne, hw⟩
          -- compare the split points
          by_cases hlen : a = []
          · left
            subst hlen
            rw [List.nil_append] at he
            refine ⟨?_, hne⟩
            -- w is a prefix of cur ++ c :: cs made of non-separators, b starts with a separator
            have : ∀ (cur w : List Char), (∀ x ∈ cur, sep x = false) → (∀ x ∈ w, sep x = false) →
                cur ++ c :: cs = w ++ b → cur = w := by
              intro cur
              induction cur with
              | nil =>
                intro w _ hw he
                cases w with
                | nil => rfl
                | cons x w =>
                  simp only [List.nil_append, List.cons_append, List.cons.injEq] at he
                  have := hw x (by simp)
                  rw [← he.1, hc] at this
                  cases this
              | cons y cur ih =>
                intro w h1 h2 he
                cases w with
                | nil =>
                  simp only [List.nil_append, List.cons_append] at he
                  have := hb y (by rw [← he]; rfl)
                  rw [h1 y (by simp)] at this
                  cases this
                | cons x w =>
                  simp only [List.cons_append, List.cons.injEq] at he
                  rw [he.1, ih w (fun z hz => h1 z (by simp [hz])) (fun z hz => h2 z (by simp [hz])) he.2]
            exact this cur w hcur hw he
          · right
            refine ⟨hne, hw, ?_⟩
            obtain ⟨a', x, rfl⟩ : ∃ a' x, a = a' ++ [x] := by
              rcases List.eq_nil_or_concat a with h | ⟨a', x, h⟩
              · exact absurd h hlen
              · exact ⟨a', x, by simpa using h⟩
            have hx : sep x = true := ha x (by simp)
            -- the prefix a reaches at least over c
            have hle : cur.length < (a' ++ [x]).length := by
              by_contra hlt
              have hlt : (a' ++ [x]).length ≤ cur.length := by omega
              have hpre : (a' ++ [x]) <+: cur := by
                have h1 : (a' ++ [x]) <+: cur ++ c :: cs := ⟨w ++ b, by rw [he]; simp⟩
                exact List.prefix_of_prefix_length_le h1 (List.prefix_append _ _) hlt
              have := hcur x (hpre.subset (by simp))
              rw [hx] at this; cases this
            have hpre : cur ++ [c] <+: a' ++ [x] := by
              have h1 : cur ++ [c] <+: cur ++ c :: cs := ⟨cs, by simp⟩
              have h2 : a' ++ [x] <+: cur ++ c :: cs := ⟨w ++ b, by rw [he]; simp⟩
              exact List.prefix_of_prefix_length_le h1 h2 (by simp at hle ⊢; omega)
            obtain ⟨r, hr⟩ := hpre
            refine ⟨r, b, ?_, ?_, hb⟩
            · rw [List.nil_append]
              rw [← hr] at he
              have : cur ++ ([c] ++ cs) = cur ++ ([c] ++ (r ++ w ++ b)) := by
                simpa [List.append_assoc] using he
              exact List.append_cancel_left (List.append_cancel_left this)
            · intro y hy
              apply ha y
              rw [← hr, List.getLast?_append, hy]
              rfl
        · rintro (⟨rfl, hne⟩ | ⟨hne, hw, a, b, he, ha, hb⟩)
          · exact ⟨⟨[], c :: cs, by simp, by simp, by simpa using hc⟩, hne, hcur⟩
          · refine ⟨⟨cur ++ c :: a, b, ?_, ?_, hb⟩, hne, hw⟩
            · rw [List.nil_append] at he
              rw [he]; simp
            · intro y hy
              rw [List.getLast?_append] at hy
              cases hl : a.getLast? with
              | none =>
                have : a = [] := by simpa using hl
                subst this
                simp at hy
                rw [← hy]; exact hc
              | some z =>
                rw [List.getLast?_cons, hl] at hy
                simp at hy
                subst hy
                exact ha z hl
      have ih := mem_splitWhite sep cs [] w (by simp)
      by_cases hcn : cur = []
      · rw [if_pos hcn, ih]
        constructor
        · intro h
          have := key.2 (.inr h)
          exact ⟨this.2.1, this.2.2, this.1⟩
        · rintro ⟨h1, h2, h3⟩
          rcases key.1 ⟨h3, h1, h2⟩ with ⟨h, h'⟩ | h
          · exact absurd (h.symm.trans hcn) h'
          · exact h
      · rw [if_neg hcn, List.mem_cons, ih]
        constructor
        · rintro (h | h)
          · have := key.2 (.inl ⟨h.symm, by rw [h]; exact hcn⟩)
            exact ⟨this.2.1, this.2.2, this.1⟩
          · have := key.2 (.inr h)
            exact ⟨this.2.1, this.2.2, this.1⟩
        · rintro ⟨h1, h2, h3⟩
          rcases key.1 ⟨h3, h1, h2⟩ with ⟨h, _⟩ | h
          · exact .inl h.symm
          · exact .inr h
    · rw [if_neg hc]
      have hc : sep c = false := by simpa using hc
      have := mem_splitWhite sep cs (cur ++ [c]) w (by
        intro x hx
        rcases List.mem_append.1 hx with hx | hx
        · exact hcur x hx
        · simp only [List.mem_singleton] at hx; rw [hx]; exact hc)
      rw [this]
      simp only [List.append_assoc, List.singleton_append]

theorem mem_words (sep : Char → Bool) (text w : List Char) :
    w ∈ splitWhite sep [] text ↔ IsWord sep text w := by
  rw [mem_splitWhite sep text [] w (by simp)]
  simp [IsWord]

/-! ### Trimming -/

theorem takeWhile_all {α : Type} (p : α → Bool) : ∀ (l : List α), ∀ x ∈ l.takeWhile p, p x = true
  | [], x, h => by simp at h
  | a :: l, x, h => by
    rw [List.takeWhile_cons] at h
    split at h
    · next ha =>
      rcases List.mem_cons.1 h with rfl | h
      · exact ha
      · exact takeWhile_all p l x h
    · simp at h

theorem dropWhile_head {α : Type} (p : α → Bool) : ∀ (l : List α) (x : α), (l.dropWhile p).head? = some x → p x = false
  | [], x, h => by simp at h
  | a :: l, x, h => by
    rw [List.dropWhile_cons] at h
    split at h
    · exact dropWhile_head p l x h
    · next ha => simp at h; subst h; simpa using ha

theorem trimMatches_spec (p : Char → Bool) (w : List Char) :
    ∃ a b, w = a ++ trimMatches p w ++ b ∧ (∀ c ∈ a, p c = true) ∧ (∀ c ∈ b, p c = true) ∧
      (∀ c, (trimMatches p w).head? = some c → p c = false) ∧
      (∀ c, (trimMatches p w).getLast? = some c → p c = false) := by
  refine ⟨w.takeWhile p, ((w.dropWhile p).reverse.takeWhile p).reverse, ?_, takeWhile_all p w, ?_, ?_, ?_⟩
  · unfold trimMatches
    rw [List.append_assoc, ← List.reverse_append, List.takeWhile_append_dropWhile, List.reverse_reverse,
      List.takeWhile_append_dropWhile]
  · intro c hc
    exact takeWhile_all p _ c (List.mem_reverse.1 hc)
  · intro c hc
    unfold trimMatches at hc
    -- the head of the trimmed word is the head of the left-trimmed word
    have hsuf : (((w.dropWhile p).reverse.dropWhile p).reverse) <+: w.dropWhile p := by
      have := List.dropWhile_suffix p (l := (w.dropWhile p).reverse)
      have := List.reverse_prefix.2 this
      rwa [List.reverse_reverse] at this
    obtain ⟨r, hr⟩ := hsuf
    apply dropWhile_head p w c
    rw [← hr]
    rw [List.head?_append, hc]
    rfl
  · intro c hc
    unfold trimMatches at hc
    rw [List.getLast?_reverse] at hc
    exact dropWhile_head p _ c hc

/-- A trimmed core is unique. -/
theorem trimMatches_nil (p : Char → Bool) (w : List Char) : trimMatches p w = [] ↔ ∀ c ∈ w, p c = true := by
  obtain ⟨a, b, h1, h2, h3, h4, h5⟩ := trimMatches_spec p w
  constructor
  · intro h c hc
    rw [h1, h] at hc
    simp only [List.append_nil, List.mem_append] at hc
    rcases hc with hc | hc
    · exact h2 c hc
    · exact h3 c hc
  · intro h
    cases ht : trimMatches p w with
    | nil => rfl
    | cons c l =>
      have := h4 c (by rw [ht]; rfl)
      rw [h c (by rw [h1, ht]; simp)] at this
      cases this

end NextPlaid.Text
