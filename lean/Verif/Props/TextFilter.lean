import Verif.Proofs.TextFilter5

/-! C67: `colgrep -e` selects the units that contain the pattern. -/

namespace NextPlaid.Props

open NextPlaid.Spec NextPlaid.Ere
open NextPlaid.Regex (Flags)
open NextPlaid.Display (TextFlags)

namespace TextExample

@[reducible] def chars : Chars := ⟨Char.toLower, fun c => c.isAlphanum || c = '_'⟩

@[reducible] def flags : TextFlags := ⟨true, false, false, false⟩

@[reducible] def rows : List Row := [
  ⟨7, "def load():\n  set_x{1}".toList⟩,
  ⟨8, "def f():\n  GET_XX()".toList⟩,
  ⟨9, "def g():\n  get_y".toList⟩,
  ⟨12, "s = r'\\(get\\|set\\)_x\\{1,\\}'".toList⟩]

def word (t : List Char) : Pat := t.foldr (fun c p => .cat (.lit c) p) .empty

/-- `\(get\|set\)_x\{1,\}` -/
@[reducible] def pattern : Pat :=
  .cat (.group true (.alt true (word "get".toList) (word "set".toList)))
    (.cat (.lit '_') (.many (.range true ['1'] []) (.lit 'x')))

theorem written : pattern.write = "\\(get\\|set\\)_x\\{1,\\}".toList := by decide +kernel

theorem legal : pattern.Legal := by
  simp [pattern, word, Pat.Legal, Often.Legal, Pat.isAlt, Pat.single, Pat.spell, escaped, mark, decimal]

theorem oneSense : pattern.OneSense := by left; decide +kernel

/-- `foo\(\)`, with parentheses that stand for themselves. -/
@[reducible] def call : Pat := word "foo()".toList

/-- `cat|dog` -/
@[reducible] def either : Pat := .alt false (word "cat".toList) (word "dog".toList)

end TextExample

open TextExample

variable {ch : Chars} {order : List Int → List Int} {rows : List Row} {f : TextFlags}

/-- Selected are the units in which the pattern occurs, in either spelling of groups, alternatives and repetitions, and those that
contain the text of the pattern itself; each once.  `order` is the order in which a hash set is read. -/
theorem C67_pattern {p : Pat} (h : p.Legal) (hs : p.OneSense) (h0 : p.write ≠ []) (ho : ∀ l, (order l).Perm l) (hf : f.fixed = false)
    (hx : f.extended = true) (hw : f.word = false) :
    ∃ ids, textFilter ch order rows f p.write = some ids ∧ ((rows.map (·.id)).Nodup → ids.Nodup) ∧
      ∀ i, i ∈ ids ↔ ∃ r ∈ rows, r.id = i ∧
        (Occurs (searchFlags ch f.caseSensitive true) p r.code ∨ Verbatim ch false p.write r.code) :=
  filter_pattern h hs h0 ho hf hx hw

example : ∃ ids, textFilter chars id TextExample.rows flags pattern.write = some ids ∧
    ∀ i, i ∈ ids ↔ ∃ r ∈ TextExample.rows, r.id = i ∧
      (Occurs (searchFlags chars false true) pattern r.code ∨ Verbatim chars false pattern.write r.code) := by
  obtain ⟨ids, h1, _, h2⟩ := C67_pattern (ch := chars) (order := id) (rows := TextExample.rows) (f := flags) legal oneSense
    (by rw [written]; decide) (fun _ => .refl _) rfl rfl rfl
  exact ⟨ids, h1, h2⟩

example : textFilter chars id TextExample.rows flags "\\(get\\|set\\)_x\\{1,\\}".toList = some [7, 8, 12] := by decide +kernel

/-- With `-w`, the pattern occurs between edges of words.  Patterns that are an alternative are left out: see `C67_word_refuted`. -/
theorem C67_word_partial {p : Pat} (h : p.Legal) (hs : p.OneSense) (ha : p.isAlt = false) (h0 : p.write ≠ [])
    (ho : ∀ l, (order l).Perm l) (hf : f.fixed = false) (hw : f.word = true) :
    ∃ ids, textFilter ch order rows f p.write = some ids ∧ ((rows.map (·.id)).Nodup → ids.Nodup) ∧
      ∀ i, i ∈ ids ↔ ∃ r ∈ rows, r.id = i ∧
        (OccursWord (searchFlags ch f.caseSensitive true) p r.code ∨ Verbatim ch true p.write r.code) :=
  filter_word h hs ha h0 ho hf hw

example : textFilter chars id TextExample.rows { flags with word := true } pattern.write = some [7, 8] := by
  rw [written]; decide +kernel

/-- `-w 'cat|dog'` selects a unit with `category`: the edges of words are asked for before `cat` and after `dog` only. -/
theorem C67_word_refuted : ∃ (ch : Chars) (p : Pat) (code : List Char), p.Legal ∧ p.OneSense ∧ p.write = "cat|dog".toList ∧
    textFilter ch id [⟨1, code⟩] ⟨true, false, true, false⟩ p.write = some [1] ∧
    ¬ OccursWord (searchFlags ch false true) p code ∧ ¬ Verbatim ch true p.write code := by
  have hl : either.Legal := by simp [either, word, Pat.Legal, Pat.isAlt, Pat.spell, escaped]
  have hg : (Pat.group false either).Legal := hl
  have hw := word_legal hg rfl
  refine ⟨chars, either, "category".toList, hl, .inl (by decide +kernel), by decide +kernel, by decide +kernel, ?_, ?_⟩
  · have e : OccursWord (searchFlags chars false true) either "category".toList ↔
        Occurs (searchFlags chars false true) (.cat .edge (.cat (.group false either) .edge)) "category".toList := Iff.rfl
    obtain ⟨r, h1, h2⟩ := parse_final hw
    rw [e, ← h2]
    have : (Regex.parse (final (.cat .edge (.cat (.group false either) .edge)))).map
        (fun r => Regex.isMatch (searchFlags chars false true) r "category".toList) = some false := by decide +kernel
    rw [h1] at this
    simpa using this
  · obtain ⟨hit, h1, h2⟩ := compile_fixed chars ⟨true, false, true, false⟩ either.write
    have : (compile chars (fixedSource ⟨true, false, true, false⟩ either.write)).map (fun h => h "category".toList) = some false := by
      decide +kernel
    rw [h1] at this
    rw [← h2]
    simpa using this

/-- `foo\(\)`, asking for parentheses, selects a unit without them: the escaped parentheses are taken for an empty group. -/
theorem C67_parentheses_refuted : ∃ (ch : Chars) (p : Pat) (code : List Char), p.Legal ∧ p.write = "foo\\(\\)".toList ∧
    textFilter ch id [⟨1, code⟩] ⟨true, false, false, false⟩ p.write = some [1] ∧
    ¬ Occurs (searchFlags ch false true) p code ∧ ¬ Verbatim ch false p.write code := by
  have hl : call.Legal := by simp [call, word, Pat.Legal, Pat.isAlt, Pat.spell, escaped]
  refine ⟨chars, call, "food".toList, hl, by decide +kernel, by decide +kernel, ?_, ?_⟩
  · obtain ⟨r, h1, h2⟩ := parse_final hl
    rw [← h2]
    have : (Regex.parse (final call)).map (fun r => Regex.isMatch (searchFlags chars false true) r "food".toList) = some false := by
      decide +kernel
    rw [h1] at this
    simpa using this
  · show ¬ call.write <:+: "food".toList
    decide +kernel

/-- With `-F`, selected are the units that contain the text, or contain it between edges of words with `-w`.  Capital letters count,
whatever is asked. -/
theorem C67_fixed {t : List Char} (h0 : t ≠ []) (hf : f.fixed = true) :
    ∃ ids, textFilter ch order rows f t = some ids ∧ ids.Sublist (rows.map (·.id)) ∧
      ∀ i, i ∈ ids ↔ ∃ r ∈ rows, r.id = i ∧ Verbatim ch f.word t r.code :=
  filter_fixed h0 hf

example : textFilter chars id TextExample.rows { flags with fixed := true } "f()".toList = some [8] := by decide +kernel

/-- The documentation says that matching is case-insensitive; with `-F` it is not. -/
theorem C67_fixed_case_refuted : ∃ (ch : Chars) (t code : List Char), t.map ch.fold = code.map ch.fold ∧
    textFilter ch id [⟨1, code⟩] ⟨false, true, false, false⟩ t = some [] :=
  ⟨chars, "todo".toList, "TODO".toList, by decide +kernel, by decide +kernel⟩

/-- Not a regular expression: selected are the units that contain the text, letters equal as asked. -/
theorem C67_literal {t : List Char} (h0 : t ≠ []) (ho : ∀ l, (order l).Perm l) (hf : f.fixed = false) (hx : f.extended = false)
    (hw : f.word = false) :
    ∃ ids, textFilter ch order rows f t = some ids ∧ ((rows.map (·.id)).Nodup → ids.Nodup) ∧
      ∀ i, i ∈ ids ↔ ∃ r ∈ rows, r.id = i ∧ ∃ u s v, r.code = u ++ s ++ v ∧
        s.map (searchFlags ch f.caseSensitive true).fold = t.map (searchFlags ch f.caseSensitive true).fold :=
  filter_literal h0 ho hf hx hw

example : textFilter chars id TextExample.rows { flags with extended := false } "get_xx(".toList = some [8] := by decide +kernel

/-- Whatever the pattern, also one that is not a regular expression: it never fails, and a unit that contains the text of the pattern is
selected. -/
theorem C67_verbatim {t : List Char} (h0 : t ≠ []) (ho : ∀ l, (order l).Perm l) :
    ∃ ids, textFilter ch order rows f t = some ids ∧ ∀ r ∈ rows, Verbatim ch f.word t r.code → r.id ∈ ids := by
  cases hf : f.fixed with
  | true =>
    obtain ⟨ids, h1, _, h2⟩ := filter_fixed (ch := ch) (order := order) (rows := rows) h0 hf
    exact ⟨ids, h1, fun r hr hv => (h2 _).2 ⟨r, hr, rfl, hv⟩⟩
  | false =>
    cases hc : compile ch (filterSource f t) with
    | none =>
      obtain ⟨ids, h1, _, h2⟩ := filter_none (ch := ch) (order := order) (rows := rows) h0 hf hc
      exact ⟨ids, h1, fun r hr hv => (h2 _).2 ⟨r, hr, rfl, hv⟩⟩
    | some hit =>
      obtain ⟨ids, h1, _, h2⟩ := filter_some (ch := ch) (order := order) (rows := rows) h0 ho hf hc
      exact ⟨ids, h1, fun r hr hv => (h2 _).2 ⟨r, hr, rfl, .inr hv⟩⟩

example : textFilter chars id TextExample.rows flags "GET_XX(".toList = some [8] := by decide +kernel

/-- A pattern that the engine refuses is searched for as a text. -/
theorem C67_unreadable {t : List Char} (h0 : t ≠ []) (hf : f.fixed = false) (hc : compile ch (filterSource f t) = none) :
    ∃ ids, textFilter ch order rows f t = some ids ∧ ((rows.map (·.id)).Nodup → ids.Nodup) ∧
      ∀ i, i ∈ ids ↔ ∃ r ∈ rows, r.id = i ∧ Verbatim ch f.word t r.code :=
  filter_none h0 hf hc

example : (compile chars (filterSource flags "GET_XX(".toList)).isNone = true := by decide +kernel

/-- A unit is selected if the pattern occurs in one of its lines. -/
theorem C67_line {p : Pat} (h : p.Legal) (hs : p.OneSense) (h0 : p.write ≠ []) (ho : ∀ l, (order l).Perm l) (hf : f.fixed = false)
    (hx : f.extended = true) (hw : f.word = false) (hn : ch.isWord '\n' = false) {i : Int} {u l v : List Char}
    (hr : ⟨i, u ++ l ++ v⟩ ∈ rows) (hu : u = [] ∨ u.getLast? = some '\n') (hv : v = [] ∨ v.head? = some '\n')
    (hl : Occurs (searchFlags ch f.caseSensitive false) p l) : ∃ ids, textFilter ch order rows f p.write = some ids ∧ i ∈ ids := by
  obtain ⟨ids, h1, _, h2⟩ := filter_pattern (ch := ch) (order := order) (rows := rows) h hs h0 ho hf hx hw
  exact ⟨ids, h1, (h2 i).2 ⟨_, hr, rfl, .inl (occurs_line hn hu hv hl)⟩⟩

/-- The lines that are then shown as matching (C66) are those in which the pattern occurs. -/
theorem C67_shown {lower : List Char → List Char} {p : Pat} (h : p.Legal) (hs : p.OneSense) (hf : f.fixed = false)
    (hx : f.extended = true) (hw : f.word = false) (line : List Char) :
    LineMatches (engine ch lower) f p.write line ↔ Occurs (searchFlags ch f.caseSensitive false) p line :=
  lineMatches_iff h hs hf hx hw line

/-- With `-w`: those in which it occurs between edges of words (with the exception of `C67_word_partial`). -/
theorem C67_shown_word_partial {lower : List Char → List Char} {p : Pat} (h : p.Legal) (hs : p.OneSense) (ha : p.isAlt = false)
    (hf : f.fixed = false) (hx : f.extended = true) (hw : f.word = true) (line : List Char) :
    LineMatches (engine ch lower) f p.write line ↔ OccursWord (searchFlags ch f.caseSensitive false) p line :=
  lineMatches_word h hs ha hf hx hw line

/-- With `-F`: those that contain the text, letters equal as asked; with `-w` between edges of words. -/
theorem C67_shown_fixed {lower : List Char → List Char} {t : List Char} (hx : f.extended = false ∨ f.fixed = true) (line : List Char) :
    LineMatches (engine ch lower) f t line ↔ if f.word then
      ∃ u s v, line = u ++ s ++ v ∧ s.map (searchFlags ch f.caseSensitive false).fold = t.map (searchFlags ch f.caseSensitive false).fold ∧
        (u.getLast?.any ch.isWord ≠ (s ++ v).head?.any ch.isWord) ∧ ((u ++ s).getLast?.any ch.isWord ≠ v.head?.any ch.isWord)
    else if f.caseSensitive then t <:+: line else lower t <:+: lower line := by
  by_cases hw : f.word = true
  · rw [if_pos hw]; exact lineMatches_fixed_word hx hw line
  · rw [if_neg hw]
    have hsrc : Display.source f t = none := by
      unfold Display.source
      rw [if_neg (by rcases hx with h | h <;> simp [h]), if_neg hw]
    unfold LineMatches InLine
    rw [hsrc]
    rfl

example (line : List Char) : LineMatches (engine chars id) { flags with word := true } pattern.write line ↔
    OccursWord (searchFlags chars false true.not) pattern line :=
  C67_shown_word_partial (f := { flags with word := true }) legal oneSense rfl rfl rfl rfl line

example : LineMatches (engine chars id) { flags with fixed := true, word := true } "get".toList "X = GET (1)".toList :=
  (C67_shown_fixed (f := { flags with fixed := true, word := true }) (.inr rfl) _).2
    ⟨"X = ".toList, "GET".toList, " (1)".toList, by decide +kernel⟩

example : ∃ ids, textFilter chars id TextExample.rows flags pattern.write = some ids ∧ 8 ∈ ids :=
  C67_line (ch := chars) (order := id) (rows := TextExample.rows) (f := flags) legal oneSense (by rw [written]; decide)
    (fun _ => .refl _) rfl rfl rfl (by decide) (i := 8) (u := "def f():\n".toList) (l := "  GET_XX()".toList) (v := [])
    (by decide +kernel) (.inr (by decide +kernel)) (.inl rfl)
    ((C67_shown (f := flags) (lower := id) legal oneSense rfl rfl rfl _).1 (by
      have : ((Display.source flags pattern.write).bind (engine chars id).compile).map (fun h => h "  GET_XX()".toList) = some true := by
        decide +kernel
      unfold LineMatches
      cases hc : (Display.source flags pattern.write).bind (engine chars id).compile with
      | none => rw [hc] at this; simp at this
      | some hit => rw [hc] at this; simpa using this))

end NextPlaid.Props
