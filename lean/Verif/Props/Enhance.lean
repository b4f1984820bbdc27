import Verif.Proofs.Enhance

/-!
C75: what `colgrep -e PATTERN QUERY` searches for by meaning.
-/

namespace NextPlaid.Props
open NextPlaid.Enhance NextPlaid.Spec

/-- White characters are the blank, the tab and the ends of lines, for the examples. -/
def white75 (c : Char) : Bool := c = ' ' || c = '\t' || c = '\n' || c = '\r'

/-- **Every text has exactly one list of words**, so the statements below are about all queries and patterns. -/
theorem C75_words (white : Char → Bool) (t : List Char) : ∃ ws, Laid white ws t ∧ ∀ vs, Laid white vs t → vs = ws :=
  ⟨_, split_laid t, fun _ h => (laid_split h).symm⟩

/-- **The literal text of a pattern**, for every pattern: what is left of it for the search by meaning are the words of
its literal text, in order, with one blank between them.  Operators, anchors, sets and repetition counts leave nothing,
classes and alternatives separate words, and escaped characters stand for themselves. -/
theorem C75_literal_text (white : Char → Bool) (hb : white ' ' = true) (p : Rx) (hp : p.Plain) (ws : List (List Char)) (hw : Laid white ws p.text) :
    strip white p.spell = List.intercalate [' '] ws := by
  rw [strip_spell hb p hp, laid_split hw, join_eq]

/-- **The query comes first and is complete**, for every query and pattern: the text searched for begins with the query
as it was given; its words are those of the query followed by those of the pattern's text that the query does not have,
apart from upper and lower case; and nothing is appended exactly when there are none. -/
theorem C75_merge (white : Char → Bool) (lower : List Char → List Char) (hb : white ' ' = true) (q p : List Char) (qs ps : List (List Char))
    (hq : Laid white qs q) (hp : Laid white ps (strip white p)) :
    q <+: enhanced white lower q (some p) ∧
      Laid white (qs ++ ps.filter fun w => ∀ v ∈ qs, lower v ≠ lower w) (enhanced white lower q (some p)) ∧
      (enhanced white lower q (some p) = q ↔ ∀ w ∈ ps, ∃ v ∈ qs, lower v = lower w) := by
  have hl := merge_laid (lower := lower) hb hq hp
  have hf : (ps.filter fun w => !(qs.map lower).contains (lower w)) = ps.filter fun w => ∀ v ∈ qs, lower v ≠ lower w := by
    refine List.filter_congr fun w _ => ?_
    rw [Bool.eq_iff_iff]
    simp
  have hn := new_eq (lower := lower) hq hp
  rw [hf] at hl hn
  have hpre : q <+: merge white lower q (strip white p) := by
    unfold merge
    split
    · exact List.prefix_rfl
    · split
      · exact List.prefix_rfl
      · rw [List.append_assoc]; exact List.prefix_append _ _
  refine ⟨hpre, hl, ⟨fun h w hw => ?_, fun h => ?_⟩⟩
  · have h1 := laid_split hl
    change merge white lower q (strip white p) = q at h
    rw [h, laid_split hq] at h1
    have h2 := List.self_eq_append_right.mp h1
    rw [List.filter_eq_nil_iff] at h2
    have := h2 w hw
    simpa using this
  · show merge white lower q (strip white p) = q
    unfold merge
    split
    · rfl
    · rw [if_pos]
      rw [hn, List.filter_eq_nil_iff]
      intro w hw
      obtain ⟨v, hv, he⟩ := h w hw
      simp only [decide_eq_true_eq]
      exact fun hc => hc v hv he

/-- **Once is enough**: adding the same pattern to the result again changes nothing. -/
theorem C75_once (white : Char → Bool) (lower : List Char → List Char) (hb : white ' ' = true) (q p : List Char) :
    enhanced white lower (enhanced white lower q (some p)) (some p) = enhanced white lower q (some p) :=
  merge_again hb q (strip white p)

/-- **Without a pattern** the query is searched for as it is. -/
theorem C75_none (white : Char → Bool) (lower : List Char → List Char) (q : List Char) : enhanced white lower q none = q := rfl

/-- Examples: `(fetch|load)_\w+\(x\)` with the query `fetch data`. -/
example : (Rx.cat (.group (.alt (.lit 'f') (.lit 'g'))) (.cat (.plus (.cls 'w')) (.lit '('))).spell = "(f|g)\\w+\\(".toList ∧
    (Rx.cat (.group (.alt (.lit 'f') (.lit 'g'))) (.cat (.plus (.cls 'w')) (.lit '('))).text = "f g (".toList ∧
    strip white75 "(f|g)\\w+\\(".toList = "f g (".toList := by decide +kernel
example : (Rx.cat (.group (.alt (.lit 'f') (.lit 'g'))) (.cat (.plus (.cls 'w')) (.lit '('))).Plain :=
  ⟨⟨trivial, trivial⟩, (by simp [Rx.Plain]), trivial⟩
example : enhanced white75 (List.map Char.toLower) "Fetch data".toList (some "(fetch|load)[a-z]{2,3}".toList) = "Fetch data load".toList := by
  decide +kernel
example : Laid white75 ["ab".toList, "c".toList] " ab  c".toList := by
  exact .word [' '] "ab".toList "  c".toList ["c".toList] (by decide) (by decide) (by decide) (Or.inr ⟨' ', " c".toList, rfl, rfl⟩)
    (.word "  ".toList "c".toList [] [] (by decide) (by decide) (by decide) (Or.inl rfl) (.none [] (by simp)))

/-! ### What does not hold -/

/-- **Group options are searched for**: the `:` of `(?:…)` and the flag of `(?i)` stay. -/
theorem C75_group_options_refuted :
    strip white75 "(?:foo)".toList = ":foo".toList ∧ strip white75 "(?i)foo".toList = "ifoo".toList := by decide +kernel

/-- **Fixed strings are stripped too**: with `-F` the text `a.b(c)` is matched as it stands, and searched for as `abc`. -/
theorem C75_fixed_strings_refuted :
    strip white75 "a.b(c)".toList = "abc".toList ∧ strip white75 "x[i]".toList = "x".toList := by decide +kernel

/-- **Basic syntax is not translated**: when the code is matched, `\|`, `\(` and `\)` are read as alternation and group
(/repo/colgrep/src/index/mod.rs:3142, applied at 3932), here as literal characters. -/
theorem C75_basic_syntax_refuted :
    strip white75 "foo\\|bar".toList = "foo|bar".toList ∧ strip white75 "\\(foo\\)".toList = "(foo)".toList := by decide +kernel

/-- **A word is repeated** when the pattern has it twice and the query does not have it. -/
theorem C75_repeated_refuted :
    enhanced white75 (List.map Char.toLower) "query".toList (some "foo|foo".toList) = "query foo foo".toList := by decide +kernel

/-- **An unclosed brace or bracket swallows the rest** of a fixed string. -/
theorem C75_unclosed_refuted (r : List Char) (h : '}' ∉ r) : strip white75 ("fn main() {".toList ++ r) = "fn main".toList := by
  unfold strip
  have h1 : ("fn main() {".toList ++ r).foldl stripStep (.normal, []) = (.brace, "fn main ".toList) := by
    rw [List.foldl_append]
    have : "fn main() {".toList.foldl stripStep (.normal, []) = (.brace, "fn main ".toList) := by decide +kernel
    rw [this]
    exact fold_brace _ r (fun c hc he => h (he ▸ hc))
  rw [h1]
  decide +kernel

end NextPlaid.Props
