import Verif.Model.EmbedText

/-!
Specification of the text that is embedded for a code unit.
-/

namespace NextPlaid.Spec
open NextPlaid.EmbedText

/-- What is needed of the character classes. -/
structure Alphabet.Lawful (A : Alphabet) : Prop where
  blank : A.white ' ' = true
  black : ∀ c, A.upper c = true ∨ A.lower c = true → A.white c = false
  letter : ∀ c, A.upper c = true ∨ A.lower c = true → c ∉ ['/', '\\', '_', '-', '.']

/-- Characters between the words of a path. -/
def Gap (A : Alphabet) (c : Char) : Prop := c ∈ ['/', '\\', '_', '-', '.'] ∨ A.white c = true

/-- A word: not empty, nothing of a gap in it, no capital after a small letter. -/
def PathWord (A : Alphabet) (w : List Char) : Prop :=
  w ≠ [] ∧ (∀ c ∈ w, ¬ Gap A c) ∧ ∀ a b x y, w = a ++ x :: y :: b → ¬ (A.lower x = true ∧ A.upper y = true)

/-- Between two words there is a gap, or else a small letter and a capital meet. -/
def Meets (A : Alphabet) (w gap w' : List Char) : Prop :=
  gap ≠ [] ∨ ∃ a x y b, w = a ++ [x] ∧ w' = y :: b ∧ A.lower x = true ∧ A.upper y = true

/-- A text is made of these words, with gaps before, between and after them. -/
inductive MadeOf (A : Alphabet) : List Char → List (List Char) → Prop
  | none (gap : List Char) : (∀ c ∈ gap, Gap A c) → MadeOf A gap []
  | last (gap w gap' : List Char) : (∀ c ∈ gap, Gap A c) → PathWord A w → (∀ c ∈ gap', Gap A c) → MadeOf A (gap ++ w ++ gap') [w]
  | more (gap w between w' rest : List Char) (ws : List (List Char)) : (∀ c ∈ gap, Gap A c) → PathWord A w →
      (∀ c ∈ between, Gap A c) → Meets A w between w' → MadeOf A (w' ++ rest) (w' :: ws) →
      MadeOf A (gap ++ w ++ between ++ w' ++ rest) (w :: w' :: ws)

/-- The lines that describe a unit, in order, with what they hold. -/
def described (u : CodeUnit) : List (String × List Char) :=
  let list := List.intercalate [',', ' ']
  [("Signature: ", u.signature), ("Extends: ", u.extends_.getD []), ("Class: ", u.parentClass.getD []),
    ("Description: ", u.docstring.getD []), ("Parameters: ", list u.parameters), ("Returns: ", u.returnType.getD []),
    ("Calls: ", list u.calls), ("Called by: ", list u.calledBy), ("Variables: ", list u.variables), ("Uses: ", list u.imports)]

/-- All that is said of a unit before its code; `path` is what is said of its file.  Lines without contents are left out. -/
def preamble (u : CodeUnit) (kind path : List Char) : List Char :=
  kind ++ ": ".toList ++ u.name ++
    (((described u).filter fun l => !l.2.isEmpty).flatMap fun l => '\n' :: l.1.toList ++ l.2) ++
    "\nFile: ".toList ++ path

/-- The whole text of a unit. -/
def wholeText (u : CodeUnit) (kind path : List Char) : List Char :=
  preamble u kind path ++ (if u.code.isEmpty then [] else "\nCode:\n".toList ++ u.code)

/-- The names in the lists of a unit are not empty. -/
def NamesGiven (u : CodeUnit) : Prop :=
  ∀ n ∈ u.parameters ++ u.calls ++ u.calledBy ++ u.variables ++ u.imports, n ≠ []

/-- The words for the kinds of units that have more than their code. -/
def kindWord : Kind → Option String
  | .function => some "Function"
  | .method => some "Method"
  | .class_ => some "Class"
  | .document => some "Document"
  | .section => some "Section"
  | .constant => none
  | .rawCode => none

/-- A text cut to at most `max` characters: as it is if it fits; else its beginning, without white space at its end, and the mark,
so that no character but white space could be kept more. -/
def CutTo (A : Alphabet) (max : Nat) (mark full text : List Char) : Prop :=
  (full.length ≤ max → text = full) ∧
  (max < full.length → ∃ kept blank, text = kept ++ mark ∧ kept ++ blank = full.take (max - mark.length) ∧
    (∀ c ∈ blank, A.white c = true) ∧ (∀ c, kept.getLast? = some c → A.white c = false))

/-- The path of which the words are given: the last four components. -/
def lastFour (components : List (List Char)) : List Char :=
  List.intercalate ['/'] (components.reverse.take 4).reverse

/-- The part of a path after its last separator. -/
def LastName (p name : List Char) : Prop :=
  ∃ d, p = d ++ name ∧ (∀ c ∈ name, c ≠ '/' ∧ c ≠ '\\') ∧ (∀ c, d.getLast? = some c → c = '/' ∨ c = '\\')

/-- A path without what follows its last dot. -/
def WithoutExtension (p s : List Char) : Prop := ('.' ∉ p ∧ s = p) ∨ ∃ e, '.' ∉ e ∧ p = s ++ '.' :: e

/-- What is said of a path: its words in lower case, and the name of the file as it is. -/
def PathText (A : Alphabet) (p path : List Char) : Prop :=
  ∃ s words name, WithoutExtension p s ∧ MadeOf A s words ∧ LastName p name ∧
    path = A.low (List.intercalate [' '] words) ++ ' ' :: name

/-- The mark of a text that was cut. -/
def cutMark : List Char := "\n[...truncated...]\n".toList

end NextPlaid.Spec
