/-!
Model of the text that colgrep embeds for a code unit: /repo/colgrep/src/embed.rs:1-220.

Texts are lists of characters.  What is white space, an upper-case or a lower-case letter, and the lower case of a text, are
parameters.  Simplified: the path of a unit's file is relative, given by its components.
-/

namespace NextPlaid.EmbedText

/-- The parameters. -/
structure Alphabet where
  white : Char → Bool
  upper : Char → Bool
  lower : Char → Bool
  low : List Char → List Char

/-- `UnitType`: /repo/colgrep/src/parser/types.rs. -/
inductive Kind where
  | function | method | class_ | constant | document | section | rawCode
deriving DecidableEq, Repr

/-- The fields of `CodeUnit` that are used. -/
structure CodeUnit where
  kind : Kind
  name : List Char
  signature : List Char
  extends_ : Option (List Char)
  parentClass : Option (List Char)
  docstring : Option (List Char)
  parameters : List (List Char)
  returnType : Option (List Char)
  calls : List (List Char)
  calledBy : List (List Char)
  variables : List (List Char)
  imports : List (List Char)
  file : List (List Char)
  code : List Char

/-- `MAX_EMBEDDING_TEXT_CHARS`, `TRUNCATION_MARKER`: embed.rs:9-10. -/
def maxChars : Nat := 8 * 1024
def marker : List Char := "\n[...truncated...]\n".toList

/-! ### The path -/

/-- `shorten_path`: embed.rs:14-23. -/
def shortenPath (components : List (List Char)) : List Char :=
  List.intercalate ['/'] (components.drop (components.length - 4))

def isSlash (c : Char) : Bool := c == '/' || c == '\\'

/-- `path_str.rsplit(['/', '\\']).next()`: embed.rs:33. -/
def fileName (p : List Char) : List Char := (p.reverse.takeWhile fun c => !isSlash c).reverse

/-- The path without what follows its last dot: embed.rs:36-40. -/
def stem (p : List Char) : List Char :=
  match p.reverse.dropWhile fun c => c != '.' with
  | [] => p
  | _ :: rest => rest.reverse

/-- The body of the loop: embed.rs:45-72; `prev` is the character before. -/
def pathStep (A : Alphabet) (result : List Char) (prev : Option Char) (c : Char) : List Char :=
  if isSlash c then
    if result.getLast? != some ' ' && !result.isEmpty then result ++ [' '] else result
  else if c == '_' || c == '-' || c == '.' then
    if result.getLast? != some ' ' then result ++ [' '] else result
  else if A.upper c then
    (if prev.any A.lower then result ++ [' '] else result) ++ [c]
  else result ++ [c]

def pathLoop (A : Alphabet) (result : List Char) (prev : Option Char) : List Char → List Char
  | [] => result
  | c :: cs => pathLoop A (pathStep A result prev c) (some c) cs

/-- `split_whitespace`; `cur` is the word being read. -/
def wordsFrom (white : Char → Bool) (cur : List Char) : List Char → List (List Char)
  | [] => if cur.isEmpty then [] else [cur]
  | c :: cs =>
    if white c then (if cur.isEmpty then [] else [cur]) ++ wordsFrom white [] cs
    else wordsFrom white (cur ++ [c]) cs

/-- `normalize_path_for_embedding`: embed.rs:31-82. -/
def normalizePath (A : Alphabet) (p : List Char) : List Char :=
  A.low (List.intercalate [' '] (wordsFrom A.white [] (pathLoop A [] none (stem p)))) ++ ' ' :: fileName p

/-! ### Truncation -/

/-- `trim_end`. -/
def trimEnd (white : Char → Bool) (s : List Char) : List Char := (s.reverse.dropWhile white).reverse

/-- `truncate_text`: embed.rs:99-112. -/
def truncate (A : Alphabet) (text : List Char) (max : Nat) : List Char :=
  if text.length ≤ max then text
  else if max ≤ marker.length then marker.take max
  else trimEnd A.white (text.take (max - marker.length)) ++ marker

/-! ### The text -/

/-- embed.rs:124-132. -/
def kindName : Kind → List Char
  | .function => "Function".toList
  | .method => "Method".toList
  | .class_ => "Class".toList
  | .constant => "Constant".toList
  | .document => "Document".toList
  | .section => "Section".toList
  | .rawCode => "Code block".toList

/-- A line for a text that is not empty. -/
def part (label : String) (value : List Char) : List (List Char) :=
  if value.isEmpty then [] else [label.toList ++ value]

/-- A line for a list that is not empty. -/
def partList (label : String) (values : List (List Char)) : List (List Char) :=
  if values.isEmpty then [] else [label.toList ++ List.intercalate [',', ' '] values]

/-- The lines before the code: embed.rs:133-204.  The label of the return type of a constant (lines 167-171) never applies: constants
are handled before. -/
def headParts (A : Alphabet) (u : CodeUnit) : List (List Char) :=
  [kindName u.kind ++ [':', ' '] ++ u.name] ++ part "Signature: " u.signature ++ part "Extends: " (u.extends_.getD []) ++
    part "Class: " (u.parentClass.getD []) ++ part "Description: " (u.docstring.getD []) ++ partList "Parameters: " u.parameters ++
    part "Returns: " (u.returnType.getD []) ++ partList "Calls: " u.calls ++ partList "Called by: " u.calledBy ++
    partList "Variables: " u.variables ++ partList "Uses: " u.imports ++ ["File: ".toList ++ normalizePath A (shortenPath u.file)]

/-- `build_embedding_text`: embed.rs:116-212. -/
def buildText (A : Alphabet) (u : CodeUnit) : List Char :=
  if u.kind = .rawCode ∨ u.kind = .constant then truncate A u.code maxChars
  else truncate A (List.intercalate ['\n'] (headParts A u ++ part "Code:\n" u.code)) maxChars

end NextPlaid.EmbedText
