import Verif.Model.Json
import Verif.Model.JsonText
import Verif.Model.Store

/-!
Model of the words by which a metadata value can be found: the text that is indexed when a row is added
(`metadata_to_text`) and the text that is indexed when the keyword index is filled from the tables again
(`rebuild`, `update_rows`), for JSON values of any depth, with FTS5's `unicode61` tokenizer.

Text is a list of characters.
-/

namespace NextPlaid.Words
open NextPlaid NextPlaid.Db NextPlaid.Index
open NextPlaid.JsonText (J Reals)

/-! ### The tokenizer -/

/-- The characters outside ASCII: which of them belong to words, and what they are folded to (a mark that is dropped is folded to
nothing).  `unicode61` is the value of `fts5_tokenize_value`, /repo/next-plaid/src/text_search.rs:78-84; the tokenizer is part of SQLite. -/
structure Letters where
  other : Char → Bool
  fold : Char → Option Char

variable (A : Letters)

/-- A character of a word: in ASCII the letters and the digits. -/
def Letters.isWord (c : Char) : Bool := if c.toNat < 128 then c.isAlphanum else A.other c

/-- A character as it is compared. -/
def Letters.folded (c : Char) : Option Char := if c.toNat < 128 then some c.toLower else A.fold c

/-- The end of a run of word characters. -/
def flush (cur : List Char) : List (List Char) := if cur = [] then [] else [cur.filterMap A.folded]

/-- The maximal runs of word characters, from left to right; `cur` is the run that has begun. -/
def wordsFrom (cur : List Char) : List Char → List (List Char)
  | [] => flush A cur
  | c :: s => if A.isWord c then wordsFrom (cur ++ [c]) s else flush A cur ++ wordsFrom [] s

/-- The words of a text. -/
def words (s : List Char) : List (List Char) := wordsFrom A [] s

/-! ### Text of a value that is added -/

/-- Numbers: how serde_json prints them (`real`), how SQLite converts and prints them (`lite`) and how `f64::to_string` prints them
(`display`).  All three are outside /repo. -/
structure Numbers (R : Type) where
  real : Reals R
  lite : Json.Floats R
  display : R → List Char

variable {R : Type} (N : Numbers R)

mutual

/-- `collect_text_parts`: /repo/next-plaid/src/text_search.rs:275-296.  A `Number` is always finite; for another one the text is that of
`JsonText.render`. -/
def collect : J R → List (List Char)
  | .str s => if s = [] then [] else [s]
  | .int i => [JsonText.showInt i]
  | .real r => [(N.real.shows r).getD ['n', 'u', 'l', 'l']]
  | .bool b => [if b then ['t', 'r', 'u', 'e'] else ['f', 'a', 'l', 's', 'e']]
  | .obj l => collectMembers l
  | .arr l => collectItems l
  | .null => []

/-- Lines 289-293. -/
def collectItems : List (J R) → List (List Char)
  | [] => []
  | v :: l => collect v ++ collectItems l

/-- Lines 284-288: the values of the map. -/
def collectMembers : List (List Char × J R) → List (List Char)
  | [] => []
  | (_, v) :: l => collect v ++ collectMembers l

end

/-- `metadata_to_text`: /repo/next-plaid/src/text_search.rs:269-273. -/
def metadataText (v : J R) : List Char := [' '].intercalate (collect N v)

/-! ### Text of a value that is read from its column -/

/-- The value as `json_to_sql` (/repo/next-plaid/src/filtering.rs:634-650) sees it: an array or object is its compact text. -/
def short : J R → Json.Json R
  | .null => .null
  | .bool b => .bool b
  | .int i => .int i
  | .real r => .real r
  | .str s => .str s
  | v => .tree (JsonText.compact N.real v)

/-- A value that was read from a column. -/
def long : Json.Json R → J R
  | .null => .null
  | .bool b => .bool b
  | .int i => .int i
  | .real r => .real r
  | .str s => .str s
  | .tree t => .str t

/-- The metadata store over JSON values of any depth. -/
@[reducible] def sql : Sql where
  V := J R
  null := .null
  isNull := fun v => match v with
    | .null => true
    | _ => false
  Ty := Json.Ty
  text := .text
  infer := fun v => Json.infer (short N v)
  cell := fun ty v => long (Json.read N.lite (Json.store N.lite ty (Json.toSql N.lite (short N v))))

/-- The text of one column: /repo/next-plaid/src/text_search.rs:651-660, 896-905; `String`, `i64` and `f64` are tried in this order and
anything else has no text.  (A number that is not finite counts as NULL here; the code would index `inf`.) -/
def columnText : J R → List (List Char)
  | .str s => if s = [] then [] else [s]
  | .int i => [JsonText.showInt i]
  | .real r => [N.display r]
  | _ => []

/-- The keyword index with the `unicode61` tokenizer.  A part is a word: the words of parts joined by spaces are the words of the parts
(theorem `C91_joined`). -/
@[reducible] def env : TextEnv (sql N) where
  Part := List Char
  Tok := List Char
  decTok := inferInstance
  parts := fun v => words A (metadataText N v)
  colParts := fun v => (columnText N v).flatMap (words A)
  toks := fun _ ps => ps
  prep := id

/-! ### Adding to an index that exists -/

/-- `MmapIndex::update_with_metadata` with metadata, on an index that was just opened: /repo/next-plaid/src/index.rs:1604-1630.  The tables
are extended, the keyword index is not touched. -/
def Store.extend {E : Env} {S : Sql} {T : TextEnv S} (s : Store E T) (docs : List (List E.Row)) (items : List (Item S)) (cfg : Cfg) :
    Store E T × Res (List Int) :=
  if items.length ≠ docs.length then (s, .error .err)
  else
    match load s.disk with
    | .error e => (s, .error e)
    | .ok x =>
      match Index.update s.disk x.metadata.numDocs docs cfg with
      | .error e => (s, .error e)
      | .ok (d, ids) =>
        match Db.update s.db items ids with
        | .error e => ({ s with disk := d }, .error e)
        | .ok (db, _) => ({ s with disk := d, db := db }, .ok ids)

end NextPlaid.Words
