import Verif.Model.Db

/-!
Model of the keyword index kept next to the metadata, /repo/next-plaid/src/text_search.rs.

FTS5 is modelled as a set of postings (row id, token), kept as a list.  `INSERT` adds the postings of
the given text, the `'delete'` command removes those of the given text, as FTS5 does for an external
content table: it trusts the caller to supply the text that was indexed.
-/

namespace NextPlaid.Db
open NextPlaid

/-- `FtsTokenizer`: /repo/next-plaid/src/text_search.rs:66-72. -/
inductive Tokenizer where
  | unicode61
  | trigram
  | identifierAware
deriving DecidableEq, Repr

/-- How values become words.  A text is the list of the parts that are joined by spaces.
`parts`: `collect_text_parts` (lines 275-296) of one JSON value.  `colParts`: the text of one column as
`rebuild` and `update_rows` read it (lines 649-660, 895-905).  `toks`: FTS5's tokenizer on the joined
text.  `prep`: `tokenize_identifiers` (lines 220-247). -/
structure TextEnv (S : Sql) where
  Part : Type
  Tok : Type
  decTok : DecidableEq Tok
  parts : S.V → List Part
  colParts : S.V → List Part
  toks : Tokenizer → List Part → List Tok
  prep : List Part → List Part

variable {S : Sql}

instance (T : TextEnv S) : DecidableEq T.Tok := T.decTok

/-- The tables `METADATA_FTS_CONTENT` and `METADATA_FTS`, and the tokenizer in `_FTS_SETTINGS_`. -/
structure Fts (T : TextEnv S) where
  tokenizer : Tokenizer
  content : List (Int × List T.Part)
  index : List (Int × T.Tok)

variable {T : TextEnv S}

/-- `metadata_to_text` on an object: /repo/next-plaid/src/text_search.rs:269-296.  A row that is not an
object has no text here (the code indexes the text of the value itself). -/
def itemParts (T : TextEnv S) (it : Item S) : List T.Part := (it.getD []).flatMap fun p => T.parts p.2

/-- `prepare_document_text`: /repo/next-plaid/src/text_search.rs:253-258. -/
def prepare (T : TextEnv S) (tk : Tokenizer) (text : List T.Part) : List T.Part :=
  if tk = .identifierAware then T.prep text else text

/-- `INSERT OR REPLACE` into the content table, `INSERT` into the FTS5 table:
/repo/next-plaid/src/text_search.rs:403-431, 664-676. -/
def Fts.insertRow (f : Fts T) (id : Int) (text indexed : List T.Part) : Fts T :=
  { f with
    content := (f.content.filter fun c => c.1 != id) ++ [(id, text)]
    index := f.index ++ (T.toks f.tokenizer indexed).map fun t => (id, t) }

/-- The FTS5 `'delete'` command for a row with the given text. -/
def Fts.unpost (f : Fts T) (id : Int) (text : List T.Part) : Fts T :=
  { f with index := f.index.filter fun p => !(p.1 == id && (T.toks f.tokenizer text).contains p.2) }

/-- Text of a row in the content table. -/
def Fts.textOf (f : Fts T) (id : Int) : Option (List T.Part) := (f.content.find? fun c => c.1 == id).map (·.2)

/-- `ensure_tables`: /repo/next-plaid/src/text_search.rs:306-388.  When the tokenizer differs from the
stored one both tables are dropped and start empty. -/
def ensureTables (f : Option (Fts T)) (tk : Tokenizer) : Fts T :=
  match f with
  | none => ⟨tk, [], []⟩
  | some f => if f.tokenizer = tk then f else ⟨tk, [], []⟩

/-- `insert_rows`: /repo/next-plaid/src/text_search.rs:397-443. -/
def insertTexts (f : Fts T) : List (Int × Item S) → Fts T
  | [] => f
  | (id, it) :: l =>
    insertTexts (f.insertRow id (itemParts T it) (prepare T f.tokenizer (itemParts T it))) l

/-- `text_search::index`: /repo/next-plaid/src/text_search.rs:463-491 (the database exists). -/
def ftsIndex (f : Option (Fts T)) (items : List (Item S)) (ids : List Int) (tk : Tokenizer) : Res (Option (Fts T)) :=
  if items = [] then .ok f
  else if items.length ≠ ids.length then .error .err
  else .ok (some (insertTexts (ensureTables f tk) (ids.zip items)))

/-- One id of `text_search::delete`: /repo/next-plaid/src/text_search.rs:546-562. -/
def Fts.deleteRow (f : Fts T) (id : Int) : Fts T :=
  match f.textOf id with
  | some text => { f.unpost id text with content := f.content.filter fun c => c.1 != id }
  | none => f

/-- `text_search::delete`: /repo/next-plaid/src/text_search.rs:503-568. -/
def ftsDelete (f : Option (Fts T)) (ids : List Int) : Option (Fts T) :=
  f.map fun f => ids.foldl Fts.deleteRow f

/-- Text of a row as read back from the metadata tables. -/
def OutRow.text (T : TextEnv S) (r : OutRow S) : List T.Part := r.cols.flatMap fun c => T.colParts c.2

/-- `text_search::rebuild`: /repo/next-plaid/src/text_search.rs:839-935.  The FTS5 `'rebuild'` command
indexes the content table as it is. -/
def ftsRebuild (t : Tables S) (f : Option (Fts T)) : Fts T :=
  let tk := (f.map (·.tokenizer)).getD .unicode61
  let rows := (sortBySubset (joined t)).map fun r => (r.subset, r.text T)
  ⟨tk, rows, rows.flatMap fun r => (T.toks tk r.2).map fun w => (r.1, w)⟩

/-- The first step of `update_rows`: /repo/next-plaid/src/text_search.rs:637-644. -/
def Fts.unpostOld (f : Fts T) (id : Int) : Fts T :=
  match f.textOf id with
  | some text => f.unpost id text
  | none => f

/-- The third step: lines 664-676. -/
def Fts.postNew (t : Tables S) (f : Fts T) (id : Int) : Fts T :=
  match (joined t).find? fun r => r.subset == id with
  | some r => f.insertRow id (r.text T) (r.text T)
  | none => f

/-- One id of `update_rows`: /repo/next-plaid/src/text_search.rs:635-677. -/
def Fts.updateRow (t : Tables S) (f : Fts T) (id : Int) : Fts T := (f.unpostOld id).postNew t id

/-- `update_rows`: /repo/next-plaid/src/text_search.rs:579-682. -/
def ftsUpdateRows (t : Tables S) (f : Option (Fts T)) (ids : List Int) : Option (Fts T) :=
  f.map fun f => ids.foldl (Fts.updateRow t) f

end NextPlaid.Db
