import Verif.Model.Fts

/-!
Model of the operations that act on the index and on its metadata together.
-/

namespace NextPlaid.Db
open NextPlaid NextPlaid.Index

variable {E : Env} {S : Sql} {T : TextEnv S}

/-- An index directory: the index files, and the metadata database with its keyword index. -/
structure Store (E : Env) {S : Sql} (T : TextEnv S) where
  disk : Disk E := {}
  db : Option (Tables S) := none
  fts : Option (Fts T) := none

/-- `if filtering::exists { update } else { create }`: /repo/next-plaid/src/index.rs:1751-1755. -/
def addMeta (db : Option (Tables S)) (items : List (Item S)) (ids : List Int) : Res (Option (Tables S) × Nat) :=
  if db.isSome then update db items ids else create items ids

/-- The metadata part of an addition: /repo/next-plaid/src/index.rs:1750-1758. -/
def addRows (s : Store E T) (items : List (Item S)) (ids : List Int) (tk : Tokenizer) : Res (Store E T) := do
  let r ← addMeta s.db items ids
  let f ← ftsIndex s.fts items ids tk
  .ok { s with db := r.1, fts := f }

/-- The addition after the index has been updated.  If the metadata part fails the call fails, but the
index has already changed.  (A failure between the metadata and the keyword index leaves the metadata
changed too; with equal lengths the keyword index does not fail.) -/
def addAfter (s : Store E T) (items : List (Item S)) (ids : List Int) (tk : Tokenizer) :
    Store E T × Res (List Int) :=
  match addRows s items ids tk with
  | .error e => (s, .error e)
  | .ok s' => (s', .ok ids)

/-- `MmapIndex::update_or_create_with_metadata`: /repo/next-plaid/src/index.rs:1718-1761.  If the index
update itself fails the directory is shown unchanged (partial index writes are the subject of other
properties). -/
def Store.add (s : Store E T) (docs : List (List E.Row)) (items : List (Item S)) (cfg : Cfg) (tk : Tokenizer) :
    Store E T × Res (List Int) :=
  if items.length ≠ docs.length then (s, .error .err)
  else
    match updateOrCreate s.disk docs cfg with
    | .error e => (s, .error e)
    | .ok (d, ids) => addAfter { s with disk := d } items ids tk

/-- `valid`, sorted and without repetitions: /repo/next-plaid/src/index.rs:1826-1833. -/
def suffixIds (n : Nat) (ids : List Int) : List Int :=
  sortDedup (ids.filter fun id => decide (0 ≤ id ∧ id < (n : Int)))

/-- `is_suffix_delete`: /repo/next-plaid/src/index.rs:1834-1835. -/
def isSuffixDelete (n : Nat) (ids : List Int) : Bool :=
  match suffixIds n ids with
  | [] => false
  | m :: l => decide ((n : Int) - ((m :: l).length : Int) ≤ m)

/-- The keyword index after a deletion: /repo/next-plaid/src/index.rs:1838-1843. -/
def ftsAfterDelete (n : Nat) (ids : List Int) (t : Tables S) (f : Option (Fts T)) : Option (Fts T) :=
  if isSuffixDelete n ids then ftsDelete f (suffixIds n ids) else some (ftsRebuild t f)

/-- The metadata part of a deletion: /repo/next-plaid/src/index.rs:1817-1845. -/
def deleteRows (s : Store E T) (n deleted : Nat) (ids : List Int) : Store E T :=
  if deleted = 0 then s
  else
    match (delete s.db ids).1 with
    | none => s
    | some t => { s with db := some t, fts := ftsAfterDelete n ids t s.fts }

/-- `MmapIndex::delete` on a freshly opened index: /repo/next-plaid/src/index.rs:1790-1848. -/
def Store.delete (s : Store E T) (ids : List Int) : Store E T × Res Nat :=
  match load s.disk with
  | .error e => (s, .error e)
  | .ok x =>
    match deleteFromIndex s.disk ids with
    | .error e => (s, .error e)
    | .ok (d, n) => (deleteRows { s with disk := d } x.metadata.numDocs n ids, .ok n)

/-- The ids handed to `update_rows`. -/
def affectedIds (t : Tables S) (sat : OutRow S → Bool) (upd : List (String × S.V)) : List Int :=
  if upd = [] then [] else ((joined t).filter sat).map (·.subset)

/-- After the tables have been changed: /repo/next-plaid/src/filtering.rs:2565-2569, 2671-2675. -/
def changeAfter (s : Store E T) (affected : List Int) : Res (Option (Tables S) × Nat) → Store E T × Res Nat
  | .error e => (s, .error e)
  | .ok (none, n) => (s, .ok n)
  | .ok (some t, n) => ({ s with db := some t, fts := ftsUpdateRows t s.fts affected }, .ok n)

/-- `filtering::update_where` with its call of `update_rows`:
/repo/next-plaid/src/filtering.rs:2457-2676. -/
def Store.change (s : Store E T) (valid : Bool) (sat : OutRow S → Bool) (upd : List (String × S.V)) :
    Store E T × Res Nat :=
  match s.db with
  | none => (s, .error .err)
  | some t => changeAfter s (affectedIds t sat upd) (updateWhere (some t) valid sat upd)

end NextPlaid.Db
