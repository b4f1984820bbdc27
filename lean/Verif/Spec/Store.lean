import Verif.Model.Store
import Verif.Spec.Db

/-!
Specification of an index with metadata: a list of pairs (document, metadata row).
-/

namespace NextPlaid.Spec
open NextPlaid NextPlaid.Index NextPlaid.Db

variable {E : Env} {S : Sql} {T : TextEnv S}

/-- Histories of successful calls on an initially empty directory, together with the list of pairs the
same calls produce on a plain list.  `use` restricts the tokenizers, `good` the metadata rows. -/
inductive Together (use : Tokenizer → Prop) (good : Item S → Prop) :
    Store E T → List (List E.Row × Item S) → Prop
  | start : Together use good {} []
  | add {s rows docs items cfg tk s' ids} : Together use good s rows → docs ≠ [] → 0 < cfg.batchSize →
      use tk → (∀ it ∈ items, good it) → s.add docs items cfg tk = (s', .ok ids) →
      Together use good s' (rows ++ docs.zip items)
  | delete {s rows ids s' n} : Together use good s rows → (∀ x ∈ ids, 0 ≤ x) →
      s.delete ids = (s', .ok n) → Together use good s' (deleteIds ids rows)
  | change {s rows all valid sat upd s' n} : Together use good s rows → get id s.db none none = .ok all →
      (∀ it, good it → good (overwrite upd it)) → s.change valid sat upd = (s', .ok n) →
      Together use good s' (List.zipWith
        (fun r p => (p.1, if sat r && !upd.isEmpty then overwrite upd p.2 else p.2)) all rows)

/-- A metadata row for which re-reading the database gives back the words that were supplied: an object
with distinct keys whose values keep their text whatever type the column has. -/
def PlainRow (T : TextEnv S) (it : Item S) : Prop :=
  ((it.getD []).map (·.1)).Nodup ∧ ∀ p ∈ it.getD [], ∀ ty, T.colParts (S.cell ty p.2) = T.parts p.2

/-- The keyword index belongs to the metadata rows `items`: it has postings exactly for the rows
`0, 1, ..`, and those of row `i` are the tokens of a text made of the parts of the metadata of
document `i` (in some order). -/
def KeywordsFollow (f : Option (Fts T)) (tk : Tokenizer) (items : List (Item S)) : Prop :=
  ∃ texts : List (List T.Part), texts.length = items.length ∧
    (∀ (i : Nat) it text, items[i]? = some it → texts[i]? = some text → text.Perm (itemParts T it)) ∧
    ∀ (id : Int) (w : T.Tok), (∃ g, f = some g ∧ (id, w) ∈ g.index) ↔
      ∃ (i : Nat) (text : _), id = i ∧ texts[i]? = some text ∧ w ∈ T.toks tk text

end NextPlaid.Spec
