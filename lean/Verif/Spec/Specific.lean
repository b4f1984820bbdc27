import Verif.Model.Colgrep

/-! What it means that chosen files are indexed (C104), in terms of the files given, the content hashes recorded and the documents. -/

namespace NextPlaid.Spec.Specific

open NextPlaid.Colgrep (File)

/-- The documents of a file. -/
def unitsIn {P U : Type} [DecidableEq P] (p : P) (index : Option (List (P × U))) : List U :=
  ((index.getD []).filter fun d => d.1 = p).map (·.2)

/-- An index that can be trusted: index and database have the same documents, those of a recorded file are the units of a text with
the recorded hash, and there are none of other files. -/
structure Trusted {P C U H : Type} [DecidableEq P] (parse : P → C → Option (List U)) (hash : C → H) (recorded : P → Option H)
    (index rows : Option (List (P × U))) : Prop where
  aligned : index = rows
  known : ∀ p h, recorded p = some h → ∃ c units, hash c = h ∧ parse p c = some units ∧ (unitsIn p index).Perm units
  unknown : ∀ p, recorded p = none → unitsIn p index = []

/-- The files of a call are given once each, are text, were not skipped before, and a recorded one has code unless it is as recorded. -/
structure Plain {P C U H : Type} (parse : P → C → Option (List U)) (hash : C → H) (recorded : P → Option H) (skipped : List P)
    (given : List (P × File C)) : Prop where
  names : (given.map (·.1)).Nodup
  fresh : ∀ e ∈ given, e.1 ∉ skipped
  text : ∀ e ∈ given, ∃ units, parse e.1 e.2.content = some units
  code : ∀ e ∈ given, ∀ h, recorded e.1 = some h → h ≠ hash e.2.content → parse e.1 e.2.content ≠ some []

end NextPlaid.Spec.Specific
