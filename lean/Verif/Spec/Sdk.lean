import Verif.Model.Sdk

/-! Vocabulary of C89. -/

namespace NextPlaid.Sdk

/-- The units in the order of their first lines; units on the same line keep their order. -/
def InLineOrder (units l : List CodeUnit) : Prop :=
  l.Perm units ∧ l.Pairwise (fun u v => u.line ≤ v.line) ∧
    ∀ n, l.filter (fun u => u.line == n) = units.filter fun u => u.line == n

/-- `out` lists what is in `l`, each thing once, in the order of first appearance. -/
def OnceInOrder (l out : List Text) : Prop :=
  out.Nodup ∧ (∀ x, x ∈ out ↔ x ∈ l) ∧ ∀ x y, [x, y].Sublist out → ∀ k : Nat, l[k]? = some y → ∃ j < k, l[j]? = some x

/-- The parts of a text, with an empty line between any two. -/
def Joined (parts : List Text) (t : Text) : Prop :=
  (parts = [] ∧ t = []) ∨ ∃ p ps, parts = p :: ps ∧ t = p ++ ps.flatMap fun q => '\n' :: '\n' :: q

/-- What is assumed of the lower case of a text. -/
def LowAscii (low : Text → Text) : Prop := ∀ s, (∀ c ∈ s, c.toNat < 128) → low s = s.map Char.toLower

end NextPlaid.Sdk
