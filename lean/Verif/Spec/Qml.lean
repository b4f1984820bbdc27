import Verif.Model.Qml
import Verif.Spec.Units

/-! What the definitions of a QML file are, without the walk of the parser. -/

namespace NextPlaid.Qml
open NextPlaid.Units NextPlaid.Spec

/-- The text without white space at its ends is `s`, and there is some. -/
def Trimmed (t s : Text) : Prop := s ≠ [] ∧ ∃ a b, t = a ++ s ++ b ∧ BlankLine a ∧ BlankLine b ∧
  (∀ c ∈ s.head?, isWs c = false) ∧ ∀ c ∈ s.getLast?, isWs c = false

/-- The node has this name, and some text. -/
def Named (m : QNode) (name : Text) : Prop := (∃ t, m.info.name = some t ∧ Trimmed t name) ∧ ∃ s, Trimmed m.info.text s

/-- The name of a handler of a signal: `on` and a capital letter. -/
def HandlerName (name : Text) : Prop := ∃ c rest, name = 'o' :: 'n' :: c :: rest ∧ 'A' ≤ c ∧ c ≤ 'Z'

/-- A definition with a name: of an object, a component, a signal, a property, a handler, a function, a variable or an
enumeration. -/
def Defines (m : QNode) (name : Text) : Prop :=
  match m.info.kind with
  | .component | .object | .signal | .property => Named m name
  | .binding => Named m name ∧ HandlerName name
  | .function | .variable | .enumeration => m.info.decl.name = some name
  | .annotated | .other => False

/-- `m` lies below `t` in the object or component `p'` (`p` when that is the one around `t`): the way down leads into
objects and components by their bodies only, and not into the values of properties and bindings nor into functions. -/
inductive Inside : Option Text → QNode → Option Text → QNode → Prop
  | here (p : Option Text) (t : QNode) : Inside p t p t
  | annotated {p p' : Option Text} {t c m : QNode} {i : Nat} : t.info.kind = .annotated → t.info.part = some i →
      t.children[i]? = some c → Inside p c p' m → Inside p t p' m
  | component {p p' : Option Text} {t c b k m : QNode} {i j : Nat} {name : Text} : t.info.kind = .component → Named t name →
      t.info.part = some i → t.children[i]? = some c → c.info.init = some j → c.children[j]? = some b → k ∈ b.children →
      Inside (some name) k p' m → Inside p t p' m
  | object {p p' : Option Text} {t b k m : QNode} {j : Nat} {name : Text} : t.info.kind = .object → Named t name →
      t.info.init = some j → t.children[j]? = some b → k ∈ b.children → Inside (some name) k p' m → Inside p t p' m
  | other {p p' : Option Text} {t c m : QNode} : (t.info.kind = .other ∨ t.info.kind = .object ∧ ∀ name, ¬ Named t name) →
      c ∈ t.children → Inside p c p' m → Inside p t p' m

/-- `m` is `t` or a node below it, `k` levels down. -/
inductive BelowAt : Nat → QNode → QNode → Prop
  | self (t : QNode) : BelowAt 0 t t
  | child {k : Nat} {t c m : QNode} : c ∈ t.children → BelowAt k c m → BelowAt (k + 1) t m

/-- The rows of the syntax tree are rows of the file. -/
def RowsFit (t : QNode) (rows : Nat) : Prop :=
  ∀ k m, BelowAt k t m → m.info.decl.startRow ≤ m.info.decl.endRow ∧ m.info.decl.startRow ≤ rows

/-- The tree has no node more than `d` levels down. -/
def Shallow (t : QNode) (d : Nat) : Prop := ∀ k m, BelowAt k t m → k ≤ d

/-- The unit of a definition in the object `p`: its name, where it is, what it is and what it is in. The lines of functions,
variables and enumerations begin with the decorators and comments above them, as in TypeScript. -/
def UnitFits (file : List Text) (p : Option Text) (m : QNode) (u : CodeUnit) : Prop :=
  Defines m u.name ∧ u.endLine = m.info.decl.endRow + 1 ∧
  match m.info.kind with
  | .component | .object => u.utype = .class ∧ u.parent = p ∧ Trimmed m.info.text u.code ∧ u.line = m.info.decl.startRow + 1
  | .signal | .binding => (u.utype = if p.isSome then .method else .function) ∧ u.parent = p ∧ Trimmed m.info.text u.code ∧
      u.line = m.info.decl.startRow + 1
  | .property => u.utype = .constant ∧ u.parent = p ∧ Trimmed m.info.text u.code ∧ u.line = m.info.decl.startRow + 1
  | .function => (u.utype = if (p.or m.info.decl.receiver).isSome then .method else .function) ∧
      u.parent = p.or m.info.decl.receiver ∧ u.calls = m.info.decl.calls ∧ CodeIs file u ∧
      ∃ start, u.line = start + 1 ∧ StartsAt .typescript file m.info.decl.startRow start
  | .variable => (u.utype = if m.info.decl.arrow = true then .function else .constant) ∧ u.parent = none ∧ CodeIs file u ∧
      ∃ start, u.line = start + 1 ∧ StartsAt .typescript file m.info.decl.startRow start
  | .enumeration => u.utype = .class ∧ u.parent = p ∧ CodeIs file u ∧
      ∃ start, u.line = start + 1 ∧ StartsAt .typescript file m.info.decl.startRow start
  | .annotated | .other => False

mutual
/-- The number of nodes with a definition in the whole tree, wherever they are. -/
def count (defines : QNode → Bool) : QNode → Nat
  | .mk q cs => (if defines (.mk q cs) then 1 else 0) + countList defines cs
/-- The same for these nodes. -/
def countList (defines : QNode → Bool) : List QNode → Nat
  | [] => 0
  | n :: ns => count defines n + countList defines ns
end

/-- The text of a definition is what stands in its rows of the file, and has no white space at its ends. -/
def TextFits (file : List Text) (t : QNode) : Prop :=
  ∀ k m, BelowAt k t m → (∃ name, Defines m name) → Trimmed m.info.text m.info.text ∧
    ∀ k l, (lines m.info.text)[k]? = some l → m.info.decl.startRow + k ≤ m.info.decl.endRow ∧
      ∃ whole, file[m.info.decl.startRow + k]? = some whole ∧ l <:+: whole

end NextPlaid.Qml
