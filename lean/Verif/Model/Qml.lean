import Verif.Model.Units

/-!
How colgrep cuts a QML file into code units: /repo/colgrep/src/parser/qml.rs.

As in `Units`, the tree-sitter parser is not modelled: a node carries what the code reads of it. Functions, variables and
enumerations go through the extraction of `Units` with TypeScript as their language. The fields of a unit that only describe
it are left out, but for the imports of a function.
-/

namespace NextPlaid.Qml
open NextPlaid.Units

/-- The kinds of nodes that `extract_from_node` tells apart: qml.rs:84-192. -/
inductive QKind where
  | annotated | component | object | function | variable | enumeration | signal | property | binding | other
  deriving DecidableEq, Repr

/-- What is read of a node. `name` is the text of its field `type_name` (of an object) or `name`; `text` is its own text;
`part` is the child in its field `definition` (of an annotated object) or `component`; `init` is the child in its field
`initializer`; `decl` is what the TypeScript analysis reads of it, with its rows. -/
structure QInfo where
  kind : QKind
  name : Option Text
  text : Text
  part : Option Nat
  init : Option Nat
  decl : Info

/-- A node of the syntax tree with its children. -/
inductive QNode where
  | mk (info : QInfo) (children : List QNode)

def QNode.info : QNode → QInfo
  | .mk i _ => i

def QNode.children : QNode → List QNode
  | .mk _ cs => cs

/-- `field_text`: qml.rs:499-508. -/
def fieldText (t : Option Text) : Option Text := (t.map trim).filter fun s => !s.isEmpty

/-- `node_text`: qml.rs:510-515. -/
def nodeText (t : Text) : Option Text := if (trim t).isEmpty then none else some (trim t)

/-- `first_non_empty_line`: qml.rs:517-522. -/
def firstLine (code : Text) : Text := (((lines code).find? fun l => !blank l).map trim).getD []

/-- `looks_like_signal_handler`: qml.rs:534-539. -/
def looksLikeHandler : Text → Bool
  | 'o' :: 'n' :: c :: _ => c.isUpper
  | _ => false

/-- What `extract_object_definition`, `extract_inline_component`, `extract_signal`, `extract_property` and
`extract_handler_binding` have in common: qml.rs:237-400. -/
def plainUnit (q : QInfo) (utype : UnitType) (parent : Option Text) (signature : Text → Text) : Option CodeUnit :=
  (fieldText q.name).bind fun name => (nodeText q.text).map fun code =>
    { name := name, line := q.decl.startRow + 1, endLine := q.decl.endRow + 1, utype := utype, parent := parent,
      signature := signature code, calls := [], calledBy := [], code := code }

/-- `extract_object_definition` and `extract_inline_component`: qml.rs:237-296. -/
def objectUnit (parent : Option Text) (q : QInfo) : Option CodeUnit := plainUnit q .class parent firstLine

/-- The signature of a signal, a property or a handler: qml.rs:321-324, 355-358, 392-395. -/
def lineAt (ls : List Text) (q : QInfo) (_code : Text) : Text := trim (ls[q.decl.startRow]?.getD [])

/-- `extract_signal`: qml.rs:298-331. -/
def signalUnit (ls : List Text) (parent : Option Text) (q : QInfo) : Option CodeUnit :=
  plainUnit q (if parent.isSome then .method else .function) parent (lineAt ls q)

/-- `extract_property`: qml.rs:333-362. -/
def propertyUnit (ls : List Text) (parent : Option Text) (q : QInfo) : Option CodeUnit :=
  plainUnit q .constant parent (lineAt ls q)

/-- `extract_handler_binding`: qml.rs:364-400. -/
def bindingUnit (ls : List Text) (parent : Option Text) (q : QInfo) : Option CodeUnit :=
  if ((fieldText q.name).map looksLikeHandler).getD false then
    plainUnit q (if parent.isSome then .method else .function) parent (lineAt ls q)
  else none

/-- The arm of an enumeration: qml.rs:154-161. -/
def enumUnits (ls : List Text) (parent : Option Text) (q : QInfo) : Res (List CodeUnit) :=
  match q.decl.name with
  | none => .ok []
  | some name => (classUnit .typescript ls q.decl name).map fun u => [{ u with parent := parent }]

mutual
/-- `extract_from_node`: qml.rs:65-203; `depth_limit_hit` is `.error .err`, as in `Units.extractNode`. -/
def extract (ls : List Text) (maxDepth : Nat) (parent : Option Text) (depth : Nat) : QNode → Res (List CodeUnit)
  | .mk q children =>
    if depth > maxDepth then .error .err
    else match q.kind with
      | .annotated =>
        match q.part with
        | none => .ok []
        | some i => extractAt ls maxDepth parent (depth + 1) i children
      | .component =>
        match objectUnit parent q with
        | none => .ok []
        | some u =>
          match q.part with
          | none => .ok [u]
          | some i => (extractPart ls maxDepth (some u.name) (depth + 2) i children).bind fun us => .ok (u :: us)
      | .object =>
        match objectUnit parent q with
        | none => extractList ls maxDepth parent (depth + 1) children
        | some u =>
          match q.init with
          | none => .ok [u]
          | some i => (extractKids ls maxDepth (some u.name) (depth + 2) i children).bind fun us => .ok (u :: us)
      | .function => functionUnits .typescript ls parent q.decl
      | .variable => constantUnits .typescript ls q.decl
      | .enumeration => enumUnits ls parent q
      | .signal => .ok (signalUnit ls parent q).toList
      | .property => .ok (propertyUnit ls parent q).toList
      | .binding => .ok (bindingUnit ls parent q).toList
      | .other => extractList ls maxDepth parent (depth + 1) children
/-- `for child in node.children(..)`: qml.rs:190-202. -/
def extractList (ls : List Text) (maxDepth : Nat) (parent : Option Text) (depth : Nat) : List QNode → Res (List CodeUnit)
  | [] => .ok []
  | n :: ns => (extract ls maxDepth parent depth n).bind fun us =>
      (extractList ls maxDepth parent depth ns).bind fun vs => .ok (us ++ vs)
/-- `extract_from_node` of the `i`-th child, the definition of an annotated object: qml.rs:85-98. -/
def extractAt (ls : List Text) (maxDepth : Nat) (parent : Option Text) (depth : Nat) : Nat → List QNode → Res (List CodeUnit)
  | _, [] => .ok []
  | 0, n :: _ => extract ls maxDepth parent depth n
  | i + 1, _ :: ns => extractAt ls maxDepth parent depth i ns
/-- The children of the `i`-th child, which is the initializer: qml.rs:221-234. -/
def extractKids (ls : List Text) (maxDepth : Nat) (parent : Option Text) (depth : Nat) : Nat → List QNode → Res (List CodeUnit)
  | _, [] => .ok []
  | 0, .mk _ kids :: _ => extractList ls maxDepth parent depth kids
  | i + 1, _ :: ns => extractKids ls maxDepth parent depth i ns
/-- `recurse_initializer` of the `i`-th child, which is the component: qml.rs:104-117, 205-235. -/
def extractPart (ls : List Text) (maxDepth : Nat) (parent : Option Text) (depth : Nat) : Nat → List QNode → Res (List CodeUnit)
  | _, [] => .ok []
  | 0, .mk q kids :: _ =>
    match q.init with
    | none => .ok []
    | some j => extractKids ls maxDepth parent depth j kids
  | i + 1, _ :: ns => extractPart ls maxDepth parent depth i ns
end

/-- `extract_qml_units`: qml.rs:17-62. -/
def qmlUnits (maxDepth : Nat) (source : Text) (tree : Option QNode) : Res (List CodeUnit) :=
  match tree with
  | none => .ok []
  | some t =>
    match extract (lines source) maxDepth none 0 t with
    | .error .err => .ok []
    | .error .panic => .error .panic
    | .ok units => .ok units

/-- `imports_used_in_code`: qml.rs:486-497, with `push_unique`. -/
def importsUsed (imports : List Text) (code : Text) : List Text :=
  imports.foldl (fun used name =>
    if containsText (name ++ ['.']) code || containsText (name ++ [' ']) code || containsText (name ++ [' ', '{']) code then
      if used.contains name then used else used ++ [name]
    else used) []

end NextPlaid.Qml
