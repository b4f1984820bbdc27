import Verif.Model.Scan
import Verif.Model.Units

/-!
What colgrep notes about a piece of code: the functions it calls, its control flow, its variables, and the class it
extends: `/repo/colgrep/src/parser/analysis.rs`.

A node of the syntax tree is what tree-sitter answers about it: its kind, the field it stands in, whether it is a named
node, and its text. Keywords and punctuation are nodes too (anonymous ones), whose kind is their spelling. The parser
itself is not modelled, so the theorems hold for every tree. `Node::utf8_text` never fails here, since the files that are
parsed are valid UTF-8 strings. `char::is_alphabetic` beyond ASCII is a parameter.
-/

namespace NextPlaid.Facts

open Units (Text trim dedupAdj)
open Scan (Language)

/-- `Node::kind`, the field of the parent the node stands in, `Node::is_named`, `Node::utf8_text`. -/
structure NInfo where
  kind : String
  field : Option String
  named : Bool
  text : Text
deriving DecidableEq, Repr

/-- A node with its children. -/
inductive Nd where
  | mk (info : NInfo) (children : List Nd)

def Nd.info : Nd → NInfo
  | .mk i _ => i

def Nd.children : Nd → List Nd
  | .mk _ cs => cs

def Nd.kind (n : Nd) : String := n.info.kind

def Nd.text (n : Nd) : Text := n.info.text

/-- `Node::child_by_field_name`: the first child in that field. -/
def Nd.byField (n : Nd) (f : String) : Option Nd := n.children.find? fun c => c.info.field == some f

/-- `Node::child(0)`. -/
def Nd.first (n : Nd) : Option Nd := n.children.head?

mutual
/-- How many nodes a tree has; only used to bound the loops below. -/
def Nd.size : Nd → Nat
  | .mk _ cs => sizes cs + 1
def sizes : List Nd → Nat
  | [] => 0
  | c :: cs => c.size + sizes cs
end

/-- The loop of `walk_tree`, analysis.rs:7-18: pop a node, push its children. The list is the stack, its top first, and the
result the nodes in the order in which they are visited. The number bounds the passes through the loop. -/
def walk : Nat → List Nd → List Nd
  | 0, _ => []
  | _ + 1, [] => []
  | k + 1, n :: st => n :: walk k (n.children.reverse ++ st)

/-- `walk_tree`, analysis.rs:7-18: every pass pops one node, so there are as many passes as nodes. -/
def walkTree (root : Nd) : List Nd := walk root.size [root]

/-- The loop of `find_first_by_kind` and `find_first_by_kinds`, analysis.rs:22-60. -/
def findLoop (kinds : List String) (maxDepth : Nat) : Nat → List (Nd × Nat) → Option Nd
  | 0, _ => none
  | _ + 1, [] => none
  | k + 1, (n, d) :: st =>
    if kinds.contains n.kind then some n
    else if d < maxDepth then findLoop kinds maxDepth k (n.children.map (fun c => (c, d + 1)) ++ st)
    else findLoop kinds maxDepth k st

/-- `find_first_by_kind` (one kind) and `find_first_by_kinds`, analysis.rs:22-60. -/
def findFirst (root : Nd) (kinds : List String) (maxDepth : Nat) : Option Nd :=
  findLoop kinds maxDepth root.size [(root, 0)]

/-! ### Calls -/

/-- The kinds of nodes that are calls, analysis.rs:590-609. -/
def callKinds : Language → List String
  | .python => ["call"]
  | .rust => ["call_expression", "macro_invocation"]
  | .typescript | .javascript | .vue | .svelte => ["call_expression"]
  | .go => ["call_expression"]
  | .java | .csharp => ["method_invocation", "object_creation_expression"]
  | .c | .cpp => ["call_expression"]
  | .ruby => ["call", "method_call"]
  | .kotlin => ["call_expression", "navigation_expression"]
  | .swift => ["call_expression"]
  | .scala => ["call_expression"]
  | .php => ["function_call_expression", "method_call_expression"]
  | .lua => ["function_call"]
  | .elixir => ["call"]
  | .haskell => ["function_application"]
  | .ocaml => ["application_expression"]
  | _ => []

/-- `text.split('.').last()`: what follows the last full stop, or the whole text. -/
def afterDot (t : Text) : Text := (t.reverse.takeWhile fun c => c != '.').reverse

/-- `name.split("::").last()`: the text is read from the left, and what was read is forgotten at each `::`. -/
def afterColons : Text → Text → Text
  | acc, [] => acc
  | acc, [c] => acc ++ [c]
  | acc, c :: d :: t => if c = ':' ∧ d = ':' then afterColons [] t else afterColons (acc ++ [c]) (d :: t)

/-- `trim_end_matches('!')`. -/
def dropBangs (t : Text) : Text := (t.reverse.dropWhile fun c => c == '!').reverse

/-- The node that names the callee, analysis.rs:613-618. -/
def calleeOf (n : Nd) : Option Nd :=
  (n.byField "function").or ((n.byField "name").or ((n.byField "method").or n.first))

/-- The name in the text of a callee, analysis.rs:620-632. -/
def callName (alpha : Char → Bool) (t : Text) : Option Text :=
  match dropBangs (afterColons [] (afterDot t)) with
  | [] => none
  | c :: cs => if alpha c then some (c :: cs) else none

/-- `vec.sort(); vec.dedup();`. -/
def sortDedup (l : List Text) : List Text := dedupAdj (l.insertionSort (· ≤ ·))

/-- What the closure of `extract_function_calls` adds for one node, analysis.rs:611-636. -/
def callAt (alpha : Char → Bool) (lang : Language) (n : Nd) : Option Text :=
  if (callKinds lang).contains n.kind then (calleeOf n).bind fun m => callName alpha m.text else none

/-- `extract_function_calls`, analysis.rs:588-641. -/
def calls (alpha : Char → Bool) (lang : Language) (root : Nd) : List Text :=
  sortDedup ((walkTree root).filterMap (callAt alpha lang))

/-! ### Control flow -/

/-- analysis.rs:653-664. -/
def branchKinds : List String :=
  ["if_statement", "if_expression", "match_expression", "match_statement", "switch_statement", "case_statement",
   "conditional_expression", "ternary_expression", "if", "unless", "when"]

/-- analysis.rs:669-671. -/
def loopKinds : List String :=
  ["for_statement", "for_expression", "while_statement", "while_expression", "loop_expression", "for_in_statement",
   "foreach_statement", "do_statement", "for", "while", "until"]

/-- analysis.rs:676-683. -/
def errorKinds : List String :=
  ["try_statement", "try_expression", "catch_clause", "rescue", "except_clause", "try", "?", "try_operator"]

/-- `complexity`, `has_loops`, `has_branches`, `has_error_handling`. -/
structure Flow where
  complexity : Nat
  loops : Bool
  branches : Bool
  errors : Bool
deriving DecidableEq, Repr

/-- The closure of `extract_control_flow`, analysis.rs:651-685. -/
def flowStep (f : Flow) (n : Nd) : Flow :=
  if branchKinds.contains n.kind then { f with complexity := f.complexity + 1, branches := true }
  else if loopKinds.contains n.kind then { f with complexity := f.complexity + 1, loops := true }
  else if errorKinds.contains n.kind then { f with errors := true }
  else f

/-- `extract_control_flow`, analysis.rs:644-687. -/
def controlFlow (root : Nd) : Flow :=
  (walkTree root).foldl flowStep { complexity := 1, loops := false, branches := false, errors := false }

/-! ### Variables -/

/-- The kinds of nodes that declare variables, analysis.rs:692-712. -/
def varKinds : Language → List String
  | .python => ["assignment", "named_expression", "augmented_assignment"]
  | .rust => ["let_declaration"]
  | .typescript | .javascript | .vue | .svelte => ["variable_declarator", "lexical_declaration"]
  | .go => ["short_var_declaration", "var_declaration"]
  | .java | .csharp => ["variable_declarator", "local_variable_declaration"]
  | .c | .cpp => ["declaration", "init_declarator"]
  | .ruby => ["assignment"]
  | .kotlin => ["property_declaration", "variable_declaration"]
  | .swift => ["property_declaration", "constant_declaration"]
  | .scala => ["val_definition", "var_definition"]
  | .php => ["simple_variable"]
  | .lua => ["variable_declaration", "local_variable_declaration"]
  | .elixir => ["match"]
  | .haskell => ["function_binding"]
  | _ => []

/-- The kinds that `find_identifier_in_declarator` looks into, analysis.rs:76-80. -/
def declaratorKinds : List String :=
  ["pointer_declarator", "array_declarator", "function_declarator", "parenthesized_declarator", "reference_declarator"]

mutual
/-- `find_identifier_in_declarator`, analysis.rs:65-98. The number is what is left of the allowed depth, plus one. -/
def declared : Nat → Nd → Option Nd
  | 0, _ => none
  | d + 1, .mk i cs =>
    if i.kind = "identifier" then some (.mk i cs)
    else if declaratorKinds.contains i.kind then
      if cs.any fun c => c.info.field == some "declarator" then declaredField d cs else declaredAny d cs
    else none
/-- The child in the field `declarator`, analysis.rs:82-84. -/
def declaredField : Nat → List Nd → Option Nd
  | _, [] => none
  | d, c :: cs => if c.info.field == some "declarator" then declared d c else declaredField d cs
/-- The first child that has one, analysis.rs:86-92. -/
def declaredAny : Nat → List Nd → Option Nd
  | _, [] => none
  | d, c :: cs => (declared d c).or (declaredAny d cs)
end

/-- The node that names the variable, analysis.rs:717-740. -/
def varNode (lang : Language) (maxDepth : Nat) (n : Nd) : Option Nd :=
  if lang = .c ∨ lang = .cpp then (n.byField "declarator").bind (declared (maxDepth + 1))
  else (n.byField "left").or ((n.byField "name").or ((n.byField "pattern").or n.first))

/-- `str::len`: the bytes of a text. -/
def byteLen (t : Text) : Nat := (t.map Char.utf8Size).sum

/-- Is this the name of a variable? analysis.rs:742-753. -/
def varName (alpha : Char → Bool) (t : Text) : Option Text :=
  match trim t with
  | [] => none
  | c :: cs => if byteLen (c :: cs) < 50 ∧ (alpha c = true ∨ c = '_') then some (c :: cs) else none

/-- What the closure of `extract_variables` adds for one node, analysis.rs:714-757. -/
def varAt (alpha : Char → Bool) (lang : Language) (maxDepth : Nat) (n : Nd) : Option Text :=
  if (varKinds lang).contains n.kind then (varNode lang maxDepth n).bind fun m => varName alpha m.text else none

/-- `extract_variables`, analysis.rs:690-761. -/
def variablesOf (alpha : Char → Bool) (lang : Language) (maxDepth : Nat) (root : Nd) : List Text :=
  sortDedup ((walkTree root).filterMap (varAt alpha lang maxDepth))

/-! ### The class that is extended -/

/-- The first child of one of the kinds in which a name is found, as a text: the loops over the children in
`extract_parent_class`. -/
def inChildren (n : Nd) (clauses names : List String) (maxDepth : Nat) : Option Text :=
  (n.children.filter fun c => clauses.contains c.kind).findSome? fun c => (findFirst c names maxDepth).map Nd.text

/-- A `class_heritage`, analysis.rs:1213-1230: an identifier directly in it, or else in an `extends_clause`. -/
def heritage (maxDepth : Nat) (c : Nd) : Option Text :=
  ((c.children.find? fun h => h.kind == "identifier").map Nd.text).or (inChildren c ["extends_clause"] ["identifier"] maxDepth)

/-- `extract_parent_class`, analysis.rs:1182-1323. -/
def parentClass (lang : Language) (maxDepth : Nat) (n : Nd) : Option Text :=
  match lang with
  | .python => (n.byField "superclasses").bind fun s => (s.children.find? fun c => c.kind == "identifier").map Nd.text
  | .typescript | .javascript | .vue | .svelte =>
    (n.children.filter fun c => c.kind == "class_heritage").findSome? (heritage maxDepth)
  | .java => (n.byField "superclass").bind fun s => (findFirst s ["type_identifier"] maxDepth).map Nd.text
  | .csharp => inChildren n ["base_list"] ["identifier"] maxDepth
  | .kotlin => inChildren n ["delegation_specifiers"] ["simple_identifier", "identifier"] maxDepth
  | .ruby => (n.byField "superclass").bind fun s => (findFirst s ["constant"] maxDepth).map Nd.text
  | .swift => inChildren n ["type_inheritance_clause", "inheritance_specifier"] ["type_identifier"] maxDepth
  | .php => inChildren n ["base_clause"] ["name", "qualified_name"] maxDepth
  | .cpp => inChildren n ["base_class_clause"] ["type_identifier"] maxDepth
  | .scala => inChildren n ["extends_clause"] ["type_identifier"] maxDepth
  | _ => none

/-! ### Parameters -/

/-- `Node::named_child(0)`. -/
def Nd.firstNamed (n : Nd) : Option Nd := n.children.find? fun c => c.info.named

/-- A child, if it is an identifier: `.filter(|c| c.kind() == "identifier")`. -/
def ifIdentifier (o : Option Nd) : Option Nd := o.filter fun c => c.kind == "identifier"

mutual
/-- `find_ocaml_param_name`, analysis.rs:510-535. The number is what is left of the allowed depth, plus one. -/
def ocamlName : Nat → Nd → Option Nd
  | 0, _ => none
  | d + 1, .mk i cs =>
    if i.kind = "value_pattern" ∨ i.kind = "value_name" then some (.mk i cs)
    else if i.kind = "typed" ∨ i.kind = "typed_pattern" ∨ i.kind = "parameter" then ocamlNamed d cs
    else none
/-- `node.named_child(0).and_then(…)`. -/
def ocamlNamed : Nat → List Nd → Option Nd
  | _, [] => none
  | d, c :: cs => if c.info.named then ocamlName d c else ocamlNamed d cs
end

/-- The node whose children are the parameters, analysis.rs:404-447. -/
def paramsNode (lang : Language) (n : Nd) : Option Nd :=
  match lang with
  | .python | .rust | .go | .java | .csharp | .ruby | .php | .lua | .elixir | .haskell => n.byField "parameters"
  | .typescript | .javascript | .vue | .svelte => (n.byField "parameters").or (n.byField "formal_parameters")
  | .c | .cpp => (n.byField "declarator").bind fun d => d.byField "parameters"
  | .kotlin => (n.byField "parameters").or (n.children.find? fun c => c.kind == "function_value_parameters")
  | .swift => some n
  | .scala => n.children.find? fun c => c.kind == "parameters"
  | .ocaml =>
    if n.kind = "value_definition" then n.children.find? fun c => c.kind == "let_binding"
    else if n.kind = "let_binding" then some n else none
  | _ => none

/-- The node that names a parameter when it has no field `name`, analysis.rs:478-538. -/
def paramName (lang : Language) (maxDepth : Nat) (c : Nd) : Option Nd :=
  if c.kind = "identifier" then some c
  else match lang with
    | .python | .kotlin => ifIdentifier c.first
    | .rust | .typescript | .javascript | .vue | .svelte => ifIdentifier (c.byField "pattern")
    | .c | .cpp => (c.byField "declarator").bind (declared (maxDepth + 1))
    | .ocaml => ocamlName (maxDepth + 1) c
    | _ => none

/-- `kind.contains("parameter")`. -/
def saysParameter (kind : String) : Bool := Units.containsText "parameter".toList kind.toList

/-- What one child of the list adds, analysis.rs:454-566. -/
def paramsAt (lang : Language) (maxDepth : Nat) (c : Nd) : List Text :=
  if saysParameter c.kind ∨ c.kind = "identifier" ∨ (lang = .ocaml ∧ c.kind = "typed") then
    if lang = .go ∧ c.kind = "parameter_declaration" then
      (c.children.filter fun s => s.kind == "identifier" && !s.text.isEmpty).map Nd.text
    else
      (((c.byField "name").or (paramName lang maxDepth c)).map Nd.text).toList.filter fun t =>
        !t.isEmpty && t != "self".toList && t != "this".toList && t != "cls".toList
  else if lang = .python ∧ (c.kind = "list_splat_pattern" ∨ c.kind = "dictionary_splat_pattern") then
    ((c.children.find? fun s => s.kind == "identifier").map Nd.text).toList.filter fun t => !t.isEmpty
  else []

/-- `extract_parameters`, analysis.rs:403-568. -/
def parameters (lang : Language) (maxDepth : Nat) (n : Nd) : List Text :=
  match paramsNode lang n with
  | none => []
  | some p => p.children.flatMap (paramsAt lang maxDepth)

/-! ### The type that is returned -/

/-- `extract_return_type`, analysis.rs:571-585. -/
def returnType (lang : Language) (n : Nd) : Option Text :=
  match lang with
  | .python | .rust | .typescript | .vue | .svelte => (n.byField "return_type").map Nd.text
  | .go => (n.byField "result").map Nd.text
  | .java | .csharp | .cpp | .c => (n.byField "type").map Nd.text
  | _ => none

end NextPlaid.Facts
