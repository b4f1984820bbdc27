import Verif.Model.Facts

/-!
What it means that colgrep's notes about a piece of code are true of it, in terms of the syntax tree alone.
-/

namespace NextPlaid.FactsSpec

open Units (Text)
open Facts (Nd)
open Scan (Language)

/-- `Under root n`: `n` is `root` itself or stands somewhere below it. -/
inductive Under (root : Nd) : Nd → Prop where
  | here : Under root root
  | child {n c : Nd} (h : Under root n) (hc : c ∈ n.children) : Under root c

mutual
/-- The nodes of a tree in the order in which they are written, each before what stands below it. -/
def written : Nd → List Nd
  | .mk i cs => .mk i cs :: writtenAll cs
def writtenAll : List Nd → List Nd
  | [] => []
  | c :: cs => written c ++ writtenAll cs
end

mutual
/-- The same without what stands more than so many levels down. -/
def writtenTo : Nat → Nd → List Nd
  | d, .mk i cs => .mk i cs :: (match d with
    | 0 => []
    | d + 1 => writtenToAll d cs)
def writtenToAll : Nat → List Nd → List Nd
  | _, [] => []
  | d, c :: cs => writtenTo d c ++ writtenToAll d cs
end

/-- The first child in the first of these fields that has one, or else the very first child. -/
def Named (fields : List String) (n m : Nd) : Prop :=
  (∃ (before : List String) (f : String) (after : List String), fields = before ++ f :: after ∧
    (∀ g ∈ before, ∀ c ∈ n.children, c.info.field ≠ some g) ∧
    ∃ pre post : List Nd, n.children = pre ++ m :: post ∧ m.info.field = some f ∧ ∀ c ∈ pre, c.info.field ≠ some f) ∨
  ((∀ f ∈ fields, ∀ c ∈ n.children, c.info.field ≠ some f) ∧ ∃ post : List Nd, n.children = m :: post)

/-- A name as it stands in code: it begins with a letter and has no full stop, colon or exclamation mark in it. -/
def Plain (alpha : Char → Bool) (name : Text) : Prop :=
  (∃ c cs, name = c :: cs ∧ alpha c = true) ∧ ∀ c ∈ name, c ≠ '.' ∧ c ≠ ':' ∧ c ≠ '!'

/-- What may stand before a name: nothing, a receiver with a full stop, or a path with `::` (but not `:::`). -/
def Qualifier (q : Text) : Prop :=
  q = [] ∨ (∃ r : Text, q = r ++ ['.']) ∨ ∃ r : Text, r.getLast? ≠ some ':' ∧ q = r ++ [':', ':']

/-- `d` is a declarator that declares `id`, through `k` pointers, arrays, references, parameter lists or parentheses. -/
inductive Declares : Nat → Nd → Nd → Prop where
  | name {id : Nd} (h : id.kind = "identifier") : Declares 0 id id
  | wrap {k : Nat} {d inner id : Nd} {pre post : List Nd}
      (hk : d.kind = "pointer_declarator" ∨ d.kind = "array_declarator" ∨ d.kind = "function_declarator" ∨
        d.kind = "parenthesized_declarator" ∨ d.kind = "reference_declarator")
      (hc : d.children = pre ++ inner :: post) (hf : inner.info.field = some "declarator")
      (hpre : ∀ c ∈ pre, c.info.field ≠ some "declarator") (h : Declares k inner id) : Declares (k + 1) d id

/-- The clauses in which a class names what it extends, and the kinds of the names, for the languages that have one. -/
def clauseOf : List (Language × List String × List String) :=
  [(.csharp, ["base_list"], ["identifier"]), (.kotlin, ["delegation_specifiers"], ["simple_identifier", "identifier"]),
   (.swift, ["type_inheritance_clause", "inheritance_specifier"], ["type_identifier"]),
   (.php, ["base_clause"], ["name", "qualified_name"]), (.cpp, ["base_class_clause"], ["type_identifier"]),
   (.scala, ["extends_clause"], ["type_identifier"])]

/-- The nodes that are calls, by language. -/
def callNodes : List (Language × List String) :=
  [(.python, ["call"]), (.rust, ["call_expression", "macro_invocation"]), (.typescript, ["call_expression"]),
   (.javascript, ["call_expression"]), (.vue, ["call_expression"]), (.svelte, ["call_expression"]), (.go, ["call_expression"]),
   (.java, ["method_invocation", "object_creation_expression"]), (.csharp, ["method_invocation", "object_creation_expression"]),
   (.c, ["call_expression"]), (.cpp, ["call_expression"]), (.ruby, ["call", "method_call"]),
   (.kotlin, ["call_expression", "navigation_expression"]), (.swift, ["call_expression"]), (.scala, ["call_expression"]),
   (.php, ["function_call_expression", "method_call_expression"]), (.lua, ["function_call"]), (.elixir, ["call"]),
   (.haskell, ["function_application"]), (.ocaml, ["application_expression"])]

/-- The nodes that declare or assign a variable, by language. -/
def variableNodes : List (Language × List String) :=
  [(.python, ["assignment", "named_expression", "augmented_assignment"]), (.rust, ["let_declaration"]),
   (.typescript, ["variable_declarator", "lexical_declaration"]), (.javascript, ["variable_declarator", "lexical_declaration"]),
   (.vue, ["variable_declarator", "lexical_declaration"]), (.svelte, ["variable_declarator", "lexical_declaration"]),
   (.go, ["short_var_declaration", "var_declaration"]), (.java, ["variable_declarator", "local_variable_declaration"]),
   (.csharp, ["variable_declarator", "local_variable_declaration"]), (.c, ["declaration", "init_declarator"]),
   (.cpp, ["declaration", "init_declarator"]), (.ruby, ["assignment"]), (.kotlin, ["property_declaration", "variable_declaration"]),
   (.swift, ["property_declaration", "constant_declaration"]), (.scala, ["val_definition", "var_definition"]),
   (.php, ["simple_variable"]), (.lua, ["variable_declaration", "local_variable_declaration"]), (.elixir, ["match"]),
   (.haskell, ["function_binding"])]

/-- The nodes that branch. -/
def branching : List String :=
  ["if_statement", "if_expression", "if", "unless", "when", "match_expression", "match_statement", "switch_statement",
   "case_statement", "conditional_expression", "ternary_expression"]

/-- The nodes that loop. -/
def looping : List String :=
  ["for_statement", "for_expression", "for_in_statement", "foreach_statement", "for", "while_statement", "while_expression",
   "while", "until", "loop_expression", "do_statement"]

/-- The nodes that handle errors. -/
def handling : List String :=
  ["try_statement", "try_expression", "try_operator", "try", "?", "catch_clause", "except_clause", "rescue"]

end NextPlaid.FactsSpec
