import Verif.Model.Imports
import Verif.Spec.Facts
import Verif.Spec.Enhance

/-!
What a file imports and what a piece of code uses of it.
-/

namespace NextPlaid.ImportsSpec

open Units (Text isWs)
open Facts (Nd)
open Imports (Tables)
open FactsSpec (writtenTo)
open Scan (Language)

/-- `m` is the first node of one of these kinds, in the order of the text, at or below `n`, down to a depth. -/
def FirstIn (kinds : List String) (depth : Nat) (n m : Nd) : Prop :=
  ∃ pre post : List Nd, writtenTo depth n = pre ++ m :: post ∧ m.kind ∈ kinds ∧ ∀ x ∈ pre, x.kind ∉ kinds

/-- `m` stands at or below `n`, down to a depth, and no node above it is one where the search stops. -/
inductive Reach (stop : Nd → Prop) : Nat → Nd → Nd → Prop where
  | here {d : Nat} {n : Nd} : Reach stop d n n
  | down {d : Nat} {n c m : Nd} (hn : ¬ stop n) (hc : c ∈ n.children) (h : Reach stop d c m) : Reach stop (d + 1) n m

/-- `x` is the last part of `t`, the parts being separated by a character. -/
def LastPart (sep : Char) (t x : Text) : Prop := sep ∉ x ∧ (t = x ∨ ∃ r : Text, t = r ++ sep :: x)

/-- The first child in a field. -/
def InField (f : String) (n m : Nd) : Prop :=
  ∃ pre post : List Nd, n.children = pre ++ m :: post ∧ m.info.field = some f ∧ ∀ c ∈ pre, c.info.field ≠ some f

/-- What the tables of Unicode say about a few ASCII characters, and about white space. -/
structure Sane (u : Tables) : Prop where
  dot : u.alnum '.' = false
  colon : u.alnum ':' = false
  white : ∀ c, isWs c = true → u.alnum c = false

/-- A character of a name. -/
def NameChar (u : Tables) (c : Char) : Prop := u.alnum c = true ∨ c = '_'

/-- The keywords that an import may begin with. -/
def keywords : List Text := ["import".toList, "from".toList, "use".toList, "using".toList]

/-- No keyword is at the beginning of this word. -/
def NoKeyword (w : Text) : Prop := ∀ k ∈ keywords, ¬ k <+: w

/-- The call of a plain name other than `require`. -/
def OtherCall (n : Nd) : Prop := ∃ f post, n.children = f :: post ∧ f.kind = "identifier" ∧ f.text ≠ "require".toList

/-- The nodes that import, by language. -/
def importNodes : List (Language × List String) :=
  [(.python, ["import_statement", "import_from_statement"]), (.rust, ["use_declaration"]), (.typescript, ["import_statement"]),
   (.javascript, ["import_statement"]), (.vue, ["import_statement"]), (.svelte, ["import_statement"]), (.go, ["import_spec"]),
   (.java, ["import_declaration"]), (.csharp, ["using_directive"]), (.c, ["preproc_include"]), (.cpp, ["preproc_include"]),
   (.ruby, ["call"]), (.kotlin, ["import"]), (.swift, ["import_declaration"]), (.scala, ["import_declaration"]),
   (.php, ["namespace_use_declaration"]), (.lua, ["function_call"]), (.elixir, ["call"]), (.haskell, ["import"]),
   (.ocaml, ["open_module"])]

/-- The nodes that access a part of something, by language. -/
def accessNodes : List (Language × List String) :=
  [(.python, ["attribute"]), (.javascript, ["member_expression"]), (.typescript, ["member_expression"]), (.vue, ["member_expression"]),
   (.svelte, ["member_expression"]), (.rust, ["field_expression", "scoped_identifier"]), (.go, ["selector_expression"]),
   (.java, ["field_access", "member_access_expression", "object_creation_expression"]),
   (.csharp, ["field_access", "member_access_expression", "object_creation_expression"]), (.scala, ["field_expression"]),
   (.kotlin, ["navigation_expression"]), (.c, ["field_expression"]), (.cpp, ["field_expression"]), (.ruby, ["call"]),
   (.swift, ["navigation_expression"]), (.php, ["member_access_expression", "scoped_call_expression", "object_creation_expression"]),
   (.lua, ["dot_index_expression", "method_index_expression"]), (.ocaml, ["field_get_expression", "value_path"])]

/-- The field in which the thing stands that is accessed, where the language has one field for it. -/
def baseFields : List (Language × String) :=
  [(.python, "object"), (.javascript, "object"), (.typescript, "object"), (.vue, "object"), (.svelte, "object"), (.rust, "value"),
   (.scala, "value"), (.go, "operand"), (.ruby, "receiver")]

/-- What is accessed: in Java and C# the field `object`, or else `expression`; in Kotlin the first named child; in OCaml the
first module name; in C, C++, Swift, PHP and Lua the first child. -/
def Accessed (lang : Language) (depth : Nat) (n m : Nd) : Prop :=
  match baseFields.lookup lang with
  | some f => InField f n m
  | none =>
    if lang = .java ∨ lang = .csharp then
      InField "object" n m ∨ ((∀ c ∈ n.children, c.info.field ≠ some "object") ∧ InField "expression" n m)
    else if lang = .kotlin then
      ∃ pre post : List Nd, n.children = pre ++ m :: post ∧ m.info.named = true ∧ ∀ c ∈ pre, c.info.named = false
    else if lang = .ocaml then FirstIn ["module_name"] depth n m
    else ∃ post : List Nd, n.children = m :: post

end NextPlaid.ImportsSpec
