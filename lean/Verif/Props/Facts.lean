import Verif.Proofs.Facts2

/-!
C92: what is noted about a piece of code is true of its syntax tree.
-/

namespace NextPlaid.Props

open Units (Text trim)
open Facts FactsSpec
open Scan (Language)

/-! ### A few trees -/

namespace ToyFacts

def letters (c : Char) : Bool := ('a' ≤ c && c ≤ 'z') || ('A' ≤ c && c ≤ 'Z')

/-- A node, a node in a field, and a token. -/
def nd (k t : String) (cs : List Nd) : Nd := .mk ⟨k, none, true, t.toList⟩ cs
def fd (f k t : String) (cs : List Nd) : Nd := .mk ⟨k, some f, true, t.toList⟩ cs
def tk (t : String) : Nd := .mk ⟨t, none, false, t.toList⟩ []

/-- `self.db.load(key)` in Python. -/
def load : Nd := nd "call" "self.db.load(key)" [fd "function" "attribute" "self.db.load" [], fd "arguments" "argument_list" "(key)" []]
/-- `def f(key): if key: return self.db.load(key)`. -/
def body : Nd := nd "function_definition" "…" [fd "name" "identifier" "f" [], nd "block" "…" [
  nd "if_statement" "…" [tk "if", fd "condition" "identifier" "key" [], tk ":", nd "block" "…" [nd "return_statement" "…" [tk "return", load]]]]]
/-- `for x in xs: n = len(x)`. -/
def loop : Nd := nd "for_statement" "…" [tk "for", fd "left" "identifier" "x" [], tk "in", fd "right" "identifier" "xs" [], tk ":",
  nd "block" "…" [nd "assignment" "n = len(x)" [fd "left" "identifier" "n" [], tk "=",
    fd "right" "call" "len(x)" [fd "function" "identifier" "len" [], fd "arguments" "argument_list" "(x)" []]]]]
/-- `handlers("app.main")()` in Python. -/
def chained : Nd := nd "call" "handlers(\"app.main\")()" [
  fd "function" "call" "handlers(\"app.main\")" [fd "function" "identifier" "handlers" [], fd "arguments" "argument_list" "(\"app.main\")" []],
  fd "arguments" "argument_list" "()" []]
/-- `const x = 1;` in JavaScript. -/
def constX : Nd := nd "lexical_declaration" "const x = 1;" [.mk ⟨"const", some "kind", false, "const".toList⟩ [],
  nd "variable_declarator" "x = 1" [fd "name" "identifier" "x" [], tk "=", fd "value" "number" "1" []], tk ";"]
/-- `int *f(int a)` in C. -/
def pointer : Nd := nd "function_definition" "…" [fd "type" "primitive_type" "int" [], fd "declarator" "pointer_declarator" "*f(int a)" [tk "*",
  fd "declarator" "function_declarator" "f(int a)" [fd "declarator" "identifier" "f" [],
    fd "parameters" "parameter_list" "(int a)" [tk "(", nd "parameter_declaration" "int a" [fd "type" "primitive_type" "int" [],
      fd "declarator" "identifier" "a" []], tk ")"]]]]
/-- `char *names[4]` in C: a declaration. -/
def names : Nd := nd "declaration" "char *names[4];" [fd "type" "primitive_type" "char" [], fd "declarator" "pointer_declarator" "*names[4]" [tk "*",
  fd "declarator" "array_declarator" "names[4]" [fd "declarator" "identifier" "names" [], tk "["]], tk ";"]
/-- `function f(a, b = 1)` in JavaScript. -/
def defaults : Nd := nd "function_declaration" "…" [tk "function", fd "name" "identifier" "f" [],
  fd "parameters" "formal_parameters" "(a, b = 1)" [tk "(", nd "identifier" "a" [], tk ",",
    nd "assignment_pattern" "b = 1" [fd "left" "identifier" "b" [], tk "=", fd "right" "number" "1" []], tk ")"]]
/-- `class A(mod.Base, Mixin): …` in Python. -/
def classA : Nd := nd "class_definition" "…" [tk "class", fd "name" "identifier" "A" [],
  fd "superclasses" "argument_list" "(mod.Base, Mixin)" [tk "(",
    nd "attribute" "mod.Base" [fd "object" "identifier" "mod" [], tk ".", fd "attribute" "identifier" "Base" []], tk ",", nd "identifier" "Mixin" [], tk ")"]]
/-- `class Dog : public Animal` in C++. -/
def dog : Nd := nd "class_specifier" "…" [tk "class", fd "name" "type_identifier" "Dog" [],
  nd "base_class_clause" ": public Animal" [tk ":", nd "access_specifier" "public" [], nd "type_identifier" "Animal" []]]
/-- `class Cat extends Animal` in Java and `class Dog extends Animal` in JavaScript. -/
def cat : Nd := nd "class_declaration" "…" [tk "class", fd "name" "identifier" "Cat" [],
  fd "superclass" "superclass" "extends Animal" [tk "extends", nd "generic_type" "Animal<T>" [nd "type_identifier" "Animal" []]]]
def jsDog : Nd := nd "class_declaration" "…" [tk "class", fd "name" "identifier" "Dog" [],
  nd "class_heritage" "extends Animal" [tk "extends", nd "identifier" "Animal" []]]
/-- `func f(a, b int)` in Go. -/
def goF : Nd := nd "function_declaration" "…" [tk "func", fd "name" "identifier" "f" [],
  fd "parameters" "parameter_list" "(a, b int)" [tk "(", nd "parameter_declaration" "a, b int" [fd "name" "identifier" "a" [], tk ",",
    fd "name" "identifier" "b" [], fd "type" "type_identifier" "int" []], tk ")"]]
/-- `function f(a, b)` in JavaScript. -/
def plain : Nd := nd "function_declaration" "…" [tk "function", fd "name" "identifier" "f" [],
  fd "parameters" "formal_parameters" "(a, b)" [tk "(", nd "identifier" "a" [], tk ",", nd "identifier" "b" [], tk ")"]]

end ToyFacts

open ToyFacts

/-! ### The walk -/

/-- Every node of the tree is looked at, and each only once. -/
theorem C92_walk (root : Nd) :
    (walkTree root).Perm (written root) ∧ ∀ n, n ∈ walkTree root ↔ Under root n :=
  ⟨walkTree_perm root, fun _ => mem_walkTree⟩

example : (walkTree body).length = 13 := by decide +kernel

/-- The search for a node of some kinds finds the first one in the order of the text, down to the allowed depth, and
nothing only if there is none. -/
theorem C92_first (root : Nd) (kinds : List String) (maxDepth : Nat) :
    (∀ m, findFirst root kinds maxDepth = some m ↔
      ∃ pre post : List Nd, writtenTo maxDepth root = pre ++ m :: post ∧ m.kind ∈ kinds ∧ ∀ n ∈ pre, n.kind ∉ kinds) ∧
    (findFirst root kinds maxDepth = none ↔ ∀ n ∈ writtenTo maxDepth root, n.kind ∉ kinds) := by
  constructor
  · intro m
    rw [findFirst_eq, List.find?_eq_some_iff_append]
    constructor
    · rintro ⟨h, pre, post, e, hp⟩
      exact ⟨pre, post, e, by simpa using h, fun n hn => by simpa using hp n hn⟩
    · rintro ⟨pre, post, e, h, hp⟩
      exact ⟨by simpa using h, pre, post, e, fun n hn => by simpa using hp n hn⟩
  · rw [findFirst_eq, List.find?_eq_none]
    simp

example : (findFirst body ["call"] 10).map Nd.text = some "self.db.load(key)".toList ∧ (findFirst body ["call"] 2).isNone := by
  decide +kernel

/-- Which nodes count, for every language. -/
theorem C92_tables (lang : Language) : callKinds lang = (callNodes.lookup lang).getD [] ∧
    varKinds lang = (variableNodes.lookup lang).getD [] ∧ branchKinds.Perm branching ∧ loopKinds.Perm looping ∧
    errorKinds.Perm handling := by
  refine ⟨?_, ?_, by decide +kernel, by decide +kernel, by decide +kernel⟩ <;> cases lang <;> rfl

/-! ### Calls -/

/-- The calls of a piece of code: in strict order, and a name is among them exactly if some call in the code has it. The
callee is the child in the field `function`, `name` or `method`, or else the first child. -/
theorem C92_calls (alpha : Char → Bool) (lang : Language) (root : Nd) :
    (calls alpha lang root).Pairwise (· < ·) ∧
    ∀ x, x ∈ calls alpha lang root ↔ ∃ n m, Under root n ∧ n.kind ∈ callKinds lang ∧
      Named ["function", "name", "method"] n m ∧ callName alpha m.text = some x := by
  refine ⟨sortDedup_sorted _, fun x => ?_⟩
  rw [calls, mem_sortDedup, List.mem_filterMap]
  constructor
  · rintro ⟨n, hn, h⟩
    rw [callAt] at h
    split at h
    · next hk =>
      obtain ⟨m, hm, hx⟩ := Option.bind_eq_some_iff.1 h
      exact ⟨n, m, mem_walkTree.1 hn, by simpa using hk, calleeOf_iff.1 hm, hx⟩
    · exact absurd h (by simp)
  · rintro ⟨n, m, hu, hk, hm, hx⟩
    refine ⟨n, mem_walkTree.2 hu, ?_⟩
    have hk' : (callKinds lang).contains n.kind = true := by simpa using hk
    rw [callAt, if_pos hk', calleeOf_iff.2 hm]
    exact hx

example : calls letters .python body = ["load".toList] := by decide +kernel
example : calls letters .python loop = ["len".toList] := by decide +kernel

/-- A call by a plain name is listed, whatever stands before the name (a receiver, a path) and however many exclamation
marks follow it. -/
theorem C92_call_listed (alpha : Char → Bool) (lang : Language) (root n m : Nd) (hu : Under root n)
    (hk : n.kind ∈ callKinds lang) (hm : Named ["function", "name", "method"] n m) (q name : Text) (bangs : Nat)
    (hn : Plain alpha name) (hq : Qualifier q) (ht : m.text = q ++ name ++ List.replicate bangs '!') :
    name ∈ calls alpha lang root :=
  ((C92_calls alpha lang root).2 name).2 ⟨n, m, hu, hk, hm, by rw [ht]; exact callName_plain hn hq bangs⟩

example : Plain letters "load".toList ∧ Qualifier "self.db.".toList := by
  refine ⟨⟨⟨'l', "oad".toList, rfl, by decide⟩, by decide⟩, .inr (.inl ⟨"self.db".toList, rfl⟩)⟩

/-- What is listed as a call is a piece of the text of a callee that begins with a letter and has no full stop in it. -/
theorem C92_call_sound (alpha : Char → Bool) (lang : Language) (root : Nd) (x : Text) (hx : x ∈ calls alpha lang root) :
    ∃ n m, Under root n ∧ n.kind ∈ callKinds lang ∧ m ∈ n.children ∧ x <:+: m.text ∧ (∀ c ∈ x, c ≠ '.') ∧
      ∃ c cs, x = c :: cs ∧ alpha c = true := by
  obtain ⟨n, m, hu, hk, hm, h⟩ := ((C92_calls alpha lang root).2 x).1 hx
  obtain ⟨h1, h2, h3⟩ := callName_sound h
  refine ⟨n, m, hu, hk, ?_, h1, h2, h3⟩
  rcases hm with ⟨_, _, _, _, _, pre, post, hc, _⟩ | ⟨_, post, hc⟩
  · rw [hc]; simp
  · rw [hc]; simp

/-- Not every name that is listed is a name: of the callee `handlers("app.main")`, what follows the full stop in the
string is listed. -/
theorem C92_call_text : calls letters .python chained = ["handlers".toList, "main\")".toList] := by decide +kernel

/-- A function whose name begins with an underscore is never listed, nor is anything else that does not begin with a
letter. -/
theorem C92_call_underscore (alpha : Char → Bool) (ha : alpha '_' = false) (lang : Language) (root : Nd) (name : Text) :
    ('_' :: name) ∉ calls alpha lang root := by
  intro h
  obtain ⟨_, _, _, _, _, _, _, c, cs, e, hc⟩ := C92_call_sound alpha lang root _ h
  obtain ⟨rfl, _⟩ : '_' = c ∧ name = cs := by simpa using e
  rw [ha] at hc
  exact absurd hc (by decide)

example : letters '_' = false := by decide

/-! ### Control flow -/

/-- The complexity is one more than the number of branching and looping nodes; the code has loops, branches or error
handling exactly if it has such a node. -/
theorem C92_flow (root : Nd) :
    (controlFlow root).complexity =
      1 + ((written root).filter fun n => decide (n.kind ∈ branchKinds ∨ n.kind ∈ loopKinds)).length ∧
    ((controlFlow root).loops = true ↔ ∃ n, Under root n ∧ n.kind ∈ loopKinds) ∧
    ((controlFlow root).branches = true ↔ ∃ n, Under root n ∧ n.kind ∈ branchKinds) ∧
    ((controlFlow root).errors = true ↔ ∃ n, Under root n ∧ n.kind ∈ errorKinds) := by
  rw [controlFlow_eq]
  refine ⟨?_, ?_, ?_, ?_⟩
  · show 1 + List.countP _ _ = _
    rw [List.countP_eq_length_filter]
    congr 2
    apply List.filter_congr
    intro n _
    rw [Bool.eq_iff_iff]
    simp
  all_goals
    show List.any _ _ = true ↔ _
    rw [List.any_eq_true]
    constructor
    · rintro ⟨n, hn, h⟩
      exact ⟨n, mem_written.1 hn, by simpa using h⟩
    · rintro ⟨n, hn, h⟩
      exact ⟨n, mem_written.2 hn, by simpa using h⟩

example : (controlFlow loop).loops = true ∧ (controlFlow loop).branches = false := by decide +kernel

/-- If no keyword is spelled like the kind of a branch or a loop, the complexity is one more than the number of branching
and looping constructs. -/
theorem C92_flow_partial (root : Nd)
    (h : ∀ n, Under root n → n.info.named = false → n.kind ∉ branchKinds ∧ n.kind ∉ loopKinds) :
    (controlFlow root).complexity =
      1 + ((written root).filter fun n => n.info.named && decide (n.kind ∈ branchKinds ∨ n.kind ∈ loopKinds)).length := by
  rw [(C92_flow root).1]
  congr 2
  apply List.filter_congr
  intro n hn
  cases hb : n.info.named with
  | true => simp
  | false =>
    have := h n (mem_written.1 hn) hb
    simp [this.1, this.2]

example : ∀ n, Under load n → n.info.named = false → n.kind ∉ branchKinds ∧ n.kind ∉ loopKinds := by
  intro n hn h
  have h1 := mem_written.2 hn
  have h2 : ∀ n ∈ written load, n.info.named = false → n.kind ∉ branchKinds ∧ n.kind ∉ loopKinds := by
    intro n hn
    simp [written, writtenAll, load, nd, fd] at hn
    rcases hn with rfl | rfl | rfl <;> simp [Nd.info]
  exact h2 n h1 h

/-- But keywords are nodes too, and `if`, `for`, `while` are spelled like kinds: the function with a single `if` statement
has complexity 3. -/
theorem C92_flow_twice : ∃ root,
    ((written root).filter fun n => n.info.named && decide (n.kind ∈ branchKinds ∨ n.kind ∈ loopKinds)).length = 1 ∧
    (controlFlow root).complexity = 3 :=
  ⟨body, by decide +kernel, by decide +kernel⟩

/-! ### Variables -/

/-- The variables of a piece of code that is not C or C++: in strict order, and a name is among them exactly if some
declaration or assignment has it, trimmed, shorter than fifty bytes, beginning with a letter or an underscore. -/
theorem C92_variables (alpha : Char → Bool) (lang : Language) (hl : lang ≠ .c ∧ lang ≠ .cpp) (maxDepth : Nat) (root : Nd) :
    (variablesOf alpha lang maxDepth root).Pairwise (· < ·) ∧
    ∀ x, x ∈ variablesOf alpha lang maxDepth root ↔ ∃ n m, Under root n ∧ n.kind ∈ varKinds lang ∧
      Named ["left", "name", "pattern"] n m ∧ x = trim m.text ∧ byteLen x < 50 ∧
      ∃ c cs, x = c :: cs ∧ (alpha c = true ∨ c = '_') := by
  refine ⟨sortDedup_sorted _, fun x => ?_⟩
  rw [variablesOf, mem_sortDedup, List.mem_filterMap]
  constructor
  · rintro ⟨n, hn, h⟩
    rw [varAt] at h
    split at h
    · next hk =>
      obtain ⟨m, hm, hx⟩ := Option.bind_eq_some_iff.1 h
      exact ⟨n, m, mem_walkTree.1 hn, by simpa using hk, (varNode_iff hl).1 hm, varName_iff.1 hx⟩
    · exact absurd h (by simp)
  · rintro ⟨n, m, hu, hk, hm, hx⟩
    refine ⟨n, mem_walkTree.2 hu, ?_⟩
    have hk' : (varKinds lang).contains n.kind = true := by simpa using hk
    rw [varAt, if_pos hk', (varNode_iff hl).2 hm]
    exact varName_iff.2 hx

example : variablesOf letters .python 10 loop = ["n".toList] := by decide +kernel

/-- In C and C++, a declared name is listed, through pointers, arrays, references and parameter lists that are nested no
deeper than allowed. -/
theorem C92_variables_c (alpha : Char → Bool) (lang : Language) (hl : lang = .c ∨ lang = .cpp) (maxDepth : Nat)
    (root n d id : Nd) (hu : Under root n) (hk : n.kind = "declaration" ∨ n.kind = "init_declarator")
    (pre post : List Nd) (hc : n.children = pre ++ d :: post) (hf : d.info.field = some "declarator")
    (hpre : ∀ c ∈ pre, c.info.field ≠ some "declarator") (k : Nat) (hd : Declares k d id) (hkd : k ≤ maxDepth)
    (x : Text) (hx : x = trim id.text) (hlen : byteLen x < 50) (hfst : ∃ c cs, x = c :: cs ∧ (alpha c = true ∨ c = '_')) :
    x ∈ variablesOf alpha lang maxDepth root := by
  rw [variablesOf, mem_sortDedup, List.mem_filterMap]
  refine ⟨n, mem_walkTree.2 hu, ?_⟩
  have hk' : (varKinds lang).contains n.kind = true := by
    rcases hl with rfl | rfl <;> rcases hk with h | h <;> rw [h] <;> decide
  rw [varAt, if_pos hk', varNode, if_pos hl, byField_of hc hf hpre, Option.bind_some, declared_of hd _ (by omega)]
  exact varName_iff.2 ⟨hx, hlen, hfst⟩

example : variablesOf letters .c 10 names = ["names".toList] := by decide +kernel

/-- In C and C++, what is listed as a variable is the text of an identifier below a declaration, in the declarator. -/
theorem C92_variables_c_sound (alpha : Char → Bool) (lang : Language) (hl : lang = .c ∨ lang = .cpp) (maxDepth : Nat)
    (root : Nd) (x : Text) (hx : x ∈ variablesOf alpha lang maxDepth root) :
    ∃ n d id, Under root n ∧ (n.kind = "declaration" ∨ n.kind = "init_declarator") ∧ d ∈ n.children ∧
      d.info.field = some "declarator" ∧ Under d id ∧ id.kind = "identifier" ∧ x = trim id.text := by
  rw [variablesOf, mem_sortDedup, List.mem_filterMap] at hx
  obtain ⟨n, hn, h⟩ := hx
  rw [varAt] at h
  split at h
  · next hk =>
    obtain ⟨m, hm, hx⟩ := Option.bind_eq_some_iff.1 h
    rw [varNode, if_pos hl] at hm
    obtain ⟨d, hd, hm⟩ := Option.bind_eq_some_iff.1 hm
    obtain ⟨h1, h2⟩ := declared_sound _ _ _ hm
    obtain ⟨pre, post, hc, hf, _⟩ := byField_some hd
    refine ⟨n, d, m, mem_walkTree.1 hn, ?_, byField_mem hd, hf, h2, h1, (varName_iff.1 hx).1⟩
    rcases hl with rfl | rfl <;> simpa [varKinds] using hk
  · exact absurd h (by simp)

/-- In JavaScript and TypeScript, every declaration also lists its keyword: `const x = 1;` declares `const` and `x`. -/
theorem C92_variable_keyword : variablesOf letters .javascript 10 constX = ["const".toList, "x".toList] ∧
    variablesOf letters .typescript 10 constX = ["const".toList, "x".toList] := by
  decide +kernel

/-! ### Parameters -/

/-- In most languages, plain parameters are listed in order, without those called `self`, `this` or `cls`. -/
theorem C92_params_plain (lang : Language)
    (hl : lang ∈ [.python, .rust, .java, .csharp, .ruby, .php, .lua, .elixir, .haskell, .typescript, .javascript, .vue, .svelte])
    (maxDepth : Nat) (n p : Nd) (hp : Named ["parameters"] n p) (hf : p.info.field = some "parameters")
    (h : ∀ c ∈ p.children, (c.kind = "identifier" ∧ ∀ s ∈ c.children, s.info.field ≠ some "name") ∨
      (c.kind ≠ "identifier" ∧ saysParameter c.kind = false ∧ c.kind ≠ "list_splat_pattern" ∧ c.kind ≠ "dictionary_splat_pattern")) :
    parameters lang maxDepth n =
      ((p.children.filter fun c => c.kind = "identifier").map Nd.text).filter fun t =>
        decide (t ≠ [] ∧ t ≠ "self".toList ∧ t ≠ "this".toList ∧ t ≠ "cls".toList) := by
  exact params_plain lang hl maxDepth n p (named_field hp hf) h

example : parameters .javascript 10 plain = ["a".toList, "b".toList] := by decide +kernel

/-- In Go, parameters that share a type are all listed, in order. -/
theorem C92_params_go (maxDepth : Nat) (n p : Nd) (hp : Named ["parameters"] n p) (hf : p.info.field = some "parameters")
    (h : ∀ c ∈ p.children, c.kind = "parameter_declaration" ∨ (c.kind ≠ "identifier" ∧ saysParameter c.kind = false)) :
    parameters .go maxDepth n =
      ((p.children.filter fun c => c.kind = "parameter_declaration").flatMap fun c =>
        (c.children.filter fun s => s.kind = "identifier").map Nd.text).filter fun t => decide (t ≠ []) := by
  exact params_go maxDepth n p (named_field hp hf) h

example : parameters .go 10 goF = ["a".toList, "b".toList] := by decide +kernel

/-- What is listed as a parameter is the text of a node of the function. -/
theorem C92_params_sound (lang : Language) (maxDepth : Nat) (n : Nd) (t : Text) (ht : t ∈ parameters lang maxDepth n) :
    t ≠ [] ∧ ∃ m, Under n m ∧ m.text = t :=
  params_sound ht

/-- A C function that returns a pointer has no parameters listed, though it has one. -/
theorem C92_params_pointer : parameters .c 10 pointer = [] ∧ parameters .cpp 10 pointer = [] ∧
    ∃ m, Under pointer m ∧ m.kind = "parameter_declaration" := by
  refine ⟨by decide +kernel, by decide +kernel, ?_⟩
  have h : (findFirst pointer ["parameter_declaration"] 10).isSome := by decide +kernel
  obtain ⟨m, hm⟩ := Option.isSome_iff_exists.1 h
  obtain ⟨h1, h2⟩ := findFirst_sound hm
  exact ⟨m, h1, by simpa using h2⟩

/-- A JavaScript parameter with a default value is not listed. -/
theorem C92_params_default : parameters .javascript 10 defaults = ["a".toList] := by decide +kernel

/-! ### The type that is returned -/

/-- The type that is noted is the text of the first child in the field that the language has for it. -/
theorem C92_returns (lang : Language) (f : String)
    (hl : (lang, f) ∈ [(Language.python, "return_type"), (.rust, "return_type"), (.typescript, "return_type"), (.vue, "return_type"),
      (.svelte, "return_type"), (.go, "result"), (.java, "type"), (.csharp, "type"), (.c, "type"), (.cpp, "type")]) (n : Nd) (t : Text) :
    returnType lang n = some t ↔ ∃ m, m.text = t ∧ m.info.field = some f ∧
      ∃ pre post : List Nd, n.children = pre ++ m :: post ∧ ∀ c ∈ pre, c.info.field ≠ some f := by
  have key : (n.byField f).map Nd.text = some t ↔ ∃ m, m.text = t ∧ m.info.field = some f ∧
      ∃ pre post : List Nd, n.children = pre ++ m :: post ∧ ∀ c ∈ pre, c.info.field ≠ some f := by
    rw [Option.map_eq_some_iff]
    constructor
    · rintro ⟨m, hm, e⟩
      obtain ⟨pre, post, h1, h2, h3⟩ := byField_some hm
      exact ⟨m, e, h2, pre, post, h1, h3⟩
    · rintro ⟨m, e, h2, pre, post, h1, h3⟩
      exact ⟨m, byField_of h1 h2 h3, e⟩
  simp only [List.mem_cons, List.not_mem_nil, or_false, Prod.mk.injEq] at hl
  rcases hl with ⟨rfl, rfl⟩ | ⟨rfl, rfl⟩ | ⟨rfl, rfl⟩ | ⟨rfl, rfl⟩ | ⟨rfl, rfl⟩ | ⟨rfl, rfl⟩ | ⟨rfl, rfl⟩ | ⟨rfl, rfl⟩ | ⟨rfl, rfl⟩ | ⟨rfl, rfl⟩ <;>
    exact key

example : returnType .c pointer = some "int".toList := by decide +kernel

/-! ### The class that is extended -/

/-- The class that is named as extended is the text of a node of the class, of a kind that names. -/
theorem C92_parent_sound (lang : Language) (maxDepth : Nat) (n : Nd) (t : Text) (h : parentClass lang maxDepth n = some t) :
    ∃ c m, c ∈ n.children ∧ Under c m ∧ m.text = t ∧
      m.kind ∈ ["identifier", "type_identifier", "simple_identifier", "constant", "name", "qualified_name"] :=
  parent_sound h

/-- The first name in the first such clause is the class that is extended. -/
theorem C92_parent_clause (lang : Language) (clauses names : List String) (hl : (lang, clauses, names) ∈ clauseOf) (maxDepth : Nat)
    (n c m : Nd) (pre post pre' post' : List Nd) (hc : n.children = pre ++ c :: post) (hk : c.kind ∈ clauses)
    (hpre : ∀ x ∈ pre, x.kind ∉ clauses)
    (hm : writtenTo maxDepth c = pre' ++ m :: post') (hmk : m.kind ∈ names) (hpre' : ∀ x ∈ pre', x.kind ∉ names) :
    parentClass lang maxDepth n = some m.text := by
  have hf : findFirst c names maxDepth = some m := ((C92_first c names maxDepth).1 m).2 ⟨pre', post', hm, hmk, hpre'⟩
  have key := inChildren_of hc hk hpre hf
  simp only [clauseOf, List.mem_cons, List.not_mem_nil, or_false, Prod.mk.injEq] at hl
  rcases hl with ⟨rfl, rfl, rfl⟩ | ⟨rfl, rfl, rfl⟩ | ⟨rfl, rfl, rfl⟩ | ⟨rfl, rfl, rfl⟩ | ⟨rfl, rfl, rfl⟩ | ⟨rfl, rfl, rfl⟩ <;>
    exact key

/-- In Java and Ruby, it is the first name in the field `superclass`. -/
theorem C92_parent_field (lang : Language) (name : String)
    (hl : (lang, name) ∈ [(Language.java, "type_identifier"), (Language.ruby, "constant")]) (maxDepth : Nat)
    (n c m : Nd) (pre post pre' post' : List Nd) (hc : n.children = pre ++ c :: post) (hk : c.info.field = some "superclass")
    (hpre : ∀ x ∈ pre, x.info.field ≠ some "superclass")
    (hm : writtenTo maxDepth c = pre' ++ m :: post') (hmk : m.kind = name) (hpre' : ∀ x ∈ pre', x.kind ≠ name) :
    parentClass lang maxDepth n = some m.text := by
  have hf : findFirst c [name] maxDepth = some m := ((C92_first c [name] maxDepth).1 m).2
    ⟨pre', post', hm, by simpa using hmk, fun x hx => by simpa using hpre' x hx⟩
  have hb := byField_of hc hk hpre
  simp only [List.mem_cons, List.not_mem_nil, or_false, Prod.mk.injEq] at hl
  rcases hl with ⟨rfl, rfl⟩ | ⟨rfl, rfl⟩ <;> simp [parentClass, hb, hf]

example : parentClass .java 10 cat = some "Animal".toList ∧ parentClass .java 1 cat = none := by decide +kernel

/-- In JavaScript and TypeScript, a name that stands directly in the first `class_heritage` is the class that is extended. -/
theorem C92_parent_js (lang : Language) (hl : lang ∈ [Language.javascript, .typescript, .vue, .svelte]) (maxDepth : Nat)
    (n c m : Nd) (pre post pre' post' : List Nd) (hc : n.children = pre ++ c :: post) (hk : c.kind = "class_heritage")
    (hpre : ∀ x ∈ pre, x.kind ≠ "class_heritage") (hm : c.children = pre' ++ m :: post') (hmk : m.kind = "identifier")
    (hpre' : ∀ x ∈ pre', x.kind ≠ "identifier") : parentClass lang maxDepth n = some m.text := by
  have hh : heritage maxDepth c = some m.text := by
    have : c.children.find? (fun h => h.kind == "identifier") = some m := by
      rw [List.find?_eq_some_iff_append]
      exact ⟨by simpa using hmk, pre', post', hm, fun x hx => by simpa using hpre' x hx⟩
    rw [heritage, this]
    rfl
  have key : (n.children.filter fun c => c.kind == "class_heritage").findSome? (heritage maxDepth) = some m.text := by
    have e : pre.filter (fun c => c.kind == "class_heritage") = [] := by
      rw [List.filter_eq_nil_iff]
      intro x hx
      simpa using hpre x hx
    rw [hc, List.filter_append, e, List.nil_append, List.filter_cons_of_pos (by simpa using hk), List.findSome?_cons, hh]
  simp only [List.mem_cons, List.not_mem_nil, or_false] at hl
  rcases hl with rfl | rfl | rfl | rfl <;> exact key

example : parentClass .javascript 10 jsDog = some "Animal".toList := by decide +kernel

/-- In Python, it is the first plain name in the list of base classes. -/
theorem C92_parent_py (maxDepth : Nat) (n c m : Nd) (pre post pre' post' : List Nd) (hc : n.children = pre ++ c :: post)
    (hk : c.info.field = some "superclasses") (hpre : ∀ x ∈ pre, x.info.field ≠ some "superclasses")
    (hm : c.children = pre' ++ m :: post') (hmk : m.kind = "identifier") (hpre' : ∀ x ∈ pre', x.kind ≠ "identifier") :
    parentClass .python maxDepth n = some m.text := by
  have hb := byField_of hc hk hpre
  have : c.children.find? (fun h => h.kind == "identifier") = some m := by
    rw [List.find?_eq_some_iff_append]
    exact ⟨by simpa using hmk, pre', post', hm, fun x hx => by simpa using hpre' x hx⟩
  simp [parentClass, hb, this]

example : parentClass .cpp 10 dog = some "Animal".toList := by decide +kernel

/-- In Python, a base class with a module before it is passed over: `class A(mod.Base, Mixin)` extends `Mixin`. -/
theorem C92_parent_python : parentClass .python 10 classA = some "Mixin".toList := by decide +kernel

end NextPlaid.Props
