import Verif.Proofs.Imports

/-!
C93: the imports that are noted about a piece of code are imports of its file that it uses.
-/

namespace NextPlaid.Props

open Units (Text trim isWs)
open Facts FactsSpec Imports ImportsSpec
open Scan (Language)
open Spec (Laid)

namespace ToyImports

def letter (c : Char) : Bool := ('a' ≤ c && c ≤ 'z') || ('A' ≤ c && c ≤ 'Z')

def lowerChar (c : Char) : Char := if 'A' ≤ c ∧ c ≤ 'Z' then Char.ofNat (c.toNat + 32) else c

def tables : Tables := { alpha := letter, alnum := fun c => letter c || ('0' ≤ c && c ≤ '9'), lower := fun t => t.map lowerChar }

theorem sane : Sane tables := by
  refine ⟨by decide, by decide, fun c hc => ?_⟩
  cases hx : tables.alnum c with
  | false => rfl
  | true =>
    exfalso
    simp only [tables, letter, Bool.or_eq_true, Bool.and_eq_true, decide_eq_true_eq, Char.le_def, UInt32.le_iff_toNat_le] at hx
    have e : c.toNat = c.val.toNat := rfl
    simp only [isWs, e, Bool.or_eq_true, Bool.and_eq_true, decide_eq_true_eq, beq_iff_eq] at hc
    have h1 : 'a'.val.toNat = 97 := rfl
    have h2 : 'z'.val.toNat = 122 := rfl
    have h3 : 'A'.val.toNat = 65 := rfl
    have h4 : 'Z'.val.toNat = 90 := rfl
    have h5 : '0'.val.toNat = 48 := rfl
    have h6 : '9'.val.toNat = 57 := rfl
    omega

def nd (k t : String) (cs : List Nd) : Nd := .mk ⟨k, none, true, t.toList⟩ cs
def fd (f k t : String) (cs : List Nd) : Nd := .mk ⟨k, some f, true, t.toList⟩ cs
def tk (t : String) : Nd := .mk ⟨t, none, false, t.toList⟩ []

/-- A Python file: `import json`, `from os.path import join`. -/
def py : Nd := nd "module" "…" [nd "import_statement" "import json" [tk "import", fd "name" "dotted_name" "json" []],
  nd "import_from_statement" "from os.path import join" [tk "from", fd "module_name" "dotted_name" "os.path" []]]
/-- A Go file: `import ( "fmt"; "net/http" )`. -/
def goFile : Nd := nd "source_file" "…" [nd "import_declaration" "…" [nd "import_spec_list" "…" [
  nd "import_spec" "\"fmt\"" [fd "path" "interpreted_string_literal" "\"fmt\"" [nd "interpreted_string_literal_content" "fmt" []]],
  nd "import_spec" "\"net/http\"" [fd "path" "interpreted_string_literal" "\"net/http\"" [nd "interpreted_string_literal_content" "net/http" []]]]]]
/-- A Ruby file: `require 'net/http'` and `puts 'hello'`. -/
def rb : Nd := nd "program" "…" [
  nd "call" "require 'net/http'" [fd "method" "identifier" "require" [], fd "arguments" "argument_list" "'net/http'" [nd "string" "'net/http'" []]],
  nd "call" "puts 'hello'" [fd "method" "identifier" "puts" [], fd "arguments" "argument_list" "'hello'" [nd "string" "'hello'" []]]]
/-- A Lua file: `local json = require("json")` and `io.write("hello")`. -/
def lua : Nd := nd "chunk" "…" [
  nd "function_call" "require(\"json\")" [fd "name" "identifier" "require" [],
    fd "arguments" "arguments" "(\"json\")" [tk "(", nd "string" "\"json\"" [nd "string_content" "json" []], tk ")"]],
  nd "function_call" "io.write(\"hello\")" [fd "name" "dot_index_expression" "io.write" [],
    fd "arguments" "arguments" "(\"hello\")" [tk "(", nd "string" "\"hello\"" [nd "string_content" "hello" []], tk ")"]]]
/-- An Elixir file: `def run(x), do: x`. -/
def elixir : Nd := nd "source" "…" [nd "call" "def run(x), do: x" [fd "target" "identifier" "def" []]]
/-- `json.loads(s)` in Python. -/
def pyBody : Nd := nd "call" "json.loads(s)" [fd "function" "attribute" "json.loads" [fd "object" "identifier" "json" [], tk ".",
  fd "attribute" "identifier" "loads" []], fd "arguments" "argument_list" "(s)" []]
/-- `fs::read(p)` in Rust. -/
def rsBody : Nd := nd "call_expression" "fs::read(p)" [fd "function" "scoped_identifier" "fs::read" [fd "path" "identifier" "fs" [],
  tk "::", fd "name" "identifier" "read" []], fd "arguments" "arguments" "(p)" []]

end ToyImports

open ToyImports

/-! ### The imports of a file -/

/-- Which nodes count, for every language. -/
theorem C93_tables (lang : Language) : importKinds lang = (importNodes.lookup lang).getD [] ∧
    accessKinds lang = (accessNodes.lookup lang).getD [] := by
  refine ⟨?_, ?_⟩ <;> cases lang <;> rfl

/-- In languages other than Ruby, Lua, Go and OCaml: the imports are in strict order, and a module is among them exactly if
some import statement within the allowed depth names it. -/
theorem C93_imports (u : Tables) (lang : Language) (hl : lang ≠ .ruby ∧ lang ≠ .lua ∧ lang ≠ .go ∧ lang ≠ .ocaml) (maxDepth : Nat)
    (root : Nd) : (fileImports u lang maxDepth root).Pairwise (· < ·) ∧
    ∀ x, x ∈ fileImports u lang maxDepth root ↔
      ∃ n ∈ writtenTo maxDepth root, n.kind ∈ importKinds lang ∧ moduleOf u lang n.text = some x := by
  refine ⟨fileImports_sorted u lang maxDepth root, fun x => ?_⟩
  have hs : ∀ n, ¬ Stop lang n := by
    rintro n ⟨_, h⟩
    obtain ⟨h1, h2, h3, h4⟩ := hl
    cases lang <;> simp_all [goesOn]
  have ha : ∀ n, importAt u lang maxDepth n = moduleOf u lang n.text := by
    intro n
    obtain ⟨h1, h2, h3, h4⟩ := hl
    cases lang <;> simp_all [importAt]
  rw [mem_fileImports]
  constructor
  · rintro ⟨m, hr, hk, hx⟩
    exact ⟨m, (reach_all hs _ _ _).1 hr, hk, (ha m) ▸ hx⟩
  · rintro ⟨m, hr, hk, hx⟩
    exact ⟨m, (reach_all hs _ _ _).2 hr, hk, (ha m).trans hx⟩

example : fileImports tables .python 10 py = ["json".toList, "os".toList] := by decide +kernel

/-- In Go: the last component of the path of each import. -/
theorem C93_go (u : Tables) (maxDepth : Nat) (root : Nd) : (fileImports u .go maxDepth root).Pairwise (· < ·) ∧
    ∀ x, x ∈ fileImports u .go maxDepth root ↔ ∃ n m, Reach (fun n => n.kind = "import_spec") maxDepth root n ∧
      n.kind = "import_spec" ∧ FirstIn ["interpreted_string_literal_content"] maxDepth n m ∧ LastPart '/' m.text x ∧ x ≠ [] := by
  refine ⟨fileImports_sorted u .go maxDepth root, fun x => ?_⟩
  have hs : ∀ n, Stop .go n ↔ n.kind = "import_spec" := by
    intro n; simp [Stop, importKinds, goesOn]
  rw [mem_fileImports]
  simp only [reach_congr hs, importAt, goImport, Option.bind_eq_some_iff, nonEmpty_iff, seek_iff, afterSlash_iff]
  simp only [importKinds, List.mem_singleton]
  constructor
  · rintro ⟨n, hr, hk, m, hm, h1, h2⟩; exact ⟨n, m, hr, hk, hm, h1, h2⟩
  · rintro ⟨n, m, hr, hk, hm, h1, h2⟩; exact ⟨n, hr, hk, m, hm, h1, h2⟩

example : fileImports tables .go 10 goFile = ["fmt".toList, "http".toList] := by decide +kernel

/-- In OCaml: the first module name of each `open`. -/
theorem C93_ocaml (u : Tables) (maxDepth : Nat) (root : Nd) : (fileImports u .ocaml maxDepth root).Pairwise (· < ·) ∧
    ∀ x, x ∈ fileImports u .ocaml maxDepth root ↔ ∃ n m, Reach (fun n => n.kind = "open_module") maxDepth root n ∧
      n.kind = "open_module" ∧ FirstIn ["module_name"] maxDepth n m ∧ m.text = x ∧ x ≠ [] := by
  refine ⟨fileImports_sorted u .ocaml maxDepth root, fun x => ?_⟩
  have hs : ∀ n, Stop .ocaml n ↔ n.kind = "open_module" := by
    intro n; simp [Stop, importKinds, goesOn]
  rw [mem_fileImports]
  simp only [reach_congr hs, importAt, ocamlImport, Option.bind_eq_some_iff, nonEmpty_iff, seek_iff]
  simp only [importKinds, List.mem_singleton]
  constructor
  · rintro ⟨n, hr, hk, m, hm, h1, h2⟩; exact ⟨n, m, hr, hk, hm, h1, h2⟩
  · rintro ⟨n, m, hr, hk, hm, h1, h2⟩; exact ⟨n, hr, hk, m, hm, h1, h2⟩

/-- In Ruby, what is listed is required: some call to `require` or `require_relative` (or one without the name of a method)
has a string whose last component it is, without quotes. -/
theorem C93_ruby_sound (u : Tables) (maxDepth : Nat) (root : Nd) (x : Text) (hx : x ∈ fileImports u .ruby maxDepth root) :
    ∃ n a s, Under root n ∧ n.kind = "call" ∧ InField "arguments" n a ∧ s ∈ a.children ∧
      (s.kind = "string" ∨ s.kind = "string_content") ∧ x <:+: s.text ∧ '/' ∉ x ∧ x ≠ [] ∧
      ∀ m, InField "method" n m → m.text = "require".toList ∨ m.text = "require_relative".toList := by
  obtain ⟨n, hr, hk, h⟩ := mem_fileImports.1 hx
  have hu : Under root n := by
    clear h hk hx
    induction hr with
    | here => exact .here
    | down _ hc _ ih => exact under_trans (.child .here hc) ih
  simp only [importAt, rubyImport] at h
  split at h
  · exact absurd h (by simp)
  · next hm =>
    obtain ⟨a, ha, h⟩ := Option.bind_eq_some_iff.1 h
    obtain ⟨s, hs, h⟩ := Option.bind_eq_some_iff.1 h
    obtain ⟨h1, h2⟩ := nonEmpty_iff.1 h
    have hl := afterSlash_iff.1 h1
    have hsk := List.find?_some hs
    refine ⟨n, a, s, hu, by simpa [importKinds] using hk, inField_iff.1 ha, List.mem_of_find?_eq_some hs, by simpa using hsk, ?_, hl.1, h2, ?_⟩
    · have i1 : x <:+: Text.trimMatches (fun x => x == '\'' || x == '"') s.text := by
        rcases hl.2 with e | ⟨r, e⟩
        · rw [e]; exact List.infix_rfl
        · rw [e]; exact ⟨r ++ ['/'], [], by simp⟩
      refine i1.trans ?_
      rw [Text.trimMatches]
      have j1 := List.dropWhile_suffix (fun x => x == '\'' || x == '"') (l := s.text)
      have j2 := List.dropWhile_suffix (fun x => x == '\'' || x == '"') (l := (s.text.dropWhile fun x => x == '\'' || x == '"').reverse)
      have j3 := List.reverse_prefix.2 j2
      rw [List.reverse_reverse] at j3
      exact j3.isInfix.trans j1.isInfix
    · intro m hm'
      rw [inField_iff.2 hm'] at hm
      simp at hm
      by_contra hc
      rw [not_or] at hc
      have := hm (by simpa using hc.1)
      exact hc.2 (by simpa using this)

/-- And what is required is listed: the last component of the path in the first string, without quotes. -/
theorem C93_ruby (u : Tables) (maxDepth : Nat) (root n m a s : Nd) (hr : Reach (fun n => n.kind = "call") maxDepth root n)
    (hk : n.kind = "call") (hm : InField "method" n m) (hmt : m.text = "require".toList ∨ m.text = "require_relative".toList)
    (ha : InField "arguments" n a) (pre post : List Nd) (hs : a.children = pre ++ s :: post)
    (hsk : s.kind = "string" ∨ s.kind = "string_content") (hpre : ∀ c ∈ pre, c.kind ≠ "string" ∧ c.kind ≠ "string_content")
    (l path r x : Text) (ht : s.text = l ++ path ++ r) (hq : ∀ c ∈ l ++ r, c = '\'' ∨ c = '"')
    (hf : ∀ c ∈ path.head?, c ≠ '\'' ∧ c ≠ '"') (hl : ∀ c ∈ path.getLast?, c ≠ '\'' ∧ c ≠ '"') (hx : LastPart '/' path x) (hne : x ≠ []) :
    x ∈ fileImports u .ruby maxDepth root := by
  have hst : ∀ n, Stop .ruby n ↔ n.kind = "call" := by
    intro n; simp [Stop, importKinds, goesOn]
  refine mem_fileImports.2 ⟨n, (reach_congr hst).2 hr, by simp [importKinds, hk], ?_⟩
  have e1 : ((n.byField "method").any fun m => m.text != "require".toList && m.text != "require_relative".toList) = false := by
    rw [inField_iff.2 hm]
    rcases hmt with h | h <;> simp [h]
  have e2 : a.children.find? (fun c => c.kind == "string" || c.kind == "string_content") = some s := by
    rw [List.find?_eq_some_iff_append]
    exact ⟨by simpa using hsk, pre, post, hs, fun c hc => by simpa using hpre c hc⟩
  have e3 : Text.trimMatches (fun x => x == '\'' || x == '"') s.text = path := by
    rw [ht]
    exact trimMatches_of (fun c hc => by simpa using hq c (List.mem_append_left _ hc)) (fun c hc => by simpa using hq c (List.mem_append_right _ hc))
      (fun c hc => by simpa using hf c hc) (fun c hc => by simpa using hl c hc)
  simp only [importAt, rubyImport, e1, Bool.false_eq_true, if_false, inField_iff.2 ha, Option.bind_some, e2, e3]
  exact nonEmpty_iff.2 ⟨afterSlash_iff.2 hx, hne⟩

example : fileImports tables .ruby 10 rb = ["http".toList] := by decide +kernel

/-- In Lua: the first string in the arguments of each call that is not the call of a plain name other than `require`. -/
theorem C93_lua (u : Tables) (maxDepth : Nat) (root : Nd) : (fileImports u .lua maxDepth root).Pairwise (· < ·) ∧
    ∀ x, x ∈ fileImports u .lua maxDepth root ↔ ∃ n a m, Reach (fun n => n.kind = "function_call" ∧ ¬ OtherCall n) maxDepth root n ∧
      n.kind = "function_call" ∧ ¬ OtherCall n ∧ InField "arguments" n a ∧ FirstIn ["string_content"] maxDepth a m ∧ m.text = x ∧ x ≠ [] := by
  refine ⟨fileImports_sorted u .lua maxDepth root, fun x => ?_⟩
  have ho : ∀ n, luaOther n = true ↔ OtherCall n := by
    intro n
    rw [luaOther, Nd.first, OtherCall]
    cases n.children with
    | nil => simp
    | cons c cs =>
      simp only [List.head?_cons, Option.any_some, Bool.and_eq_true, beq_iff_eq, bne_iff_ne]
      constructor
      · rintro ⟨h1, h2⟩; exact ⟨c, cs, rfl, h1, h2⟩
      · rintro ⟨f, post, e, h1, h2⟩
        obtain ⟨rfl, rfl⟩ : c = f ∧ cs = post := by simpa using e
        exact ⟨h1, h2⟩
  have hs : ∀ n, Stop .lua n ↔ n.kind = "function_call" ∧ ¬ OtherCall n := by
    intro n
    rw [Stop, ← ho n]
    simp [importKinds, goesOn]
  rw [mem_fileImports]
  simp only [reach_congr hs]
  constructor
  · rintro ⟨n, hr, hk, h⟩
    simp only [importAt] at h
    split at h
    · exact absurd h (by simp)
    · next hno =>
      simp only [luaImport, Option.bind_eq_some_iff, nonEmpty_iff, seek_iff, inField_iff] at h
      obtain ⟨a, ha, m, hm, h1, h2⟩ := h
      exact ⟨n, a, m, hr, by simpa [importKinds] using hk, fun h => hno ((ho n).2 h), ha, hm, h1, h2⟩
  · rintro ⟨n, a, m, hr, hk, hno, ha, hm, h1, h2⟩
    refine ⟨n, hr, by simp [importKinds, hk], ?_⟩
    have hno' : ¬ luaOther n = true := fun h => hno ((ho n).1 h)
    simp only [importAt, if_neg hno']
    simp only [luaImport, Option.bind_eq_some_iff, nonEmpty_iff, seek_iff, inField_iff]
    exact ⟨a, ha, m, hm, h1, h2⟩

/-! ### The module that an import names -/

/-- An import of the form "keyword, path, anything" names the first component of the path, if the path does not begin like
a keyword. -/
theorem C93_module_first (u : Tables) (hu : Sane u) (lang : Language) (hl : lang ∉ [Language.java, .kotlin, .scala, .csharp])
    (text : Text) (kws after : List Text) (x rest : Text) (ht : Laid isWs (kws ++ (x ++ rest) :: after) text)
    (hk : ∀ k ∈ kws, k ∈ keywords) (hw : NoKeyword (x ++ rest)) (hx : x ≠ []) (hn : ∀ c ∈ x, NameChar u c)
    (hr : (∀ c ∈ rest, u.alnum c = false ∧ c ≠ '_' ∧ c ≠ '.') ∨ (∃ r, rest = '.' :: r) ∨ ∃ r, rest = ':' :: ':' :: r) :
    moduleOf u lang text = some x := by
  have hl' : ¬ (lang = .java ∨ lang = .kotlin ∨ lang = .scala ∨ lang = .csharp) := by simpa using hl
  rw [moduleOf, if_neg hl', importPath_word ht hk hw]
  exact first_component hu hx hn hr

example : moduleOf tables .python "from os.path import join".toList = some "os".toList ∧
    moduleOf tables .rust "use serde::Deserialize;".toList = some "serde".toList := by decide +kernel

/-- In Java, Kotlin, Scala and C#, it names the last component. -/
theorem C93_module_last (u : Tables) (lang : Language) (hl : lang ∈ [Language.java, .kotlin, .scala, .csharp])
    (text : Text) (kws after : List Text) (path rest x : Text) (ht : Laid isWs (kws ++ (path ++ rest) :: after) text)
    (hk : ∀ k ∈ kws, k ∈ keywords) (hw : NoKeyword (path ++ rest)) (hn : ∀ c ∈ path, NameChar u c ∨ c = '.')
    (hr : ∀ c ∈ rest, u.alnum c = false ∧ c ≠ '_' ∧ c ≠ '.') (hx : LastPart '.' path x) (hne : x ≠ []) :
    moduleOf u lang text = some x := by
  have hl' : lang = .java ∨ lang = .kotlin ∨ lang = .scala ∨ lang = .csharp := by simpa using hl
  have hkeep : ∀ c, (NameChar u c ∨ c = '.') → (!u.alnum c && c != '_' && c != '.') = false := by
    rintro c ((h | h) | h) <;> simp [h]
  have ht' : Text.trimMatches (fun c => !u.alnum c && c != '_' && c != '.') (path ++ rest) = path := by
    have := trimMatches_of (p := fun c => !u.alnum c && c != '_' && c != '.') (a := []) (s := path) (b := rest) (by simp)
      (fun c hc => by simp [hr c hc]) (fun c hc => hkeep c (hn c (List.mem_of_mem_head? hc)))
      (fun c hc => hkeep c (hn c (List.mem_of_mem_getLast? hc)))
    rwa [List.nil_append] at this
  rw [moduleOf, if_pos hl', importPath_word ht hk hw, ht']
  exact nonEmpty_iff.2 ⟨afterDot_iff.2 hx, hne⟩

example : moduleOf tables .java "import java.util.Arrays;".toList = some "Arrays".toList := by decide +kernel

/-- A module whose name begins like a keyword is passed over: `import users` names a module called `import users`, and
`from users.models import User` names `User`. -/
theorem C93_module_keyword : moduleOf tables .python "import users".toList = some "import users".toList ∧
    moduleOf tables .python "from users.models import User".toList = some "User".toList := by decide +kernel

/-- In C and C++, every `#include` names the module `include`, whatever is included. -/
theorem C93_include (u : Tables) (hu : Sane u) (hh : u.alnum '#' = false) (ha : ∀ c ∈ "include".toList, u.alnum c = true)
    (lang : Language) (hl : lang = .c ∨ lang = .cpp) (text : Text) (after : List Text)
    (ht : Laid isWs ("#include".toList :: after) text) : moduleOf u lang text = some "include".toList := by
  have hl' : ¬ (lang = .java ∨ lang = .kotlin ∨ lang = .scala ∨ lang = .csharp) := by
    rcases hl with rfl | rfl <;> decide
  have hw : NoKeyword "#include".toList := keywordLike_iff.1 (by decide)
  have ht' : Text.trimMatches (fun c => !u.alnum c && c != '_' && c != '.') "#include".toList = "include".toList :=
    trimMatches_of (p := fun c => !u.alnum c && c != '_' && c != '.') (a := ['#']) (s := "include".toList) (b := [])
      (by intro c hc; obtain rfl := List.mem_singleton.1 hc; simp [hh]) (by simp)
      (by intro c hc; simp [ha c (List.mem_of_mem_head? hc)]) (by intro c hc; simp [ha c (List.mem_of_mem_getLast? hc)])
  rw [moduleOf, if_neg hl', importPath_word (before := []) ht (by simp) hw, ht']
  have := first_component (u := u) hu (x := "include".toList) (rest := []) (by simp) (fun c hc => .inl (ha c hc)) (.inl (by simp))
  rw [List.append_nil] at this
  have e : Text.trimMatches (fun c => !u.alnum c && c != '_' && c != '.') "include".toList = "include".toList := by
    have := trimMatches_of (p := fun c => !u.alnum c && c != '_' && c != '.') (a := []) (s := "include".toList) (b := []) (by simp) (by simp)
      (by intro c hc; simp [ha c (List.mem_of_mem_head? hc)]) (by intro c hc; simp [ha c (List.mem_of_mem_getLast? hc)])
    simpa using this
  rw [e] at this
  exact this

example : moduleOf tables .c "#include <stdio.h>".toList = some "include".toList := by decide +kernel

/-- In JavaScript and TypeScript, an import of names in braces names no module, whatever the module is. -/
theorem C93_braces (u : Tables) (hb : u.alnum '{' = false) (lang : Language)
    (hl : lang ∈ [Language.javascript, .typescript, .vue, .svelte]) (text : Text) (after : List Text)
    (ht : Laid isWs ("import".toList :: "{".toList :: after) text) : moduleOf u lang text = none := by
  have hl' : ¬ (lang = .java ∨ lang = .kotlin ∨ lang = .scala ∨ lang = .csharp) := by
    simp only [List.mem_cons, List.not_mem_nil, or_false] at hl
    rcases hl with rfl | rfl | rfl | rfl <;> decide
  have hw : NoKeyword "{".toList := keywordLike_iff.1 (by decide)
  have ht' : Text.trimMatches (fun c => !u.alnum c && c != '_' && c != '.') "{".toList = [] :=
    trimMatches_of (p := fun c => !u.alnum c && c != '_' && c != '.') (a := ['{']) (s := []) (b := [])
      (by intro c hc; obtain rfl := List.mem_singleton.1 hc; simp [hb]) (by simp) (by simp) (by simp)
  rw [moduleOf, if_neg hl', importPath_word (before := ["import".toList]) ht (by intro k hk; obtain rfl := List.mem_singleton.1 hk; simp [keywords]) hw, ht']
  rfl

example : moduleOf tables .typescript "import { readFile } from 'fs'".toList = none := by decide +kernel

/-- A word before the path is taken for it: `pub use a::b;` in Rust, `import static a.B;` in Java, `import qualified M` in
Haskell. Of `import a, b` only the first is named, and `import java.util.*;` names nothing. -/
theorem C93_module_words : moduleOf tables .rust "pub use a::b;".toList = some "pub".toList ∧
    moduleOf tables .java "import static a.B;".toList = some "static".toList ∧
    moduleOf tables .haskell "import qualified M".toList = some "qualified".toList ∧
    moduleOf tables .python "import a, b".toList = some "a".toList ∧
    moduleOf tables .java "import java.util.*;".toList = none := by decide +kernel

/-- In Lua, a call of a function in a table counts as `require`: `io.write("hello")` imports `hello`. In Elixir, every call
counts as an import, definitions included. -/
theorem C93_not_imports : fileImports tables .lua 10 lua = ["hello".toList, "json".toList] ∧
    fileImports tables .elixir 10 elixir = ["def".toList] := by decide +kernel

/-! ### Modules that are used -/

/-- The modules that a piece of code uses: in strict order, and a name is among them exactly if something with that name is
accessed, other than `self`, `this` and `super`, or an object of that class is created. -/
theorem C93_used (u : Tables) (lang : Language) (maxDepth : Nat) (root : Nd) : (usedModules u lang maxDepth root).Pairwise (· < ·) ∧
    ∀ x, x ∈ usedModules u lang maxDepth root ↔ ∃ n ∈ writtenTo maxDepth root, ∃ m, n.kind ∈ accessKinds lang ∧ x = trim m.text ∧
      ((n.kind = "object_creation_expression" ∧ FirstIn ["type_identifier", "identifier", "name"] maxDepth n m ∧ x ≠ []) ∨
      (n.kind ≠ "object_creation_expression" ∧ Accessed lang maxDepth n m ∧
        m.kind ∈ ["identifier", "constant", "simple_identifier", "module_name"] ∧
        x ≠ "self".toList ∧ x ≠ "this".toList ∧ x ≠ "super".toList ∧ ∃ c cs, x = c :: cs ∧ u.alpha c = true)) := by
  refine ⟨sortDedup_sorted _, fun x => ?_⟩
  rw [mem_usedModules]
  constructor
  · rintro ⟨n, hn, h⟩
    rw [usedAt] at h
    split at h
    · next hk =>
      have hk' : n.kind ∈ accessKinds lang := by simpa using hk
      split at h
      · next hc =>
        obtain ⟨m, hm, hx⟩ := Option.bind_eq_some_iff.1 h
        obtain ⟨rfl, hx⟩ := nonEmpty_iff.1 hx
        exact ⟨n, hn, m, hk', rfl, .inl ⟨hc, seek_iff.1 hm, hx⟩⟩
      · next hc =>
        obtain ⟨m, hm, hx⟩ := Option.bind_eq_some_iff.1 h
        split at hx
        · next hs =>
          have hb := baseName_iff.1 hx
          exact ⟨n, hn, m, hk', hb.1, .inr ⟨hc, (accessed_iff (by simpa using hk)).1 hm, by simpa [simpleKinds] using hs, hb.2⟩⟩
        · exact absurd hx (by simp)
    · exact absurd h (by simp)
  · rintro ⟨n, hn, m, hk, hx, h⟩
    refine ⟨n, hn, ?_⟩
    have hk' : (accessKinds lang).contains n.kind = true := by simpa using hk
    rw [usedAt, if_pos hk']
    rcases h with ⟨hc, hm, hne⟩ | ⟨hc, hm, hs, hb⟩
    · rw [if_pos hc, seek_iff.2 hm, Option.bind_some]
      exact nonEmpty_iff.2 ⟨hx.symm, hne⟩
    · have hs' : simpleKinds.contains m.kind = true := by simpa [simpleKinds] using hs
      rw [if_neg hc, (accessed_iff hk).2 hm, Option.bind_some, if_pos hs']
      exact baseName_iff.2 ⟨hx, hb⟩

example : usedModules tables .python 10 pyBody = ["json".toList] := by decide +kernel

/-- `new ArrayList()` in Java. -/
example : usedModules tables .java 10 (nd "object_creation_expression" "new ArrayList()" [tk "new", fd "type" "type_identifier" "ArrayList" [],
    fd "arguments" "argument_list" "()" []]) = ["ArrayList".toList] := by decide +kernel

/-- In Rust, a module in a path is never found, since a path has no field `value`: `fs::read(p)` uses no module. -/
theorem C93_rust_path : usedModules tables .rust 10 rsBody = [] := by decide +kernel

/-! ### The imports of a unit -/

/-- The imports of a piece of code are those of its file, in the same order, that it uses as a module or that share their
name with a call, one being part of the other. -/
theorem C93_unit (u : Tables) (file used calls : List Text) :
    (unitImports u file used calls).Sublist file ∧
    ∀ x, x ∈ unitImports u file used calls ↔ x ∈ file ∧
      ((∃ m ∈ used, u.lower m = u.lower x) ∨ ∃ c ∈ calls, u.lower x <:+: u.lower c ∨ u.lower c <:+: u.lower x) := by
  refine ⟨List.filter_sublist, fun x => ?_⟩
  rw [unitImports, List.mem_filter]
  simp only [Bool.or_eq_true, List.any_eq_true, beq_iff_eq, containsText_iff]

example : unitImports tables ["json".toList, "sys".toList] ["JSON".toList] ["loads".toList] = ["json".toList] := by decide +kernel

/-- So an import is noted that is not used at all: with `import os`, a function that calls `close`. -/
theorem C93_unit_substring : unitImports tables ["os".toList] [] ["close".toList] = ["os".toList] := by decide +kernel

end NextPlaid.Props
