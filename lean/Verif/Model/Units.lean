import Verif.Model.Basic
import Mathlib.Data.List.Sort
import Mathlib.Data.List.Lex
import Mathlib.Order.Lex
import Mathlib.Data.Char

/-!
How colgrep cuts a source file into code units: `/repo/colgrep/src/parser/mod.rs`, `extract.rs`, `ast.rs`
(`find_start_with_attributes`), `text.rs`, `vue.rs`, `svelte.rs`, `html.rs` and `call_graph.rs`.

Text is a list of characters. The tree-sitter parser is not modelled: what the code reads from a syntax tree is a
tree of nodes (`Node`) whose facts (`Info`) are those the code asks for. QML files have their own extraction
(`qml.rs`), modelled in `Qml`. The fields of a unit that only describe it (docstring, parameters, variables,
imports, control flow) are left out.
-/

namespace NextPlaid.Units

abbrev Text := List Char

/-- `char::is_whitespace` of the Rust standard library: the characters with the Unicode property White_Space. -/
def isWs (c : Char) : Bool :=
  (9 ≤ c.toNat && c.toNat ≤ 13) || c.toNat == 32 || c.toNat == 0x85 || c.toNat == 0xA0 || c.toNat == 0x1680 ||
  (0x2000 ≤ c.toNat && c.toNat ≤ 0x200A) || c.toNat == 0x2028 || c.toNat == 0x2029 || c.toNat == 0x202F ||
  c.toNat == 0x205F || c.toNat == 0x3000

/-- `str::trim` of the Rust standard library. -/
def trim (s : Text) : Text := ((s.dropWhile isWs).reverse.dropWhile isWs).reverse

/-- `line.trim().is_empty()`, as used throughout the parser. -/
def blank (s : Text) : Bool := (trim s).isEmpty

/-- Split at every `'\n'` (helper of `str::lines`). -/
def splitNl : Text → List Text
  | [] => [[]]
  | c :: cs =>
    if c = '\n' then [] :: splitNl cs
    else match splitNl cs with
      | [] => [[c]]
      | l :: ls => (c :: l) :: ls

/-- Remove one `'\r'` at the end (helper of `str::lines`, which ends a line at `"\n"` or `"\r\n"`). -/
def stripCr (l : Text) : Text := if l.getLast? = some '\r' then l.dropLast else l

/-- What `str::lines` does with the pieces between line feeds: the last piece is dropped if it is empty and kept as it is
otherwise; the others lose a carriage return at their end. -/
def chop : List Text → List Text
  | [] => []
  | [l] => if l.isEmpty then [] else [l]
  | l :: m :: ls => stripCr l :: chop (m :: ls)

/-- `str::lines` of the Rust standard library. -/
def lines (s : Text) : List Text := chop (splitNl s)

/-- `lines.join("\n")`. -/
def joinNl : List Text → Text
  | [] => []
  | [l] => l
  | l :: m :: ls => l ++ '\n' :: joinNl (m :: ls)

/-- `&lines[a..b]`: a panic when the range is not inside the slice. -/
def slice (ls : List Text) (a b : Nat) : Res (List Text) :=
  if a ≤ b ∧ b ≤ ls.length then .ok ((ls.drop a).take (b - a)) else .error .panic

/-- `UnitType`: /repo/colgrep/src/parser/types.rs:104-116. -/
inductive UnitType where
  | function | method | class | constant | document | rawCode
deriving DecidableEq, Repr

/-- `CodeUnit`: /repo/colgrep/src/parser/types.rs:118-158, without the fields that are not used here. -/
structure CodeUnit where
  name : Text
  line : Nat
  endLine : Nat
  utype : UnitType
  parent : Option Text
  signature : Text
  calls : List Text
  calledBy : List Text
  code : Text
deriving DecidableEq, Repr

/-- The languages that `find_start_with_attributes` and `extract_constant` tell apart
(/repo/colgrep/src/parser/ast.rs:386-400, extract.rs:291-307). `java` stands for Java, Kotlin and Scala, `typescript` for
TypeScript, JavaScript, Vue and Svelte, `other` for every other language. -/
inductive Lang where
  | rust | python | java | csharp | typescript | go | other
deriving DecidableEq, Repr

/-- `str::starts_with`. -/
def startsWith (s p : Text) : Bool := p.isPrefixOf s

/-- Is this trimmed line an attribute, a decorator or a doc comment?
/repo/colgrep/src/parser/ast.rs:382-400. -/
def isAttribute (lang : Lang) (line : Text) : Bool :=
  match lang with
  | .rust => startsWith line ['#', '['] || startsWith line ['#', '!', '['] || startsWith line ['/', '/', '/']
  | .python => startsWith line ['@']
  | .java => startsWith line ['@']
  | .csharp => startsWith line ['['] && line.getLast? == some ']'
  | .typescript => startsWith line ['@'] || startsWith line ['/', '*', '*'] || startsWith line ['*']
  | .go => startsWith line ['/', '/']
  | .other => false

/-- The loop of `find_start_with_attributes`: /repo/colgrep/src/parser/ast.rs:372-406. The first number counts down the
rows above the node. -/
def walkBack (lang : Lang) (ls : List Text) : Nat → Nat → Nat
  | 0, start => start
  | i + 1, start =>
    if blank (ls[i]?.getD []) then walkBack lang ls i start
    else if isAttribute lang (trim (ls[i]?.getD [])) then walkBack lang ls i i
    else start

/-- `find_start_with_attributes`: /repo/colgrep/src/parser/ast.rs:364-409. -/
def findStart (lang : Lang) (ls : List Text) (row : Nat) : Nat := walkBack lang ls row row

/-- `is_function_node`, then `is_class_node`, then `is_constant_node` of the kind of a node, in the order in which
`extract_from_node` asks: /repo/colgrep/src/parser/mod.rs:240, 248, 296. -/
inductive Kind where
  | function | class | constant | other
deriving DecidableEq, Repr

/-- What the code reads from one node of the syntax tree. `name` is `get_node_name` or, for a constant,
`get_constant_name`; `abstr` is `is_abstract_type_container`; `body` is the child that `find_class_body` returns;
`receiver` is the type found by `determine_function_type`; `arrow` says that `find_arrow_function` finds a node; `calls` is
`extract_function_calls`. Rows count from 0, as in tree-sitter. -/
structure Info where
  kind : Kind
  name : Option Text
  abstr : Bool
  body : Option Nat
  receiver : Option Text
  arrow : Bool
  calls : List Text
  startRow : Nat
  endRow : Nat
deriving DecidableEq, Repr

/-- A node of the syntax tree with its children. -/
inductive Node where
  | mk (info : Info) (children : List Node)

def Node.info : Node → Info
  | .mk i _ => i

def Node.children : Node → List Node
  | .mk _ cs => cs

/-- The part shared by `extract_function`, `extract_class`, `extract_constant` and `extract_arrow_function_as_function`:
the line range with the attributes above the node, the signature and the code. /repo/colgrep/src/parser/extract.rs:22-45,
84-88, 100-121, 149-152, 311-342, 555-573, 610-612. -/
def declUnit (lang : Lang) (ls : List Text) (info : Info) (name : Text) (utype : UnitType) (parent : Option Text)
    (calls : List Text) : Res CodeUnit :=
  (slice ls (findStart lang ls info.startRow) (min (info.endRow + 1) ls.length)).map fun code =>
    { name := name, line := findStart lang ls info.startRow + 1, endLine := info.endRow + 1, utype := utype,
      parent := parent, signature := trim (ls[info.startRow]?.getD []), calls := calls, calledBy := [],
      code := joinNl code }

/-- `extract_function` with `determine_function_type`: /repo/colgrep/src/parser/extract.rs:13-89, 636-680. -/
def functionUnits (lang : Lang) (ls : List Text) (parent : Option Text) (info : Info) : Res (List CodeUnit) :=
  match info.name with
  | none => .ok []
  | some name =>
    match parent, info.receiver with
    | some p, _ => (declUnit lang ls info name .method (some p) info.calls).map fun u => [u]
    | none, some r => (declUnit lang ls info name .method (some r) info.calls).map fun u => [u]
    | none, none => (declUnit lang ls info name .function none info.calls).map fun u => [u]

/-- `extract_class`: /repo/colgrep/src/parser/extract.rs:92-158. -/
def classUnit (lang : Lang) (ls : List Text) (info : Info) (name : Text) : Res CodeUnit :=
  declUnit lang ls info name .class none info.calls

/-- `is_python_constant_name`: /repo/colgrep/src/parser/extract.rs:488-494. -/
def isPythonConstant (name : Text) : Bool :=
  name.any (fun c => c.isAlpha) && name.all (fun c => c.isUpper || c.isDigit || c == '_')

/-- `extract_constant`: /repo/colgrep/src/parser/extract.rs:279-342. -/
def constantUnits (lang : Lang) (ls : List Text) (info : Info) : Res (List CodeUnit) :=
  match info.name with
  | none => .ok []
  | some name =>
    if lang = .python ∧ isPythonConstant name = false then .ok []
    else if lang = .typescript ∧ info.arrow = true then
      (declUnit lang ls info name .function none info.calls).map fun u => [u]
    else (declUnit lang ls info name .constant none []).map fun u => [u]

mutual
/-- `body_has_function_descendant` for the node itself or one of its descendants:
/repo/colgrep/src/parser/mod.rs:78-90 (a depth-first search with a stack). -/
def hasFunction : Node → Bool
  | .mk info children => info.kind == .function || anyFunction children
/-- The same for one of these nodes. -/
def anyFunction : List Node → Bool
  | [] => false
  | n :: ns => hasFunction n || anyFunction ns
end

/-- `body_has_function_descendant(body)` for the `i`-th child: the body itself does not count.
/repo/colgrep/src/parser/mod.rs:78-90. -/
def bodyFunction : Nat → List Node → Bool
  | _, [] => false
  | 0, n :: _ => anyFunction n.children
  | i + 1, _ :: ns => bodyFunction i ns

/-- How `extract_from_node` is used: the language, the depth limit, and whether every class body is searched
(`eager`: `vue.rs`, `svelte.rs` and `html.rs`) or only those of classes that are not abstract and contain a function
(`mod.rs`). -/
structure Mode where
  lang : Lang
  maxDepth : Nat
  eager : Bool

/-- Is the body searched? /repo/colgrep/src/parser/mod.rs:267-281; vue.rs:295, svelte.rs:297, html.rs:290. -/
def descends (M : Mode) (info : Info) (i : Nat) (children : List Node) : Bool :=
  M.eager || (!info.abstr && bodyFunction i children)

mutual
/-- `extract_from_node`: /repo/colgrep/src/parser/mod.rs:216-325, vue.rs:255-340, svelte.rs:262-340, html.rs:255-331.
The flag `depth_limit_hit` is the result `.error .err`: once it is set nothing more is done, and the units found so far
are not used. -/
def extractNode (M : Mode) (ls : List Text) (parent : Option Text) (depth : Nat) : Node → Res (List CodeUnit)
  | .mk info children =>
    if depth > M.maxDepth then .error .err
    else match info.kind with
      | .function => (functionUnits M.lang ls parent info).bind fun us =>
          (extractList M ls parent (depth + 1) children).bind fun vs => .ok (us ++ vs)
      | .class =>
        match info.name with
        | some name => (classUnit M.lang ls info name).bind fun u =>
          match info.body with
          | none => .ok [u]
          | some i =>
            if descends M info i children then
              (extractBody M ls (some name) (depth + 1) i children).bind fun vs => .ok (u :: vs)
            else .ok [u]
        | none => extractList M ls parent (depth + 1) children
      | .constant =>
        if parent.isNone then constantUnits M.lang ls info
        else extractList M ls parent (depth + 1) children
      | .other => extractList M ls parent (depth + 1) children
/-- `for child in node.children(..) { extract_from_node(child, ..) }`: /repo/colgrep/src/parser/mod.rs:309-324. -/
def extractList (M : Mode) (ls : List Text) (parent : Option Text) (depth : Nat) : List Node → Res (List CodeUnit)
  | [] => .ok []
  | n :: ns => (extractNode M ls parent depth n).bind fun us =>
      (extractList M ls parent depth ns).bind fun vs => .ok (us ++ vs)
/-- `for child in body.children(..) { extract_from_node(child, ..) }` for the `i`-th child:
/repo/colgrep/src/parser/mod.rs:282-297. -/
def extractBody (M : Mode) (ls : List Text) (parent : Option Text) (depth : Nat) : Nat → List Node → Res (List CodeUnit)
  | _, [] => .ok []
  | 0, .mk _ kids :: _ => extractList M ls parent depth kids
  | i + 1, _ :: ns => extractBody M ls parent depth i ns
end

/-- `covered[n]` after the first loop of `fill_raw_code_gaps`: /repo/colgrep/src/parser/extract.rs:724-730. -/
def covered (total : Nat) (units : List CodeUnit) (n : Nat) : Bool :=
  units.any fun u => decide (u.line ≤ total ∧ u.line ≤ n ∧ n ≤ min u.endLine total)

/-- `covered[unit.line..=end]` panics when the range ends before it starts (by more than one):
/repo/colgrep/src/parser/extract.rs:728. -/
def badRange (total : Nat) (u : CodeUnit) : Bool := decide (u.line ≤ total ∧ min u.endLine total + 1 < u.line)

/-- `create_raw_code_unit`: /repo/colgrep/src/parser/extract.rs:773-825. -/
def rawUnit (ls : List Text) (start stop : Nat) : Option CodeUnit :=
  let content := if start - 1 ≤ stop ∧ stop ≤ ls.length then (ls.drop (start - 1)).take (stop - (start - 1)) else []
  if content.all blank then none
  else some
    { name := "raw_code_".toList ++ (toString start).toList, line := start, endLine := stop, utype := .rawCode, parent := none,
      signature := ((content.find? fun l => !blank l).map trim).getD [], calls := [], calledBy := [],
      code := joinNl content }

/-- The second loop of `fill_raw_code_gaps` and what follows it: /repo/colgrep/src/parser/extract.rs:733-770. `i` is the
number of lines already seen; `gap` is the pair of `gap_start` and `gap_end`, which are set and reset together. -/
def gaps (all : List Text) (cov : Nat → Bool) : Nat → Option (Nat × Nat) → List Text → List CodeUnit
  | _, gap, [] => (gap.bind fun g => rawUnit all g.1 g.2).toList
  | i, gap, l :: ls =>
    if cov (i + 1) then
      match gap with
      | none => gaps all cov (i + 1) none ls
      | some (s, e) => (rawUnit all s e).toList ++ gaps all cov (i + 1) none ls
    else if !blank l then
      match gap with
      | none => gaps all cov (i + 1) (some (i + 1, i + 1)) ls
      | some (s, _) => gaps all cov (i + 1) (some (s, i + 1)) ls
    else gaps all cov (i + 1) gap ls

/-- `fill_raw_code_gaps`: /repo/colgrep/src/parser/extract.rs:710-770. -/
def fillGaps (ls : List Text) (units : List CodeUnit) : Res (List CodeUnit) :=
  if ls.isEmpty then .ok units
  else if units.any (badRange ls.length) then .error .panic
  else .ok (units ++ gaps ls (covered ls.length units) 0 none ls)

/-- `extract_units` for a language with a tree-sitter grammar: /repo/colgrep/src/parser/mod.rs:155-207. `tree` is what the
parser returns. -/
def extractUnits (lang : Lang) (maxDepth : Nat) (source : Text) (tree : Option Node) : Res (List CodeUnit) :=
  match tree with
  | none => .ok []
  | some t =>
    match extractNode ⟨lang, maxDepth, false⟩ (lines source) none 0 t with
    | .error .err => .ok []
    | .error .panic => .error .panic
    | .ok units => fillGaps (lines source) units

/-- `extract_text_units`, `extract_markdown_units`, `extract_plain_text_units` and `create_text_unit`:
/repo/colgrep/src/parser/text.rs:7-125. `title` is the stem of the file's name. -/
def textUnits (title : Text) (source : Text) : List CodeUnit :=
  if (lines source).all blank then []
  else [{ name := title, line := 1, endLine := (lines source).length, utype := .document, parent := none,
          signature := (((lines source).find? fun l => !blank l).map trim).getD [], calls := [], calledBy := [],
          code := joinNl (lines source) }]

/-! ### Files with embedded scripts -/

/-- A piece of a file: its text and the row (from 0) where it starts. `VueBlock`, `SvelteBlock`, `HtmlBlock`. -/
structure Block where
  content : Text
  start : Nat
deriving DecidableEq, Repr

/-- `str::contains` of a text. -/
def containsText (p : Text) : Text → Bool
  | [] => p.isEmpty
  | c :: cs => p.isPrefixOf (c :: cs) || containsText p cs

/-- The part before the first occurrence of `p`: `str::find` and the slice up to it. -/
def before (p : Text) : Text → Option Text
  | [] => if p.isEmpty then some [] else none
  | c :: cs => if p.isPrefixOf (c :: cs) then some [] else (before p cs).map (c :: ·)

/-- The part after the first `'>'`: `&trimmed[pos + 1..]`. -/
def afterGt : Text → Option Text
  | [] => none
  | c :: cs => if c = '>' then some cs else afterGt cs

def openTag (tag : Text) : Text := '<' :: tag
def closeTag (tag : Text) : Text := '<' :: '/' :: tag

/-- Does the line open the tag? /repo/colgrep/src/parser/vue.rs:37, 88; svelte.rs:38, 93, 103; html.rs:37-39, 93.
`contains('>') || ends_with('>')` is `contains('>')`. -/
def opens (tag line : Text) : Bool := startsWith (trim line) (openTag tag) && containsText ['>'] (trim line)

/-- Does the line close the tag? /repo/colgrep/src/parser/vue.rs:52, 104; svelte.rs:54, 97, 107; html.rs:56, 99. -/
def closes (tag line : Text) : Bool :=
  startsWith (trim line) (closeTag tag) || containsText (closeTag tag ++ ['>']) (trim line)

/-- The content on the line of the opening tag, if any: /repo/colgrep/src/parser/vue.rs:42-48, 94-100; svelte.rs:44-50;
html.rs:46-52. -/
def inlineContent (tag line : Text) : List Text :=
  match afterGt (trim line) with
  | none => []
  | some after => if blank after || startsWith (trim after) (closeTag tag) then [] else [after]

/-- The content on the line of the closing tag, if any: /repo/colgrep/src/parser/vue.rs:54-59, 105-110; svelte.rs:56-61;
html.rs:58-63. -/
def contentBefore (tag line : Text) : List Text :=
  match before (closeTag tag) line with
  | none => []
  | some b => if blank b then [] else [b]

/-- The lines of a Vue block once its tag is open: /repo/colgrep/src/parser/vue.rs:50-63, 102-114. -/
def vueInside (tag : Text) : List Text → List Text
  | [] => []
  | l :: ls => if closes tag l then contentBefore tag l else l :: vueInside tag ls

/-- The loop of `extract_script_block` and `extract_template_block`: the content lines and the row where they start.
/repo/colgrep/src/parser/vue.rs:32-64, 83-115. -/
def vueScan (tag : Text) : Nat → List Text → List Text × Nat
  | _, [] => ([], 0)
  | i, l :: ls =>
    if opens tag l then
      (inlineContent tag l ++ vueInside tag ls, if (inlineContent tag l).isEmpty then i + 1 else i)
    else vueScan tag (i + 1) ls

/-- `extract_script_block` (tag `script`) and `extract_template_block` (tag `template`):
/repo/colgrep/src/parser/vue.rs:26-74, 77-125. -/
def vueBlock (tag : Text) (source : Text) : Option Block :=
  if (vueScan tag 0 (lines source)).1.isEmpty then none
  else some ⟨joinNl (vueScan tag 0 (lines source)).1, (vueScan tag 0 (lines source)).2⟩

def scriptTag : Text := ['s', 'c', 'r', 'i', 'p', 't']
def templateTag : Text := ['t', 'e', 'm', 'p', 'l', 'a', 't', 'e']
def styleTag : Text := ['s', 't', 'y', 'l', 'e']

/-- Does the line open a script whose content is in the file? In HTML a line with `src=` does not.
/repo/colgrep/src/parser/html.rs:37-39, 93; svelte.rs:38, 93. -/
def opensScript (html : Bool) (line : Text) : Bool :=
  opens scriptTag line && !(html && containsText ['s', 'r', 'c', '='] (trim line))

/-- `if !content_lines.is_empty() { blocks.push(..) }`: /repo/colgrep/src/parser/svelte.rs:63-68, html.rs:65-70. -/
def mkBlock (content : List Text) (start : Nat) : List Block :=
  if content.isEmpty then [] else [⟨joinNl content, start⟩]

/-- The loop of `extract_script_blocks`: /repo/colgrep/src/parser/svelte.rs:33-76, html.rs:32-78. The third argument is
`none` outside a script, and otherwise the content lines so far and the row where they start. -/
def scriptScan (html : Bool) : Nat → Option (List Text × Nat) → List Text → List Block
  | _, _, [] => []
  | i, none, l :: ls =>
    if opensScript html l then
      scriptScan html (i + 1) (some (inlineContent scriptTag l, if (inlineContent scriptTag l).isEmpty then i + 1 else i)) ls
    else scriptScan html (i + 1) none ls
  | i, some (content, start), l :: ls =>
    if closes scriptTag l then mkBlock (content ++ contentBefore scriptTag l) start ++ scriptScan html (i + 1) none ls
    else scriptScan html (i + 1) (some (content ++ [l], start)) ls

/-- `extract_script_blocks`: /repo/colgrep/src/parser/svelte.rs:26-79, html.rs:25-81. -/
def scriptBlocks (html : Bool) (source : Text) : List Block := scriptScan html 0 none (lines source)

/-- The loop of `extract_html_structure`: the rows and lines it keeps. /repo/colgrep/src/parser/html.rs:89-110. -/
def htmlKeep : Nat → Bool → List Text → List (Nat × Text)
  | _, _, [] => []
  | i, inScript, l :: ls =>
    if opensScript true l then (i, l) :: htmlKeep (i + 1) true ls
    else if inScript && closes scriptTag l then (i, l) :: htmlKeep (i + 1) false ls
    else if !inScript && !blank l then (i, l) :: htmlKeep (i + 1) inScript ls
    else htmlKeep (i + 1) inScript ls

/-- The loop of `extract_template_block` of a Svelte component: /repo/colgrep/src/parser/svelte.rs:89-116. -/
def svelteKeep : Nat → Bool → Bool → List Text → List (Nat × Text)
  | _, _, _, [] => []
  | i, inScript, inStyle, l :: ls =>
    if opensScript false l then svelteKeep (i + 1) true inStyle ls
    else if inScript && closes scriptTag l then svelteKeep (i + 1) false inStyle ls
    else if opens styleTag l then svelteKeep (i + 1) inScript true ls
    else if inStyle && closes styleTag l then svelteKeep (i + 1) inScript false ls
    else if !inScript && !inStyle && !blank l then (i, l) :: svelteKeep (i + 1) inScript inStyle ls
    else svelteKeep (i + 1) inScript inStyle ls

/-- The end of `extract_html_structure` and of Svelte's `extract_template_block`:
/repo/colgrep/src/parser/html.rs:112-126, svelte.rs:118-132. -/
def keptBlock (kept : List (Nat × Text)) : Option Block :=
  match kept with
  | [] => none
  | (i, l) :: rest => some ⟨joinNl (((i, l) :: rest).map Prod.snd), i⟩

/-- `create_template_unit` and `create_html_structure_unit`: /repo/colgrep/src/parser/vue.rs:128-163, svelte.rs:136-171,
html.rs:130-165. -/
def blockUnit (name : Text) (b : Block) : CodeUnit :=
  { name := name, line := b.start + 1, endLine := b.start + 1 + ((lines b.content).length - 1), utype := .rawCode,
    parent := none, signature := (((lines b.content).find? fun l => !blank l).map trim).getD [], calls := [], calledBy := [],
    code := b.content }

/-- Line numbers of the file instead of the block: /repo/colgrep/src/parser/vue.rs:181-185, svelte.rs:189-192,
html.rs:183-186. -/
def shift (by' : Nat) (u : CodeUnit) : CodeUnit := { u with line := u.line + by', endLine := u.endLine + by' }

/-- `parse_script_content` and the renumbering: /repo/colgrep/src/parser/vue.rs:198-251, 175-186; svelte.rs:205-258,
183-193; html.rs:199-251, 177-187. `parse` is the tree-sitter parser (TypeScript or JavaScript). -/
def scriptUnits (maxDepth : Nat) (parse : Text → Option Node) (b : Block) : Res (List CodeUnit) :=
  match parse b.content with
  | none => .ok []
  | some t => (extractNode ⟨.typescript, maxDepth, true⟩ (lines b.content) none 0 t).map fun us => us.map (shift b.start)

/-- `extract_vue_units`: /repo/colgrep/src/parser/vue.rs:170-195. -/
def vueUnits (maxDepth : Nat) (parse : Text → Option Node) (source : Text) : Res (List CodeUnit) :=
  let template := (vueBlock templateTag source).toList.map (blockUnit templateTag)
  match vueBlock scriptTag source with
  | none => .ok template
  | some b =>
    match scriptUnits maxDepth parse b with
    | .error .err => .ok []
    | .error .panic => .error .panic
    | .ok us => .ok (us ++ template)

/-- The loop over the script blocks in `extract_svelte_units` and `extract_html_units`:
/repo/colgrep/src/parser/svelte.rs:182-194, html.rs:176-188. -/
def allScripts (maxDepth : Nat) (parse : Text → Option Node) : List Block → Res (List CodeUnit)
  | [] => .ok []
  | b :: bs => (scriptUnits maxDepth parse b).bind fun us =>
      (allScripts maxDepth parse bs).bind fun vs => .ok (us ++ vs)

/-- `extract_html_units` (`html`) and `extract_svelte_units`: /repo/colgrep/src/parser/html.rs:172-196,
svelte.rs:178-202. -/
def pageUnits (html : Bool) (maxDepth : Nat) (parse : Text → Option Node) (source : Text) : Res (List CodeUnit) :=
  let kept := if html then htmlKeep 0 false (lines source) else svelteKeep 0 false false (lines source)
  let name := if html then "html_structure".toList else templateTag
  match allScripts maxDepth parse (scriptBlocks html source) with
  | .error .err => .ok []
  | .error .panic => .error .panic
  | .ok us => .ok (us ++ (keptBlock kept).toList.map (blockUnit name))

/-! ### The call graph -/

/-- `Vec::dedup`: equal neighbours are merged. -/
def dedupAdj : List Text → List Text
  | [] => []
  | [a] => [a]
  | a :: b :: l => if a = b then dedupAdj (b :: l) else a :: dedupAdj (b :: l)

/-- The names pushed for one unit into `called_by_map`, in the order in which they are pushed: for every unit and every
name it calls, its own name if that is the name of the callee. /repo/colgrep/src/parser/call_graph.rs:9-54. -/
def callersOf (units : List CodeUnit) (callee : CodeUnit) : List Text :=
  units.flatMap fun u => (u.calls.filter fun c => c == callee.name).map fun _ => u.name

/-- `build_call_graph`: /repo/colgrep/src/parser/call_graph.rs:8-61. Names are compared as lists of code points, which is
the order of their UTF-8 bytes. -/
def buildCallGraph (units : List CodeUnit) : List CodeUnit :=
  units.map fun u =>
    if (callersOf units u).isEmpty then u
    else { u with calledBy := dedupAdj ((callersOf units u).insertionSort (· ≤ ·)) }

end NextPlaid.Units
