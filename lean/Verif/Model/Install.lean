import Verif.Model.Ranking

/-!
Model of how `colgrep` puts itself into the files of other programs and takes itself out again: the section in `AGENTS.md`
(/repo/colgrep/src/install/codex.rs, opencode.rs, hermes.rs), the entry in Codex's `config.toml` (codex.rs) and the hooks in Claude Code's
`settings.json` (claude_code.rs).  Failures of the file system, the calls of `claude` and messages are left out.  TOML and JSON are
modelled as parsed; comments only where they are lost.
-/

namespace NextPlaid.Install

open NextPlaid.Rank (containsText)

abbrev Text := List Char

/-- `COLGREP_MARKER_START`: /repo/colgrep/src/install/codex.rs:11. -/
def startMarker : Text := "<!-- COLGREP_START -->".toList

/-- `COLGREP_MARKER_END`: /repo/colgrep/src/install/codex.rs:12. -/
def endMarker : Text := "<!-- COLGREP_END -->".toList

/-- `str::find`, counted in characters (in the code in bytes). -/
def find (m : Text) : Text → Option Nat
  | [] => if m = [] then some 0 else none
  | c :: cs => if m.isPrefixOf (c :: cs) then some 0 else (find m cs).map (· + 1)

/-- The text without what lies between the first start marker and the first end marker: /repo/colgrep/src/install/codex.rs:162-172,
195-200; opencode.rs:37-47, 70-75; hermes.rs:31-37, 54-59.  (Codex and OpenCode look for the start marker once more before.) -/
def strip (t : Text) : Option Text := match find startMarker t, find endMarker t with
  | some a, some b => some (t.take a ++ t.drop (b + endMarker.length))
  | _, _ => none

/-- `colgrep_section`: /repo/colgrep/src/install/codex.rs:175-178. -/
def section_ (skill : Text) : Text := startMarker ++ '\n' :: skill ++ '\n' :: endMarker ++ ['\n']

/-- `add_to_agents_md`; `title` is `# Codex Agent Tools`, `# OpenCode Agent Tools` or `# Hermes Agent Tools`.
/repo/colgrep/src/install/codex.rs:150-183, opencode.rs:25-58, hermes.rs:20-46. -/
def addSection (title skill : Text) (file : Option Text) : Option Text :=
  let content := file.getD (title ++ ['\n', '\n'])
  some ((strip content).getD content ++ section_ skill)

/-- `str::trim`. -/
def trim (white : Char → Bool) (t : Text) : Text := ((t.dropWhile white).reverse.dropWhile white).reverse

/-- `remove_from_agents_md`: /repo/colgrep/src/install/codex.rs:186-214, opencode.rs:61-89, hermes.rs:48-68. -/
def removeSection (white : Char → Bool) (title : Text) (file : Option Text) : Option Text := match file with
  | none => none
  | some t => match strip t with
    | none => some t
    | some rest => if trim white rest = [] ∨ trim white rest = title then none else some (trim white rest ++ ['\n'])

/-! ### `config.toml` of Codex -/

/-- An element of an array: a string or something else. -/
inductive Root
  | path (s : Text)
  | other (n : Nat)
  deriving DecidableEq, Repr

/-- A value of `[sandbox_workspace_write]`: an array or something else. -/
inductive Value
  | array (l : List Root)
  | other (n : Nat)
  deriving DecidableEq, Repr

/-- What stands under a name: a table or something else. -/
inductive Item
  | table (l : List (Text × Value))
  | other (n : Nat)
  deriving DecidableEq, Repr

/-- A parsed `config.toml`: the names with what stands under them, and the comments that belong to no name. -/
structure Toml where
  items : List (Text × Item)
  comments : Text
  deriving DecidableEq, Repr

def sandbox : Text := "sandbox_workspace_write".toList
def roots : Text := "writable_roots".toList

/-- Look up, and set (in place, or behind the others). -/
def look {A : Type} (k : Text) (l : List (Text × A)) : Option A := (l.find? fun p => p.1 = k).map (·.2)

def put {A : Type} (k : Text) (a : A) : List (Text × A) → List (Text × A)
  | [] => [(k, a)]
  | p :: l => if p.1 = k then (k, a) :: l else p :: put k a l

def drop {A : Type} (k : Text) (l : List (Text × A)) : List (Text × A) := l.filter fun p => p.1 ≠ k

/-- The table, made if missing: /repo/colgrep/src/install/codex.rs:68-76. -/
def sandboxTable (d : Toml) : Option (List (Text × Value)) := match look sandbox d.items with
  | none => some []
  | some (.table t) => some t
  | some (.other _) => none

/-- The array, made if missing: /repo/colgrep/src/install/codex.rs:78-84. -/
def rootList (t : List (Text × Value)) : Option (List Root) := match look roots t with
  | none => some []
  | some (.array l) => some l
  | some (.other _) => none

/-- `add_sandbox_writable_root`, on a file that can be parsed; `none` if it fails, without a change.
/repo/colgrep/src/install/codex.rs:51-98. -/
def addRoot (path : Text) (file : Option Toml) : Option (Option Toml) :=
  let d := file.getD ⟨[], []⟩
  (sandboxTable d).bind fun t => (rootList t).bind fun l =>
    if Root.path path ∈ l then some file
    else some (some { d with items := put sandbox (.table (put roots (.array (l ++ [Root.path path])) t)) d.items })

/-- The table without the entry: the array and the table vanish when they become empty.
/repo/colgrep/src/install/codex.rs:128-135. -/
def dropRoot (d : Toml) (t : List (Text × Value)) (l : List Root) : Toml :=
  let t' := if l = [] then drop roots t else put roots (.array l) t
  { d with items := if t' = [] then drop sandbox d.items else put sandbox (.table t') d.items }

/-- `remove_sandbox_writable_root`: /repo/colgrep/src/install/codex.rs:102-147. -/
def removeRoot (path : Text) (file : Option Toml) : Option Toml := match file with
  | none => none
  | some d => match look sandbox d.items with
    | some (.table t) => match look roots t with
      | some (.array l) =>
        if Root.path path ∉ l then some d
        else if (dropRoot d t (l.filter (· ≠ Root.path path))).items = [] then none
        else some (dropRoot d t (l.filter (· ≠ Root.path path)))
      | _ => some d
    | _ => some d

/-! ### `settings.json` of Claude Code -/

/-- JSON values; numbers by a name. -/
inductive Json
  | null
  | num (n : Nat)
  | bool (b : Bool)
  | str (s : Text)
  | arr (l : List Json)
  | obj (l : List (Text × Json))

/-- `Value::get` with a name. -/
def Json.get (k : Text) : Json → Option Json
  | .obj l => look k l
  | _ => none

def hooksKey : Text := "hooks".toList
def commandKey : Text := "command".toList
def colgrep : Text := "colgrep".toList

/-- The command of a hook mentions `colgrep`: /repo/colgrep/src/install/claude_code.rs:228-233. -/
def mentions (hook : Json) : Bool := match hook.get commandKey with
  | some (.str s) => containsText colgrep s
  | _ => false

/-- The matchers that are kept: /repo/colgrep/src/install/claude_code.rs:225-238. -/
def keeps (matcher : Json) : Bool := match matcher.get hooksKey with
  | some (.arr l) => !l.any mentions
  | _ => true

/-- One event: /repo/colgrep/src/install/claude_code.rs:219-243. -/
def cleanEvent : Json → Json
  | .arr l => .arr (l.filter keeps)
  | j => j

/-- An event without matchers: /repo/colgrep/src/install/claude_code.rs:246-250. -/
def emptyEvent : Json → Bool
  | .arr [] => true
  | _ => false

/-- All events: /repo/colgrep/src/install/claude_code.rs:218-256. -/
def cleanHooks (events : List (Text × Json)) : List (Text × Json) :=
  (events.map fun p => (p.1, cleanEvent p.2)).filter fun p => !emptyEvent p.2

/-- `remove_hooks_from_settings`: the settings afterwards.  /repo/colgrep/src/install/claude_code.rs:204-274. -/
def removeHooks (settings : Json) : Json := match settings with
  | .obj l => match look hooksKey l with
    | some (.obj events) =>
      if cleanHooks events = [] then .obj (drop hooksKey l) else .obj (put hooksKey (.obj (cleanHooks events)) l)
    | _ => .obj l
  | j => j

end NextPlaid.Install
