import Verif.Spec.Plugin

/-!
The plugin for Claude Code: /repo/colgrep/src/install/claude_code.rs:46-198 (installation), 277-370 (removal), and its hooks:
/repo/colgrep/src/commands/hooks.rs:8-52, 54-64, 108-118.

The commands are handed to `$SHELL -c`; how a POSIX shell reads a word in double quotes is modelled (POSIX 2.2.3).  A command of
Claude Code that succeeds does what its name says, one that fails does nothing; removing what is not there fails.  What the
hooks in `settings.json` look like is `Verif.Model.Install`; here they are there or not.  Messages are left out, as is Windows.
-/

namespace NextPlaid.Plugin
open NextPlaid.Spec.Plugin

/-! ### The shell -/

/-- How a shell reads what follows an opening double quote. -/
inductive Word where
  /-- the text in quotes and what stands behind the closing quote -/
  | closed (text rest : List Char)
  /-- a parameter or a command is expanded -/
  | expands
  /-- no closing quote -/
  | unclosed
deriving DecidableEq, Repr

/-- One more character of text. -/
def Word.push (c : Char) : Word → Word
  | .closed t r => .closed (c :: t) r
  | w => w

/-- Does this character after `$` make an expansion. -/
def opensExpansion (c : Char) : Bool :=
  c.isAlphanum || c == '_' || c == '(' || c == '{' || c == '@' || c == '*' || c == '#' || c == '?' || c == '-' || c == '$' || c == '!'

/-- Does a backslash before this character disappear. -/
def escapable (c : Char) : Bool := c == '$' || c == '`' || c == '"' || c == '\\' || c == '\n'

/-- What stood before: nothing special, a dollar sign, a backslash. -/
inductive Mode where
  | plain | dollar | backslash

/-- POSIX 2.2.3. -/
def scan : Mode → List Char → Word
  | _, [] => .unclosed
  | .plain, c :: rest =>
    if c = '"' then .closed [] rest
    else if c = '`' then .expands
    else if c = '$' then scan .dollar rest
    else if c = '\\' then scan .backslash rest
    else (scan .plain rest).push c
  | .dollar, c :: rest =>
    if opensExpansion c then .expands
    else if c = '"' then Word.push '$' (.closed [] rest)
    else if c = '`' then .expands
    else if c = '\\' then (scan .backslash rest).push '$'
    else ((scan .plain rest).push c).push '$'
  | .backslash, c :: rest =>
    if c = '\n' then scan .plain rest
    else if escapable c then (scan .plain rest).push c
    else ((scan .plain rest).push c).push '\\'

/-- What follows an opening double quote. -/
def quoted (t : List Char) : Word := scan .plain t

/-- The last word of `claude plugin marketplace add "{}"`, as the shell reads it: claude_code.rs:137-142. -/
def addArgument (path : List Char) : Word := quoted (path ++ ['"'])

/-! ### Installation -/

/-- Which of the calls succeed. -/
structure Calls where
  version : Bool := true
  write : Bool := true
  removeMarket : Bool := true
  uninstall : Bool := true
  addMarket : Bool := true
  install : Bool := true
  /-- `remove_dir_all` -/
  removeFiles : Bool := true
  /-- `settings.json` can be read, parsed and written -/
  settings : Bool := true

/-- `claude plugin marketplace remove`. -/
def removeMarket (ok : Bool) (w : World) : Bool × World :=
  if ok && w.market.isSome then (true, { w with market := none }) else (false, w)

/-- `claude plugin uninstall`. -/
def uninstallPlugin (ok : Bool) (w : World) : Bool × World :=
  if ok && w.plugin then (true, { w with plugin := false }) else (false, w)

/-- `claude plugin marketplace add`: the directory must hold a marketplace. -/
def addMarket (ok : Bool) (dir : List Char) (word : Word) (w : World) : Bool × World :=
  match word with
  | .closed t [] => if ok && w.files && t == dir then (true, { w with market := some t }) else (false, w)
  | _ => (false, w)

/-- `claude plugin install colgrep@lightonai-colgrep`. -/
def installPlugin (ok : Bool) (w : World) : Bool × World :=
  if ok && w.market.isSome then (true, { w with plugin := true }) else (false, w)

/-- `install_claude_code`: claude_code.rs:99-195.  `true` when it returns without error. -/
def install (k : Calls) (dir : List Char) (w : World) : Bool × World :=
  if !k.version then (false, w)
  else if !k.write then (false, w)
  else
    let w := { w with files := true }
    let w := (removeMarket k.removeMarket w).2
    let w := (uninstallPlugin k.uninstall w).2
    let a := addMarket k.addMarket dir (addArgument dir) w
    if !a.1 then (false, a.2)
    else installPlugin k.install a.2

/-- `uninstall_claude_code`: claude_code.rs:277-368.  `true` when it says that colgrep has been uninstalled. -/
def uninstall (k : Calls) (w : World) : Bool × World :=
  let w := if k.settings then { w with hooks := false } else w
  let w := (uninstallPlugin k.uninstall w).2
  let w := (removeMarket k.removeMarket w).2
  let w := if k.removeFiles then { w with files := false } else w
  (true, w)

/-! ### Hooks -/

/-- `SMALL_PROJECT_FILE_LIMIT`: hooks.rs:10. -/
def smallLimit : Nat := 50

/-- The loop of `is_small_project`: hooks.rs:39-51.  An entry is unreadable (`none`), a file or something else. -/
def smallLoop (count : Nat) : List (Option Bool) → Bool
  | [] => decide (0 < count)
  | some true :: rest => if smallLimit < count + 1 then false else smallLoop (count + 1) rest
  | _ :: rest => smallLoop count rest

/-- `is_small_project`. -/
def isSmall (entries : List (Option Bool)) : Bool := smallLoop 0 entries

/-- `should_inject_colgrep_context`: hooks.rs:17-26.  `parent` is `none` when looking for it fails. -/
def inject (exists_ : Bool) (parent : Option Bool) (entries : List (Option Bool)) : Bool :=
  exists_ || parent == some true || isSmall entries

end NextPlaid.Plugin
