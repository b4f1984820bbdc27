import Mathlib.Data.List.Basic

/-!
What is said about the plugin for Claude Code: what a path means to a shell, and what "installed" and "uninstalled" mean.
-/

namespace NextPlaid.Spec.Plugin

/-- The characters that mean something to a shell inside double quotes. -/
def Special (c : Char) : Prop := c = '"' ∨ c = '\\' ∨ c = '$' ∨ c = '`'

/-- What Claude Code knows and what is on disk. -/
structure World where
  /-- the files of the marketplace are there -/
  files : Bool := false
  /-- the directory under which the marketplace is known -/
  market : Option (List Char) := none
  plugin : Bool := false
  /-- `settings.json` mentions colgrep in its hooks -/
  hooks : Bool := false
deriving DecidableEq

/-- The plugin works: it is installed, from a marketplace known under the directory that holds its files. -/
def Installed (dir : List Char) (w : World) : Prop := w.files = true ∧ w.market = some dir ∧ w.plugin = true

/-- Nothing is left. -/
def Gone (w : World) : Prop := w.files = false ∧ w.market = none ∧ w.plugin = false ∧ w.hooks = false

/-- The number of files among the entries. -/
def filesIn (isFile : List (Option Bool)) : Nat := isFile.count (some true)

end NextPlaid.Spec.Plugin
