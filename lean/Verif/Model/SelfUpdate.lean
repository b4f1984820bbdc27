import Verif.Spec.SelfUpdate

/-!
Model of `colgrep update`, /repo/colgrep/src/commands/update.rs:1-105, on systems other than Windows.  Texts are lists of characters; the bytes of
the answer are decoded before.  Not modelled: Windows, what is printed on the way, and what the installer does beyond the version that is
installed when it ends.
-/

namespace NextPlaid.SelfUpdate

open NextPlaid.Spec.SelfUpdate

/-- `str::find`, and what is behind the place: update.rs:40-41. -/
def behind (key : List Char) : List Char → Option (List Char)
  | [] => if key = [] then some [] else none
  | c :: cs => if key.isPrefixOf (c :: cs) then some ((c :: cs).drop key.length) else behind key cs

/-- `rest.find('"')`, and what is before it: update.rs:42-43. -/
def untilQuote : List Char → Option (List Char)
  | [] => none
  | c :: cs => if c = '"' then some [] else (untilQuote cs).map (c :: ·)

/-- `tag.strip_prefix('v').unwrap_or(tag)`: update.rs:45. -/
def strip : List Char → List Char
  | 'v' :: cs => cs
  | cs => cs

/-- The key, with its quotes, the colon and the quote before the value: update.rs:40. -/
def key : List Char := "\"tag_name\":\"".toList

/-- The version in an answer: update.rs:38-50. -/
def versionIn (body : List Char) : Option (List Char) := ((behind key body).bind untilQuote).map strip

/-- How a request with `curl -s -L` ends: `curl` cannot be started, it fails, or it prints an answer.  Without `-f` an error page of the server is an
answer. -/
inductive Reply where
  | noCurl
  | failed
  | body (text : List Char)

/-- `get_latest_version`: update.rs:12-51.  The error is that `curl` cannot be started. -/
def latestVersion : Reply → Except Unit (Option (List Char))
  | .noCurl => .error ()
  | .failed => .ok none
  | .body text => .ok (versionIn text)

/-- The installer: what of it comes through the pipe (all, a part, or nothing), what a shell does that reads such a text: the version that is installed
afterwards and whether the shell ends with status 0; and whether there is a shell. -/
structure Installer where
  received : List Char
  shell : List Char → (installed : List Char) → List Char × Bool
  hasShell : Bool := true

/-- A shell that reads nothing does nothing and ends with status 0. -/
def Installer.Lawful (i : Installer) : Prop := ∀ v, i.shell [] v = (v, true)

/-- `sh -c "curl … | sh"`: update.rs:84-92.  The status of a pipeline is that of its last command. -/
def runInstaller (i : Installer) (installed : List Char) : Option (List Char × Bool) :=
  if i.hasShell then some (i.shell i.received installed) else none

/-- The installation: update.rs:73-105. -/
def install (i : Installer) (installed : List Char) : List Char × Said := match runInstaller i installed with
  | none => (installed, .failed)
  | some (v, true) => (v, .updated)
  | some (v, false) => (v, .failed)

/-- `cmd_update`: update.rs:54-105.  The program that runs is the one that is installed, `CURRENT_VERSION` its version. -/
def update (current : List Char) (r : Reply) (i : Installer) : List Char × Said := match latestVersion r with
  | .error _ => (current, .failed)
  | .ok (some v) => if v = current then (current, .upToDate) else install i current
  | .ok none => install i current

end NextPlaid.SelfUpdate
