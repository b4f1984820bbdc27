import Verif.Model.Install

/-!
What installing into, and uninstalling from, the files of other programs should do.
-/

namespace NextPlaid.Spec

open NextPlaid.Install

/-- The two lines between which `colgrep` puts its instructions. -/
def opening : Text := "<!-- COLGREP_START -->".toList
def closing : Text := "<!-- COLGREP_END -->".toList

/-- The text has neither line in it. -/
def Unmarked (t : Text) : Prop := ¬ opening <:+: t ∧ ¬ closing <:+: t

/-- A file of instructions as its owner sees it: missing; their own text; or their own text around the section. -/
inductive Notes
  | absent
  | own (t : Text)
  | around (before skill after : Text)

/-- The bytes of the file. -/
def Notes.file : Notes → Option Text
  | .absent => none
  | .own t => some t
  | .around b s a => some (b ++ opening ++ ['\n'] ++ s ++ ['\n'] ++ closing ++ a)

/-- The owner's text. -/
def Notes.text : Notes → Text
  | .absent => []
  | .own t => t
  | .around b _ a => b ++ a

/-- The section's instructions, if there is one. -/
def Notes.skill : Notes → Option Text
  | .around _ s _ => some s
  | _ => none

/-- Nobody has written one of the two lines themselves. -/
def Notes.Unmarked : Notes → Prop
  | .absent => True
  | .own t => Spec.Unmarked t
  | .around b s a => Spec.Unmarked (b ++ a) ∧ Spec.Unmarked s

/-- `u` is `t` without blank space at its ends. -/
def Core (white : Char → Bool) (t u : Text) : Prop := ∃ l r, t = l ++ u ++ r ∧ (∀ c ∈ l, white c = true) ∧ (∀ c ∈ r, white c = true) ∧
  (∀ c ∈ u.head?, white c = false) ∧ (∀ c ∈ u.getLast?, white c = false)

/-- What can happen to the file: `colgrep` with these instructions is installed, it is uninstalled, the owner edits the file. -/
inductive Deed
  | install (skill : Text)
  | uninstall
  | edit (n : Notes)

/-- Installing puts the section behind the owner's text, taking a previous one away; the end of the line of the previous one stays.
Uninstalling leaves the owner's text without blank space at its ends, and no file if that is nothing or the title only. -/
inductive Becomes (white : Char → Bool) (title : Text) : Notes → Deed → Notes → Prop
  | first (s) : Becomes white title .absent (.install s) (.around (title ++ ['\n', '\n']) s ['\n'])
  | append (t s) : Becomes white title (.own t) (.install s) (.around t s ['\n'])
  | renew (b s a s') : Becomes white title (.around b s a) (.install s') (.around (b ++ a) s' ['\n'])
  | nothing : Becomes white title .absent .uninstall .absent
  | none (t) : Becomes white title (.own t) .uninstall (.own t)
  | gone (b s a u) : Core white (b ++ a) u → (u = [] ∨ u = title) → Becomes white title (.around b s a) .uninstall .absent
  | left (b s a u) : Core white (b ++ a) u → u ≠ [] → u ≠ title → Becomes white title (.around b s a) .uninstall (.own (u ++ ['\n']))
  | edit (n n') : Becomes white title n (.edit n') n'

inductive BecomeAll (white : Char → Bool) (title : Text) : Notes → List Deed → Notes → Prop
  | nil (n) : BecomeAll white title n [] n
  | cons (n d n' l n'') : Becomes white title n d n' → BecomeAll white title n' l n'' → BecomeAll white title n (d :: l) n''

/-- The instructions and the edits do not contain the two lines. -/
def Deed.Unmarked : Deed → Prop
  | .install s => Spec.Unmarked s
  | .uninstall => True
  | .edit n => n.Unmarked

/-- The program and the owner at work on the file. -/
def doDeed (white : Char → Bool) (title : Text) (file : Option Text) : Deed → Option Text
  | .install s => addSection title s file
  | .uninstall => removeSection white title file
  | .edit n => n.file

/-- A text without its blank space. -/
def inked (white : Char → Bool) (t : Text) : Text := t.filter fun c => !white c

/-! ### `config.toml` -/

/-- No name twice. -/
def Once (d : Toml) : Prop := (d.items.map (·.1)).Nodup ∧ ∀ k t, (k, Item.table t) ∈ d.items → (t.map (·.1)).Nodup

/-- The value of `key` in the table `[name]`. -/
def HasSetting (d : Toml) (name key : String) (v : Value) : Prop := ∃ t, (name.toList, Item.table t) ∈ d.items ∧ (key.toList, v) ∈ t

/-- The directories Codex may write to. -/
def MayWrite (d : Toml) (l : List Root) : Prop := HasSetting d "sandbox_workspace_write" "writable_roots" (.array l)

/-- Everything else is the same. -/
def SameRest (d d' : Toml) : Prop := d'.comments = d.comments ∧
  (∀ k i, k ≠ "sandbox_workspace_write".toList → ((k, i) ∈ d'.items ↔ (k, i) ∈ d.items)) ∧
  ∀ key v, key ≠ "writable_roots" → (HasSetting d' "sandbox_workspace_write" key v ↔ HasSetting d "sandbox_workspace_write" key v)

/-! ### `settings.json` -/

/-- A hook that calls `colgrep`: its command contains the word. -/
def Calls (hook : Json) : Prop := ∃ l s, hook = .obj l ∧ look "command".toList l = some (.str s) ∧ "colgrep".toList <:+: s

/-- A matcher with such a hook. -/
def Ours (m : Json) : Prop := ∃ l hooks, m = .obj l ∧ look "hooks".toList l = some (.arr hooks) ∧ ∃ h ∈ hooks, Calls h

/-- The hooks of the settings, event by event. -/
def Events (settings : Json) (events : List (Text × Json)) : Prop := ∃ l, settings = .obj l ∧ look "hooks".toList l = some (.obj events)

open Classical in
/-- What should remain of an event: the matchers without such a hook, and nothing if there are none. -/
noncomputable def cleared : Json → Option Json
  | .arr ms => if ms.filter (fun m => ¬ Ours m) = [] then none else some (.arr (ms.filter fun m => ¬ Ours m))
  | j => some j

/-- What should remain of all events. -/
noncomputable def clearedAll (events : List (Text × Json)) : List (Text × Json) :=
  events.filterMap fun p => (cleared p.2).map fun j => (p.1, j)

end NextPlaid.Spec
