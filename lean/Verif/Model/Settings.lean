import Verif.Model.Records

/-!
Model of the settings of the command line tool: what is kept in its `config.json`, the commands `settings` and `set-model`,
and what the other commands make of it.
-/

namespace NextPlaid.Settings
open NextPlaid.JsonText NextPlaid.Records

/-- Numbers between 0 and 1 for the balance: `f32`. -/
structure Alphas (R : Type) extends Reals R where
  isZero : R → Bool
  /-- `clamp(0.0, 1.0)`; not a number stays what it is. -/
  clamp : R → R
  /-- `0.60` -/
  initial : R

variable {R : Type}

/-- `Config`: /repo/colgrep/src/config.rs:108-187. -/
structure Config (R : Type) where
  model : Option (List Char) := none
  k : Option Nat := none
  n : Option Nat := none
  fp32 : Option Bool := none
  coreml : Option (List Char) := none
  pool : Option Nat := none
  parallel : Option Nat := none
  batch : Option Nat := none
  verbose : Option Bool := none
  depth : Option Nat := none
  relative : Option Bool := none
  hybrid : Option Bool := none
  alpha : Option R := none
  ignore : List (List Char) := []
  force : List (List Char) := []

/-- A floating point number as JSON: one that is not finite is written as `null`. -/
def realJ (F : Reals R) (r : R) : J R := if (F.shows r).isSome then .real r else .null

/-- What is written. -/
def Config.toJ (F : Reals R) (c : Config R) : J R :=
  .obj (skipNone "default_model" .str c.model ++ (skipNone "default_k" natJ c.k ++ (skipNone "default_n" natJ c.n ++
    (skipNone "fp32" .bool c.fp32 ++ (skipNone "coreml_cache_dir" .str c.coreml ++ (skipNone "pool_factor" natJ c.pool ++
    (skipNone "parallel_sessions" natJ c.parallel ++ (skipNone "batch_size" natJ c.batch ++ (skipNone "verbose" .bool c.verbose ++
    (skipNone "max_recursion_depth" natJ c.depth ++ (skipNone "relative_paths" .bool c.relative ++ (skipNone "hybrid_search" .bool c.hybrid ++
    (skipNone "hybrid_alpha" (realJ F) c.alpha ++ (skipEmpty "extra_ignore" .str c.ignore ++ skipEmpty "force_include" .str c.force))))))))))))))

/-- What is read: a missing field is `None`, or an empty list. -/
def readConfig (F : Reals R) (v : J R) : Option (Config R) := do
  let l ← fields v
  let model ← field "default_model" (readOpt readStr) (some none) l
  let k ← field "default_k" (readOpt readNat) (some none) l
  let n ← field "default_n" (readOpt readNat) (some none) l
  let fp32 ← field "fp32" (readOpt readBool) (some none) l
  let coreml ← field "coreml_cache_dir" (readOpt readStr) (some none) l
  let pool ← field "pool_factor" (readOpt readNat) (some none) l
  let parallel ← field "parallel_sessions" (readOpt readNat) (some none) l
  let batch ← field "batch_size" (readOpt readNat) (some none) l
  let verbose ← field "verbose" (readOpt readBool) (some none) l
  let depth ← field "max_recursion_depth" (readOpt readNat) (some none) l
  let relative ← field "relative_paths" (readOpt readBool) (some none) l
  let hybrid ← field "hybrid_search" (readOpt readBool) (some none) l
  let alpha ← field "hybrid_alpha" (readOpt (readReal F)) (some none) l
  let ignore ← field "extra_ignore" (readList readStr) (some []) l
  let force ← field "force_include" (readList readStr) (some []) l
  return ⟨model, k, n, fp32, coreml, pool, parallel, batch, verbose, depth, relative, hybrid, alpha, ignore, force⟩

/-- The text written by `Config::save`: /repo/colgrep/src/config.rs:204-216. -/
def Config.text (F : Reals R) (c : Config R) : List Char := pretty F (c.toJ F)

/-- `Config::load`: /repo/colgrep/src/config.rs:189-202; `none` is an error. -/
def load (F : Reals R) : Option (List Char) → Option (Config R)
  | none => some {}
  | some t => (parse F t).bind (readConfig F)

/-! ### The command `settings` -/

/-- The options of `settings`: /repo/colgrep/src/cli.rs:636-747. -/
structure Args (R : Type) where
  k : Option Nat := none
  n : Option Nat := none
  fp32 : Bool := false
  int8 : Bool := false
  defaultPrecision : Bool := false
  coreml : Option (List Char) := none
  clearCoreml : Bool := false
  pool : Option Nat := none
  parallel : Option Nat := none
  batch : Option Nat := none
  depth : Option Nat := none
  verbose : Bool := false
  noVerbose : Bool := false
  relative : Bool := false
  noRelative : Bool := false
  hybrid : Bool := false
  noHybrid : Bool := false
  alpha : Option R := none
  addIgnore : List (List Char) := []
  removeIgnore : List (List Char) := []
  addInclude : List (List Char) := []
  removeInclude : List (List Char) := []
  clearIgnore : Bool := false
  clearInclude : Bool := false

/-- Options that clap refuses together (`conflicts_with`): /repo/colgrep/src/cli.rs:647-715. -/
def Args.conflict (a : Args R) : Bool :=
  (a.fp32 && a.int8) || (a.defaultPrecision && (a.fp32 || a.int8)) || (a.coreml.isSome && a.clearCoreml) || (a.verbose && a.noVerbose) ||
    (a.relative && a.noRelative) || (a.hybrid && a.noHybrid)

/-- No option is given: /repo/colgrep/src/commands/config.rs:122-149. -/
def Args.shows (a : Args R) : Bool :=
  a.k.isNone && a.n.isNone && !a.fp32 && !a.int8 && !a.defaultPrecision && a.coreml.isNone && !a.clearCoreml && a.pool.isNone && a.parallel.isNone &&
    a.batch.isNone && a.depth.isNone && !a.verbose && !a.noVerbose && !a.relative && !a.noRelative && !a.hybrid && !a.noHybrid && a.alpha.isNone &&
    !(!a.addIgnore.isEmpty || !a.removeIgnore.isEmpty || !a.addInclude.isEmpty || !a.removeInclude.isEmpty || a.clearIgnore || a.clearInclude)

/-- A number that is given: 0 resets it, and it is at least 1 otherwise.  /repo/colgrep/src/commands/config.rs:278-299, 332-387. -/
def number (given old : Option Nat) : Option Nat :=
  match given with
  | none => old
  | some v => if v = 0 then none else some (max v 1)

/-- `add_extra_ignore`, `add_force_include`: /repo/colgrep/src/config.rs:460-465, 484-489. -/
def add (l : List (List Char)) (p : List Char) : List (List Char) := if l.contains p then l else l ++ [p]

/-- `remove_extra_ignore`, `remove_force_include`: /repo/colgrep/src/config.rs:468-472, 492-496. -/
def remove (l : List (List Char)) (p : List Char) : List (List Char) := l.filter fun q => q != p

/-- The patterns: cleared, then added, then removed.  /repo/colgrep/src/commands/config.rs:437-477. -/
def patterns (clear : Bool) (added removed l : List (List Char)) : List (List Char) :=
  removed.foldl remove (added.foldl add (if clear then [] else l))

/-- `cmd_config` from where something is changed: /repo/colgrep/src/commands/config.rs:275-477. -/
def Config.apply (A : Alphas R) (a : Args R) (c : Config R) : Config R where
  model := c.model
  k := number a.k c.k
  n := number a.n c.n
  fp32 := if a.fp32 then some true else if a.int8 then some false else if a.defaultPrecision then none else c.fp32
  coreml := if a.coreml.isSome then a.coreml else if a.clearCoreml then none else c.coreml
  pool := number a.pool c.pool
  parallel := number a.parallel c.parallel
  batch := number a.batch c.batch
  depth := number a.depth c.depth
  verbose := if a.verbose then some true else if a.noVerbose then none else c.verbose
  relative := if a.relative then some true else if a.noRelative then none else c.relative
  hybrid := if a.hybrid then none else if a.noHybrid then some false else c.hybrid
  alpha := match a.alpha with
    | none => c.alpha
    | some r => if A.isZero r then none else some (A.clamp r)
  ignore := patterns a.clearIgnore a.addIgnore a.removeIgnore c.ignore
  force := patterns a.clearInclude a.addInclude a.removeInclude c.force

/-! ### Commands on the file -/

/-- A command that changes the settings.  For `set-model`: the model, and whether it could be loaded. -/
inductive Cmd (R : Type) where
  | settings (a : Args R)
  | setModel (m : List Char) (valid : Bool)

/-- The settings after a command, from those that were loaded; `none`: nothing is saved (the command failed, or had nothing to
change).  /repo/colgrep/src/commands/config.rs:21-88, 90-486. -/
def Cmd.change (A : Alphas R) (cmd : Cmd R) (c : Config R) : Option (Config R) :=
  match cmd with
  | .settings a => if a.conflict || a.shows then none else some (c.apply A a)
  | .setModel m valid => if c.model = some m ∨ ¬ valid then none else some { c with model := some m }

/-- A command, from the contents of the file to its contents. -/
def Cmd.run (A : Alphas R) (cmd : Cmd R) (file : Option (List Char)) : Option (List Char) :=
  match load A.toReals file with
  | none => file
  | some c =>
    match cmd.change A c with
    | none => file
    | some c => some (c.text A.toReals)

/-- Commands one after the other. -/
def runs (A : Alphas R) (l : List (Cmd R)) (file : Option (List Char)) : Option (List Char) := l.foldl (fun f cmd => cmd.run A f) file

/-- Two commands at the same time: both load the settings before either saves them, `a` saves first. -/
def race (A : Alphas R) (a b : Cmd R) (file : Option (List Char)) : Option (List Char) :=
  match load A.toReals file with
  | none => file
  | some c =>
    match b.change A c with
    | some c => some (c.text A.toReals)
    | none =>
      match a.change A c with
      | some c => some (c.text A.toReals)
      | none => file

/-! ### The settings in use -/

/-- `Config::load().unwrap_or_default()`: /repo/colgrep/src/commands/search.rs:532, init.rs:39, /repo/colgrep/src/index/mod.rs:1780, 2691. -/
def inUse (F : Reals R) (file : Option (List Char)) : Config R := (load F file).getD {}

/-- `resolve_model`: /repo/colgrep/src/commands/search.rs:362-373. -/
def resolveModel (initial : List Char) (c : Config R) (cli : Option (List Char)) : List Char := (cli <|> c.model).getD initial

/-- `default_k`: /repo/colgrep/src/main.rs:225, 406, and `resolve_top_k`: /repo/colgrep/src/commands/search.rs:376-378. -/
def topK (c : Config R) (cliK cliN : Option Nat) : Nat := (cliK <|> c.k).getD (if cliN.isSome then 10 else 15)

/-- `resolve_context_lines`: /repo/colgrep/src/commands/search.rs:381-383, 537. -/
def contextLines (c : Config R) (cliN : Option Nat) : Nat := (cliN <|> c.n).getD 20

/-- `use_fp32`: /repo/colgrep/src/config.rs:255-266; `cuda` is the build. -/
def useFp32 (cuda : Bool) (c : Config R) : Bool := c.fp32.getD cuda

/-- `resolve_pool_factor`: /repo/colgrep/src/commands/search.rs:485-499. -/
def poolFactor (c : Config R) (cli : Option Nat) (noPool : Bool) : Nat :=
  if noPool then 1 else (cli.map fun f => max f 1).getD (c.pool.getD 2)

/-- `configured_parallel_sessions`, `configured_batch_size`: /repo/colgrep/src/config.rs:311-313, 336-338; `none` is automatic. -/
def atLeastOne (o : Option Nat) : Option Nat := o.map fun n => max n 1

/-- `is_verbose`: /repo/colgrep/src/config.rs:363-365. -/
def isVerbose (c : Config R) : Bool := c.verbose.getD false

/-- `use_relative_paths`: /repo/colgrep/src/config.rs:379-381. -/
def useRelative (c : Config R) : Bool := c.relative.getD true

/-- `max_recursion_depth`: /repo/colgrep/src/parser/mod.rs:103-117; `env` is the number in `COLGREP_MAX_RECURSION_DEPTH`. -/
def maxDepth (c : Config R) (env : Option Nat) : Nat := (env.filter (0 < ·)).getD (c.depth.getD 1024)

/-- `use_hybrid_search` and `--semantic-only`: /repo/colgrep/src/config.rs:412-414, /repo/colgrep/src/commands/search.rs:1496-1501. -/
def useHybrid (c : Config R) (semanticOnly : Bool) : Bool := !semanticOnly && c.hybrid.getD true

/-- `get_hybrid_alpha` and `--alpha`: /repo/colgrep/src/config.rs:437-444, /repo/colgrep/src/commands/search.rs:1504; `env` is the
number in `COLGREP_ALPHA`. -/
def hybridAlpha (A : Alphas R) (c : Config R) (cli env : Option R) : R := (cli <|> env.map A.clamp).getD (c.alpha.getD A.initial)

/-- The number of results and of context lines that `settings` shows: /repo/colgrep/src/commands/config.rs:190-199. -/
def shownK (c : Config R) : Nat := c.k.getD 25

def shownN (c : Config R) : Nat := c.n.getD 6

end NextPlaid.Settings
