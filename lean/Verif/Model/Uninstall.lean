/-!
Model of what `colgrep --uninstall` and `colgrep clear --all` remove, and of where colgrep keeps its files: /repo/colgrep/src/install/uninstall.rs:12-68, 118-184,
/repo/colgrep/src/index/paths.rs:65-91, /repo/colgrep/src/config.rs:507-515, /repo/colgrep/src/commands/clear.rs:17-52 and
/repo/colgrep/src/install/claude_code.rs:25-30.  The file system is the list of its files; a directory is there if a file is below it (empty directories,
links and permissions are not modelled).  Taking colgrep out of other tools, which comes first and whose errors are ignored, and what is printed are not
modelled.
-/

namespace NextPlaid.Uninstall

/-- An absolute path: its components behind the root. -/
abbrev Path := List String

/-- The environment.  A variable that is unset, empty or not UTF-8 is `none`. -/
structure Env where
  /-- `XDG_DATA_HOME` -/
  xdg : Option Path
  /-- `COLGREP_DATA_DIR` -/
  colgrep : Option Path
  /-- `dirs::home_dir()` -/
  home : Option Path
  /-- `dirs::data_dir()` -/
  platform : Option Path

/-- Strictly below a directory. -/
def below (dir p : Path) : Bool := dir.isPrefixOf p && decide (dir.length < p.length)

/-- `xdg_data_home_or_default`: /repo/colgrep/src/index/paths.rs:69-76. -/
def dataHome (e : Env) : Option Path := match e.xdg with
  | some p => some p
  | none => e.platform

/-- `get_colgrep_data_dir` of paths.rs: /repo/colgrep/src/index/paths.rs:83-90. -/
def indexBase (e : Env) : Option Path := match e.colgrep with
  | some p => some p
  | none => (dataHome e).map fun d => d ++ ["colgrep", "indices"]

/-- `get_config_path`: /repo/colgrep/src/config.rs:508-515. -/
def configPath (e : Env) : Option Path := (indexBase e).bind fun d => if d = [] then none else some (d.dropLast ++ ["config.json"])

/-- `get_marketplace_dir`: /repo/colgrep/src/install/claude_code.rs:26-30. -/
def marketplace (e : Env) : Option Path := (dataHome e).map fun d => d ++ ["colgrep", "claude-marketplace"]

/-- `get_colgrep_data_dir` of uninstall.rs: /repo/colgrep/src/install/uninstall.rs:13-15. -/
def dataDir (e : Env) : Option Path := (dataHome e).map fun d => d ++ ["colgrep"]

/-- `get_colgrep_cache_dir`: /repo/colgrep/src/install/uninstall.rs:18-21. -/
def cacheDir (e : Env) : Option Path := e.home.map fun h => h ++ [".cache", "colgrep"]

/-- How a removal goes: `none`: it succeeds; `some keep`: it fails, and the files of the directory for which `keep` holds are still there. -/
abbrev Fault := Option (Path → Bool)

/-- `fs::remove_dir_all`; whether it succeeds, and the files afterwards. -/
def removeTree (f : Fault) (dir : Path) (fs : List Path) : Bool × List Path := match f with
  | none => (true, fs.filter fun p => !below dir p)
  | some keep => (false, fs.filter fun p => !below dir p || keep p)

/-- `if dir.exists() { remove_dir_all(dir)? }`. -/
def removeIfThere (f : Fault) (dir : Path) (fs : List Path) : Bool × List Path :=
  if fs.any (below dir) then removeTree f dir fs else (true, fs)

/-- `remove_data_directory` and `remove_cache_directory`: /repo/colgrep/src/install/uninstall.rs:119-184.  Without a directory to name they fail. -/
def removeDir (f : Fault) (dir : Option Path) (fs : List Path) : Bool × List Path := match dir with
  | none => (false, fs)
  | some d => removeIfThere f d fs

/-- `uninstall_all`: /repo/colgrep/src/install/uninstall.rs:40-68; whether it says that all is uninstalled, and the files afterwards. -/
def uninstallAll (e : Env) (data cache : Fault) (fs : List Path) : Bool × List Path :=
  let r := removeDir data (dataDir e) fs
  if r.1 then removeDir cache (cacheDir e) r.2 else r

/-- The loop of `clear --all`: /repo/colgrep/src/commands/clear.rs:36-50.  `locked`: another process holds the lock of the directory for five seconds. -/
def clearEach (base : Path) (locked : String → Bool) (fault : String → Fault) : List String → List Path → Bool × List Path
  | [], fs => (true, fs)
  | n :: ns, fs =>
    if locked n then (false, fs)
    else
      let r := removeTree (fault n) (base ++ [n]) fs
      if r.1 then clearEach base locked fault ns r.2 else r

/-- `clear --all`: /repo/colgrep/src/commands/clear.rs:18-52.  `names` are the directories in the data directory, as `read_dir` gives them. -/
def clearAll (e : Env) (locked : String → Bool) (fault : String → Fault) (names : List String) (fs : List Path) : Bool × List Path :=
  match indexBase e with
  | none => (false, fs)
  | some base => clearEach base locked fault names fs

end NextPlaid.Uninstall
