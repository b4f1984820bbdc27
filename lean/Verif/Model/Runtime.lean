import Mathlib.Order.Basic

/-!
Model of the set-up of ONNX Runtime: /repo/colgrep/src/onnx_runtime.rs.

A file has contents of a type `B`; whether the dynamic linker can load it and finds `OrtGetApiBase` in it (lines 360-369) is a predicate on contents.
Messages to the user, permissions and the creation of directories are dropped.
-/

namespace NextPlaid.Ort

variable {B : Type}

abbrev Text := List Char

/-- A path, by its components. -/
abbrev Path := List String

/-- The builds that compile, by target and feature. -/
inductive Build where
  | linuxX64
  | linuxX64Cuda
  | linuxArm
  | linuxArmCuda
  | macArm
  | macX64
  | winX64
  | winX64Cuda
  | winX64Directml
deriving DecidableEq, Repr

/-- `feature = "_cuda"`. -/
def Build.cuda : Build → Bool
  | .linuxX64Cuda | .linuxArmCuda | .winX64Cuda => true
  | _ => false

/-- `target_os = "linux"`. -/
def Build.linux : Build → Bool
  | .linuxX64 | .linuxX64Cuda | .linuxArm | .linuxArmCuda => true
  | _ => false

/-- `ORT_LIB_NAME`: /repo/colgrep/src/onnx_runtime.rs:35-42. -/
def Build.lib : Build → String
  | .linuxX64 | .linuxX64Cuda | .linuxArm | .linuxArmCuda => "libonnxruntime.so"
  | .macArm | .macX64 => "libonnxruntime.dylib"
  | _ => "onnxruntime.dll"

/-- `ORT_CACHE_SUBDIR`: /repo/colgrep/src/onnx_runtime.rs:44-48. -/
def Build.subdir : Build → String
  | .linuxX64Cuda | .linuxArmCuda | .winX64Cuda | .winX64Directml => "gpu"
  | _ => "cpu"

/-- The files that have to be there for `already_cached`: /repo/colgrep/src/onnx_runtime.rs:541-558. -/
def Build.required : Build → List String
  | .linuxX64Cuda | .linuxArmCuda => ["libonnxruntime.so", "libonnxruntime_providers_shared.so", "libonnxruntime_providers_cuda.so"]
  | .winX64Cuda => ["onnxruntime.dll", "onnxruntime_providers_shared.dll", "onnxruntime_providers_cuda.dll"]
  | b => [b.lib]

/-- `files_to_extract`: name in the archive and name of the copy: /repo/colgrep/src/onnx_runtime.rs:593-745. -/
def Build.wanted : Build → List (String × String)
  | .linuxX64 => [("onnxruntime-linux-x64-1.23.0/lib/libonnxruntime.so.1.23.0", "libonnxruntime.so")]
  | .linuxX64Cuda => [("onnxruntime-linux-x64-gpu-1.23.0/lib/libonnxruntime.so.1.23.0", "libonnxruntime.so"),
      ("onnxruntime-linux-x64-gpu-1.23.0/lib/libonnxruntime_providers_shared.so", "libonnxruntime_providers_shared.so"),
      ("onnxruntime-linux-x64-gpu-1.23.0/lib/libonnxruntime_providers_cuda.so", "libonnxruntime_providers_cuda.so")]
  | .linuxArm | .linuxArmCuda => [("onnxruntime-linux-aarch64-1.23.0/lib/libonnxruntime.so.1.23.0", "libonnxruntime.so")]
  | .macArm => [("onnxruntime-osx-arm64-1.23.0/lib/libonnxruntime.1.23.0.dylib", "libonnxruntime.dylib")]
  | .macX64 => [("onnxruntime-osx-x86_64-1.23.0/lib/libonnxruntime.1.23.0.dylib", "libonnxruntime.dylib")]
  | .winX64 => [("onnxruntime-win-x64-1.23.0/lib/onnxruntime.dll", "onnxruntime.dll")]
  | .winX64Cuda => [("onnxruntime-win-x64-gpu-1.23.0/lib/onnxruntime.dll", "onnxruntime.dll"),
      ("onnxruntime-win-x64-gpu-1.23.0/lib/onnxruntime_providers_shared.dll", "onnxruntime_providers_shared.dll"),
      ("onnxruntime-win-x64-gpu-1.23.0/lib/onnxruntime_providers_cuda.dll", "onnxruntime_providers_cuda.dll")]
  | .winX64Directml => [("runtimes/win-x64/native/onnxruntime.dll", "onnxruntime.dll")]

/-- What does not change while the program runs: the home directory, the paths of `get_search_paths` after the first (lines 451-527, which depend on the
environment and the current directory), the order in which a directory is listed, and what can be loaded. -/
structure Host (B : Type) where
  home : Option Path
  others : List Path
  ls : Path → List String
  loads : B → Bool

/-- Files and environment: `ORT_DYLIB_PATH`, `LD_LIBRARY_PATH` (empty if unset) and whether `_COLGREP_CUDA_SETUP` is set. -/
structure World (B : Type) where
  files : Path → Option B
  ort : Option Path := none
  ld : Text := []
  setup : Bool := false

/-- `path.exists() && is_valid_ort_dylib(&path)`: /repo/colgrep/src/onnx_runtime.rs:124 and 380-389. -/
def usable (h : Host B) (w : World B) (p : Path) : Bool :=
  match w.files p with
  | none => false
  | some b => h.loads b

/-- The directory of the cache: /repo/colgrep/src/onnx_runtime.rs:531-537. -/
def cacheDir (b : Build) (home : Path) : Path := home ++ [".cache", "colgrep", "onnxruntime", "1.23.0", b.subdir]

/-- `get_search_paths`: /repo/colgrep/src/onnx_runtime.rs:451-527. -/
def searchPaths (b : Build) (h : Host B) : List Path :=
  match h.home with
  | none => []
  | some home => cacheDir b home :: h.others

/-- The names of versioned libraries: /repo/colgrep/src/onnx_runtime.rs:404-407. -/
def versioned (name : String) : Bool :=
  "libonnxruntime.so".toList.isPrefixOf name.toList || "libonnxruntime.dylib".toList.isPrefixOf name.toList ||
    ("libonnxruntime.".toList.isPrefixOf name.toList && ".dylib".toList.isSuffixOf name.toList)

/-- The files tried in one directory, in order: /repo/colgrep/src/onnx_runtime.rs:393-420. -/
def candidatesIn (b : Build) (h : Host B) (base : Path) : List Path :=
  (base ++ [b.lib]) :: ((h.ls base).filter versioned).map (fun name => base ++ [name]) ++ [base ++ ["lib", b.lib]]

/-- `find_onnx_runtime`: /repo/colgrep/src/onnx_runtime.rs:373-448. -/
def findRuntime (b : Build) (h : Host B) (w : World B) : Option Path := ((searchPaths b h).flatMap (candidatesIn b h)).find? (usable h w)

/-- `current.contains(...)`. -/
def containsText (p : Text) : Text → Bool
  | [] => p.isEmpty
  | c :: cs => p.isPrefixOf (c :: cs) || containsText p cs

/-- A path as text. -/
def pathText (p : Path) : Text := p.flatMap fun c => '/' :: c.toList

/-- `prepend_ld_library_path`: /repo/colgrep/src/onnx_runtime.rs:206-217. -/
def prependLd (dir cur : Text) : Text :=
  if containsText dir cur then cur
  else if cur.isEmpty then dir
  else dir ++ ':' :: cur

/-- `pin_runtime_library`: /repo/colgrep/src/onnx_runtime.rs:157-170.  The search for cuDNN, which only prepends further directories, is dropped. -/
def pin (b : Build) (w : World B) (p : Path) : World B :=
  { w with ort := some p, ld := if b.linux then prependLd (pathText p.dropLast) w.ld else w.ld }

/-- A file that is written. -/
abbrev Write (B : Type) := Path × B

def World.put (w : World B) (x : Write B) : World B := { w with files := fun q => if q = x.1 then some x.2 else w.files q }

/-- An archive: its entries, and whether reading fails after them. -/
structure Archive (B : Type) where
  entries : List (String × B)
  broken : Bool := false

/-- `path_str.strip_prefix("./").unwrap_or(&path_str)`: /repo/colgrep/src/onnx_runtime.rs:778. -/
def stripDot (name : String) : String :=
  match name.toList with
  | '.' :: '/' :: rest => String.ofList rest
  | _ => name

/-- `files_map.get(normalized_path)`: /repo/colgrep/src/onnx_runtime.rs:764-767 and 780. -/
def destOf (wanted : List (String × String)) (name : String) : Option String := (wanted.find? fun x => x.1 == stripDot name).map (·.2)

/-- The writes of `extract_libraries`, in order: /repo/colgrep/src/onnx_runtime.rs:770-795 and 826-845. -/
def extractWrites (wanted : List (String × String)) (dir : Path) (entries : List (String × B)) : List (Write B) :=
  entries.filterMap fun e => (destOf wanted e.1).map fun dest => (dir ++ [dest], e.2)

/-- Whether all were found: /repo/colgrep/src/onnx_runtime.rs:797-802. -/
def allFound (wanted : List (String × String)) (entries : List (String × B)) : Bool :=
  wanted.all fun x => entries.any fun e => stripDot e.1 == x.1

/-- What the run gives: the path, or an error. -/
abbrev Out := Option Path

/-- `extract_libraries`: /repo/colgrep/src/onnx_runtime.rs:751-805. -/
def extract (wanted : List (String × String)) (dir : Path) (a : Archive B) (w : World B) : Bool × World B :=
  (!a.broken && allFound wanted a.entries, (extractWrites wanted dir a.entries).foldl World.put w)

/-- `already_cached`: /repo/colgrep/src/onnx_runtime.rs:541-558. -/
def cached (b : Build) (dir : Path) (w : World B) : Bool := b.required.all fun name => (w.files (dir ++ [name])).isSome

/-- The download itself: /repo/colgrep/src/onnx_runtime.rs:564-587; `net` is what the server sends, if anything. -/
def fetch (b : Build) (dir : Path) (net : Option (Archive B)) (w : World B) : Out × World B :=
  match net with
  | none => (none, w)
  | some a =>
    match extract b.wanted dir a w with
    | (true, w') => (some (dir ++ [b.lib]), w')
    | (false, w') => (none, w')

/-- `download_onnx_runtime`: /repo/colgrep/src/onnx_runtime.rs:530-588. -/
def download (b : Build) (h : Host B) (net : Option (Archive B)) (w : World B) : Out × World B :=
  match h.home with
  | none => (none, w)
  | some home => if cached b (cacheDir b home) w then (some (cacheDir b home ++ [b.lib]), w) else fetch b (cacheDir b home) net w

/-- Steps 2 and 3 of `ensure_onnx_runtime`: /repo/colgrep/src/onnx_runtime.rs:140-152.  With CUDA the search is skipped. -/
def locate (b : Build) (h : Host B) (net : Option (Archive B)) (w : World B) : Out × World B :=
  match (if b.cuda then none else findRuntime b h w) with
  | some p => (some p, pin b w p)
  | none =>
    match download b h net w with
    | (some p, w') => (some p, pin b w' p)
    | (none, w') => (none, w')

/-- `ensure_onnx_runtime` after the part for cuDNN: /repo/colgrep/src/onnx_runtime.rs:121-153. -/
def ensure (b : Build) (h : Host B) (net : Option (Archive B)) (w : World B) : Out × World B :=
  match w.ort with
  | some p => if usable h w p then (some p, pin b w p) else locate b h net { w with ort := none }
  | none => locate b h net w

/-! ### Crashes -/

/-- States in which the process can die while it extracts: some of the writes are done, and of the next one the file may be there with part of its
contents; `torn` is what is there of them. -/
inductive Crash (torn : B → B → Prop) : List (Write B) → World B → World B → Prop
  | here {ws : List (Write B)} {w : World B} : Crash torn ws w w
  | part {x : Write B} {ws : List (Write B)} {w : World B} {c : B} (ht : torn x.2 c) : Crash torn (x :: ws) w (w.put (x.1, c))
  | next {x : Write B} {ws : List (Write B)} {w w' : World B} (h : Crash torn ws (w.put x) w') : Crash torn (x :: ws) w w'

/-! ### cuDNN -/

/-- The first part of `ensure_onnx_runtime` for CUDA on Linux: /repo/colgrep/src/onnx_runtime.rs:67-118.  `cudnn` is the directory found, `ortGpu` the
one of the runtime if it exists; the answer is the environment with which the process is started again, if it is. -/
def setupCuda (forceCpu : Bool) (cudnn ortGpu : Option Text) (w : World B) : Option (World B) :=
  if forceCpu || w.setup then none
  else
    match cudnn with
    | none => none
    | some dir =>
      if containsText dir w.ld then none
      else some { w with ld := withOrt ortGpu (prependLd dir w.ld), setup := true }
where
  /-- Lines 85-106. -/
  withOrt : Option Text → Text → Text
    | none, ld => ld
    | some d, ld => if containsText d ld then ld else d ++ ':' :: ld

/-- The processes started one after the other, until one goes on: `starts` counts them; `fuel` bounds the model only. -/
def startsOf (forceCpu : Bool) (cudnn ortGpu : Option Text) : (fuel : Nat) → World B → Nat
  | 0, _ => 0
  | fuel + 1, w =>
    match setupCuda forceCpu cudnn ortGpu w with
    | none => 1
    | some w' => 1 + startsOf forceCpu cudnn ortGpu fuel w'

end NextPlaid.Ort
