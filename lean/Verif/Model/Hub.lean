import Verif.Model.Basic

/-!
Model of getting the files of a model: /repo/colgrep/src/model.rs and the choice of the network file,
/repo/next-plaid-onnx/src/lib.rs:1668-1696.

`repo.get` belongs to the hf-hub library.  Its cache is modelled as that library documents it: for a repository, the revision
`main` was last seen to be, and one directory ("snapshot") per revision with the files downloaded from it.
-/

namespace NextPlaid.Hub
open NextPlaid

/-- The cache for one model: the revision recorded for `main` and the files present in the directory of a revision. -/
structure Cache where
  ref : Option Nat
  has : Nat → String → Bool

/-- The network during a call: which revision answers a request for a file (none: the file is not there, or there is no
answer).  The revision may differ between the requests of one call. -/
abbrev Net := String → Option Nat

/-- A download: the file is put into the directory of the revision that answered, which becomes the recorded one. -/
def download (net : Net) (s : Cache) (f : String) : Option Nat × Cache :=
  match net f with
  | none => (none, s)
  | some c => (some c, ⟨some c, fun d g => (d == c && g == f) || s.has d g⟩)

/-- `repo.get(file)` of hf-hub: the file of the recorded revision if it is there, otherwise a download.  Returns the revision
whose directory holds the file. -/
def fetch (net : Net) (s : Cache) (f : String) : Option Nat × Cache :=
  match s.ref with
  | some c => if s.has c f then (some c, s) else download net s f
  | none => download net s f

/-- `REQUIRED_FILES`: /repo/colgrep/src/model.rs:8-14. -/
def requiredFiles : List String :=
  ["model_int8.onnx", "tokenizer.json", "config_sentence_transformers.json", "config.json", "onnx_config.json"]

/-- `OPTIONAL_FILES`: /repo/colgrep/src/model.rs:17. -/
def optionalFiles : List String := ["model.onnx"]

/-- The loop over the required files: /repo/colgrep/src/model.rs:48-65.  The directory is that of the first file. -/
def getRequired (net : Net) : List String → Option Nat → Cache → Res (Option Nat) × Cache
  | [], dir, s => (.ok dir, s)
  | f :: fs, dir, s =>
    match fetch net s f with
    | (some c, s') => getRequired net fs (dir.or (some c)) s'
    | (none, s') => if f ≠ "config.json" then (.error .err, s') else getRequired net fs dir s'

/-- The loop over the optional files, whose errors are ignored: lines 67-70. -/
def getOptional (net : Net) : List String → Cache → Cache
  | [], s => s
  | f :: fs, s => getOptional net fs (fetch net s f).2

/-- Where a model is: a directory named by the user, or the directory of a revision. -/
inductive Place where
  | named
  | revision (c : Nat)
deriving DecidableEq

/-- `ensure_model`: /repo/colgrep/src/model.rs:23-73.  `isDir`: the given name is an existing directory. -/
def ensureModel (net : Net) (isDir : Bool) (s : Cache) : Res Place × Cache :=
  if isDir then (.ok .named, s)
  else
    match getRequired net requiredFiles none s with
    | (.error e, s') => (.error e, s')
    | (.ok dir, s') =>
      let s'' := getOptional net optionalFiles s'
      match dir with
      | some c => (.ok (.revision c), s'')
      | none => (.error .err, s'')

/-- `select_onnx_file`: /repo/next-plaid-onnx/src/lib.rs:1668-1696. -/
def selectOnnx (present : String → Bool) (quantized : Bool) : Res String :=
  if quantized then
    if present "model_int8.onnx" then .ok "model_int8.onnx" else .error .err
  else if present "model.onnx" then .ok "model.onnx" else .error .err

/-! ### The token -/

/-- `trim_matches(c)`. -/
def trimMatches (c : Char) (l : List Char) : List Char :=
  ((l.dropWhile (· == c)).reverse.dropWhile (· == c)).reverse

/-- The token sent to the hub: /repo/colgrep/src/model.rs:36-44.  `hfToken`, `hubToken`: the environment variables; `file`:
the token the library has read from its token file. -/
def token (hfToken hubToken file : Option (List Char)) : Option (List Char) :=
  match (hfToken.or hubToken).map fun t => trimMatches '\'' (trimMatches '"' t) with
  | some t => some t
  | none => file

end NextPlaid.Hub
