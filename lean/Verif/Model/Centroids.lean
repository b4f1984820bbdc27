import Verif.Model.Basic

/-!
Model of training centroids with a GPU that may fail: /repo/next-plaid/src/kmeans.rs:58-240 and 330-412, the process-wide
state of /repo/next-plaid/src/cuda.rs:32-182, and its handling of the panic hook.

K-means itself (fastkmeans-rs) is a parameter: `cpu rows cfg` is its answer on the CPU, and each call is given what its GPU
would do.
-/

namespace NextPlaid.Centroids
open NextPlaid

variable {V C : Type}

/-- `KMeansConfig`; the tolerance and the chunk sizes are always the same and left out. -/
structure Config where
  k : Nat
  maxIters : Nat
  seed : Nat
  maxPoints : Option Nat
deriving DecidableEq

/-- `default_config`: /repo/next-plaid/src/kmeans.rs:60-71. -/
def defaultConfig (k : Nat) : Config := ⟨k, 4, 42, some 256⟩

/-- What the GPU does with a call: a result, an error (also of its initialisation, and no result), or a panic of
the library. -/
inductive Gpu (C : Type) where
  | gives (c : C)
  | fails
  | panics
deriving DecidableEq

/-- The features the library was compiled with. -/
inductive Build where
  | cpu
  | cuda
  | metal
deriving DecidableEq

/-- `CUDA_BROKEN` and whether `GLOBAL_CUDA_CONTEXT` holds a context: /repo/next-plaid/src/cuda.rs:52-59. -/
structure Proc where
  broken : Bool
  ctx : Bool
deriving DecidableEq

/-- What a call did: the process after it, whether it used the GPU, its result. -/
structure Out (C : Type) where
  proc : Proc
  gpu : Bool
  result : Res C

/-- `match cuda_result`: /repo/next-plaid/src/kmeans.rs:138-157.  A failure marks CUDA as broken, and the CPU does the work. -/
def afterCuda (s : Proc) (fallback : Res C) : Gpu C → Out C
  | .gives c => ⟨s, true, .ok c⟩
  | .fails => ⟨{ s with broken := true }, true, fallback⟩
  | .panics => ⟨{ s with broken := true }, true, fallback⟩

/-- Metal: every failure is an error of the call; a panic is not caught.  /repo/next-plaid/src/kmeans.rs:173-185. -/
def afterMetal (s : Proc) : Gpu C → Out C
  | .gives c => ⟨s, true, .ok c⟩
  | .fails => ⟨s, true, .error .err⟩
  | .panics => ⟨s, true, .error .panic⟩

/-- `compute_centroids` in its three versions: /repo/next-plaid/src/kmeans.rs:97-106, 109-158, 160-186. -/
def computeCentroids (cpu : List (List V) → Config → Res C) (b : Build) (s : Proc) (rows : List (List V)) (k : Nat)
    (cfg : Option Config) (force : Bool) (gpu : Gpu C) : Out C :=
  let cfg := cfg.getD (defaultConfig k)
  match b with
  | .cpu => ⟨s, false, cpu rows cfg⟩
  | .cuda => if force || s.broken then ⟨s, false, cpu rows cfg⟩ else afterCuda s (cpu rows cfg) gpu
  | .metal => if force then ⟨s, false, cpu rows cfg⟩ else afterMetal s gpu

/-- The training step of `compute_kmeans`: /repo/next-plaid/src/kmeans.rs:330-412.  What precedes and follows it is in
`Model/Train.lean`. -/
def trainStep (cpu : List (List V) → Config → Res C) (b : Build) (s : Proc) (rows : List (List V)) (cfg : Config)
    (force : Bool) (gpu : Gpu C) : Out C :=
  match b with
  | .cpu => ⟨s, false, cpu rows cfg⟩
  | .cuda =>
    if force || s.broken then ⟨s, false, cpu rows cfg⟩
    else
      match gpu with
      | .gives c => ⟨s, true, .ok c⟩
      | .fails => ⟨{ s with broken := true }, true, cpu rows cfg⟩
      | .panics => ⟨{ s with broken := true }, true, cpu rows cfg⟩
  | .metal => if force then ⟨s, false, cpu rows cfg⟩ else afterMetal s gpu

/-- `get_global_context`: /repo/next-plaid/src/cuda.rs:99-143, as one step (its concurrency is in `Model/Gpu.lean`).  Returns the new process, whether the GPU was touched and
whether there is a context. -/
def globalContext (s : Proc) (gpu : Gpu Unit) : Proc × Bool × Bool :=
  if s.broken then (s, false, false)
  else if s.ctx then (s, false, true)
  else
    match gpu with
    | .gives _ => ({ s with ctx := true }, true, true)
    | .fails => ({ s with broken := true }, true, false)
    | .panics => ({ s with broken := true }, true, false)

/-- `clear_cuda_broken`: /repo/next-plaid/src/cuda.rs:169-182. -/
def clear (_ : Proc) : Proc := ⟨false, false⟩

/-! ### Histories of a process (CUDA build) -/

/-- A call made by the process. -/
inductive Call (V C : Type) where
  | centroids (rows : List (List V)) (k : Nat) (cfg : Option Config) (force : Bool) (gpu : Gpu C)
  | train (rows : List (List V)) (cfg : Config) (force : Bool) (gpu : Gpu C)
  | context (gpu : Gpu Unit)
  | clear

/-- What is seen of a call: whether the GPU was touched, and the result (none for calls without one). -/
structure Seen (C : Type) where
  gpu : Bool
  result : Option (Res C)

def step (cpu : List (List V) → Config → Res C) (s : Proc) : Call V C → Proc × Seen C
  | .centroids rows k cfg force gpu =>
    let o := computeCentroids cpu .cuda s rows k cfg force gpu
    (o.proc, ⟨o.gpu, some o.result⟩)
  | .train rows cfg force gpu =>
    let o := trainStep cpu .cuda s rows cfg force gpu
    (o.proc, ⟨o.gpu, some o.result⟩)
  | .context gpu =>
    let o := globalContext s gpu
    (o.1, ⟨o.2.1, none⟩)
  | .clear => (Centroids.clear s, ⟨false, none⟩)

def run (cpu : List (List V) → Config → Res C) : Proc → List (Call V C) → Proc × List (Seen C)
  | s, [] => (s, [])
  | s, c :: l =>
    let o := step cpu s c
    let r := run cpu o.1 l
    (r.1, o.2 :: r.2)

/-! ### Documents -/

/-- A document: its number of columns and its rows. -/
structure Mat (V : Type) where
  cols : Nat
  rows : List (List V)

/-- Every row has the declared number of columns. -/
def Mat.Wf (m : Mat V) : Prop := ∀ r ∈ m.rows, r.length = m.cols

/-- `flat.slice_mut(s![offset..offset + n, ..]).assign(doc)`: /repo/next-plaid/src/kmeans.rs:229-231.  ndarray broadcasts the
source: a matrix with one column fills every column; other widths panic. -/
def assignRows (dim : Nat) (m : Mat V) : Res (List (List V)) :=
  if m.cols = dim then .ok m.rows
  else if m.cols = 1 then .ok (m.rows.map fun r => (List.replicate dim r).flatten)
  else .error .panic

/-- The loop over the documents: /repo/next-plaid/src/kmeans.rs:227-233. -/
def flattenDocs (dim : Nat) : List (Mat V) → Res (List (List V))
  | [] => .ok []
  | m :: l => do
    let a ← assignRows dim m
    let b ← flattenDocs dim l
    .ok (a ++ b)

/-- `compute_centroids_from_documents`: /repo/next-plaid/src/kmeans.rs:203-236. -/
def fromDocuments (cpu : List (List V) → Config → Res C) (b : Build) (s : Proc) (docs : List (Mat V)) (k : Nat)
    (cfg : Option Config) (force : Bool) (gpu : Gpu C) : Out C :=
  match docs with
  | [] => ⟨s, false, .error .err⟩
  | d :: _ =>
    match flattenDocs d.cols docs with
    | .error e => ⟨s, false, .error e⟩
    | .ok rows => computeCentroids cpu b s rows k cfg force gpu

/-! ### The panic hook -/

/-- The hook that prints panics: the program's own, or the one that prints nothing. -/
inductive Hook where
  | own
  | silent
deriving DecidableEq

/-- The hook of the process and what each running `catch_cuda_panic` keeps in `prev_hook`. -/
structure Hooks where
  hook : Hook
  saved : List (Nat × Hook)
deriving DecidableEq

/-- Restoring: the most recent call of the thread sets the hook it saved. -/
def takeSaved (t : Nat) : List (Nat × Hook) → Option (Hook × List (Nat × Hook))
  | [] => none
  | (u, h) :: l =>
    if u = t then some (h, l)
    else (takeSaved t l).map fun r => (r.1, (u, h) :: r.2)

/-- `catch_cuda_panic`: /repo/next-plaid/src/cuda.rs:38-47.  `(t, true)`: thread `t` takes the hook and silences panics;
`(t, false)`: it restores what it took.  The two statements of each half are one step. -/
def hookStep (s : Hooks) (e : Nat × Bool) : Hooks :=
  if e.2 then ⟨.silent, (e.1, s.hook) :: s.saved⟩
  else
    match takeSaved e.1 s.saved with
    | some (h, l) => ⟨h, l⟩
    | none => s

def hookRun (s : Hooks) (l : List (Nat × Bool)) : Hooks := l.foldl hookStep s

end NextPlaid.Centroids
