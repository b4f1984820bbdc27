import Mathlib.Order.Basic

/-!
Model of where the model runs, CPU or GPU: /repo/colgrep/src/acceleration.rs, the start of /repo/colgrep/src/main.rs, what
/repo/colgrep/src/index/mod.rs does with it, and the choice of execution providers in /repo/next-plaid-onnx/src/lib.rs.

Left out: how cuDNN and ONNX Runtime are found and the restart of the process (`C96`); here they are there or not.
-/

namespace NextPlaid.Device

/-- `AccelerationMode`: /repo/colgrep/src/acceleration.rs:7-12. -/
inductive Mode where
  | auto
  | cpu
  | gpu
deriving DecidableEq, Repr

/-- The environment of the process. -/
abbrev Env := String → Option String

/-- `FORCE_CPU_ENV_VARS`: /repo/colgrep/src/acceleration.rs:3. -/
def cpuVars : List String := ["FORCE_CPU", "COLGREP_FORCE_CPU", "NEXT_PLAID_FORCE_CPU"]

/-- `FORCE_GPU_ENV_VARS`: /repo/colgrep/src/acceleration.rs:4. -/
def gpuVars : List String := ["FORCE_GPU", "COLGREP_FORCE_GPU", "NEXT_PLAID_FORCE_GPU"]

/-- `env_var_is_truthy`: /repo/colgrep/src/acceleration.rs:14-18. -/
def truthy (e : Env) (name : String) : Bool :=
  match e name with
  | some v => v == "1" || v.toList.map Char.toLower == "true".toList
  | none => false

/-- `env_acceleration_mode`: /repo/colgrep/src/acceleration.rs:20-37; `none` is the error. -/
def envMode (e : Env) : Option Mode :=
  let forceCpu := cpuVars.any (truthy e)
  let forceGpu := gpuVars.any (truthy e)
  if forceCpu && forceGpu then none
  else
    some (match forceCpu, forceGpu with
      | true, false => .cpu
      | false, true => .gpu
      | _, _ => .auto)

/-- `env_acceleration_mode_lossy`: /repo/colgrep/src/acceleration.rs:39-47. -/
def lossy (e : Env) : Mode := (envMode e).getD .auto

/-- `set_var`, and with `none` `remove_var`. -/
def put (v : Option String) (e : Env) (name : String) : Env := fun n => if n = name then v else e n

/-- `apply_acceleration_mode`: /repo/colgrep/src/acceleration.rs:56-80. -/
def applyMode (m : Mode) (e : Env) : Env :=
  match m with
  | .auto => (cpuVars ++ gpuVars).foldl (put none) e
  | .cpu => cpuVars.foldl (put (some "1")) (gpuVars.foldl (put none) e)
  | .gpu => gpuVars.foldl (put (some "1")) (cpuVars.foldl (put none) e)

/-- `is_force_gpu`: /repo/next-plaid/src/lib.rs:71-75, /repo/next-plaid-onnx/src/lib.rs:264-268. -/
def plaidGpu (e : Env) : Bool := truthy e "NEXT_PLAID_FORCE_GPU"

/-- `is_force_cpu`: /repo/next-plaid/src/lib.rs:79-84, /repo/next-plaid-onnx/src/lib.rs:255-260. -/
def plaidCpu (e : Env) : Bool := !plaidGpu e && truthy e "NEXT_PLAID_FORCE_CPU"

/-- `--force-cpu` and `--force-gpu`, of which clap accepts at most one: /repo/colgrep/src/cli.rs:450-456. -/
inductive Flag where
  | none
  | forceCpu
  | forceGpu
deriving DecidableEq, Repr

/-- The start of `main`: /repo/colgrep/src/main.rs:62-70.  `none`: the program ends with an error. -/
def startUp (flag : Flag) (e : Env) : Option Env :=
  (envMode e).map fun m =>
    applyMode (match flag with
      | .forceCpu => .cpu
      | .forceGpu => .gpu
      | .none => m) e

/-- `ExecutionProvider`; colgrep never asks for `Auto`. -/
inductive Provider where
  | cpu
  | cuda
  | tensorrt
  | coreml
  | directml
  | migraphx
deriving DecidableEq, Repr

/-- The features of a build: /repo/colgrep/Cargo.toml:111-127. -/
structure Feats where
  cuda : Bool := false
  tensorrt : Bool := false
  coreml : Bool := false
  directml : Bool := false
  migraphx : Bool := false
deriving DecidableEq, Repr

def Feats.has (f : Feats) : Provider → Bool
  | .cpu => true
  | .cuda => f.cuda
  | .tensorrt => f.tensorrt
  | .coreml => f.coreml
  | .directml => f.directml
  | .migraphx => f.migraphx

/-- What ONNX Runtime does when asked for a provider: it `works`; it is `dropped`, that is the session is made and runs on the CPU; an error; a panic. -/
inductive Reg where
  | works
  | dropped
  | fails
  | panics
deriving DecidableEq, Repr

/-- The machine: whether ONNX Runtime is found, whether cuDNN is, whether ONNX Runtime has CUDA, and what becomes of a provider. -/
structure Machine where
  rt : Bool
  cudnn : Bool
  ep : Bool
  reg : Provider → Reg

/-- Without `error_on_failure`: the provider a session runs on. -/
def bestEffort (m : Machine) (p : Provider) : Option Provider :=
  match m.reg p with
  | .works => some p
  | .dropped => some .cpu
  | .fails => none
  | .panics => none

/-- `configure_execution_provider` and `configure_…`: /repo/next-plaid-onnx/src/lib.rs:218-231, 401-444, 447-460, 512-554.  The result is what the session
runs on; `none` is an error. -/
def configure (f : Feats) (e : Env) (m : Machine) (p : Provider) : Option Provider :=
  if !f.has p then none
  else
    match p with
    | .cpu => some .cpu
    | .cuda =>
      if plaidCpu e then some .cpu
      else
        match m.reg .cuda with
        | .works => some .cuda
        | .dropped => if plaidGpu e then none else some .cpu
        | .fails => none
        | .panics => if plaidGpu e then none else some .cpu
    | .migraphx => if plaidCpu e then some .cpu else bestEffort m .migraphx
    | p => bestEffort m p

/-- The devices are not hidden: /repo/next-plaid-onnx/src/lib.rs:297-302. -/
def visible (e : Env) : Bool :=
  match e "CUDA_VISIBLE_DEVICES" with
  | some d => !(d == "" || d == "-1")
  | none => true

/-- `is_cuda_available`: /repo/next-plaid-onnx/src/lib.rs:280-320. -/
def cudaAvailable (f : Feats) (e : Env) (m : Machine) : Bool := f.cuda && !plaidCpu e && visible e && m.ep

/-- `compiled_accelerated_execution_provider`: /repo/colgrep/src/index/mod.rs:263-277. -/
def compiled (f : Feats) : Option Provider :=
  if f.cuda then some .cuda
  else if f.tensorrt then some .tensorrt
  else if f.coreml then some .coreml
  else if f.directml then some .directml
  else if f.migraphx then some .migraphx
  else none

/-- `execution_provider_for_acceleration_mode`: /repo/colgrep/src/index/mod.rs:279-289. -/
def searchProvider (f : Feats) : Mode → Provider
  | .cpu => .cpu
  | .gpu => (compiled f).getD .cuda
  | .auto => (compiled f).getD .cpu

/-- `indexing_execution_provider_for_acceleration_mode`: /repo/colgrep/src/index/mod.rs:295-310. -/
def indexProvider (f : Feats) : Mode → Provider
  | .cpu => .cpu
  | .gpu => (compiled f).getD .cuda
  | .auto => if f.coreml then .cpu else (compiled f).getD .cpu

/-- `SMALL_BATCH_CPU_THRESHOLD`: /repo/colgrep/src/index/mod.rs:212. -/
def smallBatch : Nat := 300

/-- A process: its environment, and the model of its current index builder with the provider that was asked for. -/
structure Proc where
  env : Env
  model : Option Provider := none

/-- What a command comes to: the process after it, the providers that its sessions run on, in order, and whether it succeeded. -/
structure Out where
  proc : Proc
  sessions : List Provider := []
  ok : Bool

/-- The end of `ensure_model_created`: the model is built with the provider `p`, in the environment `e`. -/
def make (f : Feats) (m : Machine) (s : Proc) (e : Env) (p : Provider) : Out :=
  match configure f e m p with
  | some d => { proc := { s with env := e, model := some p }, sessions := [d], ok := true }
  | none => { proc := { s with env := e }, ok := false }

/-- `ensure_model_created`: /repo/colgrep/src/index/mod.rs:1162-1301; sessions of one model are one. -/
def ensure (f : Feats) (m : Machine) (n : Nat) (s : Proc) : Out :=
  match s.model with
  | some _ => { proc := s, ok := true }
  | none =>
    if f.cuda then
      match lossy s.env with
      | .cpu =>
        let e := applyMode .cpu s.env
        if m.rt then make f m s e .cpu else { proc := { s with env := e }, ok := false }
      | .gpu =>
        let e := applyMode .gpu s.env
        if m.rt && m.cudnn && cudaAvailable f e m then make f m s e .cuda else { proc := { s with env := e }, ok := false }
      | .auto =>
        let small := decide (n < smallBatch)
        let e := if small then applyMode .cpu s.env else applyMode .auto s.env
        if m.rt then make f m s e (if !small && (m.cudnn && cudaAvailable f e m) then .cuda else .cpu) else { proc := { s with env := e }, ok := false }
    else if f.directml || f.migraphx || f.coreml then
      if m.rt then make f m s s.env (indexProvider f (lossy s.env)) else { proc := s, ok := false }
    else if m.rt then make f m s s.env .cpu
    else { proc := s, ok := false }

/-- `is_using_gpu`: /repo/colgrep/src/index/mod.rs:1315-1319. -/
def usingGpu (s : Proc) : Bool :=
  match s.model with
  | some p => p != .cpu
  | none => false

/-- `rebuild_model_for_cpu`: /repo/colgrep/src/index/mod.rs:1327-1351. -/
def rebuild (f : Feats) (m : Machine) (s : Proc) : Out := make f m { s with model := none } (applyMode .cpu s.env) .cpu

/-- `ensure_model_created` and `run_encoding_pipeline`: /repo/colgrep/src/index/mod.rs:1357-1437.  `fails` says whether the pipeline fails with the model
there is, `again` whether it fails the second time. -/
def encode (f : Feats) (m : Machine) (n : Nat) (fails again : Bool) (s : Proc) : Out :=
  let r := ensure f m n s
  if !r.ok then r
  else if !fails then r
  else if f.cuda && usingGpu r.proc then
    if lossy r.proc.env = .gpu then { r with ok := false }
    else
      let r' := rebuild f m r.proc
      { r' with sessions := r.sessions ++ r'.sessions, ok := r'.ok && !again }
  else { r with ok := false }

/-- The model of a searcher: `load_with_quantized` and `load_from_index_dir_with_quantized`, /repo/colgrep/src/index/mod.rs:3622-3750. -/
def search (f : Feats) (m : Machine) (s : Proc) : Out :=
  let mode := lossy s.env
  let p := searchProvider f mode
  let e := if f.cuda then (if mode = .gpu then applyMode .gpu s.env else applyMode .cpu s.env) else s.env
  if !m.rt then { proc := { s with env := e }, ok := false }
  else if f.cuda && mode == .gpu && !(m.cudnn && cudaAvailable f e m) then { proc := { s with env := e }, ok := false }
  else
    match configure f e m p with
    | some d => { proc := { s with env := e }, sessions := [d], ok := true }
    | none => { proc := { s with env := e }, ok := false }

/-- The threads of the one session of a searcher: `build`, /repo/next-plaid-onnx/src/lib.rs:1009-1017, asked for `threads`. -/
def searchThreads (p : Provider) (threads : Nat) : Nat := if p = .cuda then 1 else threads

/-- What a process does: a new index builder, an index run, a search. -/
inductive Op where
  | builder
  | encode (n : Nat) (fails again : Bool)
  | search

def Op.run (f : Feats) (m : Machine) (s : Proc) : Op → Out
  | .builder => { proc := { s with model := none }, ok := true }
  | .encode n fails again => Device.encode f m n fails again s
  | .search => Device.search f m s

/-- Several, each with the machine as it is then. -/
def runAll (f : Feats) : List (Machine × Op) → Proc → Proc × List Provider
  | [], s => (s, [])
  | (m, o) :: os, s => ((runAll f os (o.run f m s).proc).1, (o.run f m s).sessions ++ (runAll f os (o.run f m s).proc).2)

end NextPlaid.Device
