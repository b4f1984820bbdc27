import Verif.Proofs.Device
import Verif.Spec.Device

/-!
C98: where the model runs.
-/

namespace NextPlaid.Props

open NextPlaid.Spec
open NextPlaid.Device

theorem Toy.truthy_iff (e : Env) (n : String) : truthy e n = true ↔ On e n := by
  unfold truthy On
  have h : "true".toList = ['t', 'r', 'u', 'e'] := by decide
  cases e n with
  | none => simp
  | some v => simp [h]

theorem Toy.cpu_iff (e : Env) : cpuVars.any (truthy e) = true ↔ AsksCpu e := by
  simp [cpuVars, AsksCpu, Toy.truthy_iff]

theorem Toy.gpu_iff (e : Env) : gpuVars.any (truthy e) = true ↔ AsksGpu e := by
  simp [gpuVars, AsksGpu, Toy.truthy_iff]

/-- **C98, the variables.**  What the environment asks for: both is an error, one is that one, neither is automatic. -/
theorem C98_variables (e : Env) :
    (envMode e = none ↔ AsksCpu e ∧ AsksGpu e) ∧ (envMode e = some .cpu ↔ AsksCpu e ∧ ¬ AsksGpu e) ∧ (envMode e = some .gpu ↔ ¬ AsksCpu e ∧ AsksGpu e) ∧
      (envMode e = some .auto ↔ ¬ AsksCpu e ∧ ¬ AsksGpu e) := by
  rw [← Toy.cpu_iff, ← Toy.gpu_iff, envMode]
  cases cpuVars.any (truthy e) <;> cases gpuVars.any (truthy e) <;> simp

/-- **C98, all parts agree.**  After a mode has been put into the environment, colgrep and both libraries read that mode from it, and no other variable has
changed. -/
theorem C98_round_trip (m : Mode) (e : Env) :
    envMode (applyMode m e) = some m ∧ (plaidCpu (applyMode m e) = true ↔ m = .cpu) ∧ (plaidGpu (applyMode m e) = true ↔ m = .gpu) ∧
      ∀ n, n ∉ cpuVars → n ∉ gpuVars → applyMode m e n = e n := by
  refine ⟨envMode_apply m e, ?_, ?_, ?_⟩
  · rw [plaidCpu_apply]; simp
  · rw [plaidGpu_apply]; simp
  · intro n h1 h2
    rw [apply_get, if_neg h1, if_neg h2]

/-- **C98, the flags.**  If the program starts at all, a flag decides, and without one the variables do. -/
theorem C98_flags (flag : Flag) (e e' : Env) (h : startUp flag e = some e') :
    (flag = .forceCpu → envMode e' = some .cpu) ∧ (flag = .forceGpu → envMode e' = some .gpu) ∧ (flag = .none → envMode e' = envMode e) := by
  obtain ⟨m, hm, rfl⟩ := Option.map_eq_some_iff.mp h
  refine ⟨?_, ?_, ?_⟩ <;> rintro rfl
  · exact envMode_apply _ _
  · exact envMode_apply _ _
  · rw [envMode_apply, hm]

/-- **C98, refuted: a flag does not settle a conflict.**  If the variables contradict each other the program does not start, although the flag says which. -/
theorem C98_conflict (flag : Flag) (e : Env) (hc : AsksCpu e) (hg : AsksGpu e) : startUp flag e = none := by
  rw [startUp, ((C98_variables e).1.mpr ⟨hc, hg⟩)]
  rfl

/-- **C98, `--force-cpu`.**  In whatever build, whatever indexing and searching is done, no session is ever made on a GPU. -/
theorem C98_force_cpu (f : Feats) (e e' : Env) (h : startUp .forceCpu e = some e') (os : List (Machine × Op)) :
    ∀ d ∈ (runAll f os { env := e' }).2, d = .cpu :=
  run_cpu f os _ ((C98_flags _ e e' h).1 rfl)

/-- **C98, `--force-gpu` with CUDA.**  No session is ever made on the CPU, and indexing that succeeds with a new builder has made one on the GPU. -/
theorem C98_force_gpu (f : Feats) (hf : f.cuda = true) (e e' : Env) (h : startUp .forceGpu e = some e') (os : List (Machine × Op)) :
    (∀ d ∈ (runAll f os { env := e' }).2, d = .cuda) ∧
      ∀ (m : Machine) (s : Proc) (n : Nat) (fails again : Bool), s.env = e' → s.model = none → (encode f m n fails again s).ok = true →
        (encode f m n fails again s).sessions = [.cuda] := by
  have hm := (C98_flags _ e e' h).2.1 rfl
  refine ⟨run_gpu f hf os _ hm, ?_⟩
  rintro m s n fails again rfl hn hok
  have hens : (ensure f m n s).ok = true → (ensure f m n s).sessions = [.cuda] := by
    unfold ensure
    simp only [hn, hf, lossy_of _ _ hm, if_true]
    split
    · unfold make
      split
      · rename_i d hd
        intro _
        rw [configure_gpu f s.env m hf d hd]
      · intro h; cases h
    · intro h; cases h
  have hg := (step_gpu f m s (.encode n false false) hf hm).1
  have hmode : (ensure f m n s).ok = true → lossy (ensure f m n s).proc.env = .gpu := by
    intro ho
    have : encode f m n false false s = ensure f m n s := by simp [encode, ho]
    rw [Op.run, this] at hg
    exact lossy_of _ _ hg
  simp only [encode] at hok ⊢
  cases ho : (ensure f m n s).ok with
  | false =>
    rw [if_pos (by simp [ho])] at hok
    rw [ho] at hok
    cases hok
  | true =>
    rw [if_neg (by simp [ho])] at hok ⊢
    split
    · exact hens ho
    · split
      · rw [if_pos (hmode ho)]
        exact hens ho
      · exact hens ho

/-- **C98, automatic.**  With CUDA, in automatic mode, a new builder whose pipeline does not fail indexes on the GPU exactly if there are 300 units or more and
the GPU can be used. -/
theorem C98_auto (f : Feats) (hf : f.cuda = true) (m : Machine) (hr : m.rt = true) (s : Proc) (hs : s.model = none) (he : envMode s.env = some .auto) (n : Nat)
    (again : Bool) :
    (encode f m n false again s).sessions = [.cuda] ↔ 300 ≤ n ∧ m.cudnn = true ∧ m.ep = true ∧ Visible s.env ∧ m.reg .cuda = .works := by
  have henc : encode f m n false again s = ensure f m n s := by simp [encode]
  have hvis : visible (applyMode .auto s.env) = true ↔ Visible s.env := by
    rw [visible, apply_get, if_neg (by decide), if_neg (by decide)]
    unfold Visible
    cases s.env "CUDA_VISIBLE_DEVICES" <;> simp
  have hav : cudaAvailable f (applyMode .auto s.env) m = true ↔ Visible s.env ∧ m.ep = true := by
    unfold cudaAvailable
    rw [plaidCpu_apply, Bool.and_eq_true, Bool.and_eq_true, hvis]
    simp [hf]
  rw [henc]
  unfold ensure
  simp only [hs, hf, lossy_of _ _ he, hr, if_true]
  by_cases hn : n < 300
  · rw [decide_eq_true (show n < smallBatch from hn), if_pos rfl, if_neg (by simp)]
    rw [make, configure_cpu]
    constructor
    · intro h; simp at h
    · intro h; omega
  · rw [decide_eq_false (show ¬ n < smallBatch from hn), if_neg (by simp)]
    by_cases hc : m.cudnn = true ∧ cudaAvailable f (applyMode .auto s.env) m = true
    · rw [if_pos (by simp [hc.1, hc.2])]
      have hv := hav.mp hc.2
      have hcfg : configure f (applyMode .auto s.env) m .cuda = (match m.reg .cuda with
          | .works => some .cuda
          | .dropped => some .cpu
          | .fails => none
          | .panics => some .cpu) := by
        simp only [configure, Feats.has, hf, plaidCpu_apply, plaidGpu_apply]
        cases m.reg .cuda <;> simp
      unfold make
      rw [hcfg]
      cases hreg : m.reg .cuda <;> simp [hc.1, hv.1, hv.2]
      omega
    · rw [if_neg (by
        intro h
        simp only [Bool.and_eq_true] at h
        exact hc h.2)]
      rw [make, configure_cpu]
      constructor
      · intro h; simp at h
      · rintro ⟨_, h1, h2, h3, _⟩
        exact absurd ⟨h1, hav.mpr ⟨h3, h2⟩⟩ hc

/-- **C98, the fallback.**  In automatic mode, if the pipeline fails on the GPU it is run again on the CPU. -/
theorem C98_fallback (f : Feats) (hf : f.cuda = true) (m : Machine) (s : Proc) (n : Nat) (again : Bool) (hr : (ensure f m n s).ok = true)
    (hg : (ensure f m n s).proc.model = some .cuda) (ha : lossy (ensure f m n s).proc.env ≠ .gpu) :
    (encode f m n true again s).sessions = (ensure f m n s).sessions ++ [.cpu] ∧ (encode f m n true again s).ok = !again := by
  have hu : usingGpu (ensure f m n s).proc = true := by rw [usingGpu, hg]; rfl
  simp only [encode, hr, hf, hu, Bool.not_true, Bool.and_self, if_true, if_neg ha, rebuild, make, configure_cpu]
  simp

/-- **C98, refuted: automatic mode does not decide anew.**  With CUDA, a search, an index run with fewer than 300 units, or a fallback puts the process into CPU
mode: no later session of it is on a GPU, whatever there is to index. -/
theorem C98_sticky (f : Feats) (hf : f.cuda = true) (m : Machine) (s : Proc) (o : Op) (ha : lossy s.env ≠ .gpu)
    (ho : o = .search ∨ (∃ n fails again, o = .encode n fails again ∧ n < 300 ∧ s.model = none) ∨
      ∃ n again, o = .encode n true again ∧ (ensure f m n s).ok = true ∧ (ensure f m n s).proc.model = some .cuda ∧ lossy (ensure f m n s).proc.env ≠ .gpu)
    (os : List (Machine × Op)) : ∀ d ∈ (runAll f os (o.run f m s).proc).2, d = .cpu := by
  apply run_cpu
  rcases ho with rfl | ⟨n, fails, again, rfl, hn, hs⟩ | ⟨n, again, rfl, h1, h2, h3⟩
  · simp only [Op.run, search, hf, if_true, if_neg ha]
    split
    · exact envMode_apply .cpu s.env
    · split
      · exact envMode_apply .cpu s.env
      · split <;> exact envMode_apply .cpu s.env
  · have hens : envMode (ensure f m n s).proc.env = some .cpu := by
      have hsm : decide (n < smallBatch) = true := decide_eq_true (show n < smallBatch from hn)
      unfold ensure
      simp only [hs, hf, if_true, hsm]
      split
      · split
        · rw [make, configure_cpu]; exact envMode_apply .cpu s.env
        · exact envMode_apply .cpu s.env
      · rename_i hm; exact absurd hm ha
      · split
        · rw [if_neg (by simp), make, configure_cpu]; exact envMode_apply .cpu s.env
        · exact envMode_apply .cpu s.env
    simp only [Op.run, encode]
    split
    · exact hens
    · split
      · exact hens
      · split
        · split
          · exact hens
          · rw [rebuild, make, configure_cpu]
            exact envMode_apply .cpu _
        · exact hens
  · have hu : usingGpu (ensure f m n s).proc = true := by rw [usingGpu, h2]; rfl
    simp only [Op.run, encode, h1, hf, hu, Bool.not_true, Bool.and_self, if_true, if_neg h3, rebuild, make, configure_cpu]
    exact envMode_apply .cpu _

/-- **C98, searches.**  With CUDA and in automatic mode a search that succeeds runs on the CPU. -/
theorem C98_search_auto (f : Feats) (hf : f.cuda = true) (m : Machine) (s : Proc) (ha : envMode s.env = some .auto) :
    (search f m s).ok = m.rt ∧ ∀ d ∈ (search f m s).sessions, d = .cpu := by
  have hp : searchProvider f .auto = .cuda := by simp [searchProvider, compiled, hf]
  have hcfg : configure f (applyMode .cpu s.env) m .cuda = some .cpu := by
    simp only [configure, Feats.has, hf, plaidCpu_apply]
    simp
  have h1 : ¬ (Mode.auto = Mode.gpu) := by decide
  have h2 : (Mode.auto == Mode.gpu) = false := by decide
  simp only [search, lossy_of _ _ ha, hp, hf, if_true, if_neg h1, h2, hcfg]
  cases m.rt <;> simp

/-- **C98, refuted: its threads.**  That search on the CPU gets one thread, however many were asked for, because the provider it was to have is CUDA. -/
theorem C98_search_one_thread (f : Feats) (hf : f.cuda = true) (s : Proc) (ha : envMode s.env = some .auto) (threads : Nat) :
    searchThreads (searchProvider f (lossy s.env)) threads = 1 := by
  simp [lossy_of _ _ ha, searchProvider, compiled, hf, searchThreads]

/-- The mode of a test. -/
def ToyDevice.env (m : Mode) : Env := applyMode m fun _ => none

def ToyDevice.best : Machine := { rt := true, cudnn := true, ep := true, reg := fun _ => .works }

def ToyDevice.poor : Machine := { rt := true, cudnn := false, ep := false, reg := fun _ => .dropped }

/-- **C98, refuted: `--force-gpu` and fail if unavailable.**  A build without GPU support indexes on the CPU with `--force-gpu` and reports success, and so does
one with CoreML, DirectML or MIGraphX if ONNX Runtime drops the provider. -/
theorem C98_force_gpu_on_cpu (m : Machine) (hr : m.rt = true) (n : Nat) (s : Proc) (hs : s.model = none) (he : envMode s.env = some .gpu) :
    ((encode {} m n false false s).sessions = [.cpu] ∧ (encode {} m n false false s).ok = true) ∧
      (m.reg .coreml = .dropped → (encode { coreml := true } m n false false s).sessions = [.cpu] ∧ (encode { coreml := true } m n false false s).ok = true) := by
  constructor
  · simp [encode, ensure, hs, hr, make, configure_cpu]
  · intro hd
    simp [encode, ensure, hs, hr, lossy_of _ _ he, indexProvider, compiled, make, configure, Feats.has, bestEffort, hd]

/-- **C98, the library.**  Used by itself and told by its variable to stay on the CPU, the library does not use CUDA or MIGraphX, whatever provider is asked
for. -/
theorem C98_library (f : Feats) (e : Env) (m : Machine) (p d : Provider) (hc : On e "NEXT_PLAID_FORCE_CPU") (hg : ¬ On e "NEXT_PLAID_FORCE_GPU")
    (h : configure f e m p = some d) : d ≠ .cuda ∧ d ≠ .migraphx := by
  have hp : plaidCpu e = true := by
    have h1 : plaidGpu e = false := by
      cases hx : plaidGpu e with
      | false => rfl
      | true => exact absurd ((Toy.truthy_iff _ _).mp hx) hg
    rw [plaidCpu, h1, (Toy.truthy_iff _ _).mpr hc]
    rfl
  unfold configure at h
  split at h
  · cases h
  · cases p <;> simp [hp, bestEffort] at h
    · subst h; decide
    · subst h; decide
    all_goals first
      | (subst h; decide)
      | (split at h <;> cases h <;> decide)

/-- **C98, refuted: the other providers.**  TensorRT, CoreML and DirectML are used although the variable says CPU. -/
theorem C98_library_ignored (e : Env) (m : Machine) (hw : ∀ p, m.reg p = .works) (p : Provider) (hp : p ∈ [.tensorrt, .coreml, .directml]) :
    configure { cuda := true, tensorrt := true, coreml := true, directml := true, migraphx := true } e m p = some p := by
  simp only [List.mem_cons, List.not_mem_nil, or_false] at hp
  rcases hp with rfl | rfl | rfl <;> simp [configure, Feats.has, bestEffort, hw]

/-- **C98, automatic without CUDA.**  With CoreML indexing is on the CPU; with DirectML or MIGraphX alone, on that if ONNX Runtime has it. -/
theorem C98_auto_other (f : Feats) (hf : f.cuda = false) (m : Machine) (hr : m.rt = true) (s : Proc) (hs : s.model = none) (he : envMode s.env = some .auto)
    (n : Nat) (again : Bool) :
    (f.coreml = true → (encode f m n false again s).sessions = [.cpu]) ∧
      (f.coreml = false → f.tensorrt = false → f.directml = true → m.reg .directml = .works → (encode f m n false again s).sessions = [.directml]) := by
  constructor
  · intro hc
    simp [encode, ensure, hs, hr, hf, hc, lossy_of _ _ he, indexProvider, make, configure_cpu]
  · intro hc ht hd hw
    simp [encode, ensure, hs, hr, hf, hc, hd, lossy_of _ _ he, indexProvider, compiled, ht, make, configure, Feats.has, bestEffort, hw]

/-- **C98, other builds.**  Without CUDA nothing but the start changes the mode: later sessions are as if they were the first. -/
theorem C98_no_memory (f : Feats) (hf : f.cuda = false) : ∀ (os : List (Machine × Op)) (s : Proc), (runAll f os s).1.env = s.env := by
  have hmake : ∀ (m : Machine) (s : Proc) (p : Provider), (make f m s s.env p).proc.env = s.env := by
    intro m s p
    unfold make
    split <;> rfl
  have hens : ∀ (m : Machine) (n : Nat) (s : Proc), (ensure f m n s).proc.env = s.env := by
    intro m n s
    unfold ensure
    cases s.model with
    | some _ => rfl
    | none =>
      simp only [hf, Bool.false_eq_true, if_false]
      split
      · split
        · exact hmake _ _ _
        · rfl
      · split
        · exact hmake _ _ _
        · rfl
  intro os
  induction os with
  | nil => intro s; rfl
  | cons mo os ih =>
    intro s
    obtain ⟨m, o⟩ := mo
    rw [runAll, ih]
    cases o with
    | builder => rfl
    | encode n fails again =>
      simp only [Op.run, encode, hf, Bool.false_and, Bool.false_eq_true, if_false]
      split
      · exact hens m n s
      · split <;> exact hens m n s
    | search =>
      simp only [Op.run, search, hf, Bool.false_and, Bool.false_eq_true, if_false]
      split
      · rfl
      · split <;> rfl

/-! ### Examples -/

example : (runAll { cuda := true } [(ToyDevice.best, .encode 5000 false false)] { env := ToyDevice.env .auto }).2 = [.cuda] := by decide +kernel

/-- A search first, and the same indexing is done on the CPU. -/
example : (runAll { cuda := true } [(ToyDevice.best, .search), (ToyDevice.best, .encode 5000 false false)] { env := ToyDevice.env .auto }).2 = [.cpu, .cpu] := by
  decide +kernel

example : (runAll { cuda := true } [(ToyDevice.best, .encode 5000 true false), (ToyDevice.best, .builder), (ToyDevice.best, .encode 5000 false false)]
    { env := ToyDevice.env .auto }).2 = [.cuda, .cpu, .cpu] := by decide +kernel

example : (runAll { cuda := true } [(ToyDevice.best, .encode 20 false false), (ToyDevice.best, .search)] { env := ToyDevice.env .gpu }).2 = [.cuda, .cuda] := by
  decide +kernel

example : (Device.search { cuda := true } ToyDevice.poor { env := ToyDevice.env .gpu }).ok = false := by decide +kernel

/-- The hypotheses of `C98_conflict`. -/
example : ∃ e : Env, AsksCpu e ∧ AsksGpu e :=
  ⟨fun n => if n = "FORCE_CPU" then some "True" else if n = "NEXT_PLAID_FORCE_GPU" then some "1" else none, .inl ⟨"True", by decide, .inr (by decide)⟩,
    .inr (.inr ⟨"1", by decide, .inl rfl⟩)⟩

example : ∃ e', startUp .forceGpu (fun n => if n = "FORCE_CPU" then some "1" else none) = some e' := ⟨_, rfl⟩

example : (ensure { cuda := true } ToyDevice.best 300 { env := ToyDevice.env .auto }).ok = true ∧
    (ensure { cuda := true } ToyDevice.best 300 { env := ToyDevice.env .auto }).proc.model = some .cuda ∧
    lossy (ensure { cuda := true } ToyDevice.best 300 { env := ToyDevice.env .auto }).proc.env = .auto := by decide +kernel

end NextPlaid.Props
