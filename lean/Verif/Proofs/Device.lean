import Verif.Model.Device
import Mathlib.Tactic.Common

/-!
Lemmas for C98.
-/

namespace NextPlaid.Device

theorem foldl_put (v : Option String) : ∀ (ns : List String) (e : Env) (n : String), ns.foldl (put v) e n = if n ∈ ns then v else e n := by
  intro ns
  induction ns with
  | nil => intro e n; simp
  | cons a ns ih =>
    intro e n
    rw [List.foldl_cons, ih]
    by_cases h1 : n ∈ ns
    · simp [h1]
    · by_cases h2 : n = a <;> simp [h1, h2, put]

theorem apply_get (m : Mode) (e : Env) (n : String) : applyMode m e n =
    if n ∈ cpuVars then (if m = .cpu then some "1" else none) else if n ∈ gpuVars then (if m = .gpu then some "1" else none) else e n := by
  have disj : n ∈ cpuVars → n ∉ gpuVars := by
    intro h
    simp only [cpuVars, List.mem_cons, List.not_mem_nil, or_false] at h
    rcases h with rfl | rfl | rfl <;> decide
  cases m <;> simp only [applyMode, foldl_put, List.mem_append] <;> by_cases h1 : n ∈ cpuVars <;> by_cases h2 : n ∈ gpuVars <;> simp [h1, h2] <;>
    exact absurd h2 (disj h1)

theorem truthy_cpu (m : Mode) (e : Env) (n : String) (h : n ∈ cpuVars) : truthy (applyMode m e) n = decide (m = .cpu) := by
  rw [truthy, apply_get, if_pos h]
  cases m <;> simp

theorem truthy_gpu (m : Mode) (e : Env) (n : String) (h : n ∈ gpuVars) : truthy (applyMode m e) n = decide (m = .gpu) := by
  have h' : n ∉ cpuVars := by
    simp only [gpuVars, List.mem_cons, List.not_mem_nil, or_false] at h
    rcases h with rfl | rfl | rfl <;> decide
  rw [truthy, apply_get, if_neg h', if_pos h]
  cases m <;> simp

theorem envMode_apply (m : Mode) (e : Env) : envMode (applyMode m e) = some m := by
  have h1 : cpuVars.any (truthy (applyMode m e)) = decide (m = .cpu) := by
    have := truthy_cpu m e
    simp only [cpuVars, List.any_cons, List.any_nil]
    rw [this _ (by decide), this _ (by decide), this _ (by decide)]
    simp
  have h2 : gpuVars.any (truthy (applyMode m e)) = decide (m = .gpu) := by
    have := truthy_gpu m e
    simp only [gpuVars, List.any_cons, List.any_nil]
    rw [this _ (by decide), this _ (by decide), this _ (by decide)]
    simp
  unfold envMode
  rw [h1, h2]
  cases m <;> rfl

theorem lossy_apply (m : Mode) (e : Env) : lossy (applyMode m e) = m := by simp [lossy, envMode_apply]

theorem plaidGpu_apply (m : Mode) (e : Env) : plaidGpu (applyMode m e) = decide (m = .gpu) := truthy_gpu m e _ (by decide)

theorem plaidCpu_apply (m : Mode) (e : Env) : plaidCpu (applyMode m e) = decide (m = .cpu) := by
  rw [plaidCpu, plaidGpu_apply, truthy_cpu m e _ (by decide)]
  cases m <;> rfl

theorem configure_cpu (f : Feats) (e : Env) (m : Machine) : configure f e m .cpu = some .cpu := rfl

theorem lossy_of (e : Env) (m : Mode) (h : envMode e = some m) : lossy e = m := by simp [lossy, h]

/-- In an environment that says CPU, everything runs there, and the environment goes on to say so. -/
theorem step_cpu (f : Feats) (m : Machine) (s : Proc) (o : Op) (h : envMode s.env = some .cpu) :
    envMode (o.run f m s).proc.env = some .cpu ∧ ∀ d ∈ (o.run f m s).sessions, d = .cpu := by
  have hl := lossy_of _ _ h
  have hmake : ∀ (s : Proc) (e : Env), envMode e = some .cpu → envMode (make f m s e .cpu).proc.env = some .cpu ∧ (∀ d ∈ (make f m s e .cpu).sessions, d = .cpu) := by
    intro s e he
    rw [make, configure_cpu]
    exact ⟨he, by simp⟩
  have hens : ∀ n, envMode (ensure f m n s).proc.env = some .cpu ∧ ∀ d ∈ (ensure f m n s).sessions, d = .cpu := by
    intro n
    unfold ensure
    cases hm : s.model with
    | some p => exact ⟨h, by simp⟩
    | none =>
      simp only [hl]
      split
      · split
        · exact hmake _ _ (envMode_apply _ _)
        · exact ⟨envMode_apply .cpu s.env, by simp⟩
      · split
        · split
          · exact hmake _ _ h
          · exact ⟨h, by simp⟩
        · split
          · exact hmake _ _ h
          · exact ⟨h, by simp⟩
  cases o with
  | builder => exact ⟨h, by simp [Op.run]⟩
  | encode n fails again =>
    have hn := hens n
    simp only [Op.run, encode]
    split
    · exact hn
    · split
      · exact hn
      · split
        · split
          · exact hn
          · have hr := hmake { (ensure f m n s).proc with model := none } (applyMode .cpu (ensure f m n s).proc.env) (envMode_apply _ _)
            refine ⟨hr.1, ?_⟩
            intro d hd
            rcases List.mem_append.mp hd with hd | hd
            · exact hn.2 d hd
            · exact hr.2 d hd
        · exact hn
  | search =>
    have he : envMode (if f.cuda then (if Mode.cpu = Mode.gpu then applyMode .gpu s.env else applyMode .cpu s.env) else s.env) = some .cpu := by
      split
      · simpa using envMode_apply .cpu s.env
      · exact h
    simp only [Op.run, search, hl, searchProvider, configure_cpu]
    cases m.rt
    · exact ⟨he, by simp⟩
    · by_cases hb : (f.cuda && Mode.cpu == Mode.gpu && !(m.cudnn && cudaAvailable f
          (if f.cuda then (if Mode.cpu = Mode.gpu then applyMode .gpu s.env else applyMode .cpu s.env) else s.env) m)) = true
      · simp at hb
      · rw [if_neg (by simp), if_neg hb]
        exact ⟨he, by simp⟩

theorem run_cpu (f : Feats) : ∀ (os : List (Machine × Op)) (s : Proc), envMode s.env = some .cpu → ∀ d ∈ (runAll f os s).2, d = .cpu := by
  intro os
  induction os with
  | nil => intro s _ d hd; cases hd
  | cons mo os ih =>
    intro s h d hd
    obtain ⟨m, o⟩ := mo
    have hs := step_cpu f m s o h
    rcases List.mem_append.mp hd with hd | hd
    · exact hs.2 d hd
    · exact ih _ hs.1 d hd

theorem configure_gpu (f : Feats) (e : Env) (m : Machine) (hf : f.cuda = true) (d : Provider) (h : configure f (applyMode .gpu e) m .cuda = some d) : d = .cuda := by
  simp only [configure, Feats.has, hf, plaidCpu_apply, plaidGpu_apply] at h
  cases hr : m.reg .cuda <;> simp [hr] at h
  exact h.symm

/-- In an environment that says GPU, with CUDA. -/
theorem step_gpu (f : Feats) (m : Machine) (s : Proc) (o : Op) (hf : f.cuda = true) (h : envMode s.env = some .gpu) :
    envMode (o.run f m s).proc.env = some .gpu ∧ ∀ d ∈ (o.run f m s).sessions, d = .cuda := by
  have hl := lossy_of _ _ h
  have hens : ∀ n, envMode (ensure f m n s).proc.env = some .gpu ∧ ∀ d ∈ (ensure f m n s).sessions, d = .cuda := by
    intro n
    unfold ensure
    cases hm : s.model with
    | some p => exact ⟨h, by simp⟩
    | none =>
      simp only [hl, hf, if_true]
      split
      · unfold make
        split
        · rename_i d hd
          refine ⟨envMode_apply .gpu s.env, ?_⟩
          intro d' hd'
          have : d' = d := by simpa using hd'
          exact this.trans (configure_gpu f s.env m hf d hd)
        · exact ⟨envMode_apply .gpu s.env, by simp⟩
      · exact ⟨envMode_apply .gpu s.env, by simp⟩
  cases o with
  | builder => exact ⟨h, by simp [Op.run]⟩
  | encode n fails again =>
    have hn := hens n
    simp only [Op.run, encode, lossy_of _ _ hn.1, if_true]
    split
    · exact hn
    · split
      · exact hn
      · split
        · exact hn
        · exact hn
  | search =>
    have hp : searchProvider f .gpu = .cuda := by simp [searchProvider, compiled, hf]
    simp only [Op.run, search, hl, hp, hf, if_true]
    split
    · exact ⟨envMode_apply .gpu s.env, by simp⟩
    · split
      · exact ⟨envMode_apply .gpu s.env, by simp⟩
      · split
        · rename_i d hd
          refine ⟨envMode_apply .gpu s.env, ?_⟩
          intro d' hd'
          have : d' = d := by simpa using hd'
          exact this.trans (configure_gpu f s.env m hf d hd)
        · exact ⟨envMode_apply .gpu s.env, by simp⟩

theorem run_gpu (f : Feats) (hf : f.cuda = true) : ∀ (os : List (Machine × Op)) (s : Proc), envMode s.env = some .gpu → ∀ d ∈ (runAll f os s).2, d = .cuda := by
  intro os
  induction os with
  | nil => intro s _ d hd; cases hd
  | cons mo os ih =>
    intro s h d hd
    obtain ⟨m, o⟩ := mo
    have hs := step_gpu f m s o hf h
    rcases List.mem_append.mp hd with hd | hd
    · exact hs.2 d hd
    · exact ih _ hs.1 d hd

end NextPlaid.Device
