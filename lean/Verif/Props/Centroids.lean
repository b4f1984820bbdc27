import Verif.Proofs.Centroids

/-!
Property theorems C110 (training centroids with a GPU that may fail).

`cpu rows cfg` is what k-means answers on the CPU; `Gpu` is what the GPU does with a call (a result, an error, a panic of
its library).  A history is any list of calls of a process; `clear` is the call that lets the process try the GPU again.
-/

namespace NextPlaid.Props
open NextPlaid NextPlaid.Spec NextPlaid.Centroids

variable {V C : Type}

/-- C110: with CUDA, a call to train never fails because of the GPU: its result is the GPU's, when the GPU was used and gave
one, and otherwise exactly what the CPU answers for the same rows and settings.  So whenever the CPU succeeds, the call does. -/
theorem C110_never_worse (cpu : List (List V) → Config → Res C) (s : Proc) (rows : List (List V)) (k : Nat)
    (cfg : Option Config) (force : Bool) (gpu : Gpu C) :
    let o := computeCentroids cpu .cuda s rows k cfg force gpu
    ((∃ c, gpu = .gives c ∧ force = false ∧ s.broken = false ∧ o.gpu = true ∧ o.result = .ok c) ∨
      o.result = cpu rows (cfg.getD ⟨k, 4, 42, some 256⟩)) ∧
    ((cpu rows (cfg.getD ⟨k, 4, 42, some 256⟩)).isOk = true → o.result.isOk = true) := by
  intro o
  have key : (∃ c, gpu = .gives c ∧ force = false ∧ s.broken = false ∧ o.gpu = true ∧ o.result = .ok c) ∨
      o.result = cpu rows (cfg.getD ⟨k, 4, 42, some 256⟩) := by
    have e : o = computeCentroids cpu .cuda s rows k cfg force gpu := rfl
    rw [e]
    unfold computeCentroids
    simp only
    cases hf : force
    · cases hb : s.broken
      · cases gpu with
        | gives c => exact .inl ⟨c, rfl, rfl, rfl, rfl, rfl⟩
        | fails => exact .inr rfl
        | panics => exact .inr rfl
      · exact .inr rfl
    · exact .inr rfl
  refine ⟨key, fun hc => ?_⟩
  rcases key with ⟨c, _, _, _, _, h⟩ | h
  · rw [h]; rfl
  · rw [h]; exact hc

/-- C110, trouble is remembered: in any history of a process, once a call used the GPU and got no result from it, no later call
uses the GPU, whatever it would do, and every later call answers as the CPU does, until the process is told to try
again.  The call itself also answers as the CPU does. -/
theorem C110_remembered (cpu : List (List V) → Config → Res C) (s : Proc) (before : List (Call V C)) (c : Call V C)
    (after : List (Call V C)) (hc : gpuTrouble c) (hafter : ∀ d ∈ after, d ≠ .clear)
    (hused : ((run cpu s (before ++ c :: after)).2[before.length]?).map (·.gpu) = some true) :
    ((run cpu s (before ++ c :: after)).2[before.length]?).map (·.result) = some (cpuAnswer cpu c) ∧
    (run cpu s (before ++ c :: after)).2.drop (before.length + 1) = after.map fun d => ⟨false, cpuAnswer cpu d⟩ := by
  rw [run_append] at hused ⊢
  simp only [run] at hused ⊢
  have hl : (run cpu s before).2.length = before.length := run_length cpu before s
  have hget : ∀ (x : Seen C) (r : List (Seen C)), ((run cpu s before).2 ++ x :: r)[before.length]? = some x := by
    intro x r
    rw [List.getElem?_append_right (by omega), hl]
    simp
  rw [hget] at hused ⊢
  have hu : (step cpu (run cpu s before).1 c).2.gpu = true := by simpa using hused
  obtain ⟨h1, h2⟩ := step_marks cpu _ c hc hu
  refine ⟨by rw [← h2]; rfl, ?_⟩
  have hd : ∀ (x : Seen C) (r : List (Seen C)), ((run cpu s before).2 ++ x :: r).drop (before.length + 1) = r := by
    intro x r
    rw [← hl, List.drop_append]
    simp
  rw [hd, run_broken cpu after _ h1 hafter]

/-- C110: a call that asks for the CPU never uses the GPU, answers as the CPU does and changes nothing about the process, with
every build. -/
theorem C110_forced (cpu : List (List V) → Config → Res C) (b : Build) (s : Proc) (rows : List (List V)) (k : Nat)
    (cfg : Option Config) (gpu : Gpu C) :
    computeCentroids cpu b s rows k cfg true gpu = ⟨s, false, cpu rows (cfg.getD ⟨k, 4, 42, some 256⟩)⟩ ∧
    ∀ cfg, trainStep cpu b s rows cfg true gpu = ⟨s, false, cpu rows cfg⟩ := by
  constructor
  · cases b <;> rfl
  · intro cfg
    cases b <;> rfl

/-- C110: after `clear` the next call that does not ask for the CPU uses the GPU again, and a context is set up anew. -/
theorem C110_again (cpu : List (List V) → Config → Res C) (s : Proc) (rows : List (List V)) (k : Nat) (cfg : Option Config)
    (gpu : Gpu C) (g : Gpu Unit) :
    (computeCentroids cpu .cuda (clear s) rows k cfg false gpu).gpu = true ∧ (globalContext (clear s) g).2.1 = true := by
  constructor
  · unfold computeCentroids
    cases gpu <;> rfl
  · unfold globalContext
    cases g <;> rfl

/-- C110: a context is set up at most once while the process is not told to try again, and never after trouble. -/
theorem C110_context_once (s : Proc) (g : Gpu Unit) (g' : Gpu Unit) :
    (globalContext (globalContext s g).1 g').2.1 = false ∧
    (globalContext (globalContext s g).1 g').2.2 = (globalContext s g).2.2 := by
  unfold globalContext
  cases hb : s.broken <;> cases hc : s.ctx <;> cases g <;> simp [hb, hc]

/-- A history: trouble with the context, a call that would otherwise have used the GPU, `clear`, and a call that does. -/
example :
    ((run (fun (rows : List (List Nat)) _ => (.ok rows.length : Res Nat)) ⟨false, false⟩
      [.train [[1]] ⟨1, 4, 42, none⟩ true (.gives 7), .context .panics, .centroids [[1], [2]] 1 none false (.gives 7), .clear,
       .centroids [[1], [2]] 1 none false (.gives 7), .centroids [[1], [2]] 1 none false .fails,
       .centroids [[1], [2], [3]] 1 none false (.gives 7)]).2.map fun o => (o.gpu, o.result.map fun r => r.toOption)) =
    [(false, some (some 1)), (true, none), (false, some (some 2)), (false, none), (true, some (some 7)),
     (true, some (some 2)), (false, some (some 3))] := by decide +kernel

/-! ### The number of centroids -/

/-- C110 (partial): without settings, when k-means returns as many centroids as it is told, so does the call, on either
processor.  Missing: the same with settings, see `C110_number_refuted`. -/
theorem C110_number_partial (size : C → Nat) (cpu : List (List V) → Config → Res C)
    (hcpu : ∀ rows cfg c, cpu rows cfg = .ok c → size c = cfg.k) (b : Build) (s : Proc) (rows : List (List V)) (k : Nat)
    (force : Bool) (gpu : Gpu C) (hgpu : ∀ c, gpu = .gives c → size c = k) (c : C)
    (h : (computeCentroids cpu b s rows k none force gpu).result = .ok c) : size c = k := by
  have hc : ∀ c, cpu rows (defaultConfig k) = .ok c → size c = k := fun c h => hcpu _ _ _ h
  unfold computeCentroids at h
  simp only [Option.getD_none] at h
  cases b with
  | cpu => exact hc c h
  | cuda =>
    simp only at h
    split at h
    · exact hc c h
    · cases gpu with
      | gives d => cases h; exact hgpu _ rfl
      | fails => exact hc c h
      | panics => exact hc c h
  | metal =>
    simp only at h
    split at h
    · exact hc c h
    · cases gpu with
      | gives d => cases h; exact hgpu _ rfl
      | fails => cases h
      | panics => cases h

/-- Disagreement with "the centroids array has shape `[num_centroids, dim]`": with settings the number asked for is ignored. -/
theorem C110_number_refuted :
    ((computeCentroids (fun (_ : List (List Nat)) cfg => (.ok cfg.k : Res Nat)) .cpu ⟨false, false⟩ [[1], [2], [3]] 2
      (some ⟨3, 4, 42, none⟩) false .fails).result.toOption) = some 3 := by decide +kernel

/-- Disagreement with "falls back to the CPU": with Metal a failing GPU is an error of the call although the CPU would have
succeeded, in every later call again. -/
theorem C110_metal_refuted (cpu : List (List V) → Config → Res C) (s : Proc) (rows : List (List V)) (k : Nat)
    (cfg : Option Config) :
    computeCentroids cpu .metal s rows k cfg false .fails = ⟨s, true, .error .err⟩ ∧
    ∀ cfg, trainStep cpu .metal s rows cfg false .fails = ⟨s, true, .error .err⟩ := ⟨rfl, fun _ => rfl⟩

/-! ### Documents -/

/-- C110 (partial): documents of one width are trained on as the list of all their rows, in order, every row once; no
documents are refused; a document of another width than the first, other than one column, is a panic and
nothing is trained.  Missing: documents of one column, see `C110_width_refuted`. -/
theorem C110_documents_partial (cpu : List (List V) → Config → Res C) (b : Build) (s : Proc) (d : Mat V) (docs : List (Mat V))
    (k : Nat) (cfg : Option Config) (force : Bool) (gpu : Gpu C) :
    ((∀ e ∈ docs, e.cols = d.cols) → fromDocuments cpu b s (d :: docs) k cfg force gpu =
      computeCentroids cpu b s (d.rows ++ docs.flatMap fun e => e.rows) k cfg force gpu) ∧
    ((∃ e ∈ docs, e.cols ≠ d.cols ∧ e.cols ≠ 1) →
      fromDocuments cpu b s (d :: docs) k cfg force gpu = ⟨s, false, .error .panic⟩) ∧
    fromDocuments cpu b s [] k cfg force gpu = ⟨s, false, .error .err⟩ := by
  refine ⟨fun h => ?_, fun ⟨e, he, h1, h2⟩ => ?_, rfl⟩
  · unfold fromDocuments
    simp only
    rw [flattenDocs_same d.cols (d :: docs) (by
      intro e he
      rcases List.mem_cons.1 he with rfl | he
      · rfl
      · exact h e he)]
    rfl
  · unfold fromDocuments
    simp only
    rw [flattenDocs_panics d.cols (d :: docs) ⟨e, List.mem_cons_of_mem _ he, h1, h2⟩]

/-- Disagreement with "documents of shape `[num_tokens, dim]`": a document of one column beside wider ones is accepted, and
training sees rows that are in no document. -/
theorem C110_width_refuted :
    ((fromDocuments (fun (rows : List (List Nat)) _ => (.ok rows : Res (List (List Nat)))) .cpu ⟨false, false⟩
      [⟨2, [[1, 2]]⟩, ⟨1, [[5]]⟩] 1 none false .fails).result.toOption) = some [[1, 2], [5, 5]] := by decide +kernel

example : ((fromDocuments (fun (rows : List (List Nat)) _ => (.ok rows : Res (List (List Nat)))) .cuda ⟨false, false⟩
      [⟨2, [[1, 2], [3, 4]]⟩, ⟨2, []⟩, ⟨2, [[1, 2]]⟩] 1 none false .panics).result.toOption) = some [[1, 2], [3, 4], [1, 2]] := by
  decide +kernel

/-! ### Messages of panics -/

/-- C110 (partial): guarded GPU calls that end in the opposite order of their beginnings (in particular calls that do not
overlap) leave the way panics are reported as it was.  Missing: calls that overlap otherwise, see `C110_hook_refuted`. -/
theorem C110_hook_partial (s : Hooks) {l : List (Nat × Bool)} (h : Nested l) : hookRun s l = s := hookRun_nested h s

/-- Disagreement with "temporarily replaces the hook": when two threads' calls overlap and the first to begin ends first, both have
ended and panics are silent for the rest of the process. -/
theorem C110_hook_refuted :
    hookRun ⟨.own, []⟩ [(0, true), (1, true), (0, false), (1, false)] = ⟨.silent, []⟩ ∧
    hookRun ⟨.own, []⟩ [(0, true), (1, true), (1, false), (0, false)] = ⟨.own, []⟩ := by decide +kernel

/-- Once silent with no call running, calls of any kind leave it silent. -/
theorem C110_hook_for_good (l : List (Nat × Bool)) : (hookRun ⟨.silent, []⟩ l).hook = .silent := by
  have inv : ∀ (l : List (Nat × Bool)) (s : Hooks), s.hook = .silent → (∀ p ∈ s.saved, p.2 = .silent) →
      (hookRun s l).hook = .silent := by
    intro l
    induction l with
    | nil => intro s h _; exact h
    | cons e l ih =>
      intro s h hs
      show (hookRun (hookStep s e) l).hook = .silent
      apply ih
      · unfold hookStep
        split
        · rfl
        · split
          · next h' m he =>
            obtain ⟨u, hu⟩ := (takeSaved_mem _ _ _ _ he).1
            exact hs _ hu
          · exact h
      · unfold hookStep
        split
        · intro p hp
          rcases List.mem_cons.1 hp with rfl | hp
          · exact h
          · exact hs p hp
        · split
          · next h' m he => exact fun p hp => hs p ((takeSaved_mem _ _ _ _ he).2 p hp)
          · exact hs
  exact inv l _ rfl (by intro p hp; cases hp)

example : Nested [(0, true), (1, true), (1, false), (0, false), (2, true), (2, false)] :=
  .append (l := [(0, true), (1, true), (1, false), (0, false)]) (.wrap 0 (.wrap 1 .nil)) (.wrap 2 .nil)

end NextPlaid.Props
