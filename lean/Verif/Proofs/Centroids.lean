import Verif.Spec.Centroids

/-! Lemmas about training with a GPU that may fail. -/

namespace NextPlaid.Centroids
open NextPlaid NextPlaid.Spec

variable {V C : Type}

theorem cuda_cases (cpu : List (List V) → Config → Res C) (s : Proc) (rows : List (List V)) (k : Nat) (cfg : Option Config)
    (force : Bool) (gpu : Gpu C) :
    computeCentroids cpu .cuda s rows k cfg force gpu = trainStep cpu .cuda s rows (cfg.getD (defaultConfig k)) force gpu := by
  unfold computeCentroids trainStep
  simp only
  split
  · rfl
  · cases gpu <;> rfl

theorem train_broken (cpu : List (List V) → Config → Res C) (s : Proc) (hs : s.broken = true) (rows cfg force gpu) :
    trainStep cpu .cuda s rows cfg force gpu = ⟨s, false, cpu rows cfg⟩ := by
  unfold trainStep
  simp [hs]

/-- Without the GPU a call leaves the process as it was and answers as the CPU does. -/
theorem step_broken (cpu : List (List V) → Config → Res C) (s : Proc) (hs : s.broken = true) :
    ∀ (c : Call V C), c ≠ .clear → step cpu s c = (s, ⟨false, cpuAnswer cpu c⟩)
  | .centroids rows k cfg force gpu, _ => by
    rw [step, cuda_cases, train_broken cpu s hs]; rfl
  | .train rows cfg force gpu, _ => by rw [step, train_broken cpu s hs]; rfl
  | .context gpu, _ => by rw [step]; unfold globalContext; rw [hs]; rfl
  | .clear, h => absurd rfl h

theorem run_broken (cpu : List (List V) → Config → Res C) : ∀ (l : List (Call V C)) (s : Proc), s.broken = true →
    (∀ c ∈ l, c ≠ .clear) → run cpu s l = (s, l.map fun c => ⟨false, cpuAnswer cpu c⟩)
  | [], _, _, _ => rfl
  | c :: l, s, hs, hl => by
    rw [run, step_broken cpu s hs c (hl c List.mem_cons_self)]
    simp only
    rw [run_broken cpu l s hs fun d hd => hl d (List.mem_cons_of_mem _ hd)]
    rfl

theorem train_marks (cpu : List (List V) → Config → Res C) (s : Proc) (rows cfg force) (gpu : Gpu C) (hg : ∀ c, gpu ≠ .gives c)
    (h : (trainStep cpu .cuda s rows cfg force gpu).gpu = true) :
    (trainStep cpu .cuda s rows cfg force gpu).proc.broken = true ∧
      (trainStep cpu .cuda s rows cfg force gpu).result = cpu rows cfg := by
  unfold trainStep at h ⊢
  simp only at h ⊢
  split
  · next hb => rw [if_pos hb] at h; cases h
  · cases gpu with
    | gives c => exact absurd rfl (hg c)
    | fails => exact ⟨rfl, rfl⟩
    | panics => exact ⟨rfl, rfl⟩

theorem step_marks (cpu : List (List V) → Config → Res C) (s : Proc) : ∀ (c : Call V C), gpuTrouble c →
    (step cpu s c).2.gpu = true → (step cpu s c).1.broken = true ∧ (step cpu s c).2.result = cpuAnswer cpu c
  | .centroids rows k cfg force gpu, hg, h => by
    rw [step, cuda_cases] at h ⊢
    obtain ⟨h1, h2⟩ := train_marks cpu s rows _ force gpu hg h
    exact ⟨h1, congrArg some h2⟩
  | .train rows cfg force gpu, hg, h => by
    rw [step] at h ⊢
    obtain ⟨h1, h2⟩ := train_marks cpu s rows _ force gpu hg h
    exact ⟨h1, congrArg some h2⟩
  | .context gpu, hg, h => by
    rw [step] at h ⊢
    unfold globalContext at h ⊢
    split
    · next hb => rw [if_pos hb] at h; cases h
    · next hb =>
      rw [if_neg hb] at h
      split
      · next hc => rw [if_pos hc] at h; cases h
      · cases gpu with
        | gives u => exact absurd rfl hg
        | fails => exact ⟨rfl, rfl⟩
        | panics => exact ⟨rfl, rfl⟩
  | .clear, hg, _ => hg.elim

theorem run_append (cpu : List (List V) → Config → Res C) : ∀ (l m : List (Call V C)) (s : Proc),
    run cpu s (l ++ m) = ((run cpu (run cpu s l).1 m).1, (run cpu s l).2 ++ (run cpu (run cpu s l).1 m).2)
  | [], m, s => rfl
  | c :: l, m, s => by
    rw [List.cons_append, run, run_append cpu l m]
    rfl

theorem run_length (cpu : List (List V) → Config → Res C) : ∀ (l : List (Call V C)) (s : Proc),
    (run cpu s l).2.length = l.length
  | [], _ => rfl
  | c :: l, s => by rw [run]; simp only [List.length_cons, run_length cpu l]

/-! ### Documents -/

theorem flattenDocs_same (dim : Nat) : ∀ (docs : List (Mat V)), (∀ d ∈ docs, d.cols = dim) →
    flattenDocs dim docs = .ok (docs.flatMap fun d => d.rows)
  | [], _ => rfl
  | d :: docs, h => by
    rw [flattenDocs, assignRows, if_pos (h d List.mem_cons_self),
      flattenDocs_same dim docs fun e he => h e (List.mem_cons_of_mem _ he)]
    rfl

theorem flattenDocs_panics (dim : Nat) : ∀ (docs : List (Mat V)), (∃ d ∈ docs, d.cols ≠ dim ∧ d.cols ≠ 1) →
    flattenDocs dim docs = .error .panic
  | [], ⟨d, hd, _⟩ => by cases hd
  | a :: docs, ⟨d, hd, h1, h2⟩ => by
    rw [flattenDocs]
    rcases List.mem_cons.1 hd with rfl | hd
    · rw [assignRows, if_neg h1, if_neg h2]; rfl
    · have ih := flattenDocs_panics dim docs ⟨d, hd, h1, h2⟩
      unfold assignRows
      split
      · simp only [bind, Except.bind, ih]
      · split
        · simp only [bind, Except.bind, ih]
        · rfl

/-! ### The hook -/

theorem hookRun_nested {l : List (Nat × Bool)} (h : Nested l) : ∀ s, hookRun s l = s := by
  induction h with
  | nil => intro s; rfl
  | @wrap t l _ ih =>
    intro s
    show List.foldl hookStep (hookStep s (t, true)) (l ++ [(t, false)]) = s
    rw [List.foldl_append]
    have := ih (hookStep s (t, true))
    unfold hookRun at this
    rw [this]
    simp [hookStep, takeSaved]
  | @append l m _ _ h1 h2 =>
    intro s
    unfold hookRun at *
    rw [List.foldl_append, h1, h2]

theorem takeSaved_mem (t : Nat) : ∀ (l : List (Nat × Hook)) (h : Hook) (m : List (Nat × Hook)), takeSaved t l = some (h, m) →
    (∃ u, (u, h) ∈ l) ∧ ∀ p ∈ m, p ∈ l
  | [], _, _, h => by cases h
  | (u, g) :: l, h, m, e => by
    rw [takeSaved] at e
    split at e
    · cases e
      exact ⟨⟨u, List.mem_cons_self⟩, fun p hp => List.mem_cons_of_mem _ hp⟩
    · cases hr : takeSaved t l with
      | none => rw [hr] at e; cases e
      | some r =>
        rw [hr] at e
        cases e
        obtain ⟨⟨v, hv⟩, h2⟩ := takeSaved_mem t l r.1 r.2 hr
        refine ⟨⟨v, List.mem_cons_of_mem _ hv⟩, fun p hp => ?_⟩
        rcases List.mem_cons.1 hp with rfl | hp
        · exact List.mem_cons_self
        · exact List.mem_cons_of_mem _ (h2 p hp)

end NextPlaid.Centroids
