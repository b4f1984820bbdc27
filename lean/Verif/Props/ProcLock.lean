import Verif.Proofs.ProcLock

/-!
C81: the lock of the index of a project, between colgrep processes.

Histories are any interleavings of any number of processes, with any times, in which processes may end at any moment.
-/

namespace NextPlaid.Props

open NextPlaid.ProcLock NextPlaid.Spec

/-- At any moment, the number of processes that write to the index is not more than one plus the number of times its directory was removed. -/
theorem C81_bounded (l : List Op) {ps : List Nat} (hn : ps.Nodup) (hw : ∀ p ∈ ps, Works (run begin l) p) : ps.length ≤ 1 + removals begin l := by
  have h := run_inv l begin_inv
  have := workers_few h hn fun p hp => by
    obtain ⟨i, hi⟩ := works_locked (hw p hp)
    rw [hi]; rfl
  omega

/-- As long as the index directory is not removed, at most one process writes to the index. -/
theorem C81_exclusive_partial (l : List Op) (hr : removals begin l = 0) {p q : Nat} (hp : Works (run begin l) p) (hq : Works (run begin l) q) : p = q := by
  by_contra hne
  have := C81_bounded l (ps := [p, q]) (by simp [hne]) (by
    intro x hx
    rcases List.mem_cons.mp hx with rfl | hx
    · exact hp
    · rw [List.mem_singleton] at hx; rw [hx]; exact hq)
  rw [hr] at this
  simp at this

/-- Until the index directory is removed for the first time, a process that is about to remove it because the index is broken removes it from nobody
who writes. -/
theorem C81_rebuild_waits (l : List Op) (hr : removals begin l = 0) {p q i : Nat} (hp : (run begin l).proc p = .holding .rebuild i) :
    ¬ Works (run begin l) q := by
  intro hq
  have h := run_inv l begin_inv
  have hne : p ≠ q := by
    rintro rfl
    obtain ⟨j, hj | hj⟩ := hq <;> rw [hp] at hj <;> cases hj
  have := workers_few h (ps := [p, q]) (by simp [hne]) (by
    intro x hx
    rcases List.mem_cons.mp hx with rfl | hx
    · rw [hp]; rfl
    · rw [List.mem_singleton] at hx
      rw [hx]
      obtain ⟨j, hj⟩ := works_locked hq
      rw [hj]; rfl)
  rw [hr] at this
  simp at this

/-- A process that is refused the lock, or told to wait for it, is so because another process has it. -/
theorem C81_refused (l : List Op) {p : Nat} (h : (step (run begin l) (.attempt p)).2 = [.busy p] ∨ (step (run begin l) (.attempt p)).2 = [.waits p] ∨
    (step (run begin l) (.attempt p)).2 = [.timedOut p]) : ∃ q i, q ≠ p ∧ HasLock (run begin l) q i := by
  have hinv := run_inv l begin_inv
  simp only [step] at h
  unfold attempt at h
  cases hp : (run begin l).proc p with
  | trying job i t =>
    rw [hp] at h
    simp only at h
    cases ho : (run begin l).owner i with
    | none => rw [if_pos ho] at h; simp at h
    | some q =>
      have hl := (hinv.owns q i).mpr ho
      refine ⟨q, i, ?_, hasLock_iff.mpr hl⟩
      rintro rfl
      rw [hp] at hl; cases hl
  | idle => rw [hp] at h; simp at h
  | holding => rw [hp] at h; simp at h
  | removed => rw [hp] at h; simp at h
  | removing => rw [hp] at h; simp at h

/-- A process gives up only if it does not just try, and only when five seconds have passed since it opened the lock file. -/
theorem C81_timeout (l : List Op) {p : Nat} (h : (step (run begin l) (.attempt p)).2 = [.timedOut p]) :
    ∃ a job b, l = a ++ .open p job :: b ∧ job ≠ .tryIndex ∧ 5000 ≤ lasts b := by
  simp only [step] at h
  unfold attempt at h
  cases hp : (run begin l).proc p with
  | trying job i t =>
    rw [hp] at h
    simp only at h
    split at h
    · simp at h
    · split at h
      · simp at h
      · rename_i hjob
        split at h
        · simp at h
        · rename_i hnow
          obtain ⟨a, b, e, ht, _⟩ := since_ok l p i t job hp
          refine ⟨a, job, b, e, hjob, ?_⟩
          have h1 := run_now begin l
          rw [h1, ht] at hnow
          have h2 : lasts l = lasts a + lasts b := by
            rw [e, lasts_append]; rfl
          have h3 : begin.now = 0 := rfl
          omega
  | idle => rw [hp] at h; simp at h
  | holding => rw [hp] at h; simp at h
  | removed => rw [hp] at h; simp at h
  | removing => rw [hp] at h; simp at h

/-- As long as the index directory is not removed: when the process that writes ends or is killed, the next one that tries gets the lock. -/
theorem C81_freed (l : List Op) (hr : removals begin l = 0) {p q : Nat} {job : Job} (hq : Works (run begin l) q) (hp : Wants (run begin l) p job)
    {o : Op} (ho : o = .proceed q ∨ o = .die q) : (step (step (run begin l) o).1 (.attempt p)).2 = [.got p] := by
  have hinv := run_inv l begin_inv
  obtain ⟨i, t, hp⟩ := hp
  obtain ⟨j, hj⟩ := hq
  have hne : p ≠ q := by
    rintro rfl
    rcases hj with hj | hj <;> rw [hp] at hj <;> cases hj
  have hstep : (step (run begin l) o).1 = close (run begin l) q .idle := by
    rcases ho with rfl | rfl
    · simp only [step, proceed]
      rcases hj with hj | hj <;> rw [hj]
    · rfl
  have hl : locked ((run begin l).proc q) = some j := by rcases hj with hj | hj <;> rw [hj] <;> rfl
  have hnext : (run begin l).next ≤ 1 := by
    have := hinv.few
    rw [hr] at this
    split at this <;> omega
  have hi0 := hinv.made p i (by rw [hp]; rfl)
  have hj0 := hinv.made q j (by rcases hj with hj | hj <;> rw [hj] <;> rfl)
  have hij : i = j := by omega
  have howner := (hinv.owns q j).mp hl
  rw [hstep]
  simp only [step]
  unfold attempt
  have hp' : (close (run begin l) q .idle).proc p = .trying job i t := by
    simp only [close, put]
    rw [if_neg hne, hp]
  rw [hp']
  simp only
  rw [if_pos]
  simp only [close]
  rw [hij, howner, if_pos rfl]

/-- The claim without its condition fails: while `colgrep clear` has given back the lock but not yet removed the directory, another process starts to
write; then the directory is removed under it, and a third process makes a new one and writes at the same time. -/
theorem C81_two_writers_clear : ∃ l, removals begin l = 1 ∧ Works (run begin l) 1 ∧ Works (run begin l) 2 :=
  ⟨[.open 0 .clear, .attempt 0, .proceed 0, .open 1 .index, .attempt 1, .proceed 0, .open 2 .index, .attempt 2], by decide +kernel, ⟨0, Or.inl rfl⟩, ⟨1, Or.inl rfl⟩⟩

/-- The same without `clear`: a process waits for the lock of a directory that is removed and made again. -/
theorem C81_two_writers_rebuild : ∃ l, removals begin l = 1 ∧ Works (run begin l) 1 ∧ Works (run begin l) 2 :=
  ⟨[.open 0 .rebuild, .attempt 0, .open 1 .index, .attempt 1, .pass 500, .proceed 0, .proceed 0, .open 2 .tryIndex, .attempt 2, .attempt 1],
    by decide +kernel, ⟨0, Or.inl rfl⟩, ⟨1, Or.inr rfl⟩⟩

/-- `colgrep clear` waits for nobody in the end: it removes the index while another process writes to it. -/
theorem C81_cleared_while_written : ∃ l, removals begin l = 0 ∧ Works (run begin l) 1 ∧ removes (run begin l) (.proceed 0) = true :=
  ⟨[.open 0 .clear, .attempt 0, .proceed 0, .open 1 .index, .attempt 1], by decide +kernel, ⟨0, Or.inl rfl⟩, by decide +kernel⟩

/-! ### Cases -/

/-- One process writes, another waits; a third one only tries. -/
def crowd : List Op := [.open 7 .index, .attempt 7, .open 3 .index, .attempt 3, .open 5 .tryIndex, .pass 4999]

example : removals begin crowd = 0 ∧ Works (run begin crowd) 7 ∧ Wants (run begin crowd) 3 .index := ⟨by decide +kernel, ⟨0, Or.inl rfl⟩, ⟨0, 0, rfl⟩⟩

example : (step (run begin crowd) (.attempt 5)).2 = [.busy 5] ∧ (step (run begin crowd) (.attempt 3)).2 = [.waits 3] ∧
    (step (run begin (crowd ++ [.pass 1])) (.attempt 3)).2 = [.timedOut 3] := by decide +kernel

example : (step (step (run begin crowd) (.die 7)).1 (.attempt 3)).2 = [.got 3] := by decide +kernel

example : (run begin [.open 0 .rebuild, .attempt 0]).proc 0 = .holding .rebuild 0 := by decide +kernel

end NextPlaid.Props
