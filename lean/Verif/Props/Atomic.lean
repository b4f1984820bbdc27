import Verif.Proofs.Atomic

/-!
C05: atomic file replacement.
-/

namespace NextPlaid.Props
open NextPlaid.Spec NextPlaid.Atomic Function

/-- C05: a crash after any number `k` of the system calls leaves under the name the complete new contents, or
contents that a crash before the call could already have left. -/
theorem C05_crash_anywhere (s : Fs) (h : WF s) (e : Env) (file : Name) (k : Nat) (d : Disk)
    (hd : Crash (execs s ((atomicWrite s e file).1.take k)) d) :
    d.read file = some e.chunks.flatten ∨ ∃ d0, Crash s d0 ∧ d0.read file = d.read file := by
  rcases atomicWrite_cases s e file with h0 | ⟨t, _, hne, _, h0⟩
  · rw [h0, List.take_nil] at hd
    exact Or.inr ⟨d, hd, rfl⟩
  · rw [h0] at hd
    rcases crash_pass h hne hne (pass_all s e file t k) hd with ⟨_, h1⟩ | h1
    · exact Or.inl h1
    · exact Or.inr h1

/-- C05: if the old contents (or the absence of the file) are durable, a crash at any point leaves the complete
old contents or the complete new contents. -/
theorem C05_old_or_new (s : Fs) (h : WF s) (e : Env) (file : Name) (old : Option Bytes)
    (hold : ∀ d0, Crash s d0 → d0.read file = old) (k : Nat) (d : Disk)
    (hd : Crash (execs s ((atomicWrite s e file).1.take k)) d) :
    d.read file = old ∨ d.read file = some e.chunks.flatten := by
  rcases C05_crash_anywhere s h e file k d hd with h1 | ⟨d0, h1, h2⟩
  · exact Or.inr h1
  · exact Or.inl (by rw [← h2]; exact hold d0 h1)

/-- A crash during the call does nothing to any other file, except files with the call's temporary names. -/
theorem C05_other_files (s : Fs) (h : WF s) (e : Env) (file q : Name) (hq : q ≠ file)
    (ht : ∀ time attempt, q ≠ tempName file e.pid time attempt) (k : Nat) (d : Disk)
    (hd : Crash (execs s ((atomicWrite s e file).1.take k)) d) : ∃ d0, Crash s d0 ∧ d0.read q = d.read q := by
  rcases atomicWrite_cases s e file with h0 | ⟨t, _, hne, ⟨a, b, rfl⟩, h0⟩
  · rw [h0, List.take_nil] at hd
    exact ⟨d, hd, rfl⟩
  · rw [h0] at hd
    rcases crash_pass h (ht a b) hne (pass_all s e file _ k) hd with ⟨h1, _⟩ | h1
    · exact absurd h1 hq
    · exact h1

theorem read_during {s : Fs} (h : WF s) (ops : List DirOp) (w : Bytes) (b : Bool) (q : Name)
    (hq : ops.foldl DirOp.apply s.dir q = s.dir q) : (during s ops w b).read q = s.read q := by
  unfold Fs.read
  change Option.map (update s.data s.next w) (ops.foldl DirOp.apply s.dir q) = _
  rw [hq]
  rcases hf : s.dir q with _ | i
  · rfl
  · have := dir_lt h q i hf
    have hne : i ≠ s.next := by omega
    simp [update_of_ne hne]

theorem finish_true {e : Env} {file t : Name} {i : Nat} (h : (finish e file t i).2 = true) :
    e.writerOk = true ∧ e.flushOk = true ∧ e.syncOk = true ∧ e.renameOk = true ∧
    (finish e file t i).1 = .fsync i :: .rename t file :: (if e.dirSyncOk then [Sys.fsyncDir] else []) := by
  unfold finish at h ⊢
  rcases e with ⟨_, _, _, _, _, w, f, sy, _, r, _⟩
  cases w <;> cases f <;> cases sy <;> cases r <;> simp at h ⊢

/-- The state after a successful call. -/
theorem success_state (s : Fs) (e : Env) (file : Name) (hr : (atomicWrite s e file).2 = true) :
    ∃ t, s.dir t = none ∧ file ≠ t ∧ e.writerOk = true ∧
      after s (e, file) = (if e.dirSyncOk then flushed else id)
        (during s [.add t s.next, .move t file s.next] e.chunks.flatten false) := by
  rcases atomicWrite_cases s e file with h0 | ⟨t, h1, h2, _, h0⟩
  · rw [h0] at hr; cases hr
  · rw [h0] at hr
    obtain ⟨hw, _, _, _, hf⟩ := finish_true hr
    refine ⟨t, h1, h2, hw, ?_⟩
    unfold after
    simp only [h0, hf]
    rw [List.cons_append, execs_cons, exec_create, execs_app, execs_append, execs_cons, execs_cons, List.nil_append,
      exec_fsync, exec_rename]
    split <;> rfl

/-- C05: when the call reports success, the writer has succeeded, the new contents are visible under the name,
and no other name has changed; in particular no temporary file is left. -/
theorem C05_success (s : Fs) (h : WF s) (e : Env) (file : Name) (hr : (atomicWrite s e file).2 = true) :
    e.writerOk = true ∧ (after s (e, file)).read file = some e.chunks.flatten ∧
      ∀ q, q ≠ file → (after s (e, file)).read q = s.read q := by
  obtain ⟨t, h1, h2, h3, h4⟩ := success_state s e file hr
  have hread : ∀ q, (after s (e, file)).read q =
      (during s [.add t s.next, .move t file s.next] e.chunks.flatten false).read q := by
    intro q
    rw [h4]
    split <;> rfl
  refine ⟨h3, ?_, ?_⟩
  · rw [hread]
    unfold Fs.read during
    simp [DirOp.apply]
  · intro q hq
    rw [hread]
    apply read_during h
    by_cases hqt : q = t
    · subst hqt
      simp [DirOp.apply, update_of_ne hq, h1]
    · simp [DirOp.apply, update_of_ne hq, update_of_ne hqt]

/-- C05: when the call reports failure, for whatever reason, the old contents are still there, and no name has
changed except possibly a temporary one; not even that if the failing step was the writer, the flush or the
synchronisation and the temporary file could be removed. -/
theorem C05_failure (s : Fs) (h : WF s) (e : Env) (file : Name) (hr : (atomicWrite s e file).2 = false) :
    (after s (e, file)).read file = s.read file ∧
    (∀ q, (∀ time attempt, q ≠ tempName file e.pid time attempt) → (after s (e, file)).read q = s.read q) ∧
    (e.unlinkOk = true → e.renameOk = true → ∀ q, (after s (e, file)).read q = s.read q) := by
  rcases atomicWrite_cases s e file with h0 | ⟨t, h1, h2, ht, h0⟩
  · have : after s (e, file) = s := by unfold after; rw [h0]; rfl
    rw [this]
    exact ⟨rfl, fun _ _ => rfl, fun _ _ _ => rfl⟩
  · rw [h0] at hr
    -- the three ways to fail
    have hst : (e.unlinkOk = true ∧ after s (e, file) = during s [.add t s.next, .del t] e.chunks.flatten true) ∨
        ((e.unlinkOk = true → e.renameOk = false) ∧ ∃ b, after s (e, file) = during s [.add t s.next] e.chunks.flatten b) := by
      unfold after
      simp only [h0]
      rw [List.cons_append, execs_cons, exec_create, execs_app, execs_append, List.nil_append]
      unfold finish at hr ⊢
      rcases e with ⟨_, _, _, _, _, w, f, sy, u, r, _⟩
      cases w <;> cases f <;> cases sy <;> cases r <;> cases u <;>
        simp [execs, exec_fsync, exec_unlink] at hr ⊢ <;> exact ⟨_, rfl⟩
    have hadd : ∀ q, q ≠ t → [DirOp.add t s.next].foldl DirOp.apply s.dir q = s.dir q := by
      intro q hq
      simp [DirOp.apply, update_of_ne hq]
    have hdel : ∀ q, [DirOp.add t s.next, .del t].foldl DirOp.apply s.dir q = s.dir q := by
      intro q
      by_cases hq : q = t
      · subst hq
        simp [DirOp.apply, h1]
      · simp [DirOp.apply, update_of_ne hq]
    rcases hst with ⟨_, hs⟩ | ⟨hu, b, hs⟩
    · rw [hs]
      exact ⟨read_during h _ _ _ _ (hdel _), fun q _ => read_during h _ _ _ _ (hdel q),
        fun _ _ q => read_during h _ _ _ _ (hdel q)⟩
    · rw [hs]
      refine ⟨read_during h _ _ _ _ (hadd _ h2), ?_, ?_⟩
      · intro q hq
        obtain ⟨a, b, rfl⟩ := ht
        exact read_during h _ _ _ _ (hadd _ (hq a b))
      · intro hu1 hr1
        rw [hu hu1] at hr1
        cases hr1

/-- C05: after a successful call whose directory synchronisation worked, no crash brings the old contents back. -/
theorem C05_durable (s : Fs) (h : WF s) (e : Env) (file : Name) (hr : (atomicWrite s e file).2 = true)
    (hs : e.dirSyncOk = true) (d : Disk) (hd : Crash (after s (e, file)) d) : d.read file = some e.chunks.flatten := by
  obtain ⟨t, h1, h2, h3, h4⟩ := success_state s e file hr
  rw [h4, if_pos hs] at hd
  rcases crash_flushed (q := file) h h2 h2 hd with ⟨_, h5⟩ | ⟨h5, _⟩
  · exact h5
  · exact absurd rfl h5

/-- C05 over histories: after any number of completed rewrites of any files, successful or not, a crash in the
middle of one more leaves under every name that is not a temporary one either contents that were possible at
the beginning or the complete contents of one of the rewrites of that name. -/
theorem C05_histories (s : Fs) (h : WF s) (ws : List (Env × Name)) (e : Env) (file : Name) (k : Nat) (d : Disk)
    (hd : Crash (execs (afterAll s ws) ((atomicWrite (afterAll s ws) e file).1.take k)) d) (q : Name)
    (hq : ∀ f pid time attempt, q ≠ tempName f pid time attempt) :
    (∃ d0, Crash s d0 ∧ d0.read q = d.read q) ∨
      ∃ w ∈ (e, file) :: ws, w.2 = q ∧ d.read q = some w.1.chunks.flatten := by
  have hgen : ∀ (ws : List (Env × Name)) (s : Fs), WF s → ∀ d, Crash (afterAll s ws) d →
      (∃ d0, Crash s d0 ∧ d0.read q = d.read q) ∨ ∃ w ∈ ws, w.2 = q ∧ d.read q = some w.1.chunks.flatten := by
    intro ws
    induction ws with
    | nil => exact fun s _ d hd => Or.inl ⟨d, hd, rfl⟩
    | cons w ws ih =>
      intro s h d hd
      rcases ih (after s w) (wf_after h w) d hd with ⟨d1, h1, h2⟩ | ⟨w', h1, h2⟩
      · have hfull : after s w = execs s ((atomicWrite s w.1 w.2).1.take (atomicWrite s w.1 w.2).1.length) := by
          rw [List.take_length]; rfl
        rw [hfull] at h1
        by_cases hw : q = w.2
        · rcases C05_crash_anywhere s h w.1 w.2 _ d1 h1 with h3 | ⟨d0, h3, h4⟩
          · exact Or.inr ⟨w, List.mem_cons_self, hw.symm, by rw [← h2, hw, h3]⟩
          · exact Or.inl ⟨d0, h3, by rw [← h2, hw, h4]⟩
        · obtain ⟨d0, h3, h4⟩ := C05_other_files s h w.1 w.2 q hw (fun a b => hq _ _ a b) _ d1 h1
          exact Or.inl ⟨d0, h3, by rw [h4, h2]⟩
      · exact Or.inr ⟨w', List.mem_cons_of_mem _ h1, h2⟩
  have hfin : (∃ d1, Crash (afterAll s ws) d1 ∧ d1.read q = d.read q) ∨
      (file = q ∧ d.read q = some e.chunks.flatten) := by
    by_cases hw : q = file
    · subst hw
      rcases C05_crash_anywhere _ (wf_afterAll ws h) e q k d hd with h3 | h3
      · exact Or.inr ⟨rfl, h3⟩
      · exact Or.inl h3
    · exact Or.inl (C05_other_files _ (wf_afterAll ws h) e file q hw (fun a b => hq _ _ a b) k d hd)
  rcases hfin with ⟨d1, h1, h2⟩ | ⟨h1, h2⟩
  · rcases hgen ws s h d1 h1 with ⟨d0, h3, h4⟩ | ⟨w, h3, h4, h5⟩
    · exact Or.inl ⟨d0, h3, by rw [h4, h2]⟩
    · exact Or.inr ⟨w, List.mem_cons_of_mem _ h3, h4, by rw [← h2, h5]⟩
  · exact Or.inr ⟨(e, file), List.mem_cons_self, h1, h2⟩

/-! ### The hypotheses are met -/

/-- A disk with one file "a" holding `[1, 2, 3]`, and the first temporary name already taken. -/
def c05Disk : Disk where
  dir n := if n = [97] then some 0 else if n = tempName [97] 5 70 0 then some 1 else none
  data i := if i = 0 then [1, 2, 3] else [9]

def c05Env : Env :=
  { pid := 5, clock := fun _ => 70, mkdirOk := true, openOk := fun _ => true, chunks := [[4], [5, 6]],
    writerOk := true, flushOk := true, syncOk := true, unlinkOk := true, renameOk := true, dirSyncOk := true }

theorem c05_wf : WF (mounted c05Disk 2) := mounted_wf _ _ (by
  intro n i hi
  simp only [c05Disk] at hi
  split at hi
  · cases hi; decide
  · split at hi
    · cases hi; decide
    · cases hi)

example : ∀ d0, Crash (mounted c05Disk 2) d0 → d0.read [97] = some [1, 2, 3] := by
  rintro d0 ⟨⟨ops, h1, h2⟩, h3⟩
  have : ops = [] := List.sublist_nil.1 h1
  subst this
  unfold Disk.read
  rw [h2]
  have := h3 0 rfl
  exact congrArg some this

example : (atomicWrite (mounted c05Disk 2) c05Env [97]).2 = true ∧
    (after (mounted c05Disk 2) (c05Env, [97])).read [97] = some [4, 5, 6] ∧
    (atomicWrite (mounted c05Disk 2) { c05Env with writerOk := false } [97]).2 = false ∧
    (after (mounted c05Disk 2) ({ c05Env with writerOk := false }, [97])).read [97] = some [1, 2, 3] := by
  decide +kernel

end NextPlaid.Props
