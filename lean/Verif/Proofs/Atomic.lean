import Verif.Spec.Atomic

namespace NextPlaid.Atomic
open NextPlaid.Spec Function

/-- The entry changes of one call all have this form. -/
def Mine (t file : Name) (i0 : Nat) (op : DirOp) : Prop :=
  op = .add t i0 ∨ op = .del t ∨ op = .move t file i0

theorem apply_other {dir : Name → Option Nat} {t file q : Name} {i0 : Nat} {op : DirOp} (h : Mine t file i0 op)
    (h1 : q ≠ t) (h2 : q ≠ file) : op.apply dir q = dir q := by
  rcases h with rfl | rfl | rfl
  · exact update_of_ne h1 _ _
  · exact update_of_ne h1 _ _
  · exact (update_of_ne h2 _ _).trans (update_of_ne h1 _ _)

theorem foldl_other {t file q : Name} {i0 : Nat} (h1 : q ≠ t) (h2 : q ≠ file) : ∀ (ops : List DirOp)
    (dir : Name → Option Nat), (∀ op ∈ ops, Mine t file i0 op) → ops.foldl DirOp.apply dir q = dir q
  | [], _, _ => rfl
  | op :: ops, dir, h => by
    rw [List.foldl_cons, foldl_other h1 h2 ops _ (fun o ho => h o (List.mem_cons_of_mem _ ho)),
      apply_other (h op List.mem_cons_self) h1 h2]

theorem foldl_file {t file : Name} {i0 : Nat} (hne : file ≠ t) : ∀ (ops : List DirOp)
    (dir : Name → Option Nat), (∀ op ∈ ops, Mine t file i0 op) →
    ops.foldl DirOp.apply dir file = dir file ∨
      (ops.foldl DirOp.apply dir file = some i0 ∧ DirOp.move t file i0 ∈ ops)
  | [], _, _ => Or.inl rfl
  | op :: ops, dir, h => by
    rw [List.foldl_cons]
    rcases foldl_file hne ops (op.apply dir) (fun o ho => h o (List.mem_cons_of_mem _ ho)) with h1 | ⟨h1, h2⟩
    · rcases h op List.mem_cons_self with rfl | rfl | rfl
      · left; rw [h1]; exact update_of_ne hne _ _
      · left; rw [h1]; exact update_of_ne hne _ _
      · right
        rw [h1]
        exact ⟨update_self _ _ _, List.mem_cons_self⟩
    · exact Or.inr ⟨h1, List.mem_cons_of_mem _ h2⟩

/-- The states during one call, from the creation of the temporary file to the synchronisation of the directory. -/
def during (s : Fs) (ops : List DirOp) (w : Bytes) (b : Bool) : Fs :=
  { dir := ops.foldl DirOp.apply s.dir, data := update s.data s.next w, dirty := update s.dirty s.next b,
    base := s.base, pend := s.pend ++ ops, next := s.next + 1 }

def flushed (s : Fs) : Fs := { s with base := s.dir, pend := [] }

theorem exec_create (s : Fs) (t : Name) : exec s (.createNew t) = during s [.add t s.next] [] true := rfl

theorem exec_append (s : Fs) (ops : List DirOp) (w b : Bytes) :
    exec (during s ops w true) (.append s.next b) = during s ops (w ++ b) true := by
  unfold exec during
  simp

theorem execs_append (s : Fs) (ops : List DirOp) : ∀ (bs : List Bytes) (w : Bytes),
    execs (during s ops w true) (bs.map fun b => Sys.append s.next b) = during s ops (w ++ bs.flatten) true
  | [], w => by simp [execs]
  | b :: bs, w => by
    have ih := execs_append s ops bs (w ++ b)
    unfold execs at ih ⊢
    rw [List.map_cons, List.foldl_cons, exec_append, ih, List.flatten_cons, List.append_assoc]

theorem exec_fsync (s : Fs) (ops : List DirOp) (w : Bytes) :
    exec (during s ops w true) (.fsync s.next) = during s ops w false := by
  unfold exec during
  simp

theorem exec_unlink (s : Fs) (ops : List DirOp) (w : Bytes) (b : Bool) (t : Name) :
    exec (during s ops w b) (.unlink t) = during s (ops ++ [.del t]) w b := by
  unfold exec during record
  simp

theorem exec_rename (s : Fs) (w : Bytes) (b : Bool) (t file : Name) :
    exec (during s [.add t s.next] w b) (.rename t file) = during s [.add t s.next, .move t file s.next] w b := by
  unfold exec during record
  simp [DirOp.apply]

/-- Every state a call passes through is one of these. -/
inductive Pass (s : Fs) (t file : Name) (new : Bytes) : Fs → Prop
  | before : Pass s t file new s
  | writing (w : Bytes) (b : Bool) : Pass s t file new (during s [.add t s.next] w b)
  | removed (w : Bytes) : Pass s t file new (during s [.add t s.next, .del t] w true)
  | renamed : Pass s t file new (during s [.add t s.next, .move t file s.next] new false)
  | synced : Pass s t file new (flushed (during s [.add t s.next, .move t file s.next] new false))

theorem take_append_split {α : Type} (k : Nat) (a b : List α) :
    (∃ j, (a ++ b).take k = a.take j) ∨ ∃ j, (a ++ b).take k = a ++ b.take j := by
  rw [List.take_append]
  rcases Nat.le_total k a.length with h | h
  · left
    refine ⟨k, ?_⟩
    rw [Nat.sub_eq_zero_of_le h, List.take_zero, List.append_nil]
  · right
    exact ⟨k - a.length, by rw [List.take_of_length_le h]⟩

theorem execs_app (s : Fs) (a b : List Sys) : execs s (a ++ b) = execs (execs s a) b := List.foldl_append

theorem execs_cons (s : Fs) (x : Sys) (l : List Sys) : execs s (x :: l) = execs (exec s x) l := rfl

theorem pass_finish (s : Fs) (e : Env) (file t : Name) (k : Nat) :
    Pass s t file e.chunks.flatten
      (execs (during s [.add t s.next] e.chunks.flatten true) ((finish e file t s.next).1.take k)) := by
  unfold finish
  have hu : ∀ k, Pass s t file e.chunks.flatten (execs (during s [.add t s.next] e.chunks.flatten true)
      ((if e.unlinkOk = true then [Sys.unlink t] else []).take k)) := by
    intro k
    split
    · rcases k with _ | k
      · exact Pass.writing _ _
      · rw [List.take_succ_cons, List.take_nil, execs_cons, exec_unlink]
        exact Pass.removed _
    · rw [List.take_nil]
      exact Pass.writing _ _
  split
  · exact hu k
  · split
    · exact hu k
    · split
      · rcases k with _ | k
        · exact Pass.writing _ _
        · rw [List.take_succ_cons, List.take_nil, execs_cons, exec_fsync]
          exact Pass.writing _ _
      · rcases k with _ | _ | k
        · exact Pass.writing _ _
        · rw [List.take_succ_cons, List.take_zero, execs_cons, exec_fsync]
          exact Pass.writing _ _
        · rw [List.take_succ_cons, List.take_succ_cons, execs_cons, execs_cons, exec_fsync, exec_rename]
          split
          · rcases k with _ | k
            · exact Pass.renamed
            · rw [List.take_succ_cons, List.take_nil]
              exact Pass.synced
          · rw [List.take_nil]
            exact Pass.renamed

theorem pickTemp_spec {s : Fs} {e : Env} {file t : Name} : ∀ {fuel attempt : Nat},
    pickTemp s e file fuel attempt = some t → s.dir t = none ∧ ∃ time attempt, t = tempName file e.pid time attempt
  | 0, _, h => by cases h
  | fuel + 1, attempt, h => by
    unfold pickTemp at h
    simp only at h
    split at h
    · rename_i hd
      split at h
      · cases h
        exact ⟨hd, _, _, rfl⟩
      · cases h
    · exact pickTemp_spec h

theorem temp_ne (file : Name) (pid time attempt : Nat) : file ≠ tempName file pid time attempt := by
  intro h
  have := congrArg List.length h
  unfold tempName at this
  simp at this
  omega

theorem atomicWrite_cases (s : Fs) (e : Env) (file : Name) :
    ((atomicWrite s e file) = ([], false)) ∨
    ∃ t, s.dir t = none ∧ file ≠ t ∧ (∃ time attempt, t = tempName file e.pid time attempt) ∧
      atomicWrite s e file = (.createNew t :: (e.chunks.map fun b => Sys.append s.next b) ++ (finish e file t s.next).1,
        (finish e file t s.next).2) := by
  unfold atomicWrite
  split
  · exact Or.inl rfl
  · split
    · exact Or.inl rfl
    · rename_i t ht
      obtain ⟨h1, a, b, h2⟩ := pickTemp_spec ht
      exact Or.inr ⟨t, h1, h2 ▸ temp_ne file _ _ _, ⟨a, b, h2⟩, rfl⟩

theorem pass_all (s : Fs) (e : Env) (file t : Name) (k : Nat) :
    Pass s t file e.chunks.flatten (execs s
      ((Sys.createNew t :: (e.chunks.map fun b => Sys.append s.next b) ++ (finish e file t s.next).1).take k)) := by
  rcases k with _ | k
  · exact Pass.before
  · rw [List.cons_append, List.take_succ_cons, execs_cons, exec_create]
    rcases take_append_split k (e.chunks.map fun b => Sys.append s.next b) (finish e file t s.next).1 with ⟨j, hj⟩ | ⟨j, hj⟩
    · rw [hj, ← List.map_take, execs_append]
      exact Pass.writing _ _
    · rw [hj, execs_app, execs_append]
      exact pass_finish s e file t j

/-! ### Crashes -/

theorem sublist_append_split {α : Type} {l a b : List α} (h : l.Sublist (a ++ b)) :
    ∃ x y, l = x ++ y ∧ x.Sublist a ∧ y.Sublist b := by
  obtain ⟨x, y, h1, h2, h3⟩ := List.sublist_append_iff.1 h
  exact ⟨x, y, h1, h2, h3⟩

theorem foldl_lt {s : Fs} (h : WF s) (q : Name) : ∀ (ops : List DirOp), (∀ op ∈ ops, op ∈ s.pend) →
    ∀ (dir : Name → Option Nat), (∀ n i, dir n = some i → i < s.next) →
    ∀ n i, ops.foldl DirOp.apply dir n = some i → i < s.next
  | [], _, dir, hd, n, i, hi => hd n i hi
  | op :: ops, hops, dir, hd, n, i, hi => by
    rw [List.foldl_cons] at hi
    refine foldl_lt h q ops (fun o ho => hops o (List.mem_cons_of_mem _ ho)) (op.apply dir) ?_ n i hi
    intro n j hj
    have hp := h.pend_lt op (hops op List.mem_cons_self)
    rcases op with ⟨m, i⟩ | m | ⟨a, b, i⟩
    · by_cases hm : n = m
      · subst hm
        rw [show DirOp.apply dir (.add n i) n = some i from update_self _ _ _] at hj
        cases hj
        exact hp _ rfl
      · rw [show DirOp.apply dir (.add m i) n = dir n from update_of_ne hm _ _] at hj
        exact hd n j hj
    · by_cases hm : n = m
      · subst hm
        rw [show DirOp.apply dir (.del n) n = none from update_self _ _ _] at hj
        cases hj
      · rw [show DirOp.apply dir (.del m) n = dir n from update_of_ne hm _ _] at hj
        exact hd n j hj
    · by_cases hm : n = b
      · subst hm
        rw [show DirOp.apply dir (.move a n i) n = some i from update_self _ _ _] at hj
        cases hj
        exact hp _ rfl
      · by_cases ha : n = a
        · subst ha
          rw [show DirOp.apply dir (.move n b i) n = none from (update_of_ne hm _ _).trans (update_self _ _ _)] at hj
          cases hj
        · rw [show DirOp.apply dir (.move a b i) n = dir n from (update_of_ne hm _ _).trans (update_of_ne ha _ _)] at hj
          exact hd n j hj

theorem dir_lt {s : Fs} (h : WF s) (n : Name) (i : Nat) (hi : s.dir n = some i) : i < s.next := by
  rw [h.dir_eq] at hi
  exact foldl_lt h n s.pend (fun _ ho => ho) s.base h.base_lt n i hi

/-- A disk of the earlier state that agrees with `d` on old inodes. -/
theorem earlier {s s' : Fs} (h : WF s) {d : Disk} (hold : ∀ i < s.next, s'.data i = s.data i ∧ s'.dirty i = s.dirty i)
    (hd : ∀ i, s'.dirty i = false → d.data i = s'.data i) (q : Name) (x : List DirOp) (hx : x.Sublist s.pend)
    (hq : d.dir q = x.foldl DirOp.apply s.base q) : ∃ d0, Crash s d0 ∧ d0.read q = d.read q := by
  refine ⟨⟨x.foldl DirOp.apply s.base, fun i => if i < s.next then d.data i else s.data i⟩, ⟨⟨x, hx, rfl⟩, ?_⟩, ?_⟩
  · intro i hi
    simp only
    split
    · rename_i hlt
      have := hold i hlt
      rw [hd i (by rw [this.2, hi]), this.1]
    · rfl
  · unfold Disk.read
    simp only
    rw [hq]
    rcases hf : x.foldl DirOp.apply s.base q with _ | i
    · rfl
    · have hlt := foldl_lt h q x (fun o ho => hx.subset ho) s.base h.base_lt q i hf
      simp [hlt]

theorem during_old (s : Fs) (ops : List DirOp) (w : Bytes) (b : Bool) : ∀ i < s.next,
    (during s ops w b).data i = s.data i ∧ (during s ops w b).dirty i = s.dirty i := by
  intro i hi
  have hne : i ≠ s.next := by omega
  exact ⟨update_of_ne hne _ _, update_of_ne hne _ _⟩

theorem crash_during {s : Fs} (h : WF s) {t file q : Name} (hq : q ≠ t) (hft : file ≠ t) {ops : List DirOp} {w : Bytes} {b : Bool}
    (hops : ∀ op ∈ ops, Mine t file s.next op) (hnew : DirOp.move t file s.next ∈ ops → b = false)
    {d : Disk} (hd : Crash (during s ops w b) d) :
    (q = file ∧ d.read q = some w ∧ DirOp.move t file s.next ∈ ops) ∨ ∃ d0, Crash s d0 ∧ d0.read q = d.read q := by
  obtain ⟨⟨l, hl, hdir⟩, hdata⟩ := hd
  obtain ⟨x, y, rfl, hx, hy⟩ := sublist_append_split hl
  rw [List.foldl_append] at hdir
  have hy' : ∀ op ∈ y, Mine t file s.next op := fun o ho => hops o (hy.subset ho)
  by_cases hqf : q = file
  · subst hqf
    rcases foldl_file hft y (x.foldl DirOp.apply s.base) hy' with h1 | ⟨h1, h2⟩
    · exact Or.inr (earlier h (during_old s ops w b) hdata q x hx (by rw [hdir]; exact h1))
    · have hm := hy.subset h2
      refine Or.inl ⟨rfl, ?_, hm⟩
      unfold Disk.read
      rw [hdir]
      change Option.map d.data (y.foldl DirOp.apply (x.foldl DirOp.apply s.base) q) = _
      rw [h1]
      have hb := hnew hm
      subst hb
      have := hdata s.next (update_self _ _ _)
      rw [Option.map_some, this]
      exact congrArg some (update_self _ _ _)
  · exact Or.inr (earlier h (during_old s ops w b) hdata q x hx (by
      rw [hdir]; exact foldl_other hq hqf y _ hy'))

theorem crash_flushed {s : Fs} (h : WF s) {t file q : Name} (hq : q ≠ t) (hft : file ≠ t) {w : Bytes}
    {d : Disk} (hd : Crash (flushed (during s [.add t s.next, .move t file s.next] w false)) d) :
    (q = file ∧ d.read q = some w) ∨ (q ≠ file ∧ ∃ d0, Crash s d0 ∧ d0.read q = d.read q) := by
  obtain ⟨⟨l, hl, hdir⟩, hdata⟩ := hd
  have hl0 : l = [] := by
    have : (flushed (during s [.add t s.next, .move t file s.next] w false)).pend = [] := rfl
    rw [this] at hl
    exact List.sublist_nil.1 hl
  subst hl0
  have hdir' : d.dir = [DirOp.add t s.next, .move t file s.next].foldl DirOp.apply s.dir := hdir
  by_cases hqf : q = file
  · subst hqf
    refine Or.inl ⟨rfl, ?_⟩
    unfold Disk.read
    rw [hdir', List.foldl_cons, List.foldl_cons, List.foldl_nil]
    rw [show DirOp.apply (DirOp.apply s.dir (.add t s.next)) (.move t q s.next) q = some s.next from update_self _ _ _]
    have := hdata s.next (update_self _ _ _)
    rw [Option.map_some, this]
    exact congrArg some (update_self _ _ _)
  · refine Or.inr ⟨hqf, earlier h (during_old s [.add t s.next, .move t file s.next] w false) hdata q s.pend (List.Sublist.refl _) ?_⟩
    rw [← h.dir_eq, hdir']
    exact foldl_other hq hqf _ _ (by
      intro op hop
      simp at hop
      rcases hop with rfl | rfl
      · exact Or.inl rfl
      · exact Or.inr (Or.inr rfl))

theorem self_dir {s : Fs} (h : WF s) (q : Name) : ∃ d0, Crash s d0 ∧ d0.read q = s.read q :=
  ⟨⟨s.dir, s.data⟩, ⟨⟨s.pend, List.Sublist.refl _, h.dir_eq⟩, fun _ _ => rfl⟩, rfl⟩

theorem crash_pass {s s' : Fs} (h : WF s) {t file q : Name} {new : Bytes} (hq : q ≠ t) (hft : file ≠ t)
    (hp : Pass s t file new s') {d : Disk} (hd : Crash s' d) :
    (q = file ∧ d.read q = some new) ∨ ∃ d0, Crash s d0 ∧ d0.read q = d.read q := by
  have hmine : ∀ op ∈ [DirOp.add t s.next, .move t file s.next], Mine t file s.next op := by
    intro op hop
    simp at hop
    rcases hop with rfl | rfl
    · exact Or.inl rfl
    · exact Or.inr (Or.inr rfl)
  rcases hp with _ | ⟨w, b⟩ | ⟨w⟩ | _ | _
  · exact Or.inr ⟨d, hd, rfl⟩
  · rcases crash_during h hq hft (by intro op hop; simp at hop; exact Or.inl hop) (by simp) hd with ⟨_, _, h3⟩ | h3
    · simp at h3
    · exact Or.inr h3
  · rcases crash_during h hq hft (by
      intro op hop
      simp at hop
      rcases hop with rfl | rfl
      · exact Or.inl rfl
      · exact Or.inr (Or.inl rfl)) (by simp) hd with ⟨_, _, h3⟩ | h3
    · simp at h3
    · exact Or.inr h3
  · rcases crash_during h hq hft hmine (fun _ => rfl) hd with ⟨h1, h2, _⟩ | h3
    · exact Or.inl ⟨h1, h2⟩
    · exact Or.inr h3
  · rcases crash_flushed h hq hft hd with h3 | ⟨_, h3⟩
    · exact Or.inl h3
    · exact Or.inr h3

/-! ### Consistency -/

theorem wf_during {s : Fs} (h : WF s) {t file : Name} {ops : List DirOp} {w : Bytes} {b : Bool}
    (hops : ∀ op ∈ ops, Mine t file s.next op) : WF (during s ops w b) := by
  refine ⟨?_, ?_, ?_⟩
  · change ops.foldl DirOp.apply s.dir = (s.pend ++ ops).foldl DirOp.apply s.base
    rw [List.foldl_append, ← h.dir_eq]
  · intro n i hi
    exact Nat.lt_succ_of_lt (h.base_lt n i hi)
  · intro op hop i hi
    rcases List.mem_append.1 hop with hop | hop
    · exact Nat.lt_succ_of_lt (h.pend_lt op hop i hi)
    · rcases hops op hop with rfl | rfl | rfl
      · cases hi; exact Nat.lt_succ_self _
      · cases hi
      · cases hi; exact Nat.lt_succ_self _

theorem wf_flushed {s : Fs} (h : WF s) : WF (flushed s) :=
  ⟨rfl, fun n i hi => dir_lt h n i hi, fun op hop => by cases hop⟩

theorem wf_pass {s s' : Fs} (h : WF s) {t file : Name} {new : Bytes} (hp : Pass s t file new s') : WF s' := by
  have hmine : ∀ op ∈ [DirOp.add t s.next, .move t file s.next], Mine t file s.next op := by
    intro op hop
    simp at hop
    rcases hop with rfl | rfl
    · exact Or.inl rfl
    · exact Or.inr (Or.inr rfl)
  rcases hp with _ | ⟨w, b⟩ | ⟨w⟩ | _ | _
  · exact h
  · exact wf_during (file := file) h (by intro op hop; simp at hop; exact Or.inl hop)
  · exact wf_during (file := file) h (by
      intro op hop
      simp at hop
      rcases hop with rfl | rfl
      · exact Or.inl rfl
      · exact Or.inr (Or.inl rfl))
  · exact wf_during h hmine
  · exact wf_flushed (wf_during h hmine)

theorem wf_after {s : Fs} (h : WF s) (w : Env × Name) : WF (after s w) := by
  unfold after
  rcases atomicWrite_cases s w.1 w.2 with h0 | ⟨t, _, _, _, h0⟩
  · rw [h0]; exact h
  · rw [h0]
    have := pass_all s w.1 w.2 t (Sys.createNew t :: (w.1.chunks.map fun b => Sys.append s.next b) ++ (finish w.1 w.2 t s.next).1).length
    rw [List.take_length] at this
    exact wf_pass h this

theorem mounted_wf (d : Disk) (next : Nat) (h : ∀ n i, d.dir n = some i → i < next) : WF (mounted d next) :=
  ⟨rfl, h, fun op hop => by cases hop⟩

theorem wf_afterAll : ∀ (ws : List (Env × Name)) {s : Fs}, WF s → WF (afterAll s ws)
  | [], _, h => h
  | w :: ws, _, h => wf_afterAll ws (wf_after h w)

end NextPlaid.Atomic
