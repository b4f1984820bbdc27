import Verif.Spec.Worktree
import Verif.Proofs.Colgrep4

/-! Proofs about the seeding of worktrees. -/

namespace NextPlaid.Worktree
open NextPlaid.Colgrep

variable {P C U H : Type} [DecidableEq P] [DecidableEq H]

omit [DecidableEq H] in
theorem usable_some {s : Sibling P U H} {st : State P H} (h : usable s = some st) : Spec.Whole s ∧ st = s.store.state := by
  unfold usable at h
  split at h
  · cases h
  rename_i h1
  split at h
  · cases h
  rename_i h2
  split at h
  · rename_i h3
    cases h
    simp only [Bool.or_eq_true, Option.isNone_iff_eq_none, not_or] at h2
    simp only [Bool.and_eq_true, Bool.not_eq_true', List.isEmpty_eq_false_iff] at h3
    exact ⟨⟨h3.1.2, h2.1, h2.2, h3.1.1, by simpa using h1, h3.2⟩, rfl⟩
  · cases h

omit [DecidableEq H] in
theorem usable_whole {s : Sibling P U H} (h : Spec.Whole s) : usable s = some s.store.state := by
  unfold usable
  rw [if_neg (by simp [h.finished]), if_neg, if_pos]
  · simp [h.files, h.current, h.clean]
  · simp [h.index, h.rows]

/-! ### The same files with other contents -/

/-- Files with other contents. -/
def recast (c : P → File C → C) (disk : Disk P C) : Disk P C := disk.map fun e => (e.1, { e.2 with content := c e.1 e.2 })

theorem recast_keys (c : P → File C → C) (disk : Disk P C) : (recast c disk).map (·.1) = disk.map (·.1) := by
  unfold recast; rw [List.map_map]; rfl

theorem recast_scan (c : P → File C → C) (disk : Disk P C) : scan (recast c disk) = recast c (scan disk) := by
  unfold scan recast
  rw [List.filter_map]; rfl

/-- The contents matter only for files that are not recorded with their present time and size. -/
def Unread (c : P → File C → C) (disk : Disk P C) (st : State P H) : Prop :=
  ∀ e ∈ disk, e.1 ∈ st.ignored ∨ (∃ info, get st.files e.1 = some info ∧ info.stat = e.2.stat) ∨
    (get st.files e.1 = none ∧ c e.1 e.2 = e.2.content)

theorem classify_recast {L : Lang P C U H} {c : P → File C → C} {disk : Disk P C} {st : State P H} (h : Unread c disk st) {e : P × File C}
    (he : e ∈ disk) : classify L st (e.1, { e.2 with content := c e.1 e.2 }) = classify L st e ∧
      (classify L st e = .skipped ∨ classify L st e = .same ∨ (e.1, { e.2 with content := c e.1 e.2 }) = e) := by
  unfold classify
  rcases h e he with h1 | ⟨info, h1, h2⟩ | ⟨h1, h2⟩
  · simp [h1]
  · by_cases hi : e.1 ∈ st.ignored
    · simp [hi]
    · simp [hi, h1, h2]
  · simp only [h1, h2]
    exact ⟨trivial, Or.inr (Or.inr trivial)⟩

theorem filter_recast {L : Lang P C U H} {c : P → File C → C} {disk : Disk P C} {st : State P H} (h : Unread c disk st) (k : Class)
    (hk : k ≠ .skipped ∧ k ≠ .same) (l : Disk P C) (hl : ∀ e ∈ l, e ∈ disk) :
    (recast c l).filter (fun e => classify L st e = k) = l.filter fun e => classify L st e = k := by
  induction l with
  | nil => rfl
  | cons e l ih =>
    have ih := ih fun e he => hl e (List.mem_cons_of_mem _ he)
    obtain ⟨h1, h2⟩ := classify_recast (L := L) h (hl e List.mem_cons_self)
    show List.filter _ ((e.1, { e.2 with content := c e.1 e.2 }) :: recast c l) = _
    rw [List.filter_cons, List.filter_cons, ih, h1]
    by_cases hc : classify L st e = k
    · rw [if_pos (by simpa using hc), if_pos (by simpa using hc)]
      rcases h2 with h2 | h2 | h2
      · exact absurd (hc.symm.trans h2) hk.1
      · exact absurd (hc.symm.trans h2) hk.2
      · rw [h2]
    · rw [if_neg (by simpa using hc), if_neg (by simpa using hc)]

theorem plan_recast {L : Lang P C U H} {c : P → File C → C} {disk : Disk P C} {st : State P H} (h : Unread c disk st) :
    computePlan L (recast c disk) st = computePlan L disk st := by
  unfold computePlan
  rw [recast_scan, recast_keys]
  have hs : ∀ e ∈ scan disk, e ∈ disk := fun e he => (List.mem_filter.1 he).1
  rw [filter_recast h .added (by simp) _ hs, filter_recast h .changed (by simp) _ hs, filter_recast h .touched (by simp) _ hs]

theorem incremental_recast {L : Lang P C U H} {c : P → File C → C} {disk : Disk P C} {st : State P H} (h : Unread c disk st) (stop : Stop)
    (l : Log P U H) : incremental L (recast c disk) st stop l = incremental L disk st stop l := by
  unfold incremental applyPlan planState orphans
  simp only [plan_recast h, recast_keys]

theorem index_recast {L : Lang P C U H} {c : P → File C → C} {disk : Disk P C} {l : Log P U H} (h : Unread c disk l.now.state) (stop : Stop)
    (hb : l.now.building = false) (hv : l.now.vec ≠ none) (hd : l.now.db ≠ none) (hf : l.now.state.files ≠ []) :
    index L (recast c disk) stop l = index L disk stop l := by
  unfold index
  have : ¬ (l.now.building = true ∨ l.now.vec.isNone = true) := by simp [hb, hv]
  rw [if_neg this, if_neg this]
  cases hdb : l.now.db with
  | none => exact absurd hdb hd
  | some rows =>
    simp only
    rw [if_neg hf, if_neg hf, incremental_recast h]

/-! ### The seeded state -/

omit [DecidableEq H] in
theorem restat_get (disk : Disk P C) (st : State P H) (p : P) : get (restat disk st).files p =
    (get st.files p).map fun i => { i with stat := ((get disk p).map (·.stat)).getD i.stat } := by
  unfold restat
  exact get_map st.files (fun p (i : Info H) => { i with stat := ((get disk p).map fun g : File C => g.stat).getD i.stat }) p

/-- The recorded files of the sibling with the times and sizes of this worktree. -/
def recordedDisk (src disk : Disk P C) (st : State P H) : Disk P C :=
  ((scan src).filter fun e => (get st.files e.1).isSome).map fun e =>
    (e.1, { e.2 with stat := ((get disk e.1).map (·.stat)).getD (((get st.files e.1).map (·.stat)).getD e.2.stat) })

/-- The ignored files of the sibling, with a time that is not theirs here. -/
def ignoredDisk (seen : List (Disk P C)) (disk : Disk P C) : Disk P C :=
  seen.flatten.map fun e => (e.1, { e.2 with stat := (((get disk e.1).map (·.stat.1)).getD 0 + 1, 0) })

theorem recordedDisk_nodup {src disk : Disk P C} {st : State P H} (hn : (src.map (·.1)).Nodup) : ((recordedDisk src disk st).map (·.1)).Nodup := by
  unfold recordedDisk
  rw [List.map_map]
  exact keys_filter_nodup (scan_nodup hn) _

theorem recordedDisk_scan (src disk : Disk P C) (st : State P H) : scan (recordedDisk src disk st) = recordedDisk src disk st := by
  unfold recordedDisk
  unfold scan
  rw [List.filter_map]
  congr 1
  rw [List.filter_eq_self]
  intro e he
  have := (List.mem_filter.1 (List.mem_filter.1 he).1).2
  exact this

theorem recordedDisk_get {src disk : Disk P C} {st : State P H} (hn : (src.map (·.1)).Nodup) (p : P) : get (recordedDisk src disk st) p =
    if (get st.files p).isSome then (get (scan src) p).map fun f =>
      { f with stat := ((get disk p).map (·.stat)).getD (((get st.files p).map (·.stat)).getD f.stat) } else none := by
  have := get_map ((scan src).filter fun e => (get st.files e.1).isSome) (fun p (f : File C) =>
    { f with stat := ((get disk p).map fun g : File C => g.stat).getD (((get st.files p).map fun i : Info H => i.stat).getD f.stat) }) p
  unfold recordedDisk
  refine this.trans ?_
  rw [get_filter (scan src) (fun p => (get st.files p).isSome)]
  split <;> rfl

theorem seeded_after {L : Lang P C U H} {seen : List (Disk P C)} {src disk : Disk P C} {d : Persist P U H} (hn : (src.map (·.1)).Nodup)
    (ha : After L seen src d) :
    After L [recordedDisk src disk d.state, ignoredDisk seen disk] (recordedDisk src disk d.state)
      { d with state := restat disk d.state } where
  dirty := ha.dirty
  building := ha.building
  aligned := ha.aligned
  current := by
    intro p info h
    replace h : get (restat disk d.state).files p = some info := h
    rw [restat_get] at h
    obtain ⟨i, hi, rfl⟩ := Option.map_eq_some_iff.1 h
    obtain ⟨f, h1, h2, h3, h4⟩ := ha.current p i hi
    rw [recordedDisk_scan, recordedDisk_get hn, if_pos (by rw [hi]; rfl), h1]
    exact ⟨_, rfl, h2, h3, h4⟩
  absent := by
    intro p h
    replace h : get (restat disk d.state).files p = none := h
    rw [restat_get, Option.map_eq_none_iff] at h
    exact ha.absent p h
  complete := by
    intro p f h _
    rw [recordedDisk_scan, recordedDisk_get hn] at h
    split at h
    · rename_i hs
      show get (restat disk d.state).files p ≠ none
      rw [restat_get, Ne, Option.map_eq_none_iff]
      rw [Option.isSome_iff_ne_none] at hs
      exact hs
    · cases h
  ignored := by
    intro p h
    show get (restat disk d.state).files p = none
    rw [restat_get, ha.ignored p h]; rfl
  recorded := by
    intro p info h
    replace h : get (restat disk d.state).files p = some info := h
    rw [restat_get] at h
    obtain ⟨i, hi, rfl⟩ := Option.map_eq_some_iff.1 h
    obtain ⟨f, h1, h2, h3, h4⟩ := ha.current p i hi
    refine ⟨_, List.mem_cons_self, { f with stat := ((get disk p).map (·.stat)).getD i.stat }, get_mem ?_, ?_⟩
    · rw [recordedDisk_get hn, if_pos (by rw [hi]; rfl), h1, hi]; rfl
    · unfold infoOf
      rw [← h2]
  skipped := by
    intro p h
    obtain ⟨d0, h0, f0, h1, h2, h3⟩ := ha.skipped p h
    refine ⟨_, List.mem_cons_of_mem _ List.mem_cons_self, { f0 with stat := (((get disk p).map (·.stat.1)).getD 0 + 1, 0) }, ?_, h2, h3⟩
    exact List.mem_map.2 ⟨(p, f0), List.mem_flatten.2 ⟨d0, h0, h1⟩, rfl⟩

/-- The content recorded in the sibling. -/
def known (src : Disk P C) (st : State P H) (p : P) (f : File C) : C :=
  match (src.find? fun o => o.1 = p) with
  | some o => if p ∈ st.files.map (·.1) then o.2.content else f.content
  | none => f.content

theorem known_recorded {L : Lang P C U H} {seen : List (Disk P C)} {src : Disk P C} {d : Persist P U H} (hn : (src.map (·.1)).Nodup)
    (ha : After L seen src d) {p : P} {i : Info H} (hi : get d.state.files p = some i) :
    ∃ f0, get (scan src) p = some f0 ∧ ∀ f, known src d.state p f = f0.content := by
  obtain ⟨f0, h1, _⟩ := ha.current p i hi
  refine ⟨f0, h1, fun f => ?_⟩
  have hg : get src p = some f0 := mem_get hn (List.mem_filter.1 (get_mem h1)).1
  unfold Colgrep.get at hg
  obtain ⟨o, ho, rfl⟩ := Option.map_eq_some_iff.1 hg
  unfold known
  rw [ho]
  simp only
  rw [if_pos]
  by_contra hc
  rw [← get_none, hi] at hc
  cases hc

omit [DecidableEq H] in
theorem known_other {src : Disk P C} {st : State P H} {p : P} (hi : get st.files p = none) (f : File C) : known src st p f = f.content := by
  unfold known
  rw [get_none] at hi
  split
  · rw [if_neg hi]
  · rfl

theorem withContentsOf_eq (src disk : Disk P C) (st : State P H) :
    Spec.withContentsOf src (st.files.map (·.1)) disk = recast (known src st) disk := rfl

theorem seeded_calm {L : Lang P C U H} {seen : List (Disk P C)} {src disk : Disk P C} {d : Persist P U H} (hn : (src.map (·.1)).Nodup)
    (hd : (disk.map (·.1)).Nodup) (ha : After L seen src d) :
    Spec.Calm L.parse [recordedDisk src disk d.state, ignoredDisk seen disk] (recordedDisk src disk d.state)
      (recast (known src d.state) disk) := by
  have hrec : ∀ p f0 f, (p, f0) ∈ recordedDisk src disk d.state → (p, f) ∈ recast (known src d.state) disk → f0.content = f.content := by
    intro p f0 f h0 h
    have hg := mem_get (recordedDisk_nodup (disk := disk) (st := d.state) hn) h0
    rw [recordedDisk_get hn] at hg
    split at hg
    · rename_i hs
      obtain ⟨i, hi⟩ := Option.isSome_iff_exists.1 hs
      obtain ⟨g, hg', hk⟩ := known_recorded hn ha hi
      rw [hg'] at hg
      cases hg
      obtain ⟨e, _, he⟩ := List.mem_map.1 h
      cases he
      exact (hk _).symm
    · cases hg
  refine ⟨?_, ?_, ?_⟩
  · rw [recast_keys]; exact hd
  · intro d0 h0 p f0 f hp hf hs
    rcases List.mem_cons.1 h0 with rfl | h0
    · exact hrec p f0 f hp hf
    · rw [List.mem_singleton] at h0
      subst h0
      exfalso
      obtain ⟨e0, _, he0⟩ := List.mem_map.1 hp
      obtain ⟨e, hemem, he⟩ := List.mem_map.1 hf
      cases he
      injection he0 with hpe hfe
      subst hfe
      rw [hpe, mem_get hd hemem] at hs
      have := congrArg Prod.fst hs
      simp at this
  · intro p f0 f h0 h _ _ hne
    exact absurd (hrec p f0 f h0 h) hne

end NextPlaid.Worktree
