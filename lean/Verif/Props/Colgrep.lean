import Verif.Proofs.Colgrep4

/-!
C49: when `colgrep` has finished indexing a project, its index holds the code of the files as they are now: every file's units
once, nothing of deleted files, nothing old.  C50: an interrupted or killed indexing run is made good by the next ones.

Both fail in general; see the counterexamples below.  Proved: C49 for every sequence of finished runs if no file loses all its
code, gains its first code or is changed without a change of time or size; C49 for every forced run; C50 for every number of
interruptions of the first build while the files stay as they are.
-/

namespace NextPlaid.Props

open NextPlaid.Colgrep

variable {P C U H : Type} [DecidableEq P] [DecidableEq H]

/-- C49 (partial): any sequence of runs over changing files, each run with the files as they are then. -/
theorem C49_up_to_date_partial (L : Lang P C U H) (hL : L.Lawful) (hhash : Function.Injective L.hash) (disks : List (Disk P C)) (disk : Disk P C)
    (hlast : disks.getLast? = some disk) (hcalm : Spec.CalmFrom L.parse [] [] disks) :
    ∃ l, runs L disks {} = .ok l ∧
      Spec.UpToDate L.parse disk l.now.state.ignored (l.now.vec.getD []) (l.now.db.getD []) ∧
      ∀ p ∈ l.now.state.ignored, ∃ d ∈ disks, ∃ f, (p, f) ∈ d ∧ f.scanned = true ∧ L.parse p f.content = none := by
  obtain ⟨l, h1, h2⟩ := runs_ok L hL hhash disks [] [] (by simp) hcalm {} (after_start L)
  rw [hlast, Option.getD_some] at h2
  have hn : (disk.map (·.1)).Nodup := by
    have key : ∀ (ds : List (Disk P C)) before last, Spec.CalmFrom L.parse before last ds → ∀ d ∈ ds, (d.map (·.1)).Nodup := by
      intro ds
      induction ds with
      | nil => intro _ _ _ d hd; cases hd
      | cons e ds ih =>
        intro before last hc d hd
        rcases List.mem_cons.mp hd with rfl | hd
        · exact hc.1.names
        · exact ih _ _ hc.2 d hd
    exact key disks [] [] hcalm disk (List.mem_of_getLast? hlast)
  refine ⟨l, h1, h2.upToDate hhash hn, ?_⟩
  intro p hp
  obtain ⟨d, hd, f, hf⟩ := h2.skipped p hp
  exact ⟨d, by simpa using hd, f, hf⟩

/-- C49: a forced run leaves an index that is up to date, whatever was there before; only files that are not text now are skipped. -/
theorem C49_forced_run (L : Lang P C U H) (hL : L.Lawful) (hhash : Function.Injective L.hash) (disk : Disk P C) (hn : (disk.map (·.1)).Nodup)
    (l : Log P U H) :
    ∃ l', rebuild L disk .never l = .ok l' ∧
      Spec.UpToDate L.parse disk l'.now.state.ignored (l'.now.vec.getD []) (l'.now.db.getD []) ∧
      ∀ p ∈ l'.now.state.ignored, ∃ f, (p, f) ∈ disk ∧ f.scanned = true ∧ L.parse p f.content = none := by
  obtain ⟨l', h1, h2⟩ := rebuild_ok L hL [disk] disk hn (by simp) l
  refine ⟨l', h1, h2.upToDate hhash hn, ?_⟩
  intro p hp
  obtain ⟨d, hd, f, hf⟩ := h2.skipped p hp
  simp only [List.mem_singleton] at hd
  exact ⟨f, hd ▸ hf⟩

/-- Runs over the same files, interrupted as listed, until one comes to its end; the last one is not interrupted. -/
def attempts (L : Lang P C U H) (disk : Disk P C) : List Stop → Log P U H → Except (Halt P U H) (Log P U H)
  | [], l => index L disk .never l
  | stop :: stops, l => match index L disk stop l with
    | .ok l' => .ok l'
    | .error (.interrupted l') => attempts L disk stops l'
    | .error (.failed l') => .error (.failed l')

/-- C50 (partial): the first build may be interrupted any number of times, at any moments; if the files stay as they are, what the
finished build leaves is up to date: no unit is lost or stored twice. -/
theorem C50_resumed_partial (L : Lang P C U H) (hL : L.Lawful) (hhash : Function.Injective L.hash) (disk : Disk P C) (hn : (disk.map (·.1)).Nodup)
    (stops : List Stop) :
    ∃ l, attempts L disk stops {} = .ok l ∧
      Spec.UpToDate L.parse disk l.now.state.ignored (l.now.vec.getD []) (l.now.db.getD []) ∧
      ∀ p ∈ l.now.state.ignored, ∃ f, (p, f) ∈ disk ∧ f.scanned = true ∧ L.parse p f.content = none := by
  have key : ∀ (stops : List Stop) (l : Log P U H) (st : State P H) (v : Option (List (P × U))) (b : Bool), l.now = ⟨st, v, v, b⟩ →
      (b = true ∨ v = none) → Mid L [disk] disk st (v.getD []) → ∃ l', attempts L disk stops l = .ok l' ∧ After L [disk] disk l'.now := by
    intro stops
    induction stops with
    | nil =>
      intro l st v b hl hb hm
      have : index L disk .never l = build L disk .never l := by
        unfold index
        rw [hl]
        rcases hb with rfl | rfl <;> simp
      unfold attempts
      rw [this]
      rcases build_ok L hL [disk] disk hn (by simp) .never l st v b hl hm with h | ⟨_, _, _, h, _⟩
      · exact h
      · exact absurd rfl h
    | cons stop stops ih =>
      intro l st v b hl hb hm
      have : index L disk stop l = build L disk stop l := by
        unfold index
        rw [hl]
        rcases hb with rfl | rfl <;> simp
      unfold attempts
      rw [this]
      rcases build_ok L hL [disk] disk hn (by simp) stop l st v b hl hm with ⟨l', h, ha⟩ | ⟨l', st', v', _, h, hl', hm'⟩
      · rw [h]; exact ⟨l', rfl, ha⟩
      · rw [h]; exact ih l' st' v' true hl' (Or.inl rfl) hm'
  obtain ⟨l, h1, h2⟩ := key stops {} {} none false rfl (Or.inr rfl) {
    done := by intro p info f h; cases h
    rest := by intro p _ h; exact absurd rfl h
    ignored := by intro p h; cases h
    recorded := by intro p info h; cases h
    skipped := by intro p h; cases h }
  refine ⟨l, h1, h2.upToDate hhash hn, ?_⟩
  intro p hp
  obtain ⟨d, hd, f, hf⟩ := h2.skipped p hp
  simp only [List.mem_singleton] at hd
  exact ⟨f, hd ▸ hf⟩

/-! ### Examples -/

/-- Files are numbered; a content is the list of its units; one with a 0 is not text; a batch is full with two units. -/
@[reducible] def ToyLang : Lang Nat (List Nat) Nat (List Nat) where
  hash := id
  parse := fun _ c => if c.contains 0 then none else some c
  sortPaths := id
  arrange := List.reverse
  checkpoint := 2

theorem toyLang_lawful : ToyLang.Lawful := ⟨fun _ => List.Perm.refl _, fun l => List.reverse_perm l⟩

/-- A file with a content and a modification time. -/
@[reducible] def code (c : List Nat) (t : Nat := 1) : File (List Nat) := ⟨c, (t, c.length), true⟩

/-- What is left after some runs. -/
@[reducible] def leftBy (r : Except (Halt Nat Nat (List Nat)) (Log Nat Nat (List Nat))) : Log Nat Nat (List Nat) :=
  match r with
  | .ok l => l
  | .error h => h.log

/-- Three runs: two files are indexed; one is changed, one is deleted, one is added and one is not text. -/
def calmDisks : List (Disk Nat (List Nat)) :=
  [[(1, code [11, 12]), (2, code [21])], [(1, code [11, 13] 2), (3, code [31, 32]), (4, code [0])], [(1, code [11, 13] 5), (3, code [31, 32])]]

example : Spec.CalmFrom ToyLang.parse [] [] calmDisks ∧ Function.Injective ToyLang.hash := by
  have hc : ∀ (before : List (Disk Nat (List Nat))) (last disk : Disk Nat (List Nat)),
      (decide (disk.map (·.1)).Nodup &&
        (before.all fun d0 => d0.all fun e0 => disk.all fun e => decide (e0.1 = e.1 → e0.2.stat = e.2.stat → e0.2.content = e.2.content)) &&
        last.all fun e0 => disk.all fun e => decide (e0.1 = e.1 → e0.2.content ≠ e.2.content →
          ToyLang.parse e0.1 e0.2.content ≠ some [] ∧ ToyLang.parse e.1 e.2.content ≠ some [])) = true →
      Spec.Calm ToyLang.parse before last disk := by
    intro before last disk h
    simp only [Bool.and_eq_true, List.all_eq_true, decide_eq_true_eq] at h
    obtain ⟨⟨h1, h2⟩, h3⟩ := h
    exact ⟨h1, fun d0 hd0 p f0 f a b c => h2 d0 hd0 _ a _ b rfl c, fun p f0 f a b _ _ c => h3 _ a _ b rfl c⟩
  exact ⟨⟨hc _ _ _ (by decide +kernel), hc _ _ _ (by decide +kernel), hc _ _ _ (by decide +kernel), trivial⟩, fun _ _ h => h⟩

example : (leftBy (runs ToyLang calmDisks {})).now.vec = some [(1, 13), (1, 11), (3, 32), (3, 31)] ∧
    (leftBy (runs ToyLang calmDisks {})).now.state.ignored = [4] := ⟨by decide +kernel, by decide +kernel⟩

/-- The first build of three files, interrupted while parsing, after one unit and after three units. -/
def manyFiles : Disk Nat (List Nat) := [(1, code [11, 12, 13]), (2, code [21]), (3, code []), (4, code [41, 42])]

example : (leftBy (attempts ToyLang manyFiles [.parsing, .after 1, .after 4] {})).now.vec =
      some [(1, 13), (1, 12), (1, 11), (4, 42), (4, 41), (2, 21)] ∧
    (leftBy (index ToyLang manyFiles (.after 1) {})).now.vec = some [(1, 13)] ∧
    (leftBy (index ToyLang manyFiles (.after 4) {})).now.vec = some [(1, 13), (1, 12), (1, 11), (4, 42)] :=
  ⟨by decide +kernel, by decide +kernel, by decide +kernel⟩

/-! ### Where C49 fails -/

/-- A file that loses all its code keeps its old units in the index, and is recorded as up to date, so that later runs do
nothing. -/
theorem C49_emptied_file_stale :
    let before : Disk Nat (List Nat) := [(1, code [11]), (2, code [21])]
    let now : Disk Nat (List Nat) := [(1, code [] 2), (2, code [21])]
    ∀ n, (leftBy (runs ToyLang (before :: now :: List.replicate n now) {})).now.vec = some [(2, 21), (1, 11)] := by
  intro before now n
  obtain ⟨l, h2, h3, h7⟩ : ∃ l, runs ToyLang [before, now] {} = .ok l ∧ index ToyLang now .never l = .ok l ∧ l.now.vec = some [(2, 21), (1, 11)] :=
    ⟨leftBy (runs ToyLang [before, now] {}), by decide +kernel, by decide +kernel, by decide +kernel⟩
  have h4 : ∀ n, runs ToyLang (List.replicate n now) l = .ok l := by
    intro n
    induction n with
    | zero => rfl
    | succ n ih =>
      rw [List.replicate_succ]
      simp only [runs, h3, Except.bind]
      exact ih
  have h5 : ∀ (a b : List (Disk Nat (List Nat))) l l', runs ToyLang a l = .ok l' → runs ToyLang (a ++ b) l = runs ToyLang b l' := by
    intro a
    induction a with
    | nil => intro b l l' h; cases h; rfl
    | cons d a ih =>
      intro b l l' h
      simp only [runs] at h
      simp only [List.cons_append, runs]
      cases hi : index ToyLang d .never l with
      | error e => rw [hi] at h; cases h
      | ok l1 =>
        rw [hi] at h
        exact ih b l1 l' h
  have h6 := h5 [before, now] (List.replicate n now) {} l h2
  simp only [List.cons_append, List.nil_append] at h6
  rw [h6, h4]
  exact h7

/-- If no file has code at the first run, code written into these files later is never indexed. -/
theorem C49_first_code_not_indexed :
    let before : Disk Nat (List Nat) := [(1, code []), (2, code [])]
    let now : Disk Nat (List Nat) := [(1, code [11] 2), (2, code [21] 2)]
    (leftBy (runs ToyLang [before, now, now, now] {})).now.vec = none ∧
      ((leftBy (runs ToyLang [before, now] {})).now = (leftBy (runs ToyLang [before, now, now] {})).now) :=
  ⟨by decide +kernel, by decide +kernel⟩

/-- A file that was not text once is not indexed when it has become text. -/
theorem C49_once_skipped_never_indexed :
    let before : Disk Nat (List Nat) := [(1, code [11]), (2, code [0])]
    let now : Disk Nat (List Nat) := [(1, code [11]), (2, code [21, 22] 2)]
    (leftBy (runs ToyLang [before, now, now] {})).now.vec = some [(1, 11)] := by decide +kernel

/-- A change that keeps the time and the size is not seen. -/
theorem C49_same_stat_not_seen :
    let before : Disk Nat (List Nat) := [(1, code [11]), (2, code [21])]
    let now : Disk Nat (List Nat) := [(1, code [12]), (2, code [21])]
    (leftBy (runs ToyLang [before, now, now] {})).now.vec = some [(2, 21), (1, 11)] := by decide +kernel

/-- If the record of the files is lost, it is made again from the files as they are now: what has changed since the index was
made stays old. -/
theorem C49_lost_record_stale :
    let before : Disk Nat (List Nat) := [(1, code [11]), (2, code [21])]
    let now : Disk Nat (List Nat) := [(1, code [12] 2), (2, code [21])]
    let l := leftBy (runs ToyLang [before] {})
    (leftBy (runs ToyLang [now, now] { l with now := { l.now with state := {} } })).now.vec = some [(2, 21), (1, 11)] := by decide +kernel

/-! ### Where C50 fails -/

/-- An update that is interrupted after some units of a new file were stored stores them again at the next run. -/
theorem C50_interrupted_update_duplicates :
    let before : Disk Nat (List Nat) := [(1, code [11])]
    let now : Disk Nat (List Nat) := [(1, code [11]), (2, code [21, 22])]
    let l := leftBy (runs ToyLang [before] {})
    (leftBy (attempts ToyLang now [.after 1] l)).now.vec = some [(1, 11), (2, 22), (2, 22), (2, 21)] := by decide +kernel

/-- A process that is killed between the two deletions of a file leaves an index whose rows no longer belong to its documents,
and later runs do not repair it. -/
theorem C50_killed_deletion_misaligned :
    let before : Disk Nat (List Nat) := [(1, code [11]), (2, code [21]), (3, code [31, 32])]
    let now : Disk Nat (List Nat) := [(1, code [11]), (3, code [31, 32])]
    ∃ killed ∈ (leftBy (index ToyLang now .never (leftBy (runs ToyLang [before] {})))).past,
      (leftBy (runs ToyLang [now, now] ⟨killed, []⟩)).now.vec ≠ (leftBy (runs ToyLang [now, now] ⟨killed, []⟩)).now.db := by
  decide +kernel

/-- A process that is killed in the first build after the rows and before the index were written leaves a project that cannot be
indexed: every later run fails. -/
theorem C50_killed_first_build_stuck :
    let now : Disk Nat (List Nat) := [(1, code [11]), (2, code [21])]
    ∃ killed ∈ (leftBy (index ToyLang now .never {})).past,
      ∃ l, index ToyLang now .never ⟨killed, []⟩ = .error (.failed l) ∧ l.now = killed := by
  have h : ∃ killed ∈ (leftBy (index ToyLang [(1, code [11]), (2, code [21])] .never {})).past,
      index ToyLang [(1, code [11]), (2, code [21])] .never ⟨killed, []⟩ =
          .error (.failed (leftBy (index ToyLang [(1, code [11]), (2, code [21])] .never ⟨killed, []⟩))) ∧
        (leftBy (index ToyLang [(1, code [11]), (2, code [21])] .never ⟨killed, []⟩)).now = killed := by
    decide +kernel
  obtain ⟨k, h1, h2, h3⟩ := h
  exact ⟨k, h1, _, h2, h3⟩

/-- A process that is killed in a forced run between the two renames leaves no index, and later runs do not make one. -/
theorem C50_killed_rebuild_lost :
    let now : Disk Nat (List Nat) := [(1, code [11]), (2, code [21])]
    ∃ killed ∈ (leftBy (rebuild ToyLang now .never (leftBy (runs ToyLang [now] {})))).past,
      killed.vec = none ∧ (leftBy (runs ToyLang [now, now] ⟨killed, []⟩)).now.vec = none := by
  decide +kernel

/-- A file that is changed between the interruption of the first build and its end is old in the finished index; the next run
brings it up to date. -/
theorem C50_changed_during_build :
    let before : Disk Nat (List Nat) := [(1, code [11, 12]), (2, code [21, 22])]
    let now : Disk Nat (List Nat) := [(1, code [11, 13] 2), (2, code [21, 22])]
    let l := leftBy (index ToyLang before (.after 3) {})
    (leftBy (runs ToyLang [now] l)).now.vec = some [(1, 12), (1, 11), (2, 22), (2, 21)] ∧
      (leftBy (runs ToyLang [now, now] l)).now.vec = some [(2, 22), (2, 21), (1, 13), (1, 11)] := ⟨by decide +kernel, by decide +kernel⟩

end NextPlaid.Props
