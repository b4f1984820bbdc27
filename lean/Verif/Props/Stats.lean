import Verif.Proofs.Stats
import Verif.Props.Colgrep

/-!
C102: counting searches and resetting the count leave the index alone.

True if nothing else happens at the time and the index has the present format (`C102_history_partial`).  A search that is counted on an index of another format
marks it as one of the present format, so that it is never made anew; and one that is counted during an indexing run, for which it takes no lock, can undo what
the run has recorded.
-/

namespace NextPlaid.Props

open NextPlaid.Colgrep NextPlaid.Stats

variable {P C U H : Type} [DecidableEq P] [DecidableEq H]

/-- The files at the runs of a history. -/
def Toy.runsOf (es : List (Event P C)) : List (Disk P C) := es.filterMap fun e => match e with
  | .run d => some d
  | _ => none

theorem Toy.runsOf_eq : ∀ es : List (Event P C), Toy.runsOf es = disksOf es
  | [] => rfl
  | .run d :: es => by have := Toy.runsOf_eq es; unfold Toy.runsOf at this ⊢; simp [disksOf, this]
  | .search :: es => by have := Toy.runsOf_eq es; unfold Toy.runsOf at this ⊢; simp [disksOf, this]
  | .reset :: es => by have := Toy.runsOf_eq es; unfold Toy.runsOf at this ⊢; simp [disksOf, this]

/-- **C102, one after the other** (partial: for indexing, what C49 assumes).  Whatever searches and resets of the count come between indexing runs, all runs
succeed, and afterwards the index is up to date with the files of the last run. -/
theorem C102_history_partial (L : Lang P C U H) (hL : L.Lawful) (hhash : Function.Injective L.hash) (es : List (Event P C)) (disk : Disk P C)
    (hlast : (Toy.runsOf es).getLast? = some disk) (hcalm : Spec.CalmFrom L.parse [] [] (Toy.runsOf es)) :
    ∃ k, history L es {} = .ok k ∧ Spec.UpToDate L.parse disk k.dir.state.ignored (k.dir.vec.getD []) (k.dir.db.getD []) ∧
      ∀ p ∈ k.dir.state.ignored, ∃ d ∈ Toy.runsOf es, ∃ f, (p, f) ∈ d ∧ f.scanned = true ∧ L.parse p f.content = none := by
  rw [Toy.runsOf_eq] at hlast hcalm ⊢
  obtain ⟨k, h1, h2, hn⟩ := history_ok hL hhash es [] [] (by simp) hcalm {} rfl (after_start L)
  rw [hlast, Option.getD_some] at h2 hn
  refine ⟨k, h1, h2.upToDate hhash hn, fun p hp => ?_⟩
  obtain ⟨d, hd, f, hf⟩ := h2.skipped p hp
  exact ⟨d, by simpa using hd, f, hf⟩

/-- A history with searches in which files are changed, added and deleted. -/
def Toy.searched : List (Event Nat (List Nat)) :=
  [.search, .run [(1, code [11, 12]), (2, code [21])], .search, .search, .run [(1, code [11, 13] 2), (3, code [31])], .reset, .search]

example : (Toy.runsOf Toy.searched).length = 2 := by decide +kernel
example : ((history ToyLang Toy.searched {}).toOption.map fun k => (k.dir.vec, k.dir.state.searches)) = some (some [(1, 13), (1, 11), (3, 31)], 1) := by
  decide +kernel

/-- **C102, what a counted search changes**: the count, which is one more, and nothing else of an index of the present format. -/
theorem C102_count (k : Kept P U H) : (count k).dir = { k.dir with state := { k.dir.state with searches := k.dir.state.searches + 1 } } ∧
    (k.format = current → (count k).format = k.format) := ⟨rfl, fun h => h.symm⟩

/-- **C102, what a reset changes**: the count, which is zero. -/
theorem C102_reset (k : Kept P U H) : (reset k).dir = { k.dir with state := { k.dir.state with searches := 0 } } ∧
    (k.format = current → (reset k).format = k.format) := ⟨rfl, fun h => h.symm⟩

/-- **C102, the count** is the number of searches since the last reset, if there are no runs. -/
theorem C102_counted (L : Lang P C U H) (n : Nat) (k : Kept P U H) :
    ∃ k', history L (.reset :: List.replicate n .search) k = .ok k' ∧ k'.dir.state.searches = n := by
  have key : ∀ (n : Nat) (k : Kept P U H), ∃ k', history L (List.replicate n .search) k = .ok k' ∧ k'.dir.state.searches = k.dir.state.searches + n := by
    intro n
    induction n with
    | zero => intro k; exact ⟨k, rfl, rfl⟩
    | succ n ih =>
      intro k
      obtain ⟨k', h1, h2⟩ := ih (count k)
      refine ⟨k', by rw [List.replicate_succ]; exact h1, ?_⟩
      rw [h2]; show k.dir.state.searches + 1 + n = _; omega
  obtain ⟨k', h1, h2⟩ := key n (reset k)
  exact ⟨k', h1, by rw [h2]; show 0 + n = n; omega⟩

/-- **C102, an index of another format** is made anew by the next run, and is up to date then, whatever it holds. -/
theorem C102_other_format (L : Lang P C U H) (hL : L.Lawful) (hhash : Function.Injective L.hash) (disk : Disk P C) (hn : (disk.map (·.1)).Nodup)
    (k : Kept P U H) (hv : k.dir.vec.isSome = true) (hf : k.dir.state.files ≠ []) (hk : k.format ≠ current) :
    ∃ k', run L disk .never k = .ok k' ∧ k'.format = current ∧
      Spec.UpToDate L.parse disk k'.dir.state.ignored (k'.dir.vec.getD []) (k'.dir.db.getD []) := by
  obtain ⟨l, h1, h2⟩ := rebuild_ok L hL [disk] disk hn (by simp) ⟨k.dir, []⟩
  have hm : mismatch k = true := by simp [mismatch, hv, hf, hk]
  exact ⟨⟨l.now, current⟩, by simp only [run, hm, if_true, h1]; rfl, rfl, h2.upToDate hhash hn⟩

/-- An index that an earlier version made of the same files, with other units; the record of the files is up to date. -/
def Toy.outdated : Kept Nat Nat (List Nat) :=
  ⟨{ state := { files := [(1, ⟨[11], (1, 1)⟩)] }, vec := some [(1, 99)], db := some [(1, 99)] }, 1⟩

example : ((run ToyLang [(1, code [11])] .never Toy.outdated).toOption.map fun k => k.dir.vec) = some (some [(1, 11)]) := by decide +kernel

/-- **C102, but not if a search is counted before.**  A search with `--no-update`, one during another process's run, or `reset-stats`, saves the present format
with what another version has written: the next run takes the index for one of the present format. -/
theorem C102_format_lost (L : Lang P C U H) (disk : Disk P C) (stop : Stop) (k : Kept P U H) :
    run L disk stop (count k) = (index L disk stop ⟨(count k).dir, []⟩).map (fun l => ⟨l.now, current⟩) ∧
    run L disk stop (reset k) = (index L disk stop ⟨(reset k).dir, []⟩).map (fun l => ⟨l.now, current⟩) := by
  constructor
  · simp only [run, mismatch_current (k := count k) rfl, Bool.false_eq_true, if_false]
  · simp only [run, mismatch_current (k := reset k) rfl, Bool.false_eq_true, if_false]

/-- **C102, for good.**  However many runs follow, the units of the earlier version stay. -/
theorem C102_outdated_for_good (n : Nat) :
    ∃ k, history ToyLang (.search :: List.replicate n (.run [(1, code [11])])) Toy.outdated = .ok k ∧ k.dir.vec = some [(1, 99)] := by
  have hfix : run ToyLang [(1, code [11])] .never (count Toy.outdated) = .ok (count Toy.outdated) := by decide +kernel
  have key : ∀ n, history ToyLang (List.replicate n (.run [(1, code [11])])) (count Toy.outdated) = .ok (count Toy.outdated) := by
    intro n
    induction n with
    | zero => rfl
    | succ n ih => rw [List.replicate_succ]; simp only [history, hfix, Except.bind]; exact ih
  exact ⟨count Toy.outdated, key n, rfl⟩

/-- The index directory after the first run, and the moments of a run that adds a file. -/
def Toy.before : Disk Nat (List Nat) := [(1, code [11])]
def Toy.now : Disk Nat (List Nat) := [(1, code [11]), (2, code [21, 22])]
def Toy.first : Log Nat Nat (List Nat) := leftBy (index ToyLang Toy.before .never {})
def Toy.second : Log Nat Nat (List Nat) := leftBy (index ToyLang Toy.now .never ⟨Toy.first.now, []⟩)

/-- **C102, a search that is counted while a run ends**: it has read the state before the run and saves it after the run.  The next run stores the units of
the new file a second time. -/
theorem C102_race_duplicates :
    let k := countAt ⟨Toy.first.now, current⟩ ⟨Toy.second.now, current⟩
    Toy.second.now.vec = some [(1, 11), (2, 22), (2, 21)] ∧
      ((run ToyLang Toy.now .never k).toOption.map fun k => k.dir.vec) = some (some [(1, 11), (2, 22), (2, 21), (2, 22), (2, 21)]) ∧
      ((run ToyLang Toy.now .never ⟨Toy.second.now, current⟩).toOption.map fun k => k.dir.vec) = some (some [(1, 11), (2, 22), (2, 21)]) :=
  ⟨by decide +kernel, by decide +kernel, by decide +kernel⟩

/-- **C102, a search that is counted while a run writes**: it has read the state before the run and saves it between the writes.  If the run is killed then,
the mark that an index needs repair is lost, and the next run leaves rows that do not belong to their documents; without the search it repairs them. -/
theorem C102_race_unrepaired :
    ∃ killed ∈ Toy.second.past,
      let k := countAt ⟨Toy.first.now, current⟩ ⟨killed, current⟩
      ((run ToyLang Toy.now .never k).toOption.map fun k => decide (k.dir.vec = k.dir.db)) = some false ∧
      ((run ToyLang Toy.now .never ⟨killed, current⟩).toOption.map fun k => decide (k.dir.vec = k.dir.db)) = some true := by
  decide +kernel

end NextPlaid.Props
