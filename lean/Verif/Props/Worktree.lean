import Verif.Proofs.Worktree2
import Verif.Props.Colgrep

/-!
Property theorems C72 (seeding the index of a git worktree from a sibling).

The intended property: if a worktree without an index is indexed, the index is up to date afterwards, also when it was copied from that of another worktree.
`Spec.UpToDate` is that of C49. What holds is `C72_seeded_partial`; `C72_seeded` says what the index holds in any case.
-/

namespace NextPlaid.Props

open NextPlaid.Colgrep NextPlaid.Worktree

variable {P C U H : Type} [DecidableEq P] [DecidableEq H]

/-- The sibling was indexed by any sequence of runs over changing files, the last with the files `src`, and has a whole index; the siblings before
it in git's list have none. Then the run in this worktree ends, and the index holds, for each file recorded in the sibling, the units of the content
the file has in the sibling, whatever it contains here, and for each other file the units of its content here; nothing else, and the rows belong to
the documents. A file is skipped only if it was not text at some run in the sibling or is not text here. -/
theorem C72_seeded (L : Lang P C U H) (hL : L.Lawful) (hhash : Function.Injective L.hash) (disks : List (Disk P C)) (src disk : Disk P C)
    (hlast : disks.getLast? = some src) (hcalm : Spec.CalmFrom L.parse [] [] disks) {s : Log P U H} (hs : runs L disks {} = .ok s)
    (hn : (disk.map (·.1)).Nodup) {look : Nat → Sibling P U H} (hlook : Spec.Still look s.now) (hw : Spec.Whole (look 0))
    {pre post : List (Nat → Sibling P U H)} (hpre : ∀ o ∈ pre, ¬ Spec.Whole (o 0)) (l : Log P U H) (hv : l.now.vec = none)
    (hb : l.now.building = false) :
    ∃ l', indexTree L false disk (pre ++ look :: post) .never l = .ok l' ∧
      Spec.UpToDate L.parse (Spec.withContentsOf src (s.now.state.files.map (·.1)) disk) l'.now.state.ignored (l'.now.vec.getD [])
        (l'.now.db.getD []) ∧
      ∀ p ∈ l'.now.state.ignored, (∃ d ∈ disks, ∃ f, (p, f) ∈ d ∧ f.scanned = true ∧ L.parse p f.content = none) ∨
        ∃ f, (p, f) ∈ disk ∧ f.scanned = true ∧ L.parse p f.content = none := by
  obtain ⟨s', h1, ha⟩ := runs_ok L hL hhash disks [] [] (by simp) hcalm {} (after_start L)
  rw [hs] at h1
  cases h1
  rw [hlast, Option.getD_some] at ha
  have hsrc : (src.map (·.1)).Nodup := by
    have key : ∀ (ds : List (Disk P C)) before last, Spec.CalmFrom L.parse before last ds → ∀ d ∈ ds, (d.map (·.1)).Nodup := by
      intro ds
      induction ds with
      | nil => intro _ _ _ d hd; cases hd
      | cons e ds ih =>
        intro before last hc d hd
        rcases List.mem_cons.1 hd with rfl | hd
        · exact hc.1.names
        · exact ih _ _ hc.2 d hd
    exact key disks [] [] hcalm src (List.mem_of_getLast? hlast)
  obtain ⟨l', h2, h3⟩ := seeded_run hL hhash hsrc hn ha hlook hw l hb
  refine ⟨l', ?_, ?_, ?_⟩
  · unfold indexTree seed
    simp only [hv, Bool.false_or, Option.isSome_none, Bool.false_eq_true, if_false]
    rw [trySeed_first disk pre post look l hpre hw]
    exact h2
  · rw [withContentsOf_eq]
    exact h3.upToDate hhash (by rw [recast_keys]; exact hn)
  · intro p hp
    rcases seeded_ignored hsrc ha h3 hp with ⟨d, hd, h⟩ | h
    · exact Or.inl ⟨d, by simpa using hd, h⟩
    · exact Or.inr h

/-- C72 (partial): the index is up to date if the files that the sibling has recorded have here the content they have there. Missing: files that differ
between the worktrees, see `C72_differing_stale`. -/
theorem C72_seeded_partial (L : Lang P C U H) (hL : L.Lawful) (hhash : Function.Injective L.hash) (disks : List (Disk P C)) (src disk : Disk P C)
    (hlast : disks.getLast? = some src) (hcalm : Spec.CalmFrom L.parse [] [] disks) {s : Log P U H} (hs : runs L disks {} = .ok s)
    (hn : (disk.map (·.1)).Nodup) {look : Nat → Sibling P U H} (hlook : Spec.Still look s.now) (hw : Spec.Whole (look 0))
    {pre post : List (Nat → Sibling P U H)} (hpre : ∀ o ∈ pre, ¬ Spec.Whole (o 0)) (l : Log P U H) (hv : l.now.vec = none)
    (hb : l.now.building = false)
    (hsame : ∀ p f f0, (p, f) ∈ disk → (p, f0) ∈ src → p ∈ s.now.state.files.map (·.1) → f.content = f0.content) :
    ∃ l', indexTree L false disk (pre ++ look :: post) .never l = .ok l' ∧
      Spec.UpToDate L.parse disk l'.now.state.ignored (l'.now.vec.getD []) (l'.now.db.getD []) := by
  obtain ⟨l', h1, h2, _⟩ := C72_seeded L hL hhash disks src disk hlast hcalm hs hn hlook hw hpre (post := post) l hv hb
  refine ⟨l', h1, ?_⟩
  have : Spec.withContentsOf src (s.now.state.files.map (·.1)) disk = disk := by
    unfold Spec.withContentsOf
    conv_rhs => rw [← List.map_id disk]
    apply List.map_congr_left
    intro e he
    have hc : (match (src.find? fun o => o.1 = e.1) with
        | some o => if e.1 ∈ s.now.state.files.map (·.1) then o.2.content else e.2.content
        | none => e.2.content) = e.2.content := by
      cases hf : src.find? fun o => o.1 = e.1 with
      | none => rfl
      | some o =>
        simp only
        split
        · rename_i hk
          have ho : o.1 = e.1 := by simpa using List.find?_some hf
          exact (hsame e.1 e.2 o.2 he (by rw [← ho]; exact List.mem_of_find?_eq_some hf) hk).symm
        · rfl
    exact congrArg (fun c => (e.1, ({ e.2 with content := c } : File C))) hc
  rw [this] at h2
  exact h2

/-- A worktree is seeded only if it has no index, the run is not forced and some sibling has a whole index: otherwise the run is as without siblings. -/
theorem C72_not_seeded (L : Lang P C U H) (disk : Disk P C) (siblings : List (Nat → Sibling P U H)) (stop : Stop) (l : Log P U H) :
    indexTree L true disk siblings stop l = rebuild L disk stop l ∧
      ((l.now.vec ≠ none ∨ ∀ s ∈ siblings, ¬ Spec.Whole (s 0)) → indexTree L false disk siblings stop l = index L disk stop l) := by
  constructor
  · rfl
  · intro h
    unfold indexTree seed
    simp only [Bool.false_or, Bool.false_eq_true, if_false]
    rcases h with h | h
    · rw [if_pos (Option.isSome_iff_ne_none.2 h)]
    · split
      · rfl
      · rw [trySeed_none disk siblings l h]

/-- The siblings are the worktrees that git lists, in git's order, without this one; further lines about a worktree do not matter. `canonical` resolves a path; paths
contain no line break and do not begin or end with white space. -/
theorem C72_siblings {R : Type} [DecidableEq R] (white : Char → Bool) (canonical : List Char → Option R) (self : R)
    (trees : List (List Char × List (List Char)))
    (hp : ∀ t ∈ trees, '\n' ∉ t.1 ∧ (∀ c, t.1.head? = some c → white c = false) ∧ ∀ c, t.1.getLast? = some c → white c = false)
    (ha : ∀ t ∈ trees, ∀ line ∈ t.2, '\n' ∉ line ∧ ¬ "worktree ".toList <+: line) :
    candidates self (rootsIn white canonical (Spec.porcelain trees)) = (trees.filterMap fun t => canonical t.1).filter fun r => r ≠ self := by
  rw [rootsIn_porcelain white canonical trees hp ha]
  rfl

/-! ### Examples -/

/-- The main worktree after three runs, and a new worktree with the same files, one more and one less. -/
def mainTree : Persist Nat Nat (List Nat) := (leftBy (runs ToyLang calmDisks {})).now

example : Spec.Still (fun _ => (⟨mainTree, true⟩ : Sibling Nat Nat (List Nat))) mainTree ∧ Spec.Whole ⟨mainTree, true⟩ ∧
    runs ToyLang calmDisks {} = .ok (leftBy (runs ToyLang calmDisks {})) ∧ calmDisks.getLast? = some [(1, code [11, 13] 5), (3, code [31, 32])] ∧
    (leftBy (indexTree ToyLang false [(1, code [11, 13] 9), (5, code [51])] [fun _ => ⟨mainTree, true⟩] .never {})).now.vec =
      some [(1, 13), (1, 11), (5, 51)] :=
  ⟨fun _ => rfl, ⟨rfl, by decide +kernel, by decide +kernel, by decide +kernel, by decide +kernel, by decide +kernel⟩, by decide +kernel,
    rfl, by decide +kernel⟩

example : rootsIn (fun c => c == ' ') (fun p => some p) "worktree /a/main\nHEAD 12\nbranch refs/heads/main\n\nworktree /a/wt\ndetached\n\n".toList =
    ["/a/main".toList, "/a/wt".toList] := by decide +kernel

/-! ### Where C72 fails -/

/-- A file that differs between the worktrees is recorded with its time and size here and the hash of the other content: its old units stay in the
index, and no later run replaces them. -/
theorem C72_differing_stale :
    let main : Disk Nat (List Nat) := [(1, code [11]), (2, code [21])]
    let here : Disk Nat (List Nat) := [(1, code [12, 13] 7), (2, code [21] 7)]
    let look : Nat → Sibling Nat Nat (List Nat) := fun _ => ⟨(leftBy (runs ToyLang [main] {})).now, true⟩
    ∀ n, (leftBy (runs ToyLang (List.replicate n here) (leftBy (indexTree ToyLang false here [look] .never {})))).now.vec =
      some [(2, 21), (1, 11)] := by
  intro main here look n
  have h1 : index ToyLang here .never (leftBy (indexTree ToyLang false here [look] .never {})) =
      .ok (leftBy (indexTree ToyLang false here [look] .never {})) := by decide +kernel
  have h2 : ∀ n, runs ToyLang (List.replicate n here) (leftBy (indexTree ToyLang false here [look] .never {})) =
      .ok (leftBy (indexTree ToyLang false here [look] .never {})) := by
    intro n
    induction n with
    | zero => rfl
    | succ n ih =>
      rw [List.replicate_succ]
      unfold runs
      rw [h1]
      exact ih
  rw [h2]
  decide +kernel

/-- If the process is killed after the copy was moved into place and before the state is saved, the next runs take the files here for what is indexed. -/
theorem C72_killed_stale :
    let main : Disk Nat (List Nat) := [(1, code [11]), (2, code [21])]
    let here : Disk Nat (List Nat) := [(1, code [12, 13] 7), (2, code [21] 7)]
    let look : Nat → Sibling Nat Nat (List Nat) := fun _ => ⟨(leftBy (runs ToyLang [main] {})).now, true⟩
    ∃ killed ∈ (leftBy (indexTree ToyLang false here [look] .never {})).past, killed.vec ≠ none ∧
      (leftBy (runs ToyLang [here, here] ⟨killed, []⟩)).now.vec = some [(2, 21), (1, 11)] := by
  decide +kernel

/-- The sibling is not locked while it is copied: if it is updated meanwhile, the rows may not belong to the documents, and later runs do not repair it. -/
theorem C72_copied_during_update_misaligned :
    let main : Disk Nat (List Nat) := [(1, code [11]), (2, code [21])]
    let main' : Disk Nat (List Nat) := [(1, code [12] 2), (2, code [21])]
    let old := (leftBy (runs ToyLang [main] {})).now
    let new := (leftBy (runs ToyLang [main, main'] {})).now
    let look : Nat → Sibling Nat Nat (List Nat) := fun i => if i < 2 then ⟨old, true⟩ else ⟨new, true⟩
    let left := (leftBy ((indexTree ToyLang false main [look] .never {}).bind (runs ToyLang [main, main]))).now
    left.vec = some [(2, 21), (1, 11)] ∧ left.db = some [(2, 21), (1, 12)] := by
  decide +kernel

/-- A file that was not text in the sibling is never indexed here, although it is text here. -/
theorem C72_skipped_in_sibling :
    let main : Disk Nat (List Nat) := [(1, code [11]), (2, code [0])]
    let here : Disk Nat (List Nat) := [(1, code [11] 7), (2, code [21] 7)]
    let look : Nat → Sibling Nat Nat (List Nat) := fun _ => ⟨(leftBy (runs ToyLang [main] {})).now, true⟩
    (leftBy ((indexTree ToyLang false here [look] .never {}).bind (runs ToyLang [here, here]))).now.vec = some [(1, 11)] := by
  decide +kernel

end NextPlaid.Props
