import Verif.Proofs.Slots2

/-!
Property theorems C35 (snapshots that searches use).  `run {} es = some s`: the events `es` (writes to the directory, requests,
publications, steps of threads, in any order) lead to `s`; `s.seen` lists the versions that readers got, in order.
-/

namespace NextPlaid.Props
open NextPlaid NextPlaid.Slots NextPlaid.Spec

/-- C35: a search that has its snapshot keeps it, whatever is written, published or unloaded meanwhile. -/
theorem C35_snapshot_kept {es es' : List Event} {s s' : State} (_ : run {} es = some s) {i v : Nat}
    (hi : s.threads[i]? = some (.rHas v)) (h' : run s es' = some s') : s'.threads[i]? = some (.rHas v) :=
  run_has hi h'

/-- C35: in every schedule, every snapshot a reader has was loaded from the directory, so it is a version that was on disk. -/
theorem C35_published {es : List Event} {s : State} (h : run {} es = some s) :
    (∀ v, .rHas v ∈ s.threads → v ∈ s.seen) ∧ ∀ v ∈ s.seen, v ∈ s.loads ∧ v ≤ s.disk := by
  have hg := run_genuine genuine_start h
  exact ⟨run_recorded recorded_start h, fun v hv => ⟨hg.seen v hv, hg.loads v (hg.seen v hv)⟩⟩

/-- C35: in every schedule, at most one reader at a time loads the index from the directory. -/
theorem C35_one_loader {es : List Event} {s : State} (h : run {} es = some s) {i j : Nat} {p q : Phase}
    (hi : s.threads[i]? = some p) (hj : s.threads[j]? = some q) (hp : loading p = true) (hq : loading q = true) : i = j := by
  have hl := run_locked locked_start h
  exact Option.some.inj ((hl i p hi hp).symm.trans (hl j q hj hq))

/-- C35, the order of reads: when no two publications overlap (a publication being a load from disk together with making it
visible) and the index is not unloaded, no read gets an older version than an earlier read.  (Without these conditions it
is refuted below.) -/
theorem C35_never_back_partial {es : List Event} {s : State} (h : run {} es = some s) (hu : .unload ∉ es)
    (ho : noOverlap {} es) : neverBack s.seen := (run_ordered ordered_start hu ho h).back

/-- C35, fresh reads: under the same conditions, and while the index is not removed, once a publication is finished every
read gets a version that includes all the writes that were complete when the publication began. -/
theorem C35_fresh_partial {es es' es'' : List Event} {s s' s'' : State} {i : Nat} {r : Bool} (h : run {} es = some s)
    (hi : s.threads[i]? = some (.pStart r)) (hp : s.present = true) (h' : run s es' = some s')
    (hd : s'.threads[i]? = some .pDone) (h'' : run s' es'' = some s'')
    (hu : .unload ∉ es ++ (es' ++ es'')) (hr : .remove ∉ es' ++ es'') (ho : noOverlap {} (es ++ (es' ++ es''))) :
    ∃ later, s''.seen = s'.seen ++ later ∧ ∀ v ∈ later, s.disk ≤ v := by
  obtain ⟨ho1, ho2⟩ := noOverlap_append ho h
  obtain ⟨ho2, ho3⟩ := noOverlap_append ho2 h'
  simp only [List.mem_append, not_or] at hu hr
  have h1 := run_ordered ordered_start hu.1 ho1 h
  have hpub : Publishes s.disk i s := by
    unfold Publishes
    rw [hi]
    exact ⟨Nat.le_refl _, hp⟩
  obtain ⟨h2, hp2⟩ := run_publishes h1 hu.2.1 hr.1 ho2 hpub h'
  exact run_fresh h2 hu.2.2 hr.2 ho3 hp2 hd h''

/-- A schedule that meets the conditions: a first read loads version 1, a writer publishes version 2 while another reader
has its slot, and reads follow. -/
def toySchedule : List Event :=
  [.write, .read, .next 0, .next 0, .next 0, .next 0, .next 0, .next 0, .next 0, .read, .next 1, .write, .publish true, .next 2, .next 2,
   .next 1, .read, .next 3, .next 3]

/-- `noOverlap`, by running the schedule. -/
def overlapFree : State → List Event → Bool
  | _, [] => true
  | s, e :: es => match step s e with
    | none => true
    | some s' => decide (s'.threads.countP publishing ≤ 1) && overlapFree s' es

theorem overlapFree_sound : ∀ (es : List Event) (s : State), overlapFree s es = true → noOverlap s es
  | [], _, _ => trivial
  | e :: es, s, h => by
    intro s' hs'
    rw [overlapFree, hs'] at h
    simp only [Bool.and_eq_true, decide_eq_true_eq] at h
    exact ⟨h.1, overlapFree_sound es s' h.2⟩

example : ∃ s, run {} toySchedule = some s ∧ s.seen = [1, 2, 2] ∧ s.threads[0]? = some (.rHas 1) ∧ .unload ∉ toySchedule ∧
    noOverlap {} toySchedule := by
  refine ⟨(run {} toySchedule).get (by decide +kernel), by simp, by decide +kernel, by decide +kernel, by decide, ?_⟩
  exact overlapFree_sound _ _ (by decide +kernel)

/-- The same schedule, cut where the writer begins and where it has finished. -/
example : ∃ s s' s'', run {} (toySchedule.take 13) = some s ∧ s.threads[2]? = some (.pStart true) ∧ s.present = true ∧ s.disk = 2 ∧
    run s ((toySchedule.drop 13).take 2) = some s' ∧ s'.threads[2]? = some .pDone ∧ s'.seen = [1] ∧
    run s' (toySchedule.drop 15) = some s'' ∧ s''.seen = [1, 2, 2] ∧
    toySchedule.take 13 ++ ((toySchedule.drop 13).take 2 ++ toySchedule.drop 15) = toySchedule ∧ .remove ∉ toySchedule := by
  refine ⟨(run {} (toySchedule.take 13)).get (by decide +kernel), (run {} (toySchedule.take 15)).get (by decide +kernel),
    (run {} toySchedule).get (by decide +kernel), by simp, ?_, ?_, ?_, ?_, ?_, ?_, ?_, ?_, ?_, ?_⟩ <;> decide +kernel

/-- A reader that loads while another waits. -/
example : ∃ s, run {} [.write, .read, .read, .next 0, .next 1, .next 1, .next 1] = some s ∧ s.threads = [.rWait, .rMissing] ∧
    step s (.next 0) = none := by
  refine ⟨(run {} [.write, .read, .read, .next 0, .next 1, .next 1, .next 1]).get (by decide +kernel), by simp, ?_, ?_⟩ <;>
  decide +kernel

/-- Disagreement, with a single writer: a first read that loads version 1 inserts it after the writer has published version
2, and from then on searches get version 1 again (state.rs:401 inserts a new slot without a look at the map). -/
def coldSchedule : List Event :=
  [.write, .read, .next 0, .next 0, .next 0, .next 0, .write, .publish true, .next 1, .next 1, .read, .next 2, .next 2,
   .next 0, .read, .next 3, .next 3]

theorem C35_cold_read_goes_back : ∃ s, run {} coldSchedule = some s ∧ s.disk = 2 ∧ s.seen = [2, 1] := by
  refine ⟨(run {} coldSchedule).get (by decide +kernel), by simp, by decide +kernel, by decide +kernel⟩

/-- Disagreement, with two writers of the index (a direct addition and a batch, which do not exclude each other, C34): the one
that loaded first publishes last. -/
def twoWriters : List Event :=
  [.write, .read, .next 0, .next 0, .next 0, .next 0, .next 0, .next 0, .next 0, .publish false, .next 1, .write, .publish true, .next 2,
   .next 2, .read, .next 3, .next 3, .next 1, .read, .next 4, .next 4]

theorem C35_two_writers_go_back : ∃ s, run {} twoWriters = some s ∧ s.disk = 2 ∧ s.seen = [1, 2, 1] := by
  refine ⟨(run {} twoWriters).get (by decide +kernel), by simp, by decide +kernel, by decide +kernel⟩

end NextPlaid.Props
