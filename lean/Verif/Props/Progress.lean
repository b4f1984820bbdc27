import Verif.Proofs.Progress2

/-!
Property theorems C36 (the progress report of updates).  `runCalls [] calls` is the report's table after the server made the
calls `calls` (clock reading, index, event) since its start; `report m now` is what a health request gets at reading `now`.
Clock readings are arbitrary.
-/

namespace NextPlaid.Props
open NextPlaid NextPlaid.Progress NextPlaid.Spec

variable {E M : Type}

/-- C36: an index for which something was queued or started, and neither completed nor failed since, is in every report:
as running if some work was started, otherwise as queued. -/
theorem C36_active_shown (calls : List Call) (name : String) (now : Int) (h : sinceEnd (eventsOf calls name) ≠ []) :
    ∃ r ∈ report (runCalls [] calls) now, r.index = name ∧
      r.status = if startsWork (sinceEnd (eventsOf calls name)) then .running else .queued := by
  obtain ⟨p, hp, hs⟩ := (good_run calls name).1 h
  refine ⟨row name p now, (mem_report (keys_run_nil calls)).2 ⟨name, p, hp, visible_active ?_, rfl⟩, rfl, hs⟩
  rw [hs]; split <;> simp

/-- C36: until a first update of an index ends, the report shows how many documents were queued in all.  (Later on the number
is wrong: see `C36_counter_not_reset`.) -/
theorem C36_queued_counted_partial (calls : List Call) (name : String) (now : Int)
    (hno : ∀ e ∈ eventsOf calls name, ends e = false) (hmax : documentsQueued (eventsOf calls name) < 2 ^ 64)
    (hq : ∃ n m, .queued n m ∈ eventsOf calls name) :
    ∃ r ∈ report (runCalls [] calls) now, r.index = name ∧ r.queued = some (documentsQueued (eventsOf calls name)) := by
  obtain ⟨n, m, hm⟩ := hq
  obtain ⟨p, hp, hs⟩ := (good_run calls name).1 (by
    rw [sinceEnd_all _ hno]; exact List.ne_nil_of_mem hm)
  refine ⟨row name p now, (mem_report (keys_run_nil calls)).2 ⟨name, p, hp, visible_active ?_, rfl⟩, rfl, ?_⟩
  · rw [hs]; split <;> simp
  · have := counted_run calls name hno (by unfold usizeMax; omega) p hp
    rwa [if_pos (List.any_eq_true.2 ⟨_, hm, rfl⟩)] at this

/-- An index that ended an update at `t`, and its entry later on. -/
theorem finished (before after : List Call) (t : Int) (name : String) (e : Event) (he : ends e = true)
    (ho : ∀ c ∈ after, c.2.1 ≠ name) :
    ∃ p, find (runCalls [] (before ++ (t, name, e) :: after)) name = (some p).filter (fun p => after.all fun c => visible p c.1) ∧
      p.updated = t ∧ (p.status ≠ .queued ∧ p.status ≠ .running) ∧
      match e with
      | .complete n message => p.status = .complete ∧ p.processed = some n ∧ p.message = some message ∧ p.error = none
      | .failed error => p.status = .failed ∧ p.error = some error
      | _ => False := by
  refine ⟨next ((find (runCalls [] before) name).filter fun p => visible p t) t e, ?_, ?_⟩
  · rw [runCalls_append]
    show find (runCalls (record (runCalls [] before) t name e) after) name = _
    rw [find_others _ (keys_record _ _ _ _ (keys_run_nil before)) name after ho,
      find_record _ _ _ _ _ (keys_run_nil before), if_pos rfl]
  · cases e with
    | queued _ _ => simp [ends] at he
    | stage _ _ => simp [ends] at he
    | complete _ _ => simp [next]
    | failed _ => simp [next]

/-- C36: the end of an update is shown, with its outcome, at every reading up to ten minutes after it (and also when the
clock was set back), as long as nothing new is recorded for the index and no reading in between was later. -/
theorem C36_finished_shown (before after : List Call) (t now : Int) (name : String) (e : Event) (he : ends e = true)
    (ho : ∀ c ∈ after, c.2.1 ≠ name ∧ c.1 ≤ t + 10 * 60 * 1000000000) (hnow : now ≤ t + 10 * 60 * 1000000000) :
    ∃ r ∈ report (runCalls [] (before ++ (t, name, e) :: after)) now, r.index = name ∧ r.updated = t ∧
      match e with
      | .complete n message => r.status = .complete ∧ r.processed = some n ∧ r.message = some message ∧ r.error = none
      | .failed error => r.status = .failed ∧ r.error = some error
      | _ => False := by
  obtain ⟨p, hp, ht, _, hm⟩ := finished before after t name e he fun c hc => (ho c hc).1
  have hv : ∀ u : Int, u ≤ t + 10 * 60 * 1000000000 → visible p u = true := by
    intro u hu
    unfold visible
    simp only [Bool.or_eq_true, decide_eq_true_eq, ht, retention]
    right; omega
  rw [Option.filter_some, if_pos (List.all_eq_true.2 fun c hc => hv _ (ho c hc).2)] at hp
  exact ⟨row name p now, (mem_report (keys_run_nil _)).2 ⟨name, p, hp, hv now hnow, rfl⟩, rfl, ht, hm⟩

/-- C36: later than ten minutes after its end, an update is not shown. -/
theorem C36_finished_gone (before after : List Call) (t now : Int) (name : String) (e : Event) (he : ends e = true)
    (ho : ∀ c ∈ after, c.2.1 ≠ name) (hnow : t + 10 * 60 * 1000000000 < now) :
    ∀ r ∈ report (runCalls [] (before ++ (t, name, e) :: after)) now, r.index ≠ name := by
  intro r hr hn
  obtain ⟨n, p, h1, h2, rfl⟩ := (mem_report (keys_run_nil _)).1 hr
  have : n = name := hn
  subst this
  obtain ⟨p', hp', ht, hs, _⟩ := finished before after t n e he ho
  rw [hp', Option.filter_some] at h1
  split at h1 <;> cases h1
  unfold visible at h2
  simp only [Bool.or_eq_true, decide_eq_true_eq, beq_iff_eq, ht, retention, hs.1, hs.2, false_or] at h2
  omega

/-- C36: only indices with updates are listed, in the order of their names, each once. -/
theorem C36_listed (calls : List Call) (now : Int) :
    (report (runCalls [] calls) now).Pairwise (fun a b => a.index < b.index) ∧
    ∀ r ∈ report (runCalls [] calls) now, ∃ c ∈ calls, c.2.1 = r.index := by
  constructor
  · have h1 : (report (runCalls [] calls) now).Pairwise (fun a b => decide (a.index ≤ b.index) = true) :=
      List.pairwise_mergeSort (fun a b c => by simp only [decide_eq_true_eq]; exact le_trans)
        (fun a b => by simp only [Bool.or_eq_true, decide_eq_true_eq]; exact le_total _ _) _
    have h2 : ((report (runCalls [] calls) now).map (·.index)).Nodup := by
      unfold report
      rw [((List.mergeSort_perm _ _).map _).nodup_iff, List.map_map]
      exact keys_prune _ now (keys_run_nil calls)
    rw [List.nodup_iff_pairwise_ne, List.pairwise_map] at h2
    exact (h1.and h2).imp fun h => lt_of_le_of_ne (by simpa using h.1) h.2
  · intro r hr
    obtain ⟨n, p, h1, _, rfl⟩ := (mem_report (keys_run_nil _)).1 hr
    by_contra hc
    have : eventsOf calls n = [] := by
      unfold eventsOf
      rw [List.map_eq_nil_iff, List.filter_eq_nil_iff]
      intro c hcm hcn
      exact hc ⟨c, hcm, by simpa [row] using hcn⟩
    rw [(good_run calls n).2.2 this] at h1
    cases h1

/-- C36: the elapsed time of a finished update does not depend on when the report is made. -/
theorem C36_elapsed_frozen (now now' : Int) (n : String) (p : Progress)
    (h : p.status = .complete ∨ p.status = .failed) : (row n p now).elapsedMs = (row n p now').elapsedMs := by
  simp only [row, elapsed, if_pos h]

/-- Readings in nanoseconds; index "b" fails at 7 s, while "a" is still running. -/
def toyCalls : List Call :=
  [(0, "a", .queued 3 "q"), (1000000000, "b", .queued 1 "q"), (2000000000, "a", .stage "kmeans" "k"),
   (3000000000, "b", .stage "reload" "r"), (7000000000, "b", .failed "disk full"), (9000000000, "a", .queued 2 "q")]

example : sinceEnd (eventsOf toyCalls "a") ≠ [] ∧ startsWork (sinceEnd (eventsOf toyCalls "a")) = true ∧
    sinceEnd (eventsOf toyCalls "b") = [] ∧ (find (runCalls [] toyCalls) "a").map (·.queued) = some (some 5) := by
  decide +kernel
example : (∀ e ∈ eventsOf toyCalls "a", ends e = false) ∧ documentsQueued (eventsOf toyCalls "a") = 5 ∧
    .queued 2 "q" ∈ eventsOf toyCalls "a" := by
  decide +kernel
example : ∃ r ∈ report (runCalls [] toyCalls) 607000000000, r.index = "b" ∧ r.updated = 7000000000 ∧
    (r.status = .failed ∧ r.error = some "disk full") :=
  C36_finished_shown (toyCalls.take 4) (toyCalls.drop 5) 7000000000 607000000000 "b" (.failed "disk full") rfl
    (by decide) (by decide)

/-! ### The report and the updates themselves -/

/-- C36: while the worker processes a batch (from the moment it has the lock), the report shows the index as running, in
every schedule in which no other request for the index fails to be encoded.  (What is missing is in the three theorems
below: the report does not follow updates that wait in the queue.) -/
theorem C36_processing_shown_partial {max cap : Nat} {name : String} {s : System E M} {acts : List (Int × Act E M)}
    (h : runActs max cap name {} acts = some s) (ha : ∀ a ∈ acts, ∀ e, a.2 ≠ .encodeFailed e) (hb : s.begun = true)
    (now : Int) : ∃ r ∈ report s.map now, r.index = name ∧ r.status = .running := by
  have hs := runActs_shown (name := name) ⟨by simp [keys], fun h => by cases h⟩ ha h
  have := (hs.run hb).2
  unfold statusIn at this
  rw [Option.map_eq_some_iff] at this
  obtain ⟨p, hp, hr⟩ := this
  exact ⟨row name p now, (mem_report hs.nodup).2 ⟨name, p, hp, visible_active (.inr hr), rfl⟩, rfl, hr⟩

/-- C36: when nothing is queued, reserved, collected or processed, no report shows the index as running, in every
schedule. -/
theorem C36_idle_not_running {max cap : Nat} {name : String} {s : System E M} {acts : List (Int × Act E M)}
    (h : runActs max cap name {} acts = some s) (hq : s.batch.queue = []) (hr : s.batch.reserved = 0)
    (hw : s.batch.worker = .idle ∨ s.batch.worker = .stopped) (now : Int) :
    ∀ r ∈ report s.map now, r.index = name → r.status ≠ .running := by
  have hs := runActs_honest (name := name) (s := {}) ⟨by simp [keys], by simp, by simp, by simp, fun h => by cases h⟩ h
  rintro r hm hn hr'
  obtain ⟨n, p, h1, _, rfl⟩ := (mem_report hs.nodup).1 hm
  have : n = name := hn
  subst this
  rcases hs.busy (by unfold statusIn; rw [h1]; exact congrArg some hr') with hb | hb | ⟨_, _, _, hb⟩ | ⟨_, hb⟩
  · omega
  · exact hb hq
  · rcases hw with hw | hw <;> rw [hw] at hb <;> cases hb
  · rcases hw with hw | hw <;> rw [hw] at hb <;> cases hb

/-- One document. -/
def oneItem : Batch.Item Unit Unit := ⟨[()], [()]⟩

def actsStale : List (Int × Act Unit Unit) :=
  [(0, .accept oneItem), (1, .recv), (2, .timeout), (3, .begin), (4, .complete 1), (5, .recordSent)]
def actsHidden : List (Int × Act Unit Unit) :=
  [(0, .accept oneItem), (1, .recordSent), (2, .recv), (3, .timeout), (4, .begin), (5, .accept oneItem), (6, .recordSent),
   (7, .complete 1)]
def actsFailed : List (Int × Act Unit Unit) :=
  [(0, .accept oneItem), (1, .recordSent), (2, .recv), (3, .timeout), (4, .begin), (5, .reserve 1),
   (6, .encodeFailed "no model")]

/-- Disagreement: the handler sends its item before it records it, so a fast worker can finish first; the report then shows
a queued update for ever although nothing is queued (documents.rs:1577-1587). -/
theorem C36_stale_queued :
    ∃ s, runActs 300 100 "a" {} actsStale = some s ∧ s.batch.queue.length = 0 ∧ s.batch.reserved = 0 ∧ s.pending = [] ∧
      s.begun = false ∧ ∀ now, ∃ r ∈ report s.map now, r.index = "a" ∧ r.status = .queued := by
  obtain ⟨s, hs⟩ : ∃ s, runActs 300 100 "a" {} actsStale = some s :=
    Option.isSome_iff_exists.1 (by decide +kernel)
  have h : (runActs 300 100 "a" {} actsStale).map (fun s => (s.batch.queue.length, s.batch.reserved, s.pending, s.begun,
      statusIn s.map "a")) = some (0, 0, [], false, some .queued) := by decide +kernel
  rw [hs] at h
  simp only [Option.map_some, Option.some.injEq, Prod.mk.injEq] at h
  obtain ⟨h1, h2, h3, h4, h5⟩ := h
  refine ⟨s, hs, h1, h2, h3, h4, fun now => ?_⟩
  unfold statusIn at h5
  rw [Option.map_eq_some_iff] at h5
  obtain ⟨p, hp, hr⟩ := h5
  exact ⟨row "a" p now, (mem_report (runActs_honest (name := "a") (s := {})
    ⟨by simp [keys], by simp, by simp, by simp, fun h => by cases h⟩ hs).nodup).2
      ⟨"a", p, hp, visible_active (.inl hr), rfl⟩, rfl, hr⟩

/-- Disagreement: an update that was accepted and recorded while an earlier batch was running is shown as complete when that
batch completes, and is not shown at all ten minutes later, although it is still in the queue (state.rs:546, 611). -/
theorem C36_queued_update_hidden :
    ∃ s, runActs 300 100 "a" {} actsHidden = some s ∧ s.batch.queue.length = 1 ∧ s.pending = [] ∧
      (∃ r ∈ report s.map 8, r.index = "a" ∧ r.status = .complete) ∧
      ∀ now, 7 + 10 * 60 * 1000000000 < now → report s.map now = [] := by
  obtain ⟨s, hs⟩ : ∃ s, runActs 300 100 "a" {} actsHidden = some s :=
    Option.isSome_iff_exists.1 (by decide +kernel)
  have h : (runActs 300 100 "a" {} actsHidden).map (fun s => (s.batch.queue.length, s.pending,
      s.map.map fun e => (e.1, e.2.status, e.2.updated))) = some (1, [], [("a", .complete, 7)]) := by decide +kernel
  rw [hs] at h
  simp only [Option.map_some, Option.some.injEq, Prod.mk.injEq] at h
  obtain ⟨h1, h2, h3⟩ := h
  have hm := (runActs_honest (name := "a") (s := {})
    ⟨by simp [keys], by simp, by simp, by simp, fun h => by cases h⟩ hs).nodup
  obtain ⟨e, he⟩ : ∃ e, s.map = [e] := by
    match hmm : s.map with
    | [] => rw [hmm] at h3; simp at h3
    | [e] => exact ⟨e, rfl⟩
    | _ :: _ :: _ => rw [hmm] at h3; simp at h3
  rw [he] at h3
  simp only [List.map_cons, List.map_nil, List.cons.injEq, Prod.mk.injEq, and_true] at h3
  obtain ⟨ha, hb, hc⟩ := h3
  refine ⟨s, hs, h1, h2, ⟨row e.1 e.2 8, ?_, ha, hb⟩, fun now hnow => ?_⟩
  · refine (mem_report hm).2 ⟨e.1, e.2, (find_mem hm).1 (by rw [he]; simp), ?_, rfl⟩
    unfold visible; simp [hb, hc, retention]
  · unfold report
    rw [he, List.filter_cons, if_neg (by unfold visible; simp [hb, hc, retention]; omega)]
    simp

/-- Disagreement: a request whose documents cannot be encoded shows the index as failed although a batch is being processed
(documents.rs:1746). -/
theorem C36_failure_of_another_request :
    ∃ s, runActs 300 100 "a" {} actsFailed = some s ∧ s.begun = true ∧ statusIn s.map "a" = some .failed := by
  obtain ⟨s, hs⟩ : ∃ s, runActs 300 100 "a" {} actsFailed = some s :=
    Option.isSome_iff_exists.1 (by decide +kernel)
  have h : (runActs 300 100 "a" {} actsFailed).map (fun s => (s.begun, statusIn s.map "a")) = some (true, some .failed) := by
    decide +kernel
  rw [hs] at h
  simp only [Option.map_some, Option.some.injEq, Prod.mk.injEq] at h
  exact ⟨s, hs, h⟩

/-- Disagreement: the number of queued documents is not reset when an update ends: after three documents were processed, one
new document is reported as four queued (state.rs:538-543). -/
theorem C36_counter_not_reset :
    (find (runCalls [] [(0, "a", .queued 3 "q"), (1, "a", .stage "s" "m"), (2, "a", .complete 3 "c"), (3, "a", .queued 1 "q")])
      "a").map (fun p => (p.status, p.queued)) = some (.queued, some 4) := by
  decide +kernel

/-- The hypotheses of the partial theorem hold for a schedule in which a batch is processed while another update is queued. -/
example : (runActs 300 100 "a" {} (actsHidden.take 7)).map (fun s => (s.begun, s.batch.queue.length)) = some (true, 1) ∧
    ∀ a ∈ actsHidden.take 7, ∀ e, a.2 ≠ .encodeFailed e := by
  constructor
  · decide +kernel
  · simp [actsHidden]

end NextPlaid.Props
