import Verif.Spec.Batch
import Verif.Proofs.Batch

/-!
C31: every accepted update request is processed exactly once, in the order accepted, and each batch is closed as soon
as it holds at least the configured number of documents. C44: the same for deletions.
-/

namespace NextPlaid.Props
open NextPlaid.Batch NextPlaid.Spec NextPlaid.Proofs.Batch

variable {E M α : Type}

theorem docs_eq (g : List (Item E M)) : (g.map (·.embeddings.length)).sum = docs g := by
  induction g with
  | nil => rfl
  | cons i g ih => simp only [List.map_cons, List.sum_cons, ih, docs, List.flatMap_cons, List.length_append]

theorem zip_flatMap : ∀ (g : List (Item E M)), (∀ i ∈ g, i.metadata.length = i.embeddings.length) →
    (g.flatMap (·.embeddings)).zip (g.flatMap (·.metadata)) = g.flatMap (fun i => i.embeddings.zip i.metadata) := by
  intro g
  induction g with
  | nil => intro _; rfl
  | cons i g ih =>
    intro h
    simp only [List.flatMap_cons]
    rw [List.zip_append (h i (by simp)).symm, ih fun j hj => h j (by simp [hj])]

/-- The accepted requests, cut into consecutive groups, are the batches the worker handed over: nothing is lost, used
twice or reordered, and no batch grows beyond the request that filled it. -/
theorem C31_batches (max cap : Nat) (es : List (Event E M)) (s : State E M) (h : run max cap {} es = some s) :
    ∃ groups rest, CutsInto s.accepted groups rest ∧
      s.handed = groups.map (fun g => (g.flatMap (·.embeddings), g.flatMap (·.metadata))) ∧
      (∀ g ∈ groups, StoppedInTime (fun i : Item E M => i.embeddings.length) max g) ∧ s.queue <:+ rest := by
  obtain ⟨groups, cur, hi⟩ := run_inv es (init max) h
  refine ⟨groups, cur ++ s.queue, ⟨by rw [hi.accepted]; simp, fun g hg => (hi.group g hg).1⟩, hi.handed, ?_, ⟨cur, rfl⟩⟩
  intro g hg before last hb hne
  rw [docs_eq]
  have := (hi.group g hg).2
  rw [hb] at this
  simp only [List.dropLast_concat, List.length_append, List.length_singleton] at this
  exact this (by have := List.length_pos_iff.2 hne; omega)

/-- Each document reaches `process_batch` beside its own metadata, in the order in which requests were accepted. -/
theorem C31_documents_in_order (max cap : Nat) (es : List (Event E M)) (s : State E M) (h : run max cap {} es = some s) :
    (∀ b ∈ s.handed, b.1 ≠ [] ∧ b.2.length = b.1.length) ∧
      s.handed.flatMap (fun b => b.1.zip b.2) <+: s.accepted.flatMap (fun i => i.embeddings.zip i.metadata) := by
  obtain ⟨groups, cur, hi⟩ := run_inv es (init max) h
  have hv : ∀ g ∈ groups, ∀ i ∈ g, i.embeddings ≠ [] ∧ i.metadata.length = i.embeddings.length := by
    intro g hg i hgi
    exact valid_ne (hi.valid i (by
      rw [hi.accepted]
      exact List.mem_append_left _ (List.mem_append_left _ (List.mem_flatten.2 ⟨g, hg, hgi⟩))))
  have hlen : ∀ g : List (Item E M), (∀ i ∈ g, i.embeddings ≠ [] ∧ i.metadata.length = i.embeddings.length) →
      (g.flatMap (·.metadata)).length = (g.flatMap (·.embeddings)).length := by
    intro g
    induction g with
    | nil => intro _; rfl
    | cons i g ih =>
      intro h
      simp only [List.flatMap_cons, List.length_append]
      rw [ih fun j hj => h j (by simp [hj]), (h i (by simp)).2]
  refine ⟨?_, ?_⟩
  · intro b hb
    rw [hi.handed] at hb
    obtain ⟨g, hg, rfl⟩ := List.mem_map.1 hb
    refine ⟨?_, hlen g (hv g hg)⟩
    obtain ⟨i, rest, rfl⟩ := List.exists_cons_of_ne_nil (hi.group g hg).1
    simp only [batchOf, List.flatMap_cons, ne_eq, List.append_eq_nil_iff]
    intro hn
    exact (hv _ hg i (by simp)).1 hn.1
  · refine ⟨(cur ++ s.queue).flatMap (fun i => i.embeddings.zip i.metadata), ?_⟩
    have : s.handed.flatMap (fun b => b.1.zip b.2) = groups.flatten.flatMap (fun i => i.embeddings.zip i.metadata) := by
      rw [hi.handed]
      clear hi
      induction groups with
      | nil => rfl
      | cons g groups ih =>
        simp only [List.map_cons, List.flatMap_cons, List.flatten_cons, List.flatMap_append]
        rw [ih fun g' hg' => hv g' (by simp [hg'])]
        congr 1
        exact zip_flatMap g fun i hgi => (hv g (by simp) i hgi).2
    rw [this, hi.accepted]
    simp

/-- When the worker has nothing left to do, every accepted request has been handed over; and it has nothing left to
do after a number of its own steps that the queue bounds, whatever the timeouts. -/
theorem C31_drained (max cap : Nat) (es : List (Event E M)) (s : State E M) (h : run max cap {} es = some s) :
    ((step max cap s .recv = none ∧ step max cap s .timeout = none ∧ step max cap s .done = none) →
      s.handed.flatMap (fun b => b.1.zip b.2) = s.accepted.flatMap (fun i => i.embeddings.zip i.metadata)) ∧
    (∀ (ws : List (Event E M)) (s' : State E M), (∀ e ∈ ws, e = .recv ∨ e = .timeout ∨ e = .done) →
      run max cap s ws = some s' → ws.length ≤ 3 * s.queue.length + 3) := by
  refine ⟨?_, ?_⟩
  · rintro ⟨hr, ht, hd⟩
    obtain ⟨groups, cur, hi⟩ := run_inv es (init max) h
    have hpre := (C31_documents_in_order max cap es s h).2
    have hempty : cur = [] ∧ s.queue = [] := by
      have hh := hi.holds
      rcases hw : s.worker with _ | ⟨e, m, c⟩ | last | _
      · rw [hw] at hh
        refine ⟨hh, ?_⟩
        rcases hq : s.queue with _ | ⟨i, rest⟩
        · rfl
        · simp [step, receive, hw, hq] at hr
      · simp [step, hw] at ht
      · simp [step, hw] at hd
      · rw [hw] at hh
        exact ⟨hh, (hi.ending (by rw [hw]; trivial)).2⟩
    have hv : ∀ i ∈ groups.flatten, i.metadata.length = i.embeddings.length := by
      intro i hgi
      exact (valid_ne (hi.valid i (by
        rw [hi.accepted]
        exact List.mem_append_left _ (List.mem_append_left _ hgi)))).2
    rw [hi.accepted, hempty.1, hempty.2, List.append_nil, List.append_nil, hi.handed]
    clear hpre hi
    induction groups with
    | nil => rfl
    | cons g groups ih =>
      simp only [List.map_cons, List.flatMap_cons, List.flatten_cons, List.flatMap_append] at hv ⊢
      rw [ih fun i hgi => hv i (by simp [hgi])]
      congr 1
      exact zip_flatMap g fun i hgi => hv i (by simp [hgi])
  · intro ws s' hws hrun
    have := run_measure ws hws hrun
    have hm : NextPlaid.Proofs.Batch.measure s ≤ 3 * s.queue.length + 3 := by
      unfold NextPlaid.Proofs.Batch.measure
      split <;> omega
    omega

/-- A worker ends only after the queue was closed and emptied. -/
theorem C31_ends_empty (max cap : Nat) (es : List (Event E M)) (s : State E M) (h : run max cap {} es = some s)
    (hw : s.worker = .stopped) : s.closed = true ∧ s.queue = [] := by
  obtain ⟨groups, cur, hi⟩ := run_inv es (init max) h
  exact hi.ending (by rw [hw]; trivial)

/-- The queue never holds more than the configured number of requests, counting the slots reserved by requests whose
documents are being encoded; a request is accepted exactly when its documents and metadata correspond, the index has
not been deleted and there is room, and refusing it changes nothing. -/
theorem C31_bounded (max cap : Nat) (es : List (Event E M)) (s : State E M) (h : run max cap {} es = some s) :
    s.queue.length + s.reserved ≤ cap ∧
    ∀ item : Item E M, ∃ s', step max cap s (.request item) = some s' ∧
      ((item.embeddings ≠ [] ∧ item.metadata.length = item.embeddings.length ∧ s.closed = false ∧ s.queue.length + s.reserved < cap →
        s'.accepted = s.accepted ++ [item]) ∧
      (¬ (item.embeddings ≠ [] ∧ item.metadata.length = item.embeddings.length ∧ s.closed = false ∧ s.queue.length + s.reserved < cap) →
        s' = s)) := by
  refine ⟨run_room es h (by simp), fun item => ?_⟩
  have hv : valid item = true ↔ item.embeddings ≠ [] ∧ item.metadata.length = item.embeddings.length := by
    simp [valid]
  simp only [step, hv, and_assoc]
  split
  · next hif => exact ⟨_, rfl, fun _ => rfl, fun hn => absurd hif hn⟩
  · next hif => exact ⟨_, rfl, fun hn => absurd hn hif, fun _ => rfl⟩

/-- Two requests fill a batch of three, a third waits for its timeout. -/
example : ∃ s : State Nat Nat, run 3 10 {} [.request ⟨[1, 2], [11, 12]⟩, .recv, .request ⟨[3, 4], [13, 14]⟩,
    .request ⟨[5], [15]⟩, .recv, .done, .recv, .timeout, .done, .close, .recv] = some s ∧
    s.handed = [([1, 2, 3, 4], [11, 12, 13, 14]), ([5], [15])] ∧ s.accepted.length = 3 := ⟨_, rfl, rfl, rfl⟩

/-- The accepted deletions, cut into consecutive batches, are what the worker handed over; a batch of more than one
condition holds at most `max`. -/
theorem C44_batches (max cap : Nat) (es : List (DEvent α)) (s : DState α) (h : dRun max cap {} es = some s) :
    ∃ rest, CutsInto s.accepted s.handed rest ∧ s.queue <:+ rest ∧ ∀ g ∈ s.handed, 1 < g.length → g.length ≤ max := by
  obtain ⟨cur, hi⟩ := dRun_inv es (dInit max) h
  exact ⟨cur ++ s.queue, ⟨by rw [hi.accepted]; simp, fun g hg => (hi.group g hg).1⟩, ⟨cur, rfl⟩,
    fun g hg => (hi.group g hg).2⟩

/-- When the worker has nothing left to do, every accepted deletion has been handed over, once and in order; and it
gets there after a bounded number of its own steps. -/
theorem C44_drained (max cap : Nat) (es : List (DEvent α)) (s : DState α) (h : dRun max cap {} es = some s) :
    ((dStep max cap s .recv = none ∧ dStep max cap s .timeout = none ∧ dStep max cap s .done = none) →
      s.handed.flatten = s.accepted) ∧
    (∀ (ws : List (DEvent α)) (s' : DState α), (∀ e ∈ ws, e = .recv ∨ e = .timeout ∨ e = .done) →
      dRun max cap s ws = some s' → ws.length ≤ 4 * s.queue.length + 4) := by
  refine ⟨?_, ?_⟩
  · rintro ⟨hr, ht, hd⟩
    obtain ⟨cur, hi⟩ := dRun_inv es (dInit max) h
    have hempty : cur = [] ∧ s.queue = [] := by
      have hh := hi.holds
      rcases hw : s.worker with _ | b | b | last | _
      · rw [hw] at hh
        refine ⟨hh, ?_⟩
        rcases hq : s.queue with _ | ⟨i, rest⟩
        · rfl
        · simp [dStep, dReceive, hw, hq] at hr
      · simp [dStep, hw] at ht
      · simp [dStep, hw] at ht
      · simp [dStep, hw] at hd
      · rw [hw] at hh
        exact ⟨hh, (hi.ending (by rw [hw]; trivial)).2⟩
    rw [hi.accepted, hempty.1, hempty.2]
    simp
  · intro ws s' hws hrun
    have := dRun_measure ws hws hrun
    have hm : dMeasure s ≤ 4 * s.queue.length + 4 := by
      unfold dMeasure
      split <;> omega
    omega

/-- The queue of deletions never holds more than the configured number; a request is accepted exactly when the index has
not been deleted and there is room. -/
theorem C44_bounded (max cap : Nat) (es : List (DEvent α)) (s : DState α) (h : dRun max cap {} es = some s) :
    s.queue.length ≤ cap ∧
    ∀ item : α, ∃ s', dStep max cap s (.request item) = some s' ∧
      (s.closed = false ∧ s.queue.length < cap → s'.accepted = s.accepted ++ [item]) ∧
      (¬ (s.closed = false ∧ s.queue.length < cap) → s' = s) := by
  refine ⟨dRun_room es h (by simp), fun item => ?_⟩
  simp only [dStep]
  split
  · next hif => exact ⟨_, rfl, fun _ => rfl, fun hn => absurd hif hn⟩
  · next hif => exact ⟨_, rfl, fun hn => absurd hn hif, fun _ => rfl⟩

example : ∃ s : DState Nat, dRun 2 10 {} [.request 1, .request 2, .request 3, .recv, .recv, .done, .recv, .timeout,
    .timeout, .done] = some s ∧ s.handed = [[1, 2], [3]] ∧ s.accepted = [1, 2, 3] := ⟨_, rfl, rfl, rfl⟩

end NextPlaid.Props
