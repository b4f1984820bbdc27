import Verif.Proofs.Shutdown

/-!
C107: what ending the server with SIGINT or SIGTERM does to requests and to updates and deletions answered 202.
-/

namespace NextPlaid.Props
open NextPlaid.Batch NextPlaid.Shutdown NextPlaid.Spec NextPlaid.Spec.Shutdown NextPlaid.Proofs.Shutdown

variable {E M α : Type}

/-- When the server has ended, every HTTP request it had taken in has been answered; after the signal it takes none. -/
theorem C107_answered (max cap dmax dcap : Nat) (es : List (Event E M α)) (s : Server E M α)
    (h : course max cap dmax dcap {} es = some s) :
    (s.down = true → s.replied = s.taken) ∧ (s.signalled = true → next max cap dmax dcap s .arrive = none) := by
  have hi := course_inv es (init_inv max cap dmax dcap [] (by simp)) h
  refine ⟨fun hd => ?_, fun hs => ?_⟩
  · have h1 := hi.count
    have h2 := hi.down hd
    omega
  · unfold next
    split
    · rfl
    · simp [runningStep, hs]

/-- In every life of the server, what is stored are whole requests and the first of those answered 202, in order: there is
no gap, and no request is stored in part.  The same for deletions.  Partial: not all of them (`C107_lost_refuted`). -/
theorem C107_first_partial (max cap dmax dcap : Nat) (es : List (Event E M α)) (s : Server E M α)
    (h : course max cap dmax dcap {} es = some s) (l : Life E M α) (hl : l ∈ s.past) :
    FirstOf (fun g => (g.flatMap (·.embeddings), g.flatMap (·.metadata))) l.updates l.updated ∧
    FirstOf id l.deletions l.deleted := by
  have hf := (course_inv es (init_inv max cap dmax dcap [] (by simp)) h).past l hl
  obtain ⟨g, r, h1, h2, _⟩ := hf.up
  obtain ⟨g', r', h1', h2', _⟩ := hf.del
  exact ⟨⟨g, r, h1, h2⟩, ⟨g', r', h1', h2'⟩⟩

/-- No more is lost than the queue holds and one batch may take. -/
theorem C107_loss_bounded (max cap dmax dcap : Nat) (es : List (Event E M α)) (s : Server E M α)
    (h : course max cap dmax dcap {} es = some s) (l : Life E M α) (hl : l ∈ s.past) :
    AllBut (cap + Nat.max 1 max) (fun g => (g.flatMap (·.embeddings), g.flatMap (·.metadata))) l.updates l.updated ∧
    AllBut (dcap + Nat.max 1 dmax) id l.deletions l.deleted := by
  have hf := (course_inv es (init_inv max cap dmax dcap [] (by simp)) h).past l hl
  exact ⟨hf.up, hf.del⟩

/-- Nothing is lost if the queues are empty and each worker waits for a request or has begun the work of its last batch. -/
theorem C107_quiet (max cap dmax dcap : Nat) (es : List (Event E M α)) (s s' : Server E M α) (u d : Bool)
    (h : course max cap dmax dcap {} es = some s) (hx : next max cap dmax dcap s (.exit u d) = some s')
    (hq : s.up.queue = [] ∧ s.del.queue = [])
    (hu : s.up.worker = .idle ∨ (∃ b, s.up.worker = .processing b) ∧ u = true)
    (hd : s.del.worker = .idle ∨ (∃ b, s.del.worker = .processing b) ∧ d = true) :
    ∃ l, s'.past = s.past ++ [l] ∧ l.updates = s.up.accepted ∧ l.deletions = s.del.accepted ∧
      AllOf (fun g => (g.flatMap (·.embeddings), g.flatMap (·.metadata))) l.updates l.updated ∧
      AllOf id l.deletions l.deleted := by
  have hi := course_inv es (init_inv max cap dmax dcap [] (by simp)) h
  have hs' : s'.past = s.past ++ [life s u d] := by
    unfold next at hx
    split at hx
    · cases hx
    · simp only [runningStep] at hx
      split at hx <;> cases hx
      rfl
  refine ⟨life s u d, hs', rfl, rfl, ?_, ?_⟩
  · obtain ⟨groups, cur, hb⟩ := hi.up
    have hcur : cur = [] := by
      have := hb.holds
      rcases hu with hu | ⟨⟨b, hu⟩, _⟩ <;> rw [hu] at this <;> exact this
    refine ⟨groups, ⟨?_, fun g hg => (hb.group g hg).1⟩, ?_⟩
    · simp [life, hb.accepted, hcur, hq.1]
    · refine Eq.trans ?_ hb.handed
      rcases hu with hu | ⟨⟨b, hu⟩, rfl⟩ <;> simp [life, kept, hu, busy]
  · obtain ⟨cur, hb⟩ := hi.del
    have hcur : cur = [] := by
      have := hb.holds
      rcases hd with hd | ⟨⟨b, hd⟩, _⟩ <;> rw [hd] at this <;> exact this
    refine ⟨s.del.handed, ⟨?_, fun g hg => (hb.group g hg).1⟩, ?_⟩
    · simp [life, hb.accepted, hcur, hq.2]
    · rcases hd with hd | ⟨⟨b, hd⟩, rfl⟩ <;> simp [life, kept, hd, dBusy]

/-- A life that met the hypotheses, with a second after it. -/
example :
    (course 2 3 2 3 ({} : Server Nat Nat Nat) [.arrive, .up (.request ⟨[1], [10]⟩), .arrive, .del (.request 7), .up .recv,
      .up .timeout, .del .recv, .del .timeout, .del .timeout, .signal, .exit true true, .start, .arrive]).map
        (fun s => (s.past.map (·.updated), s.past.map (·.deleted), s.underWay)) =
      some ([[([1], [10])]], [[[7]]], 1) := by
  decide +kernel

/-- The end of the server is called graceful and a 202 says that the update is accepted.  An update and a deletion answered
202 are gone if the signal comes before the worker has taken them, although the server waits for every HTTP request; and a
batch the worker has taken is gone if its work has not begun. -/
theorem C107_lost_refuted (max cap dmax dcap : Nat) (hc : 0 < cap) (hdc : 0 < dcap) (item : Item E M)
    (hv : item.embeddings ≠ [] ∧ item.metadata.length = item.embeddings.length) (x : α) :
    (∃ (es : List (Shutdown.Event E M α)) (s : Server E M α), course max cap dmax dcap {} es = some s ∧ s.down = true ∧ s.past = [⟨[item], [], [x], []⟩]) ∧
    (∃ (es : List (Shutdown.Event E M α)) (s : Server E M α), course max cap dmax dcap {} es = some s ∧ s.down = true ∧ s.past = [⟨[item], [], [], []⟩] ∧
      s.up.handed = [(item.embeddings, item.metadata)]) := by
  have hval : valid item = true := by simp [valid, hv.1, hv.2]
  constructor
  · refine ⟨[.arrive, .up (.request item), .arrive, .del (.request x), .signal, .exit true true], ?_⟩
    simp [course, next, runningStep, upStep, delStep, isClose, needs, isDClose, dReplies, replies, reply, step, dStep, hval,
      hc, hdc, life, kept, busy, dBusy]
  · by_cases hm : item.embeddings.length < max
    · refine ⟨[.arrive, .up (.request item), .up .recv, .up .timeout, .signal, .exit false true], ?_⟩
      simp [course, next, runningStep, upStep, isClose, needs, replies, reply, step, hval,
        hc, life, kept, busy, dBusy, receive, collect, finish, hm, hv.1]
    · refine ⟨[.arrive, .up (.request item), .up .recv, .signal, .exit false true], ?_⟩
      simp [course, next, runningStep, upStep, isClose, needs, replies, reply, step, hval,
        hc, life, kept, busy, dBusy, receive, collect, finish, hm, hv.1]

/-- What was lost stays lost: no later life changes what an earlier one has done. -/
theorem C107_for_good (max cap dmax dcap : Nat) (es : List (Event E M α)) (s s' : Server E M α)
    (h : course max cap dmax dcap s es = some s') : s.past <+: s'.past :=
  course_past es h

end NextPlaid.Props
