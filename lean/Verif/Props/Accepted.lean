import Verif.Proofs.Accepted

/-!
C85: what becomes of updates that were accepted.
-/

namespace NextPlaid.Props

open NextPlaid.Accepted NextPlaid.Abort

variable {V M : Type}

/-- Whatever the schedule of requests, receives, timeouts and batches: while clients give documents of one width and remove
the index only when its updates are through, what is stored is the documents of the requests accepted since then, each
beside its own metadata, in the order in which they were accepted, up to some point. -/
theorem C85_stored_partial (max cap : Nat) (cfg : Cfg) (held : List Nat) (w : Nat) (es : List (Event V M)) (s : Sys V M)
    (ho : Orderly max cap cfg held w {} es) (h : run max cap cfg held {} es = some s) :
    stored s <+: (accepted s).flatMap pairs ∧ s.srv.rows.length = s.srv.ix.docs.length := by
  have hg := run_good es (good_init max cap w) ho h
  obtain ⟨bs, hbs⟩ := hg.reach
  have hd := Props.C31_documents_in_order max cap bs _ hbs
  refine ⟨?_, by rw [hg.rows, hg.docs]; exact zip_lengths hd.1⟩
  rw [stored, hg.docs, hg.rows, zip_handed hd.1, flatMap_given]
  show _ <+: ((s.cur.getD {}).accepted).flatMap pairs
  rw [flatMap_pairs]
  exact hd.2.map _

/-- And when the worker has nothing left to do, it is all of them. -/
theorem C85_all_stored_partial (max cap : Nat) (cfg : Cfg) (held : List Nat) (w : Nat) (es : List (Event V M)) (s : Sys V M)
    (ho : Orderly max cap cfg held w {} es) (h : run max cap cfg held {} es = some s)
    (hr : step max cap cfg held s (.work .recv) = none) (ht : step max cap cfg held s (.work .timeout) = none)
    (hd : step max cap cfg held s (.work .done) = none) :
    stored s = (accepted s).flatMap pairs := by
  have hg := run_good es (good_init max cap w) ho h
  obtain ⟨bs, hbs⟩ := hg.reach
  have hio := Props.C31_documents_in_order max cap bs _ hbs
  have hno : ∀ e, asks e = false → closes e = false → step max cap cfg held s (.work e) = none →
      Batch.step max cap (s.cur.getD {}) e = none := by
    intro e ha hc hn
    simp only [step, workStep, ha, hc, Bool.false_and, Bool.false_eq_true, if_false] at hn
    split at hn
    · assumption
    · cases hn
  have hdr := (Props.C31_drained max cap bs _ hbs).1 ⟨hno _ rfl rfl hr, hno _ rfl rfl ht, hno _ rfl rfl hd⟩
  rw [stored, hg.docs, hg.rows, zip_handed hio.1, flatMap_given, hdr]
  exact (flatMap_pairs _).symm

/-- Whatever the clients do: a document has metadata from a request that was accepted. -/
theorem C85_only_accepted (max cap : Nat) (cfg : Cfg) (held : List Nat) (es : List (Event V M)) (s : Sys V M)
    (h : run max cap cfg held {} es = some s) : ∀ p ∈ stored s, ∃ i ∈ everAccepted s, p.2 ∈ i.metadata := by
  intro p hp
  have hf : From max cap s := from_run es ⟨⟨[], rfl⟩, by simp, by simp⟩ h
  exact hf.rows p.2 (List.of_mem_zip hp).2

/-- A request for an index that was not declared, or was removed, is refused: nothing changes. -/
theorem C85_undeclared (max cap : Nat) (cfg : Cfg) (held : List Nat) (s : Sys V M) (hd : s.declared = false)
    (i : Batch.Item (Mat V) M) : step max cap cfg held s (.work (.request i)) = some s := by
  simp [step, workStep, asks, hd]

/-- Whatever happened before: a request for a declared index is accepted, unless its documents and metadata do not match or the
queue is full. -/
theorem C85_accepting (max cap : Nat) (cfg : Cfg) (held : List Nat) (es : List (Event V M)) (s : Sys V M)
    (h : run max cap cfg held {} es = some s) (hd : s.declared = true) (i : Batch.Item (Mat V) M)
    (hi : i.embeddings ≠ [] ∧ i.metadata.length = i.embeddings.length)
    (hq : (s.cur.getD {}).queue.length + (s.cur.getD {}).reserved < cap) :
    ∃ s', step max cap cfg held s (.work (.request i)) = some s' ∧ accepted s' = accepted s ++ [i] := by
  have ho : (s.cur.getD {}).closed = false := open_run es rfl h
  have hv : Batch.valid i = true := by simp [Batch.valid, hi.1, hi.2]
  simp only [step, workStep, asks, closes, hd, Batch.step, hv, ho, hq, and_self, if_true, Bool.not_true, Bool.and_false,
    Bool.false_eq_true, if_false, Option.some.injEq, exists_eq_left', accepted, Option.getD_some]

/-! ### Disagreements -/

/-- Disagreement: an update of one client shares the fate of an update of another client.  Two requests arrive one after the
other at an index that has documents; the first is in order, the second is of another width.  Both are accepted, both are in
one batch, and neither is stored. -/
theorem C85_neighbour (max cap : Nat) (cfg : Cfg) (held : List Nat) (s : Sys V M) (q : Batch.State (Mat V) M)
    (a b : Batch.Item (Mat V) M) (hd : s.declared = true) (hq : s.cur = some q)
    (hsp : q.queue = [] ∧ q.reserved = 0 ∧ q.closed = false ∧ q.worker = .idle) (hcap : 2 ≤ cap)
    (hf : Fit s.srv.ix) (hl : s.srv.rows.length = s.srv.ix.docs.length) (hne : s.srv.ix.docs ≠ [])
    (hva : a.embeddings ≠ [] ∧ a.metadata.length = a.embeddings.length)
    (hvb : b.embeddings ≠ [] ∧ b.metadata.length = b.embeddings.length)
    (hx : ∃ m ∈ b.embeddings, Foreign s.srv.ix.dim m)
    (hmax : a.embeddings.length + b.embeddings.length < max)
    (hmode : fromScratch s.srv.ix cfg = true ∨ buffered s.srv.ix = 0 ∨
      (a.embeddings ++ b.embeddings).length + buffered s.srv.ix < cfg.bufferSize) :
    ∃ s', run max cap cfg held s [.work (.request a), .work (.request b), .work .recv, .work .recv, .work .timeout, .work .done]
        = some s' ∧ accepted s' = accepted s ++ [a, b] ∧ stored s' = stored s ∧ Spent (s'.cur.getD {}) := by
  obtain ⟨h1, h2, h3, h4⟩ := hsp
  have hva' : Batch.valid a = true := by simp [Batch.valid, hva.1, hva.2]
  have hvb' : Batch.valid b = true := by simp [Batch.valid, hvb.1, hvb.2]
  have hm1 : a.embeddings.length < max := by omega
  have hab : (a.embeddings ++ b.embeddings).isEmpty = false := by simp [hva.1]
  have href := refused_docs hf hne (new := a.embeddings ++ b.embeddings)
    (by obtain ⟨m, hm, hfo⟩ := hx; exact ⟨m, List.mem_append_right _ hm, hfo⟩) cfg held hmode
  have hrep : repair s.srv = s.srv := by simp [repair, hl]
  have hc1 : 0 < cap := by omega
  have hc2 : 1 < cap := by omega
  simp only [Accepted.run, step, workStep, asks, closes, hd, hq, Batch.step, Batch.receive, Batch.collect, Batch.finish, Option.getD_some,
    h1, h2, h3, h4, hva', hvb', hm1, hmax, hc1, hc2, hab, Bool.not_true, Bool.and_false, Bool.false_and, Bool.false_eq_true,
    if_false, if_true, and_self, List.nil_append, List.length_nil, List.length_cons, List.cons_append, Nat.zero_add, Nat.add_zero,
    Option.bind_some, process, List.drop_length, List.drop_left, Option.some.injEq, exists_eq_left', accepted, stored, batch, hrep,
    href.1, href.2, List.append_assoc]
  exact ⟨trivial, trivial, rfl, rfl, Or.inl rfl⟩

/-- Disagreement: documents accepted for an index that was removed are stored in the index that is declared under the same
name afterwards, before its own. -/
theorem C85_old_documents :
    let mine : Batch.Item (Mat Nat) String := ⟨[⟨2, [[1, 1]]⟩], ["theirs"]⟩
    let yours : Batch.Item (Mat Nat) String := ⟨[⟨2, [[2, 2]]⟩], ["ours"]⟩
    ∃ s, run 300 100 ⟨100, 100⟩ [] {} [.declare, .work (.request mine), .remove, .declare, .drain 0 .recv, .drain 0 .timeout,
        .work (.request yours), .work .recv, .work .timeout] = some s ∧
      accepted s = [yours] ∧ stored s = [([[1, 1]], "theirs"), ([[2, 2]], "ours")] := by
  refine ⟨_, rfl, rfl, ?_⟩
  decide +kernel

/-- Disagreement: and documents accepted for it can come after documents of the new index; then nothing of what was removed
is gone but its place. -/
theorem C85_old_documents_later :
    let mine : Batch.Item (Mat Nat) String := ⟨[⟨2, [[1, 1]]⟩], ["theirs"]⟩
    let yours : Batch.Item (Mat Nat) String := ⟨[⟨2, [[2, 2]]⟩], ["ours"]⟩
    ∃ s, run 300 100 ⟨100, 100⟩ [] {} [.declare, .work (.request mine), .remove, .declare,
        .work (.request yours), .work .recv, .work .timeout, .drain 0 .recv, .drain 0 .timeout] = some s ∧
      accepted s = [yours] ∧ stored s = [([[2, 2]], "ours"), ([[1, 1]], "theirs")] := by
  refine ⟨_, rfl, rfl, ?_⟩
  decide +kernel

/-- Disagreement: an accepted update is lost without a trace when its index is removed and declared again only after its
batch was made. -/
theorem C85_old_dropped :
    let mine : Batch.Item (Mat Nat) String := ⟨[⟨2, [[1, 1]]⟩], ["theirs"]⟩
    ∃ s, run 300 100 ⟨100, 100⟩ [] {} [.declare, .work (.request mine), .remove, .drain 0 .recv, .drain 0 .timeout, .declare]
        = some s ∧ stored s = [] := by
  refine ⟨_, rfl, rfl⟩

/-! ### The hypotheses can be met -/

/-- Three requests in two batches, the index removed and declared again when they are through, and one more request. -/
example :
    let i (n : Nat) : Batch.Item (Mat Nat) Nat := ⟨[⟨2, [[n, n]]⟩], [n]⟩
    let es : List (Event Nat Nat) := [.declare, .work (.request (i 1)), .work (.request (i 2)), .work .recv, .work .recv,
      .work .timeout, .work (.request (i 3)), .work .done, .work .recv, .work .timeout, .work .done]
    let more : List (Event Nat Nat) := [.remove, .drain 0 .close, .declare, .work (.request (i 4)), .work .recv, .drain 0 .recv,
      .work .timeout, .work .done]
    ∃ s t, Orderly 300 100 ⟨100, 100⟩ [] 2 {} (es ++ more) ∧ run 300 100 ⟨100, 100⟩ [] {} es = some s ∧
      run 300 100 ⟨100, 100⟩ [] s more = some t ∧
      stored s = [([[1, 1]], 1), ([[2, 2]], 2), ([[3, 3]], 3)] ∧ stored t = [([[4, 4]], 4)] := by
  have hw : ∀ n : Nat, WellFormed (M := Nat) 2 ⟨[⟨2, [[n, n]]⟩], [n]⟩ := fun n =>
    ⟨by simp, ⟨2, [[n, n]]⟩, List.mem_singleton.mpr rfl, by simp⟩
  refine ⟨_, _, ?_, rfl, rfl, by decide +kernel, by decide +kernel⟩
  have hn : ∀ (e : Batch.Event (Mat Nat) Nat), itemOf e = none → ∀ i, itemOf e = some i → WellFormed 2 i := by
    intro e he i hi
    rw [he] at hi
    cases hi
  have hr : ∀ (n : Nat) i, itemOf (Batch.Event.request (⟨[⟨2, [[n, n]]⟩], [n]⟩ : Batch.Item (Mat Nat) Nat)) = some i → WellFormed 2 i := by
    intro n i hi
    cases hi
    exact hw n
  refine ⟨trivial, fun _ h => ?_⟩; cases h
  refine ⟨hr 1, fun _ h => ?_⟩; cases h
  refine ⟨hr 2, fun _ h => ?_⟩; cases h
  refine ⟨hn _ rfl, fun _ h => ?_⟩; cases h
  refine ⟨hn _ rfl, fun _ h => ?_⟩; cases h
  refine ⟨hn _ rfl, fun _ h => ?_⟩; cases h
  refine ⟨hr 3, fun _ h => ?_⟩; cases h
  refine ⟨hn _ rfl, fun _ h => ?_⟩; cases h
  refine ⟨hn _ rfl, fun _ h => ?_⟩; cases h
  refine ⟨hn _ rfl, fun _ h => ?_⟩; cases h
  refine ⟨hn _ rfl, fun _ h => ?_⟩; cases h
  refine ⟨⟨rfl, rfl, Or.inl rfl⟩, fun _ h => ?_⟩; cases h
  refine ⟨⟨rfl, rfl⟩, fun _ h => ?_⟩; cases h
  refine ⟨trivial, fun _ h => ?_⟩; cases h
  refine ⟨hr 4, fun _ h => ?_⟩; cases h
  refine ⟨hn _ rfl, fun _ h => ?_⟩; cases h
  refine ⟨⟨rfl, rfl⟩, fun _ h => ?_⟩; cases h
  refine ⟨hn _ rfl, fun _ h => ?_⟩; cases h
  refine ⟨hn _ rfl, fun _ h => trivial⟩

/-- The hypotheses of `C85_all_stored_partial` about the worker, and of `C85_neighbour`, after one batch. -/
example :
    let i : Batch.Item (Mat Nat) Nat := ⟨[⟨2, [[1, 1]]⟩], [1]⟩
    ∃ s q, run 300 100 ⟨0, 100⟩ [] {} [.declare, .work (.request i), .work .recv, .work .timeout, .work .done] = some s ∧
      step 300 100 ⟨0, 100⟩ [] s (.work .recv) = none ∧ step 300 100 ⟨0, 100⟩ [] s (.work .timeout) = none ∧
      step 300 100 ⟨0, 100⟩ [] s (.work .done) = none ∧
      s.declared = true ∧ s.cur = some q ∧ (q.queue = [] ∧ q.reserved = 0 ∧ q.closed = false ∧ q.worker = .idle) ∧
      Fit s.srv.ix ∧ s.srv.rows.length = s.srv.ix.docs.length ∧ s.srv.ix.docs ≠ [] ∧ Foreign s.srv.ix.dim ⟨3, [[1, 2, 3]]⟩ ∧
      buffered s.srv.ix = 0 := by
  refine ⟨_, _, rfl, rfl, rfl, rfl, rfl, rfl, ⟨rfl, rfl, rfl, rfl⟩, ?_, rfl, ?_, ⟨by decide +kernel, by decide +kernel⟩, rfl⟩
  · exact ⟨[], [[[1, 1]]], [], rfl, Or.inl ⟨rfl, rfl, rfl⟩, Or.inl ⟨rfl, rfl, rfl⟩, rfl⟩
  · decide +kernel

end NextPlaid.Props
