import Verif.Proofs.Pipeline2
import Verif.Props.Encode

/-!
C57: an indexing run stores every unit once, with its own embedding and its own row, whatever the schedule of its threads.
-/

namespace NextPlaid.Props

open NextPlaid.Spec NextPlaid.Net NextPlaid.Pipeline

variable {U T D E : Type} [DecidableEq T]

/-- The units are only put in another order: each is encoded once, with its own text. -/
theorem C57_units (text : U → T) (sort : List (Item U T) → List (Item U T)) (hsort : ∀ l, (sort l).Perm l) (n : Nat) (units : List U) :
    (prepareUnits text sort n units).Perm (units.map fun u => ⟨u, text u⟩) :=
  (prefixSample_perm _ _).trans (hsort _)

/-- If there are more than `n` units then the first `n` to be encoded, which the clusters of a new index are made from, are spread evenly over the
units in the order of files and lines, from the first on. -/
theorem C57_sample (text : U → T) (sort : List (Item U T) → List (Item U T)) (n : Nat) (units : List U)
    (hn : n < (sort (units.map fun u => ⟨u, text u⟩)).length) (j : Nat) (hj : j < n) :
    (prepareUnits text sort n units)[j]? =
      (sort (units.map fun u => ⟨u, text u⟩))[j * ((sort (units.map fun u => ⟨u, text u⟩)).length / n)]? :=
  prefixSample_first n _ hn j hj

/-- Whatever the chunk size, batching, capacities of the channels and schedule of the threads, at whatever chunk the user interrupts, whichever
forward pass or write to an existing index fails: when all threads are done, the index and the database have grown in step by some of the units,
each stored once, with an embedding of its own text and its own row; and by all of them if no thread failed and all chunks were sent. -/
theorem C57_in_step (p : Setup U T D E) (Enc : D → E → Prop) (hrun : SoundPass p.engine Enc) (hmeta : ∀ i, p.metaOk i = true)
    (text : U → T) (sort : List (Item U T) → List (Item U T)) (hsort : ∀ l, (sort l).Perm l) (sample : Nat) (units : List U)
    (caps : Fin 5 → Nat) (hcaps : ∀ i, 0 < caps i) (docs : List E) (rows : List (Nat × U)) (hcreate : p.create = true → docs = [] ∧ p.writeOk 0 = true)
    (sent n : Nat) (cs : List (Cell (St U E) (Msg U T D E))) (hr : Run n (start p caps docs rows (prepareUnits text sort sample units) sent) cs)
    (hf : Finished cs) :
    ∃ order : List U, order.Perm units ∧ ∃ m ≤ units.length,
      GrownInStep (fun u x => ∃ d y, p.engine.tok (text u) = .ok d ∧ Enc d y ∧ x = p.pool y) (order.take m) docs rows (docsOf cs) (rowsOf cs) ∧
      ((chunks p (prepareUnits text sort sample units)).length ≤ sent → Succeeded cs → m = units.length) := by
  have hperm := C57_units text sort hsort sample units
  set items := prepareUnits text sort sample units with hitems
  obtain ⟨m, hm, new, h1, h2, h3, h4⟩ := finish p Enc hrun hmeta caps hcaps docs rows hcreate items sent hr hf
  have hord : (items.map (·.unit)).Perm units := by
    have := hperm.map (·.unit)
    rw [List.map_map] at this
    have he : ((fun x : Item U T => x.unit) ∘ fun u => (⟨u, text u⟩ : Item U T)) = id := rfl
    rwa [he, List.map_id] at this
  have hl : items.length = units.length := by simpa using hperm.length_eq
  refine ⟨items.map (·.unit), hord, m, by omega, ⟨new, h1, ?_, ?_⟩, ?_⟩
  · refine ⟨by rw [h2.1]; simp, ?_⟩
    intro i u x hu hx
    rw [← List.map_take, List.getElem?_map] at hu
    cases hi : (items.take m)[i]? with
    | none => rw [hi] at hu; cases hu
    | some it =>
      rw [hi] at hu
      simp only [Option.map_some, Option.some.injEq] at hu
      have hmem : it ∈ items := List.mem_of_mem_take (List.mem_of_getElem? hi)
      obtain ⟨v, _, hv⟩ := List.mem_map.mp (hperm.subset hmem)
      have ht : it.text = text u := by rw [← hu, ← hv]
      rw [← ht]
      exact h2.2 i it x hi hx
  · rw [h3, List.map_take]
    congr 2
    rw [List.length_take, List.length_map]
    congr 1
    omega
  · intro a b
    rw [h4 a b, hl]

/-- If the tokenizer, the forward passes and the writes succeed and nobody interrupts then no thread fails: nothing inside the pipeline can. -/
theorem C57_succeeds (p : Setup U T D E) (Enc : D → E → Prop) (hrun : SoundPass p.engine Enc)
    (htok : ∀ t, ∃ d, p.engine.tok t = .ok d) (hok : ∀ s q ds, ds ≠ [] → ∃ es, p.engine.run s q ds = .ok es)
    (hint : ∀ i, p.interrupted i = false) (hcan : ∀ i j, p.cancelled i j = false) (hwrite : ∀ i, p.writeOk i = true)
    (hmeta : ∀ i, p.metaOk i = true) (caps : Fin 5 → Nat) (hcaps : ∀ i, 0 < caps i) (docs : List E) (rows : List (Nat × U))
    (items : List (Item U T)) (sent n : Nat) (cs : List (Cell (St U E) (Msg U T D E))) (hr : Run n (start p caps docs rows items sent) cs)
    (hf : Finished cs) : Succeeded cs :=
  succeeds p Enc hrun htok hok hint hcan hwrite hmeta caps hcaps docs rows items sent hr hf

/-- The threads never wait for each other for ever: from every state that a run can come to, some thread can go on or all are done, and there is
a bound on the number of steps. -/
theorem C57_ends (p : Setup U T D E) (caps : Fin 5 → Nat) (hcaps : ∀ i, 0 < caps i) (docs : List E) (rows : List (Nat × U)) (items : List (Item U T)) (sent : Nat) :
    ∃ bound, ∀ n cs, Run n (start p caps docs rows items sent) cs → n ≤ bound ∧ ((∃ cs', Step cs cs') ∨ Finished cs) :=
  ⟨_, fun _ _ hr =>
    let h := schedule ({} : St U E) (((chunks p items).take sent).map prepareChunk) (parts p caps docs rows) (parts_caps p caps docs rows hcaps) hr
    ⟨h.1, h.2.1⟩⟩

/-- A text that several units of a chunk have is encoded once. -/
theorem C57_deduplicated (chunk : List (Item U T)) : (dedupLoop chunk [] []).1.Nodup := dedup_nodup chunk [] [] List.nodup_nil

/-- The fall-back to the CPU: the first run has failed, but some of the units had already come to the index; the second run starts with all units
again, and if it succeeds then some unit is stored twice. -/
theorem C57_fallback_duplicates (p q : Setup U T D E) (Enc : D → E → Prop) (hrun : SoundPass p.engine Enc) (hrun' : SoundPass q.engine Enc)
    (hmeta : ∀ i, p.metaOk i = true) (hmeta' : ∀ i, q.metaOk i = true) (hq : q.create = false)
    (caps : Fin 5 → Nat) (hcaps : ∀ i, 0 < caps i) (docs : List E) (rows : List (Nat × U)) (hcreate : p.create = true → docs = [] ∧ p.writeOk 0 = true)
    (items : List (Item U T)) (sent n sent' n' : Nat) (cs cs' : List (Cell (St U E) (Msg U T D E)))
    (hr : Run n (start p caps docs rows items sent) cs) (hf : Finished cs) (hsome : docsOf cs ≠ docs)
    (hr' : Run n' (start q caps (docsOf cs) (rowsOf cs) items sent') cs') (hf' : Finished cs') (hsent : (chunks q items).length ≤ sent') (hs : Succeeded cs') :
    ∃ u i j, i ≠ j ∧ (i, u) ∈ rowsOf cs' ∧ (j, u) ∈ rowsOf cs' := by
  obtain ⟨m, hm, new, h1, h2, h3, _⟩ := finish p Enc hrun hmeta caps hcaps docs rows hcreate items sent hr hf
  obtain ⟨m', hm', new', h1', h2', h3', h4'⟩ := finish q Enc hrun' hmeta' caps hcaps (docsOf cs) (rowsOf cs) (by rw [hq]; intro h; cases h) items sent' hr' hf'
  have hm1 := h4' hsent hs
  subst hm1
  have hnew : new ≠ [] := by rintro rfl; exact hsome (by rw [h1]; simp)
  have hml : new.length = m := by rw [h2.1, List.length_take]; omega
  have hpos : 0 < m := by rw [← hml]; exact List.length_pos_of_ne_nil hnew
  cases items with
  | nil => simp at hm; omega
  | cons it items =>
    obtain ⟨m0, rfl⟩ : ∃ m0, m = m0 + 1 := ⟨m - 1, by omega⟩
    refine ⟨it.unit, docs.length, (docsOf cs).length, ?_, ?_, ?_⟩
    · rw [h1, List.length_append]; omega
    · rw [h3']
      apply List.mem_append_left
      rw [h3]
      apply List.mem_append_right
      rw [List.range'_succ]
      simp
    · rw [h3']
      apply List.mem_append_right
      rw [List.length_cons, List.range'_succ]
      simp

/-! ### Examples and failures -/

/-- Units are numbers, whose text is the number modulo ten.  The forward pass fails on the text `bad`. -/
@[reducible] def toySetup (create : Bool) (bad : Nat) (writeOk metaOk : Bool) : Setup Nat Nat Nat Nat where
  engine :=
    { tok := fun t => .ok t
      len := fun d => d
      run := fun _ _ ds => if bad ∈ ds then .error .err else .ok (ds.map (· + 100))
      batchSize := 2, docLen := 300, sessions := 2, dynamic := false }
  pool x := x * 2
  chunk := 2
  limit := 3
  create := create
  interrupted _ := false
  cancelled _ _ := false
  writeOk _ := writeOk
  metaOk _ := metaOk

theorem toySetup_sound (c : Bool) (b : Nat) (w m : Bool) : SoundPass (toySetup c b w m).engine fun d x => x = d + 100 := by
  intro s q ds es h
  simp only [toySetup] at h
  split at h
  · cases h
  · injection h with h; subst h
    refine ⟨by simp, ?_⟩
    intro i a x ha hx
    rw [List.getElem?_map, ha] at hx
    simp only [Option.map_some, Option.some.injEq] at hx
    exact hx.symm

@[reducible] def toyItems : List (Item Nat Nat) := [⟨11, 1⟩, ⟨21, 1⟩, ⟨12, 2⟩, ⟨13, 3⟩, ⟨14, 4⟩]

/-- What the threads of a toy run come to. -/
theorem toy_states (p : Setup Nat Nat Nat Nat) (docs : List Nat) (rows : List (Nat × Nat)) : ∃ n cs,
    Run n (start p (fun _ => 1) docs rows toyItems 9) cs ∧ Finished cs ∧
    cs.map (·.state) = {} :: inTurn (parts p (fun _ => 1) docs rows) (((chunks p toyItems).take 9).map prepareChunk) := by
  obtain ⟨n, cs, hr, hf⟩ := start_runs p (fun _ => 1) (fun _ => Nat.one_pos) docs rows toyItems 9
  exact ⟨n, cs, hr, hf, start_states p (fun _ => 1) (fun _ => Nat.one_pos) docs rows toyItems 9 hr hf⟩

/-- A whole run on a new index. -/
example : ∃ n cs, Run n (start (toySetup true 99 true true) (fun _ => 1) [] [] toyItems 9) cs ∧ Finished cs ∧
    docsOf cs = [202, 202, 204, 206, 208] ∧ rowsOf cs = [(0, 11), (1, 21), (2, 12), (3, 13), (4, 14)] := by
  obtain ⟨n, cs, hr, hf, hs⟩ := toy_states (toySetup true 99 true true) [] []
  refine ⟨n, cs, hr, hf, ?_, ?_⟩
  · rw [docsOf_states hs]; decide +kernel
  · rw [rowsOf_states hs]; decide +kernel

/-- A run on an existing index, whose encoder fails in the second chunk. -/
example : ∃ n cs, Run n (start (toySetup false 3 true true) (fun _ => 1) [7] [(0, 5)] toyItems 9) cs ∧ Finished cs ∧
    docsOf cs = [7, 202, 202] ∧ rowsOf cs = [(0, 5), (1, 11), (2, 21)] := by
  obtain ⟨n, cs, hr, hf, hs⟩ := toy_states (toySetup false 3 true true) [7] [(0, 5)]
  refine ⟨n, cs, hr, hf, ?_, ?_⟩
  · rw [docsOf_states hs]; decide +kernel
  · rw [rowsOf_states hs]; decide +kernel

example : (prepareUnits (fun u : Nat => u % 10) id 2 [11, 12, 13, 14, 15]).map (·.unit) = [11, 13, 12, 14, 15] := by decide +kernel

/-- The hypotheses of `C57_fallback_duplicates` can be met: the first run fails in the second chunk. -/
example : ∃ n cs n' cs', Run n (start (toySetup true 3 true true) (fun _ => 1) [] [] toyItems 9) cs ∧ Finished cs ∧ ¬ Succeeded cs ∧
    Run n' (start (toySetup false 99 true true) (fun _ => 1) (docsOf cs) (rowsOf cs) toyItems 9) cs' ∧ Finished cs' ∧ Succeeded cs' ∧
    rowsOf cs' = [(0, 11), (1, 21), (2, 11), (3, 21), (4, 12), (5, 13), (6, 14)] := by
  obtain ⟨n, cs, hr, hf, hs⟩ := toy_states (toySetup true 3 true true) [] []
  have hd : docsOf cs = [202, 202] := by rw [docsOf_states hs]; decide +kernel
  have hw : rowsOf cs = [(0, 11), (1, 21)] := by rw [rowsOf_states hs]; decide +kernel
  obtain ⟨n', cs', hr', hf', hs'⟩ := toy_states (toySetup false 99 true true) [202, 202] [(0, 11), (1, 21)]
  refine ⟨n, cs, n', cs', hr, hf, ?_, by rw [hd, hw]; exact hr', hf', ?_, ?_⟩
  · intro h
    have hall : ∀ b ∈ cs.map (·.state.failed), b = false := by
      intro b hb
      obtain ⟨c, hc, rfl⟩ := List.mem_map.mp hb
      exact h c hc
    have he : cs.map (·.state.failed) = (cs.map (·.state)).map (·.failed) := by rw [List.map_map]; rfl
    rw [he, hs] at hall
    revert hall
    decide +kernel
  · intro c hc
    have he : cs'.map (·.state.failed) = (cs'.map (·.state)).map (·.failed) := by rw [List.map_map]; rfl
    have hmem : c.state.failed ∈ cs'.map (·.state.failed) := List.mem_map.mpr ⟨c, hc, rfl⟩
    rw [he, hs'] at hmem
    generalize c.state.failed = b at hmem
    revert b
    decide +kernel
  · rw [rowsOf_states hs']; decide +kernel

/-- A new index that cannot be written: the rows of all its documents are in the database already, as they are sent before the index is written. -/
theorem C57_create_rows_without_documents : ∃ n cs, Run n (start (toySetup true 99 false true) (fun _ => 1) [] [] toyItems 9) cs ∧ Finished cs ∧
    docsOf cs = [] ∧ rowsOf cs = [(0, 11), (1, 21), (2, 12), (3, 13), (4, 14)] := by
  obtain ⟨n, cs, hr, hf, hs⟩ := toy_states (toySetup true 99 false true) [] []
  refine ⟨n, cs, hr, hf, ?_, ?_⟩
  · rw [docsOf_states hs]; decide +kernel
  · rw [rowsOf_states hs]; decide +kernel

/-- The database fails while a new index is built: there is a schedule in which the thread gives up, and would remove its documents from the index,
before the index is written, so that there is nothing to remove them from; then all documents are written and none has a row. -/
theorem C57_rollback_too_early : ∃ n mid n' cs, Run n (start (toySetup true 99 true false) (fun _ => 1) [] [] toyItems 9) mid ∧
    (∃ c, mid[5]? = some c ∧ c.state.failed = true) ∧ docsOf mid = [] ∧ Run n' mid cs ∧ Finished cs ∧
    docsOf cs = [202, 202, 204, 206, 208] ∧ rowsOf cs = [] := by
  set p := toySetup true 99 true false with hp
  have hcaps := parts_caps p (fun _ => 1) [] [] fun _ => Nat.one_pos
  obtain ⟨n, hr⟩ := run_idle ({} : St Nat Nat) (((chunks p toyItems).take 9).map prepareChunk) (parts p (fun _ => 1) [] []) hcaps
  set mid := source ({} : St Nat Nat) [] :: pump ((parts p (fun _ => 1) [] []).map fun x => fresh x.1 x.2.1 x.2.2) (((chunks p toyItems).take 9).map prepareChunk)
    with hmid
  have hkeep := run_keeps hr (tidy_start _ _ _)
  obtain ⟨n', cs, hr', hf⟩ := run_finishes (c := source ({} : St Nat Nat) []) hkeep.1 rfl (by
    intro d hd
    exact (pump_idle _ _ (by
      intro x hx
      obtain ⟨y, hy, rfl⟩ := List.mem_map.mp hx
      exact ⟨rfl, rfl, rfl, hcaps y hy⟩) d hd).2.2.2)
  have hs := start_states p (fun _ => 1) (fun _ => Nat.one_pos) [] [] toyItems 9 (run_trans hr hr') hf
  have hm5 : (mid[5]?.map fun c => c.state.failed) = some true := by rw [hmid, hp]; decide +kernel
  refine ⟨n, mid, n', cs, hr, ?_, ?_, hr', hf, ?_, ?_⟩
  · cases h : mid[5]? with
    | none => rw [h] at hm5; cases hm5
    | some c => rw [h] at hm5; exact ⟨c, rfl, by simpa using hm5⟩
  · rw [hmid, hp]; decide +kernel
  · rw [docsOf_states hs, hp]; decide +kernel
  · rw [rowsOf_states hs, hp]; decide +kernel

end NextPlaid.Props
