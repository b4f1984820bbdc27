import Verif.Proofs.Locks

/-!
Property theorems C34 (mutual exclusion of writers) and C46 (where the files of an index are).  `run dir {} es = some s`: the
server with index directory `dir` can reach state `s` by the events `es` (arrivals and steps of jobs, in any order).
-/

namespace NextPlaid.Props
open NextPlaid NextPlaid.Locks NextPlaid.Spec

/-! ### C34 -/

/-- Two jobs that hold locks with the same key are the same job. -/
theorem same_key {dir : List Char} {s : State} (h : Inv dir s) {i j : Nat} {a b : Job} {k : List Char} {l m : Nat}
    (hi : s.jobs[i]? = some (a, .working l)) (hj : s.jobs[j]? = some (b, .working m)) (ha : key dir a = some k)
    (hb : key dir b = some k) : i = j := by
  obtain ⟨h1, k1, h2, h3⟩ := h.work i a l hi
  obtain ⟨h4, k2, h5, h6⟩ := h.work j b m hj
  rw [ha] at h2; cases h2
  rw [hb] at h5; cases h5
  have : l = m := h.keys _ h3 _ h6 rfl
  subst this
  rw [h1] at h4; cases h4; rfl

theorem changing_working {dir : List Char} {s : State} (h : Inv dir s) {i : Nat} {a : Job} {k : List Char}
    (hk : key dir a = some k) (hr : a.kind ≠ .remove) (hc : Changing s i a) : ∃ l, s.jobs[i]? = some (a, .working l) := by
  obtain ⟨p, hp, hc⟩ := hc
  cases p with
  | working l => exact ⟨l, hp⟩
  | released => exact absurd (h.rel i a hp) hr
  | unlocked => rw [h.free i a hp] at hk; cases hk
  | start => simp [changing] at hc
  | waiting _ => simp [changing] at hc
  | done => simp [changing] at hc

/-- C34 among batches: in every schedule, at most one batch of updates or deletions is changing an index, however many
workers there are.  (The full property, over all requests, is refuted below.) -/
theorem C34_batches_exclusive_partial {dir : List Char} {es : List Event} {s : State} (h : run dir {} es = some s)
    {i j : Nat} {a b : Job} (ha : a.kind = .updateBatch ∨ a.kind = .deleteBatch)
    (hb : b.kind = .updateBatch ∨ b.kind = .deleteBatch) (hn : a.name = b.name)
    (hi : Changing s i a) (hj : Changing s j b) : i = j := by
  have hinv := run_inv (inv_start dir) h
  have hk : ∀ c : Job, (c.kind = .updateBatch ∨ c.kind = .deleteBatch) →
      key dir c = some (Paths.indexPath dir c.name) ∧ c.kind ≠ .remove := by
    rintro c (h | h) <;> simp [key, h]
  obtain ⟨l, hl⟩ := changing_working hinv (hk a ha).1 (hk a ha).2 hi
  obtain ⟨m, hm⟩ := changing_working hinv (hk b hb).1 (hk b hb).2 hj
  exact same_key hinv hl hm (hk a ha).1 (hn ▸ (hk b hb).1)

/-- C34 among direct requests: in every schedule, at most one of the requests to create an index, to add documents directly
and to change the configuration is changing an index. -/
theorem C34_requests_exclusive_partial {dir : List Char} {es : List Event} {s : State} (h : run dir {} es = some s)
    {i j : Nat} {a b : Job} (ha : a.kind = .create ∨ a.kind = .add ∨ a.kind = .config)
    (hb : b.kind = .create ∨ b.kind = .add ∨ b.kind = .config) (hn : a.name = b.name)
    (hi : Changing s i a) (hj : Changing s j b) : i = j := by
  have hinv := run_inv (inv_start dir) h
  have hk : ∀ c : Job, (c.kind = .create ∨ c.kind = .add ∨ c.kind = .config) →
      key dir c = some c.name ∧ c.kind ≠ .remove := by
    rintro c (h | h | h) <;> simp [key, h]
  obtain ⟨l, hl⟩ := changing_working hinv (hk a ha).1 (hk a ha).2 hi
  obtain ⟨m, hm⟩ := changing_working hinv (hk b hb).1 (hk b hb).2 hj
  exact same_key hinv hl hm (hk a ha).1 (hn ▸ (hk b hb).1)

/-- The locks never block the server: as long as some job is not done, some job can take a step. -/
theorem C34_no_deadlock {dir : List Char} {es : List Event} {s : State} (h : run dir {} es = some s) {i : Nat} {a : Job}
    {p : Phase} (hi : s.jobs[i]? = some (a, p)) (hp : p ≠ .done) : ∃ j s', step dir s (.next j) = some s' := by
  have hinv := run_inv (inv_start dir) h
  cases p with
  | done => exact absurd rfl hp
  | start =>
    refine ⟨i, ?_⟩
    simp only [step, hi, advance]
    split <;> exact ⟨_, rfl⟩
  | waiting l =>
    cases hl : s.held l with
    | none => exact ⟨i, by simp [step, hi, advance, hl]⟩
    | some j =>
      obtain ⟨b, hb⟩ := hinv.hold l j hl
      exact ⟨j, by simp [step, hb, advance]⟩
  | working l => exact ⟨i, by simp [step, hi, advance]⟩
  | released => exact ⟨i, by simp [step, hi, advance]⟩
  | unlocked => exact ⟨i, by simp [step, hi, advance]⟩

/-- Disagreement: for every index directory and every index name (that is not an absolute path), the direct addition of
documents and a batch of updates can change the index at the same time: one locks the name, the other the path
(documents.rs:406 and 1186). -/
theorem C34_add_and_batch (dir name : List Char) (hd : dir ≠ []) (hn : Paths.absolute name = false) :
    ∃ es s, run dir {} es = some s ∧ Changing s 0 ⟨.add, name⟩ ∧ Changing s 1 ⟨.updateBatch, name⟩ := by
  have hne : name ≠ Paths.indexPath dir name := fun h => Paths.join_length hn hd h.symm
  refine ⟨[.spawn ⟨.add, name⟩, .next 0, .next 0, .spawn ⟨.updateBatch, name⟩, .next 1, .next 1], ?_⟩
  simp [run, step, advance, key, getLock, setPhase, setHeld, Changing, changing, hne]

/-- Disagreement: an index that is being created can be removed at the same time: the removal of the directory happens
after the lock was released (documents.rs:1448-1466). -/
theorem C34_remove_and_create (dir name : List Char) :
    ∃ es s, run dir {} es = some s ∧ Changing s 0 ⟨.remove, name⟩ ∧ Changing s 1 ⟨.create, name⟩ := by
  refine ⟨[.spawn ⟨.remove, name⟩, .next 0, .next 0, .next 0, .spawn ⟨.create, name⟩, .next 1, .next 1], ?_⟩
  simp [run, step, advance, key, getLock, setPhase, setHeld, Changing, changing]

/-- Disagreement: a request that changes metadata takes no lock (metadata.rs:427-484). -/
theorem C34_metadata_and_batch (dir name : List Char) :
    ∃ es s, run dir {} es = some s ∧ Changing s 0 ⟨.metadata, name⟩ ∧ Changing s 1 ⟨.deleteBatch, name⟩ := by
  refine ⟨[.spawn ⟨.metadata, name⟩, .next 0, .spawn ⟨.deleteBatch, name⟩, .next 1, .next 1], ?_⟩
  simp [run, step, advance, key, getLock, setPhase, setHeld, Changing, changing]

/-- Disagreement: two names of the same directory have different locks. -/
theorem C34_two_names :
    ∃ es s, run ['d'] {} es = some s ∧ Changing s 0 ⟨.updateBatch, ['a']⟩ ∧ Changing s 1 ⟨.updateBatch, ['.', '/', 'a']⟩ ∧
      Paths.resolve [] (Paths.indexPath ['d'] ['a']) = Paths.resolve [] (Paths.indexPath ['d'] ['.', '/', 'a']) := by
  refine ⟨[.spawn ⟨.updateBatch, ['a']⟩, .next 0, .next 0, .spawn ⟨.updateBatch, ['.', '/', 'a']⟩, .next 1, .next 1], ?_⟩
  simp [run, step, advance, key, getLock, setPhase, setHeld, Changing, changing, Paths.indexPath, Paths.join, Paths.absolute,
    Paths.resolve, Paths.parts, Paths.enter]

/-- A state that the positive theorems speak about: one batch works, another one of the same index waits. -/
example : ∃ s, run ['d'] {} [.spawn ⟨.updateBatch, ['a']⟩, .next 0, .next 0, .spawn ⟨.deleteBatch, ['a']⟩, .next 1] = some s ∧
    Changing s 0 ⟨.updateBatch, ['a']⟩ ∧ s.jobs[1]? = some (⟨.deleteBatch, ['a']⟩, .waiting 0) ∧
    (step ['d'] s (.next 1)).isNone = true := by
  simp [run, step, advance, key, getLock, setPhase, setHeld, Changing, changing]

/-! ### C46 -/

/-- C46 for plain names: the directory of the index is the subdirectory of that name of the index directory. -/
theorem C46_confined_partial (cwd : List (List Char)) (dir : List Char) {name : List Char} (h : plainName name) :
    Paths.resolve cwd (Paths.indexPath dir name) = Paths.resolve cwd dir ++ [name] := Paths.resolve_plain cwd dir h

/-- C46 for plain names: different names, different directories, and none inside another. -/
theorem C46_separate_partial (cwd : List (List Char)) (dir : List Char) {n m : List Char} (hn : plainName n) (hm : plainName m)
    (h : Paths.resolve cwd (Paths.indexPath dir n) <+: Paths.resolve cwd (Paths.indexPath dir m)) : n = m := by
  rw [Paths.resolve_plain cwd dir hn, Paths.resolve_plain cwd dir hm] at h
  have := (List.prefix_append_right_inj _).1 h
  simpa using this

/-- Disagreement: the name ".." denotes the parent of the index directory, for every index directory; with it, a request to
delete an index removes everything there (documents.rs:1454-1460). -/
theorem C46_parent (cwd : List (List Char)) (dir : List Char) :
    Paths.resolve cwd (Paths.indexPath dir ['.', '.']) = (Paths.resolve cwd dir).dropLast := by
  unfold Paths.indexPath Paths.join
  rw [if_neg (by decide)]
  have hp : Paths.parts ['.', '.'] = [['.', '.']] := by decide
  have he : ∀ d, Paths.enter d ['.', '.'] = d.dropLast := by intro d; simp [Paths.enter]
  by_cases h0 : dir = []
  · subst h0; simp [Paths.resolve, hp, he, Paths.absolute, Paths.parts, Paths.enter]
  · by_cases h1 : dir.getLast? = some '/'
    · rw [if_pos (by simp [h1])]
      obtain ⟨b, rfl⟩ := List.getLast?_eq_some_iff.1 h1
      unfold Paths.resolve
      rw [Paths.absolute_append h0, List.append_assoc, List.singleton_append, Paths.parts_append, Paths.parts_append, hp,
        List.foldl_append, List.foldl_append, List.foldl_cons, List.foldl_nil, he]
      simp [Paths.parts, Paths.enter]
    · rw [if_neg (by simp [h0, h1])]
      unfold Paths.resolve
      rw [Paths.absolute_append h0, Paths.parts_append, hp, List.foldl_append, List.foldl_cons, List.foldl_nil, he]

/-- Disagreement: an absolute path as a name denotes that path, whatever the index directory. -/
theorem C46_absolute (cwd : List (List Char)) (dir : List Char) {name : List Char} (h : Paths.absolute name = true) :
    Paths.resolve cwd (Paths.indexPath dir name) = Paths.resolve [] name := by
  simp [Paths.indexPath, Paths.join, h, Paths.resolve]

/-- "my docs.v2" in "data/indices/". -/
example : plainName ['m', 'y', ' ', 'd', 'o', 'c', 's', '.', 'v', '2'] := by
  refine ⟨by decide, by decide, by decide, by decide⟩
example : Paths.resolve [['r'], ['w']] (Paths.indexPath ['.', '/', 'i', '/'] ['a', '.', 'b']) = [['r'], ['w'], ['i'], ['a', '.', 'b']] := by
  decide

end NextPlaid.Props
