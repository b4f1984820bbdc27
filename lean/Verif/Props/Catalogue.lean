import Verif.Proofs.Catalogue
import Verif.Proofs.ConfCache
import Verif.Model.Codec
import Mathlib.Data.Rat.Defs
import Mathlib.Tactic.IntervalCases

/-!
C83: the server's catalogue of indexes.

First requests one after another, then requests that overlap in any way.
-/

namespace NextPlaid.Props

open NextPlaid.Catalogue NextPlaid.Spec.Catalogue

/-- Any requests and restarts, one after another, are answered as by a server that only has the files: declaring refuses what exists, an index has the
configuration it was declared with and the last limit that was set, the list is of what exists, in order. -/
theorem C83_as_files (dss : Nat) (d : Disk) (hd : (d.map Prod.fst).Nodup) (rs : List Req) :
    Answers dss (entry d) rs (run dss ⟨d, fun _ => none⟩ rs).1 (entry (run dss ⟨d, fun _ => none⟩ rs).2.disk) :=
  (run_ok dss rs (s := ⟨d, fun _ => none⟩) ⟨hd, by intro n c h; cases h⟩).1

/-- An index that was declared has, as long as nobody deletes it, the configuration it was declared with and the last limit that was set. -/
theorem C83_config_kept (dss : Nat) (d : Disk) (hd : (d.map Prod.fst).Nodup) (pre post : List Req) (n : Name) (r : CfgReq) (c : Cfg)
    (ha : (run dss ⟨d, fun _ => none⟩ (pre ++ .create n r :: post)).1[pre.length]? = some (.created c)) (hp : .delete n ∉ post) :
    c = asked dss r ∧ Conf (entry (run dss ⟨d, fun _ => none⟩ (pre ++ .create n r :: post)).2.disk) n
      { c with maxDocuments := lastMax n post c.maxDocuments } := by
  obtain ⟨g, as1, as2, e1, e2, h1, h2⟩ := answers_append (C83_as_files dss d hd (pre ++ .create n r :: post))
  rw [e1, ← e2, List.getElem?_append_right le_rfl, Nat.sub_self] at ha
  cases h2 with
  | cons h3 h4 =>
    cases h3 with
    | createUnnamed => cases ha
    | createExisting => cases ha
    | created r hn hx hg =>
      cases ha
      exact ⟨rfl, kept h4 hp ⟨false, hg.1⟩⟩

/-- An index that was deleted does not exist until it is declared again, whatever is asked in between. -/
theorem C83_deleted_gone (dss : Nat) (d : Disk) (hd : (d.map Prod.fst).Nodup) (pre post : List Req) (n : Name) (hp : ∀ r, .create n r ∉ post) :
    entry (run dss ⟨d, fun _ => none⟩ (pre ++ .delete n :: post)).2.disk n = none := by
  obtain ⟨g, as1, as2, e1, e2, h1, h2⟩ := answers_append (C83_as_files dss d hd (pre ++ .delete n :: post))
  cases h2 with
  | cons h3 h4 =>
    cases h3 with
    | delete hg => exact gone h4 hp hg.1

example : let n : Name := "a".toList
    let r := run 999 ⟨[], fun _ => none⟩ [.create n { nbits := some 2 }, .create n {}, .setMax n (some 7), .restart, .populate n, .info n, .delete n, .setMax n none, .populate n]
    r.1 = [.created ⟨2, 50000, none, 999, none, "unicode61".toList⟩, .conflict, .config ⟨2, 50000, none, 999, some 7, "unicode61".toList⟩, .none,
      .populated ⟨2, 50000, none, 999, some 7, "unicode61".toList⟩, .info (some 7), .deleted, .notFound, .failed] := by decide +kernel

/-- An index that does not exist is said to be deleted; the documented answer is 404. -/
theorem C83_delete_absent (dss : Nat) (n : Name) : (run dss ⟨[], fun _ => none⟩ [.delete n]).1 = [.deleted] := rfl

/-- An index that was just declared is in the list, and is said not to be found. -/
theorem C83_declared_not_found (dss : Nat) (n : Name) (hn : n ≠ []) (r : CfgReq) :
    (run dss ⟨[], fun _ => none⟩ [.create n r, .list, .info n]).1 = [.created (asked dss r), .names [n], .notFound] := by
  have h1 : step dss ⟨[], fun _ => none⟩ (.create n r) = (.created (asked dss r), ⟨[(n, ⟨.good (asked dss r), false⟩)], fun m => if m = n then some (asked dss r) else none⟩) := by
    simp [step, create, hn, entry, known, put, setConfig, buildStored_eq]
  have h2 : listAll [(n, ⟨.good (asked dss r), false⟩)] = [n] := by
    simp [listAll, known, sortNames, List.mergeSort]
  have h3 : info ⟨[(n, ⟨.good (asked dss r), false⟩)], fun m => if m = n then some (asked dss r) else none⟩ n =
      (.notFound, ⟨[(n, ⟨.good (asked dss r), false⟩)], fun m => if m = n then some (asked dss r) else none⟩) := by
    simp [info, entry]
  simp only [run, h1]
  simp only [step, h2, h3]

/-- A number of bits for which there is no codec, and a tokenizer that does not exist, are accepted. -/
theorem C83_accepts_anything (dss b : Nat) (tok : List Char) (hb : b = 0 ∨ 8 % b ≠ 0) (n : Name) (hn : n ≠ []) :
    (∃ c, (run dss ⟨[], fun _ => none⟩ [.create n { nbits := some b, tokenizer := some tok }]).1 = [.created c] ∧ c.nbits = b ∧ c.tokenizer = tok) ∧
      ∀ dim (cs : List (List ℚ)) k w, NextPlaid.Codec.newWithStore b dim cs k w = .error .err := by
  constructor
  · refine ⟨asked dss { nbits := some b, tokenizer := some tok }, ?_, ?_, ?_⟩
    · simp [run, step, create, hn, entry, known, put, setConfig, buildStored_eq]
    · rfl
    · rfl
  · intro dim cs k w
    simp [NextPlaid.Codec.newWithStore, hb]

/-- An index that has `metadata.json` only is listed and described, but its limit cannot be set and no document can be added to it. -/
theorem C83_without_config (dss : Nat) (n : Name) (m : Option Nat) :
    (run dss ⟨[(n, ⟨.absent, true⟩)], fun _ => none⟩ [.list, .info n, .setMax n m, .populate n]).1 = [.names [n], .info none, .notFound, .failed] := by
  have h2 : listAll [(n, ⟨.absent, true⟩)] = [n] := by
    simp [listAll, known, sortNames, List.mergeSort]
  simp [run, step, h2, info, entry, getConfig, readFile, setMax, populate]

/-! ### Requests that overlap -/

section Overlap

open NextPlaid.ConfCache NextPlaid.Spec.ConfCache

/-- However requests overlap: an index is declared at most once for every time it is removed, and once more if there was none. -/
theorem C83_declared_once (d : Bool) (f : File) (as : List Act) :
    (exec (start d f) as).created ≤ (exec (start d f) as).removed + 1 ∧
      (f ≠ .absent → (exec (start d f) as).created ≤ (exec (start d f) as).removed) := by
  have h := created_le d f as
  have h1 : ex (exec (start d f) as).file ≤ 1 := by unfold ex; split <;> omega
  constructor
  · omega
  · intro hf
    have : ex f = 1 := by simp [ex, hf]
    omega

/-- However requests overlap, as long as no index is deleted: what is in the file when nothing is under way is the configuration the index was declared
with, but for the limit on documents; nobody is told anything else; and nobody is told that the index is missing. -/
theorem C83_fields_kept (c : Cfg) (as : List Act) (hd : ∀ t, .start t .delete ∉ as) :
    (∀ t c', (exec (start true (.good c)) as).pc t = .idle (some (.config (some c'))) ∨ (exec (start true (.good c)) as).pc t = .idle (some (.changed c')) → Same c c') ∧
    (∀ t, (exec (start true (.good c)) as).pc t ≠ .idle (some .notFound)) ∧
    (Quiet (exec (start true (.good c)) as) → ∃ c', (exec (start true (.good c)) as).file = .good c' ∧ Same c c') := by
  have h := exec_fld as _ (start_fld c) hd
  refine ⟨?_, ?_, ?_⟩
  · intro t c' hp
    have := h.ok t
    rcases hp with hp | hp <;> rw [hp] at this <;> exact this
  · intro t hp
    have := h.ok t
    rw [hp] at this
    exact this
  · intro hq
    rcases h.file with hf | ⟨_, t, c', ht⟩
    · exact hf
    · obtain ⟨a, ha⟩ := hq t
      rw [ht] at ha
      cases ha

/-- When a change is answered it is in the file and in the cache. -/
theorem C83_change_written (c c' : Cfg) (as : List Act) (t : Nat) (hd : ∀ t, .start t .delete ∉ as)
    (h0 : ∀ a, (exec (start true (.good c)) as).pc t ≠ .idle a)
    (h1 : (exec (start true (.good c)) (as ++ [.run t])).pc t = .idle (some (.changed c'))) :
    (exec (start true (.good c)) (as ++ [.run t])).file = .good c' ∧ (exec (start true (.good c)) (as ++ [.run t])).cache = some c' := by
  have h := exec_fld as _ (start_fld c) hd
  have he : exec (start true (.good c)) (as ++ [.run t]) = NextPlaid.ConfCache.run (exec (start true (.good c)) as) t := by
    simp [exec, act]
  rw [he] at h1 ⊢
  generalize exec (start true (.good c)) as = s at *
  cases hp : s.pc t with
  | idle a => exact absurd hp (h0 a)
  | write2 new c2 =>
    cases new with
    | true => have := h.ok t; rw [hp] at this; exact this.elim
    | false =>
      have hf := h.done t c2 hp
      simp [NextPlaid.ConfCache.run, hp, St.fin, St.goto, St.release] at h1 ⊢
      subst h1
      exact ⟨hf, rfl⟩
  | get0 => cases hc : s.cache <;> simp [NextPlaid.ConfCache.run, hp, hc, St.fin, St.goto] at h1
  | get1 => cases hc : s.file <;> simp [NextPlaid.ConfCache.run, hp, hc, St.fin, St.goto] at h1
  | set0 m => cases hc : s.cache <;> simp [NextPlaid.ConfCache.run, hp, hc, St.goto] at h1
  | set1 m => cases hc : s.file <;> simp [NextPlaid.ConfCache.run, hp, hc, St.fin, St.goto, St.release] at h1
  | waitSet m =>
    rcases (acquire_fields s t (.set0 m)).2.2.2.2.2 with e | e <;> simp [NextPlaid.ConfCache.run, hp, e] at h1
  | waitCreate m =>
    rcases (acquire_fields s t (.create0 m)).2.2.2.2.2 with e | e <;> simp [NextPlaid.ConfCache.run, hp, e] at h1
  | waitDelete =>
    rcases (acquire_fields s t .delete0).2.2.2.2.2 with e | e <;> simp [NextPlaid.ConfCache.run, hp, e] at h1
  | create0 m => by_cases hc : s.file = .absent <;> simp [NextPlaid.ConfCache.run, hp, hc, St.fin, St.goto, St.release] at h1
  | write0 new m => cases hc : s.dir <;> simp [NextPlaid.ConfCache.run, hp, hc, St.fin, St.goto, St.release] at h1
  | delete2 => cases hc : s.dir <;> simp [NextPlaid.ConfCache.run, hp, hc, St.fin, St.goto] at h1
  | _ => simp [NextPlaid.ConfCache.run, hp, St.fin, St.goto, St.release] at h1

/-- As long as nobody looks for a configuration, without the lock, while another changes it, or while the directory is being removed: what the server
remembers when nothing is under way is what is in the file.  Missing from the full statement: that this holds however requests overlap, which is
refuted by `C83_stale_config`. -/
theorem C83_remembers_partial (d : Bool) (f : File) (as : List Act) (hc : CalmAll (start d f) as) (hq : Quiet (exec (start d f) as)) (c : Cfg)
    (h : (exec (start d f) as).cache = some c) : (exec (start d f) as).file = .good c := by
  rcases (exec_coh as _ (start_coh d f) hc).cache c h with hf | ⟨t, new, c', ht⟩
  · exact hf
  · obtain ⟨a, ha⟩ := hq t
    rcases ht with ht | ht <;> rw [ht] at ha <;> cases ha

private def seen (m : Option Nat) : Cfg := ⟨4, 50000, none, 999, m, "unicode61".toList⟩

example : CalmAll (start true (.good (seen none)))
    [.start 0 .get, .run 0, .run 0, .run 0, .start 1 (.set (some 5)), .start 2 .get, .run 1, .run 1, .run 1, .run 2, .run 1, .run 1,
      .start 2 .delete, .run 2, .run 2, .run 2, .run 2, .start 0 (.create (seen none)), .run 0, .run 0, .run 0, .run 0, .run 0, .run 0] :=
  calmAll_of (n := 3) (by decide) (by decide +kernel)

/-- A request that looks for the configuration just after the server was started, while the limit on documents is changed: the change is answered, and is
in the file, but the server goes on with the old limit. -/
theorem C83_stale_config (c : Cfg) (m : Option Nat) : ∃ as, Quiet (exec (start true (.good c)) as) ∧
    (exec (start true (.good c)) as).pc 1 = .idle (some (.changed { c with maxDocuments := m })) ∧
    (exec (start true (.good c)) as).file = .good { c with maxDocuments := m } ∧
    (exec (start true (.good c)) as).cache = some c := by
  refine ⟨[.start 0 .get, .run 0, .run 0, .start 1 (.set m), .run 1, .run 1, .run 1, .run 1, .run 1, .run 1, .run 1, .run 0], ?_, rfl, rfl, rfl⟩
  refine quiet_of (n := 2) (by simp [threadOf]) ?_
  intro t ht
  interval_cases t
  · exact ⟨_, rfl⟩
  · exact ⟨_, rfl⟩

/-- A request that looks for the configuration of an index while it is deleted: the server remembers the configuration of an index that is gone.
Documents that are then added make an index again, which has no configuration, so that none can be added to it after a restart. -/
theorem C83_deleted_remembered (dss : Nat) (n : Name) (c : Cfg) : (∃ as, Quiet (exec (start true (.good c)) as) ∧
    (exec (start true (.good c)) as).pc 1 = .idle (some .deleted) ∧ (exec (start true (.good c)) as).dir = false ∧
    (exec (start true (.good c)) as).cache = some c) ∧
    (NextPlaid.Catalogue.run dss ⟨[], fun m => if m = n then some c else none⟩ [.populate n, .list, .restart, .populate n]).1 =
      [.populated c, .names [n], .none, .failed] := by
  constructor
  · refine ⟨[.start 0 .get, .run 0, .run 0, .start 1 .delete, .run 1, .run 1, .run 1, .run 1, .run 0], ?_, rfl, rfl, rfl⟩
    refine quiet_of (n := 2) (by simp [threadOf]) ?_
    intro t ht
    interval_cases t
    · exact ⟨_, rfl⟩
    · exact ⟨_, rfl⟩
  · have h2 : listAll [(n, ⟨.absent, true⟩)] = [n] := by
      simp [listAll, known, sortNames, List.mergeSort]
    simp [NextPlaid.Catalogue.run, NextPlaid.Catalogue.step, populate, getConfig, entry, put, h2, readFile]

/-- An index that is declared while one of the same name is deleted can be answered as declared and be removed by the deletion. -/
theorem C83_declared_removed (c : Cfg) : ∃ as, Quiet (exec (start false .absent) as) ∧
    (exec (start false .absent) as).pc 0 = .idle (some (.created c)) ∧ (exec (start false .absent) as).dir = false ∧
    (exec (start false .absent) as).cache = some c := by
  refine ⟨[.start 1 .delete, .run 1, .run 1, .run 1, .start 0 (.create c), .run 0, .run 0, .run 0, .run 0, .run 0, .run 0, .run 1], ?_, rfl, rfl, rfl⟩
  refine quiet_of (n := 2) (by simp [threadOf]) ?_
  intro t ht
  interval_cases t
  · exact ⟨_, rfl⟩
  · exact ⟨_, rfl⟩

/-- When the server stops in the middle of a change of the limit, `config.json` can be left without a configuration.  The index is then listed, cannot be
declared, and neither its limit can be set nor a document added to it. -/
theorem C83_torn (dss : Nat) (n : Name) (hn : n ≠ []) (c : Cfg) (m : Option Nat) (r : CfgReq) : (∃ as,
    (exec (start true (.good c)) as).file = .bad) ∧
    ∀ i, (NextPlaid.Catalogue.run dss ⟨[(n, ⟨.bad, i⟩)], fun _ => none⟩ [.list, .create n r, .setMax n m, .populate n]).1 =
      [.names [n], .conflict, .notFound, .failed] := by
  constructor
  · exact ⟨[.start 1 (.set m), .run 1, .run 1, .run 1, .run 1, .run 1], rfl⟩
  · intro i
    have h2 : listAll [(n, ⟨.bad, i⟩)] = [n] := by
      simp [listAll, known, sortNames, List.mergeSort]
    simp [NextPlaid.Catalogue.run, NextPlaid.Catalogue.step, h2, create, known, hn, populate, setMax, getConfig, entry, readFile]

end Overlap

end NextPlaid.Props
