import Verif.Proofs.Specific
import Verif.Props.Colgrep
import Mathlib.Tactic.FinCases

/-!
C104: `index_specific_files` brings the index up to date for the files it is given and leaves the documents of all others alone.

The second half is proved for every call, at every moment at which the process may be killed.  The first half fails in general; see the
counterexamples below.  Proved: it holds for every call over an index that can be trusted, with files that are given once, are text, and have code
if they are recorded with another content; the index can then be trusted again.
-/

namespace NextPlaid.Props

open NextPlaid.Colgrep NextPlaid.Spec.Specific

variable {P C U H : Type} [DecidableEq P] [DecidableEq H]

/-- **C104 (partial): the files that were given.**  The call succeeds; each file it was given has exactly the units of its present content in the index;
other files have the documents and the record they had; the index can be trusted after the call as before. -/
theorem C104_indexed_partial (L : Lang P C U H) (hL : L.Lawful) (hhash : Function.Injective L.hash) (given : List (P × File C)) (l : Log P U H)
    (htrust : Trusted L.parse L.hash (hashOf l.now.state) l.now.vec l.now.db)
    (hplain : Plain L.parse L.hash (hashOf l.now.state) l.now.state.ignored given) :
    ∃ l' c, indexSpecific L given .never l = .ok (l', c) ∧
      (∀ e ∈ given, ∃ units, L.parse e.1 e.2.content = some units ∧ (unitsIn e.1 l'.now.vec).Perm units) ∧
      (∀ p, p ∉ given.map (·.1) → unitsIn p l'.now.vec = unitsIn p l.now.vec ∧ hashOf l'.now.state p = hashOf l.now.state p) ∧
      Trusted L.parse L.hash (hashOf l'.now.state) l'.now.vec l'.now.db ∧ l'.now.state.ignored = l.now.state.ignored := by
  obtain ⟨l', c, h1, h2, h3, h4, h5⟩ := indexSpecific_ok L hL hhash given l htrust hplain
  exact ⟨l', c, h1, h3, h4, h2, h5⟩

/-- **C104: an index that can be trusted.**  Where there is no index yet, and after any calm sequence of finished indexing runs (C49). -/
theorem C104_trusted (L : Lang P C U H) (hL : L.Lawful) (hhash : Function.Injective L.hash) (disks : List (Disk P C))
    (hcalm : Spec.CalmFrom L.parse [] [] disks) :
    ∃ l, runs L disks {} = .ok l ∧ Trusted L.parse L.hash (hashOf l.now.state) l.now.vec l.now.db := by
  obtain ⟨l, h1, ha⟩ := runs_ok L hL hhash disks [] [] (by simp) hcalm {} (after_start L)
  refine ⟨l, h1, ha.aligned, ?_, ?_⟩
  · intro p h hh
    obtain ⟨i, hi, rfl⟩ := Option.map_eq_some_iff.1 hh
    obtain ⟨f, _, g2, g3, g4⟩ := ha.current p i hi
    obtain ⟨units, hu⟩ := Option.ne_none_iff_exists'.1 g3
    refine ⟨f.content, units, g2.symm, hu, ?_⟩
    have := g4.map (·.2)
    rw [unitsIn_eq]
    simpa [unitDocs, hu, List.map_map, Function.comp_def] using this
  · intro p hh
    rw [unitsIn_eq, ha.absent p (Option.map_eq_none_iff.1 hh)]
    rfl

/-- **C104: all other files.**  Whatever is given, and however the call ends: at every moment of the call, the documents of files that were not given are
those from before, in the same order, in the index and in the database; before the end of a finished call the state is the old one.  A call fails only
by an interruption. -/
theorem C104_others (L : Lang P C U H) (hL : L.Lawful) (given : List (P × File C)) (stop : Stop) (l : Log P U H) (haligned : l.now.vec = l.now.db) :
    ∃ l1, ((∃ c, indexSpecific L given stop l = .ok (l1, c)) ∨ (stop ≠ .never ∧ indexSpecific L given stop l = .error (.interrupted l1) ∧
        l1.now.state = l.now.state)) ∧
      ∀ d ∈ l1.now :: l1.past, d ∈ l.now :: l.past ∨
        ((d.state = l.now.state ∨ d = l1.now) ∧
          ((d.vec.getD []).filter fun x => x.1 ∉ given.map (·.1)) = ((l.now.vec.getD []).filter fun x => x.1 ∉ given.map (·.1)) ∧
          ((d.db.getD []).filter fun x => x.1 ∉ given.map (·.1)) = ((l.now.vec.getD []).filter fun x => x.1 ∉ given.map (·.1))) := by
  obtain ⟨⟨st, v, db, b⟩, past⟩ := l
  simp only at haligned
  subst haligned
  by_cases hq : chosen L st given = [] ∨ stop = .parsing ∨ unitsOf (parseAll L (chosen L st given)) = []
  · exact ⟨⟨⟨st, v, v, b⟩, past⟩, .inl ⟨_, by unfold indexSpecific; exact if_pos hq⟩, fun d hd => .inl hd⟩
  · obtain ⟨l1, hk, ⟨h1, h2⟩ | ⟨h0, h1, n, hn, _⟩⟩ := writeChosen_ok L hL given stop ⟨⟨st, v, v, b⟩, past⟩ st v b rfl
    · refine ⟨saveState l1 (chosenState L st given), .inl ⟨_, by unfold indexSpecific; rw [if_neg hq, h1]⟩, ?_⟩
      have hcase : ∀ d ∈ l1.now :: l1.past, d ∈ (⟨st, v, v, b⟩ : Persist P U H) :: past ∨ Kept (given.map (·.1)) st (rest (given.map (·.1)) v) d := hk
      have hlast : rest (given.map (·.1)) l1.now.vec = rest (given.map (·.1)) v ∧ rest (given.map (·.1)) l1.now.db = rest (given.map (·.1)) v := by
        have hc : ∀ p ∈ (ofKind L st given .changed).map (·.1), p ∈ given.map (·.1) := by
          intro p hp
          obtain ⟨e, he, rfl⟩ := List.mem_map.1 hp
          exact List.mem_map.2 ⟨e, (mem_ofKind.1 he).1, rfl⟩
        have hu : ∀ x ∈ L.arrange (unitsOf (parseAll L (chosen L st given))), x.1 ∈ given.map (·.1) := by
          intro x hx
          obtain ⟨e, he, hex⟩ := List.mem_map.1 (units_named L _ x ((hL.arrange _).mem_iff.1 hx))
          exact List.mem_map.2 ⟨e, (mem_chosen.1 he).1, hex⟩
        rw [h2]
        simp only
        rw [rest_grown hu, rest_filter hc]
        exact ⟨rfl, rfl⟩
      intro d hd
      simp only [saveState, write, List.mem_cons] at hd
      rcases hd with rfl | hd
      · exact .inr ⟨.inr rfl, hlast.1, hlast.2⟩
      · rcases hcase d (by simpa using hd) with h | ⟨k1, k2, k3⟩
        · exact .inl h
        · exact .inr ⟨.inl k1, k2, k3⟩
    · refine ⟨l1, .inr ⟨h0, by unfold indexSpecific; rw [if_neg hq, h1], ?_⟩, ?_⟩
      · rcases hk l1.now (by simp) with h | ⟨k1, _, _⟩
        · obtain ⟨l0, d1, d2, _⟩ := deleteFiles_kept (names := given.map (·.1)) (files := (ofKind L st given .changed).map (·.1)) (by
            intro p hp
            obtain ⟨e, he, rfl⟩ := List.mem_map.1 hp
            exact List.mem_map.2 ⟨e, (mem_ofKind.1 he).1, rfl⟩) ⟨⟨st, v, v, b⟩, past⟩ st v b rfl
          rcases encode_any L (unitsOf (parseAll L (chosen L st given))) stop l0 st _ b d2 with ⟨l', s', e1, _, e2⟩ | ⟨l', m, _, e1, e2⟩
          · exfalso
            have : writeChosen L given stop ⟨⟨st, v, v, b⟩, past⟩ = .ok (saveState l' (chosenState L st given)) := by
              unfold writeChosen
              simp only
              rw [d1]
              show (encode L _ stop l0 >>= _) = _
              rw [e1]
              rfl
            rw [this] at h1
            cases h1
          · have : writeChosen L given stop ⟨⟨st, v, v, b⟩, past⟩ = .error (.interrupted l') := by
              unfold writeChosen
              simp only
              rw [d1]
              show (encode L _ stop l0 >>= _) = _
              rw [e1]
              rfl
            rw [this] at h1
            cases h1
            rw [e2]
        · exact k1
      · intro d hd
        rcases hk d hd with h | ⟨k1, k2, k3⟩
        · exact .inl h
        · exact .inr ⟨.inl k1, k2, k3⟩

/-- **C104: the counts.**  Either nothing was written, and no file is reported as added or changed, or every file that was given is counted once. -/
theorem C104_counts (L : Lang P C U H) (given : List (P × File C)) (stop : Stop) (l l' : Log P U H) (c : Counts)
    (h : indexSpecific L given stop l = .ok (l', c)) :
    (l' = l ∧ c.added = 0 ∧ c.changed = 0) ∨ c.added + c.changed + c.unchanged = given.length := by
  unfold indexSpecific at h
  simp only at h
  split at h
  · cases h
    exact .inl ⟨rfl, rfl, rfl⟩
  · split at h
    · cases h
    · cases h
      exact .inr (kinds_length L _ _)

/-! ### Examples -/

/-- Two files are indexed. -/
def twoFiles : Log Nat Nat (List Nat) := leftBy (runs ToyLang [[(1, code [11, 12]), (2, code [21])]] {})

/-- What a call leaves. -/
@[reducible] def afterCall (r : Except (Halt Nat Nat (List Nat)) (Log Nat Nat (List Nat) × Counts)) : Log Nat Nat (List Nat) :=
  match r with
  | .ok l => l.1
  | .error h => h.log

/-- What it reports. -/
@[reducible] def reported (r : Except (Halt Nat Nat (List Nat)) (Log Nat Nat (List Nat) × Counts)) : Option Counts :=
  match r with
  | .ok l => some l.2
  | .error _ => none

/-- One file has changed, one is new, one is as it was. -/
example : (∃ l, runs ToyLang [[(1, code [11, 12]), (2, code [21])]] {} = .ok l ∧ twoFiles = l ∧
      Trusted ToyLang.parse ToyLang.hash (hashOf l.now.state) l.now.vec l.now.db) ∧
    Plain ToyLang.parse ToyLang.hash (hashOf twoFiles.now.state) twoFiles.now.state.ignored [(1, code [13]), (3, code [31, 32]), (2, code [21])] := by
  constructor
  · obtain ⟨l, h1, h2⟩ := C104_trusted ToyLang toyLang_lawful (fun _ _ h => h) [[(1, code [11, 12]), (2, code [21])]]
      ⟨⟨by decide, by simp, by simp⟩, trivial⟩
    exact ⟨l, h1, by unfold twoFiles; rw [h1], h2⟩
  · have h : twoFiles.now.state.ignored = [] := by decide +kernel
    refine ⟨by decide, by rw [h]; simp, ?_, ?_⟩
    · intro e he
      fin_cases he <;> exact ⟨_, rfl⟩
    · intro e he h hh _
      fin_cases he <;> simp [ToyLang]

example : (afterCall (indexSpecific ToyLang [(1, code [13]), (3, code [31, 32]), (2, code [21])] .never twoFiles)).now.vec =
      some [(2, 21), (1, 13), (3, 32), (3, 31)] ∧
    reported (indexSpecific ToyLang [(1, code [13]), (3, code [31, 32]), (2, code [21])] .never twoFiles) = some ⟨1, 1, 1⟩ :=
  ⟨by decide +kernel, by decide +kernel⟩

/-! ### What goes wrong -/

/-- **C104 fails for a file that has lost its code.**  The call succeeds and changes nothing: the old units of the file stay in the index, the file is
reported neither as changed nor as unchanged, and so it is each time. -/
theorem C104_no_code_left :
    (twoFiles.now.vec = some [(1, 12), (1, 11), (2, 21)]) ∧ indexSpecific ToyLang [(1, code [])] .never twoFiles = .ok (twoFiles, ⟨0, 0, 0⟩) :=
  ⟨by decide +kernel, by rfl⟩

/-- **C104 fails for a file that is given twice.**  Its units are in the index twice. -/
theorem C104_twice :
    (afterCall (indexSpecific ToyLang [(3, code [31]), (3, code [31])] .never twoFiles)).now.vec = some [(1, 12), (1, 11), (2, 21), (3, 31), (3, 31)] := by
  decide +kernel

/-- **C104 fails after an interruption.**  A new file was half written; it is not recorded, so the next call adds all of it again. -/
theorem C104_interrupted :
    (afterCall (indexSpecific ToyLang [(3, code [31, 32])] .never (afterCall (indexSpecific ToyLang [(3, code [31, 32])] (.after 1) twoFiles)))).now.vec =
      some [(1, 12), (1, 11), (2, 21), (3, 32), (3, 32), (3, 31)] := by
  decide +kernel

/-- **C104 fails for a file that was not text for a while.**  When it is not text it loses its documents but keeps its record; when it has its old
content again, it is reported as unchanged, and the index has nothing of it. -/
theorem C104_restored :
    let l := afterCall (indexSpecific ToyLang [(1, code [0]), (3, code [31])] .never twoFiles)
    l.now.vec = some [(2, 21), (3, 31)] ∧ indexSpecific ToyLang [(1, code [11, 12])] .never l = .ok (l, ⟨0, 0, 1⟩) := by
  exact ⟨by decide +kernel, by rfl⟩

/-- **C104 fails for a file that was once skipped.**  It is text now and is given, and it is not indexed; the call succeeds. -/
theorem C104_skipped_for_good :
    let l := afterCall (indexSpecific ToyLang [(3, code [0]), (4, code [41])] .never twoFiles)
    l.now.state.ignored = [3] ∧ indexSpecific ToyLang [(3, code [31])] .never l = .ok (l, ⟨0, 0, 0⟩) ∧
      reported (indexSpecific ToyLang [(3, code [0]), (4, code [41])] .never twoFiles) = some ⟨2, 0, 0⟩ := by
  exact ⟨by decide +kernel, by rfl, by decide +kernel⟩

end NextPlaid.Props
