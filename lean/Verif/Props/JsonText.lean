import Verif.Proofs.Records3
import Verif.Proofs.Records2

/-!
C73.  What is written to a JSON file is what is read from it, and a file whose writing was cut short is never taken for another.
-/

namespace NextPlaid.Props
open NextPlaid.JsonText NextPlaid.Records NextPlaid.Spec

variable {R : Type} {F : Reals R}

/-- A value whose numbers are finite and in range is read back from its text, in either layout and with white space after it,
exactly if fewer than 128 containers are within each other; a deeper one is written but cannot be read. -/
theorem C73_any_value (hF : LawfulReals F) (v : J R) (hw : Writable F v) :
    (depth v < 128 → ∀ pad, (∀ c ∈ pad, c = ' ' ∨ c = '\n' ∨ c = '\t' ∨ c = '\r') →
      parse F (compact F v ++ pad) = some v ∧ parse F (pretty F v ++ pad) = some v) ∧
    (128 ≤ depth v → parse F (compact F v) = none ∧ parse F (pretty F v) = none) := by
  refine ⟨fun hd pad hp => ?_, fun hd => ⟨parse_deep hF none v hw hd, parse_deep hF (some 0) v hw hd⟩⟩
  have hp' : ∀ c ∈ pad, isWs c = true := by
    intro c hc
    rcases hp c hc with rfl | rfl | rfl | rfl <;> decide
  exact ⟨parse_padded hF none v hw hd hp', parse_padded hF (some 0) v hw hd hp'⟩

/-- Two values with the same text are the same. -/
theorem C73_distinct (hF : LawfulReals F) (v w : J R) (hv : Writable F v) (hw : Writable F w) (dv : depth v < 128) (dw : depth w < 128)
    (h : compact F v = compact F w ∨ pretty F v = pretty F w ∨ compact F v = pretty F w) : v = w := by
  rcases h with h | h | h
  · have := (parse_render hF none v hv dv).symm.trans ((congrArg (parse F) h).trans (parse_render hF none w hw dw))
    exact Option.some.inj this
  · have := (parse_render hF (some 0) v hv dv).symm.trans ((congrArg (parse F) h).trans (parse_render hF (some 0) w hw dw))
    exact Option.some.inj this
  · have := (parse_render hF none v hv dv).symm.trans ((congrArg (parse F) h).trans (parse_render hF (some 0) w hw dw))
    exact Option.some.inj this

/-- A part of the text of an array or an object is not read as anything. -/
theorem C73_torn (hF : LawfulReals F) (v : J R) (hc : Container v) (hw : Writable F v) (hd : depth v < 128) (torn : List Char)
    (ht : Torn (compact F v) torn ∨ Torn (pretty F v) torn) : parse F torn = none := by
  rcases ht with ht | ht
  · exact parse_torn hF none (Or.inl hc) hw hd ht
  · exact parse_torn hF (some 0) (Or.inl hc) hw hd ht

/-- The metadata of an index are read as they were written, if an index without documents has only empty length files; a part
of the file is refused. -/
theorem C73_metadata (hF : LawfulReals F) (m : Metadata R) (h : FitsMetadata m) (hr : (F.shows m.avgDoclen).isSome)
    (doclens : Nat → Option (List Char)) :
    ((m.numDocuments = 0 → ∀ i < m.numChunks, doclens i = some (doclensText F [])) → loadMetadata F (some (m.text F)) doclens = some m) ∧
    ∀ torn, Torn (m.text F) torn → loadMetadata F (some torn) doclens = none := by
  refine ⟨fun h0 => ?_, fun torn ht => metadata_torn hF h hr ht doclens⟩
  rw [metadata_load hF h hr]
  by_cases hz : m.numDocuments = 0
  · rw [if_pos hz, countDocs_eq hF (lens := fun _ => []) m.numChunks (fun i hi => ⟨h0 hz i hi, by simp⟩)]
    have : ((List.range m.numChunks).map fun i => ([] : List Int).length).sum = 0 := List.sum_eq_zero_iff_forall_eq_nat.2 (by simp)
    rw [this, ← hz]
  · rw [if_neg hz]

/-- The metadata of an older version, which did not record the number of documents: it is counted from the length files. -/
theorem C73_metadata_legacy (hF : LawfulReals F) (chunks nbits parts embs : Nat) (avg : R)
    (h : chunks < 2 ^ 64 ∧ nbits < 2 ^ 64 ∧ parts < 2 ^ 64 ∧ embs < 2 ^ 64) (hr : (F.shows avg).isSome)
    (doclens : Nat → Option (List Char)) (lens : Nat → List Int)
    (hl : ∀ i < chunks, doclens i = some (doclensText F (lens i)) ∧ ∀ x ∈ lens i, -2 ^ 63 ≤ x ∧ x < 2 ^ 63) :
    loadMetadata F (some (pretty F (.obj [("num_chunks".toList, .int chunks), ("nbits".toList, .int nbits), ("num_partitions".toList, .int parts),
      ("num_embeddings".toList, .int embs), ("avg_doclen".toList, .real avg)]))) doclens =
      some ⟨chunks, nbits, parts, embs, avg, ((List.range chunks).map fun i => (lens i).length).sum, 0, false⟩ := by
  obtain ⟨h1, h2, h3, h4⟩ := h
  have hp : parse F (pretty F (.obj [("num_chunks".toList, .int chunks), ("nbits".toList, .int nbits), ("num_partitions".toList, .int parts),
      ("num_embeddings".toList, .int embs), ("avg_doclen".toList, .real avg)])) = some (.obj [entry "num_chunks" (natJ chunks),
      entry "nbits" (natJ nbits), entry "num_partitions" (natJ parts), entry "num_embeddings" (natJ embs), entry "avg_doclen" (.real avg)]) := by
    refine parse_render hF (some 0) _ ?_ ?_
    · simp only [Writable, WritableMembers, and_true, hr]
      refine ⟨?_, ?_, ?_, ?_⟩ <;> omega
    · simp [depth, depthMembers]
  unfold loadMetadata
  refine bind_of rfl ?_
  refine bind_of hp ?_
  have hm : readMetadata F (.obj [entry "num_chunks" (natJ chunks), entry "nbits" (natJ nbits), entry "num_partitions" (natJ parts),
      entry "num_embeddings" (natJ embs), entry "avg_doclen" (.real avg)]) = some ⟨chunks, nbits, parts, embs, avg, 0, 0, false⟩ := by
    unfold readMetadata
    refine bind_of (fields_obj _) ?_
    refine bind_of (field_of (by simp [entry]) (readNat_natJ h1)) ?_
    refine bind_of (field_of (by simp [entry]) (readNat_natJ h2)) ?_
    refine bind_of (field_of (by simp [entry]) (readNat_natJ h3)) ?_
    refine bind_of (field_of (by simp [entry]) (readNat_natJ h4)) ?_
    refine bind_of (field_of (v := .real avg) (by simp [entry]) rfl) ?_
    rfl
  refine bind_of hm ?_
  show some ({ numChunks := chunks, nbits := nbits, numPartitions := parts, numEmbeddings := embs, avgDoclen := avg, numDocuments := countDocs F doclens chunks, embeddingDim := 0, compatible := false } : Metadata R) = _
  rw [countDocs_eq hF chunks hl]

/-- The lengths of the documents are read as they were written; a part of the file is refused. -/
theorem C73_doclens (hF : LawfulReals F) (l : List Int) (h : ∀ n ∈ l, -2 ^ 63 ≤ n ∧ n < 2 ^ 63) :
    loadDoclens F (doclensText F l) = some l ∧ ∀ torn, Torn (doclensText F l) torn → loadDoclens F torn = none := by
  refine ⟨doclens_load hF l h, fun torn ht => ?_⟩
  have hw : Writable F (.arr (l.map .int)) := by
    unfold Writable
    refine (writableItems_iff _).2 ?_
    intro v hv
    obtain ⟨n, hn, rfl⟩ := List.mem_map.1 hv
    have := h n hn
    unfold Writable
    omega
  have hd : depth (R := R) (.arr (l.map .int)) ≤ 1 := by
    have h2 : depthItems (R := R) (l.map .int) ≤ 0 := depthItems_le _ _ (by
      intro e he
      obtain ⟨f, _, rfl⟩ := List.mem_map.1 he
      simp [depth])
    unfold depth
    omega
  unfold loadDoclens
  rw [parse_torn hF none (Or.inl (by unfold Container; trivial)) hw (by omega) ht]
  rfl

/-- The state of a colgrep index, when the process is killed at any moment of saving it: what is read is the state saved
before (or the empty state, if there was none) or the new one with its stamp, which it is when the saving was finished. -/
theorem C73_state (hF : LawfulReals F) (version : List Char) (old : Option State) (new : State) (ho : ∀ s ∈ old, FitsState s) (hn : FitsState new)
    (n : Nat) :
    let before := old.map (State.text F version)
    loadState F (replaced before (new.text F version) n).2 =
      if n ≤ (new.text F version).length + 1 then some ((old.map (State.stamped version)).getD State.empty)
      else some { new with version := version, format := 2 } := by
  intro before
  unfold replaced
  by_cases hk : n ≤ (new.text F version).length + 1
  · rw [if_pos hk, if_pos hk]
    cases old with
    | none => rfl
    | some s => exact state_load hF (ho s rfl) version
  · rw [if_neg hk, if_neg hk]
    exact state_load hF hn version

/-- A part of the text of a state is an error, not an empty state. -/
theorem C73_state_torn (hF : LawfulReals F) (version : List Char) (s : State) (h : FitsState s) (torn : List Char) (ht : Torn (s.text F version) torn) :
    loadState F (some torn) = none := state_torn hF h version ht

/-- The project of a colgrep index is read as it was written; a part of the file is refused. -/
theorem C73_project (hF : LawfulReals F) (p : Project) :
    loadProject F (some (p.text F)) = some p ∧ ∀ torn, Torn (p.text F) torn → loadProject F (some torn) = none :=
  ⟨project_load hF p, fun _ ht => project_torn hF p ht⟩

/-- Files written by any version, or by hand: the members of an object may come in any order, unknown ones do not matter, missing ones have
their defaults where there are any; a member that is repeated, of the wrong type, or missing without a default makes the file
unreadable. -/
theorem C73_members (text : List Char) (l : List (List Char × J R)) (h : parse F text = some (.obj l)) (scratch : Nat) :
    (∀ c, loadStored F scratch (some text) = some c ↔ StoredIn scratch l c) ∧
    (∀ s, loadState F (some text) = some s ↔ StateIn l s) ∧
    (∀ p, loadProject F (some text) = some p ↔ ProjectIn l p) ∧
    (∀ doclens m, m.numDocuments ≠ 0 → (loadMetadata F (some text) doclens = some m ↔
      MetadataIn F l m ∨ (MetadataIn F l { m with numDocuments := 0 } ∧ m.numDocuments = countDocs F doclens m.numChunks))) := by
  refine ⟨fun c => ?_, fun s => ?_, fun p => ?_, fun doclens m hm => ?_⟩
  · unfold loadStored
    rw [Option.bind_some, h, Option.bind_some]
    exact readStored_iff scratch l c
  · unfold loadState
    simp only
    rw [h, Option.bind_some]
    exact readState_iff l s
  · unfold loadProject
    rw [Option.bind_some, h, Option.bind_some]
    exact readProject_iff l p
  · rw [← readMetadata_iff, ← readMetadata_iff]
    unfold loadMetadata
    simp only [Option.bind_eq_bind, Option.bind_some, h, Option.bind_eq_some_iff]
    constructor
    · rintro ⟨m', hm', he⟩
      have he := Option.some.inj he
      by_cases h0 : m'.numDocuments = 0
      · rw [if_pos h0] at he
        right
        have : m' = { m with numDocuments := 0 } := by rw [← he, ← h0]
        rw [← this]
        exact ⟨hm', by rw [← he]⟩
      · rw [if_neg h0] at he
        left
        rw [← he]
        exact hm'
    · rintro (h1 | ⟨h1, h2⟩)
      · exact ⟨m, h1, by rw [if_neg hm]; rfl⟩
      · refine ⟨_, h1, ?_⟩
        rw [if_pos rfl, ← h2]
        rfl

/-- The configuration of an index on the server: after any history of declarations, changes of the limit, looks and restarts
it is the one declared last, with the limit put since. -/
theorem C73_config (hF : LawfulReals F) (scratch : Nat) (l : List ConfStep) (hl : ∀ e ∈ l, FitsStep e) :
    ((l.foldl (Conf.step F scratch) ⟨none, none⟩).get F scratch).1 = l.foldl confStep none :=
  (get_holds hF scratch (steps_hold hF scratch l (c := none) ⟨by simp, rfl, Or.inl rfl⟩ hl)).1

/-- The server is killed after step `n` of saving the configuration `c`: the configuration read afterwards is the one from
before if nothing was done yet, and `c` if everything was written; in between there is none. -/
theorem C73_config_killed (hF : LawfulReals F) (scratch : Nat) (l : List ConfStep) (hl : ∀ e ∈ l, FitsStep e) (c : Stored) (hc : FitsStored c) (n : Nat) :
    (((l.foldl (Conf.step F scratch) ⟨none, none⟩).killed F c n).get F scratch).1 =
      if n = 0 then l.foldl confStep none else if (c.text F).length < n then some c else none := by
  have hh := steps_hold hF scratch l (c := none) (s := ⟨none, none⟩) ⟨by simp, rfl, Or.inl rfl⟩ hl
  generalize l.foldl (Conf.step F scratch) ⟨none, none⟩ = s at hh
  generalize l.foldl confStep none = d at hh
  have hk := killed_file hF (old := s.file) hc scratch n
  have hf : loadStored F scratch s.file = d := by
    rw [hh.2.1]
    cases d with
    | none => rfl
    | some d => exact stored_load hF (hh.1 d rfl) scratch
  have hg : ((s.killed F c n).get F scratch).1 = loadStored F scratch (overwritten s.file (c.text F) n) := by
    unfold Conf.get Conf.killed
    dsimp only
    cases loadStored F scratch (overwritten s.file (c.text F) n) <;> rfl
  rw [hg, hk, hf]

/-- So a kill while the limit of any declared index is changed can lose its configuration: later changes of the limit find no index, for ever. -/
theorem C73_config_lost (hF : LawfulReals F) (scratch : Nat) (c : Stored) (hc : FitsStored c) (max : Option Nat) (hm : ∀ n ∈ max, n < 2 ^ 64) :
    ∃ n, let s := (Conf.set F c ⟨none, none⟩).killed F { c with maxDocuments := max } n
      ∀ later : List (Option Nat), ((later.foldl (fun s m => (s.put F scratch m).2.restart) s).put F scratch none).1 = none := by
  refine ⟨1, ?_⟩
  intro s later
  have hs : loadStored F scratch s.file = none := by
    have := killed_file hF (old := some (c.text F)) (c := { c with maxDocuments := max }) ⟨hc.1, hc.2.1, hc.2.2.1, hc.2.2.2.1, hm⟩ scratch 1
    rw [if_neg (by omega), if_neg (by have := text_pos (F := F) { c with maxDocuments := max }; omega)] at this
    exact this
  have hput : ∀ (t : Conf) m, t.cache = none → loadStored F scratch t.file = none → t.put F scratch m = (none, t) := by
    intro t m h1 h2
    unfold Conf.put Conf.get
    rw [h1]
    dsimp only
    rw [h2]
  have key : ∀ (later : List (Option Nat)) (t : Conf), t.cache = none → loadStored F scratch t.file = none →
      ((later.foldl (fun s m => (s.put F scratch m).2.restart) t).put F scratch none).1 = none := by
    intro later
    induction later with
    | nil => intro t h1 h2; rw [List.foldl_nil, hput t none h1 h2]
    | cons m later ih =>
      intro t h1 h2
      rw [List.foldl_cons]
      refine ih _ ?_ ?_
      · rfl
      · rw [hput t m h1 h2]; exact h2
  exact key later s rfl hs

/-! ### A concrete case -/

namespace ToyJson

/-- Three numbers: 1.5, -2e10 and one that is not finite. -/
@[reducible] def reals : Reals (Option Bool) where
  shows
    | some true => some "1.5".toList
    | some false => some "-2e10".toList
    | none => none
  reads t := if t = "1.5".toList then some (some true) else if t = "-2e10".toList then some (some false) else none
  ofInt _ := some true

theorem lawful : LawfulReals reals where
  shape := by
    intro r t h
    match r, h with
    | some true, h =>
      cases h
      exact ⟨[], ['1'], ['.', '5'], [], rfl, Or.inl rfl, ⟨by simp, by decide⟩, Or.inr (by decide), Or.inr ⟨['5'], rfl, by simp, by decide⟩, Or.inl rfl,
        Or.inl (by simp)⟩
    | some false, h =>
      cases h
      exact ⟨['-'], ['2'], [], ['e', '1', '0'], rfl, Or.inr rfl, ⟨by simp, by decide⟩, Or.inr (by decide), Or.inl rfl,
        Or.inr ⟨[], ['1', '0'], rfl, Or.inl rfl, by simp, by decide⟩, Or.inr (by simp)⟩
  same := by
    intro r t h
    match r, h with
    | some true, h => cases h; rfl
    | some false, h => cases h; rfl

def value : J (Option Bool) :=
  .obj [("a\n\"".toList, .arr [.int 7, .int (-3), .real (some false), .null]), ("".toList, .obj []), ("a\n\"".toList, .bool true)]

def metadata : Metadata (Option Bool) := ⟨2, 4, 16, 1000, some true, 30, 128, true⟩

def stored : Stored := ⟨4, 50000, some 42, 999, none, "trigram".toList⟩

def state : State := ⟨[], 0, [("src/a.rs".toList, ⟨18446744073709551615, 5, 6⟩)], ["b.bin".toList], 3, true⟩

end ToyJson

open ToyJson in
example : Writable reals ToyJson.value ∧ depth ToyJson.value < 128 ∧ Container ToyJson.value ∧
    compact reals ToyJson.value = "{\"a\\n\\\"\":[7,-3,-2e10,null],\"\":{},\"a\\n\\\"\":true}".toList := by
  refine ⟨?_, ?_, ?_, by decide +kernel⟩
  · simp [ToyJson.value, Writable, WritableMembers, WritableItems, reals]
  · simp [ToyJson.value, depth, depthMembers, depthItems]
  · simp [ToyJson.value, Container]

open ToyJson in
example : FitsMetadata ToyJson.metadata ∧ (reals.shows ToyJson.metadata.avgDoclen).isSome ∧ FitsStored stored ∧ FitsState state ∧
    Torn (stored.text reals) "{\n  \"nbits\"".toList := by
  refine ⟨by simp [FitsMetadata, ToyJson.metadata], rfl, by simp [FitsStored, stored], by simp [FitsState, state], ?_⟩
  exact ⟨(stored.text reals).drop 11, by decide +kernel, by decide +kernel⟩

open ToyJson in
example : ∀ e ∈ [ConfStep.declare stored, .restart, .put (some 5), .look], FitsStep e := by
  simp [FitsStep, FitsStored, stored]

/-- A value nested in 128 arrays: it can be written and not read. -/
def nested : Nat → J (Option Bool)
  | 0 => .null
  | n + 1 => .arr [nested n]

example : Writable ToyJson.reals (nested 128) ∧ 128 ≤ depth (nested 128) := by
  have h : ∀ n, Writable ToyJson.reals (nested n) ∧ depth (nested n) = n := by
    intro n
    induction n with
    | zero => simp [nested, Writable, depth]
    | succ n ih => simp [nested, Writable, WritableItems, depth, depthItems, ih]
  exact ⟨(h 128).1, by rw [(h 128).2]⟩

/-- A configuration of an older version, with its members in another order and an unknown one: it is read, with the defaults; it is not,
if a member is repeated. -/
example : StoredIn (R := Int) 999 [("other".toList, .null), ("batch_size".toList, .int 50), ("nbits".toList, .int 4)]
    ⟨4, 50, none, 999, none, "unicode61".toList⟩ :=
  (readStored_iff _ _ _).1 (by decide +kernel)
example : readStored (R := Int) 999 (.obj [("nbits".toList, .int 4), ("batch_size".toList, .int 50), ("nbits".toList, .int 4)]) = none := by
  decide +kernel

end NextPlaid.Props
