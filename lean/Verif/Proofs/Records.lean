import Verif.Model.Records
import Verif.Proofs.JsonText2

/-!
Proofs about the records kept in JSON files.
-/

namespace NextPlaid.Records
open NextPlaid.JsonText NextPlaid.Spec

variable {R : Type} {F : Reals R}

theorem readNat_natJ {n : Nat} (h : n < 2 ^ 64) : readNat (R := R) (natJ n) = some n := by
  unfold natJ readNat
  dsimp only
  rw [if_pos (by omega)]
  rfl

theorem readNat32_natJ {n : Nat} (h : n < 2 ^ 32) : readNat32 (R := R) (natJ n) = some n := by
  unfold natJ readNat32
  dsimp only
  rw [if_pos (by omega)]
  rfl

theorem readOpt_natJ {o : Option Nat} (h : ∀ n ∈ o, n < 2 ^ 64) : readOpt (R := R) readNat (optJ natJ o) = some o := by
  cases o with
  | none => rfl
  | some n =>
    have := readNat_natJ (R := R) (h n rfl)
    unfold natJ at this
    unfold optJ natJ readOpt
    dsimp only
    rw [this]
    rfl

theorem readOpt_str (o : Option (List Char)) : readOpt (R := R) readStr (optJ .str o) = some o := by cases o <;> rfl

theorem readAll_map {α : Type} {read : J R → Option α} {f : α → J R} : ∀ l : List α, (∀ a ∈ l, read (f a) = some a) →
    readAll read (l.map f) = some l
  | [], _ => rfl
  | a :: l, h => by
    rw [List.map_cons]
    unfold readAll
    rw [h a (List.mem_cons_self ..), readAll_map l (fun b hb => h b (List.mem_cons_of_mem _ hb))]
    rfl

theorem readEntries_map {α : Type} {read : J R → Option α} {f : α → J R} : ∀ l : List (List Char × α), (∀ e ∈ l, read (f e.2) = some e.2) →
    readEntries read (l.map fun e => (e.1, f e.2)) = some l
  | [], _ => rfl
  | a :: l, h => by
    rw [List.map_cons]
    unfold readEntries
    rw [h a (List.mem_cons_self ..), readEntries_map l (fun b hb => h b (List.mem_cons_of_mem _ hb))]
    rfl

theorem writableItems_iff (l : List (J R)) : WritableItems F l ↔ ∀ v ∈ l, Writable F v := by
  induction l with
  | nil => simp [WritableItems]
  | cons v l ih => simp [WritableItems, ih]

theorem writableMembers_iff (l : List (List Char × J R)) : WritableMembers F l ↔ ∀ e ∈ l, Writable F e.2 := by
  induction l with
  | nil => simp [WritableMembers]
  | cons v l ih => obtain ⟨k, v⟩ := v; simp [WritableMembers, ih]

theorem depthItems_le (l : List (J R)) (n : Nat) (h : ∀ v ∈ l, depth v ≤ n) : depthItems l ≤ n := by
  induction l with
  | nil => simp [depthItems]
  | cons v l ih =>
    unfold depthItems
    exact Nat.max_le.2 ⟨h v (List.mem_cons_self ..), ih (fun w hw => h w (List.mem_cons_of_mem _ hw))⟩

theorem depthMembers_le (l : List (List Char × J R)) (n : Nat) (h : ∀ e ∈ l, depth e.2 ≤ n) : depthMembers l ≤ n := by
  induction l with
  | nil => simp [depthMembers]
  | cons v l ih =>
    obtain ⟨k, v⟩ := v
    unfold depthMembers
    exact Nat.max_le.2 ⟨h (k, v) (List.mem_cons_self ..), ih (fun w hw => h w (List.mem_cons_of_mem _ hw))⟩

theorem writable_natJ {n : Nat} (h : n < 2 ^ 64) : Writable F (natJ n) := by
  unfold natJ Writable
  omega

theorem writable_opt {o : Option Nat} (h : ∀ n ∈ o, n < 2 ^ 64) : Writable F (optJ natJ o) := by
  cases o with
  | none => unfold optJ Writable; trivial
  | some n => exact writable_natJ (h n rfl)

theorem writable_optStr (o : Option (List Char)) : Writable F (optJ .str o) := by
  cases o <;> (unfold optJ Writable; trivial)

theorem depth_opt (o : Option Nat) : depth (optJ (R := R) natJ o) = 0 := by cases o <;> (unfold optJ; simp [depth, natJ])
theorem depth_optStr (o : Option (List Char)) : depth (optJ (R := R) .str o) = 0 := by cases o <;> (unfold optJ; simp [depth])
theorem depth_natJ (n : Nat) : depth (natJ (R := R) n) = 0 := by simp [natJ, depth]

/-! ### The records -/

theorem bind_of {α β : Type} {x : Option α} {a : α} {f : α → Option β} {r : Option β} (h : x = some a) (k : f a = r) : (x >>= f) = r := by
  subst h; exact k

theorem fields_obj (l : List (List Char × J R)) : fields (.obj l) = some l := rfl

theorem field_of {α : Type} {key : String} {read : J R → Option α} {miss : Option α} {l : List (List Char × J R)} {v : J R} {a : α}
    (hl : l.filter (fun e => e.1 == key.toList) = [(key.toList, v)]) (h : read v = some a) : field key read miss l = some a := by
  unfold field
  rw [hl]
  exact h

/-- The numbers of the record fit in their types. -/
theorem metadata_read (m : Metadata R) (h : m.numChunks < 2 ^ 64 ∧ m.nbits < 2 ^ 64 ∧ m.numPartitions < 2 ^ 64 ∧ m.numEmbeddings < 2 ^ 64 ∧
    m.numDocuments < 2 ^ 64 ∧ m.embeddingDim < 2 ^ 64) : readMetadata F m.toJ = some m := by
  obtain ⟨h1, h2, h3, h4, h5, h6⟩ := h
  unfold readMetadata Metadata.toJ
  refine bind_of (fields_obj _) ?_
  refine bind_of (field_of (by simp [entry]) (readNat_natJ h1)) ?_
  refine bind_of (field_of (by simp [entry]) (readNat_natJ h2)) ?_
  refine bind_of (field_of (by simp [entry]) (readNat_natJ h3)) ?_
  refine bind_of (field_of (by simp [entry]) (readNat_natJ h4)) ?_
  refine bind_of (field_of (v := .real m.avgDoclen) (by simp [entry]) rfl) ?_
  refine bind_of (field_of (by simp [entry]) (readNat_natJ h5)) ?_
  refine bind_of (field_of (by simp [entry]) (readNat_natJ h6)) ?_
  refine bind_of (field_of (v := .bool m.compatible) (by simp [entry]) rfl) ?_
  rfl

theorem metadata_writable (m : Metadata R) (h : m.numChunks < 2 ^ 64 ∧ m.nbits < 2 ^ 64 ∧ m.numPartitions < 2 ^ 64 ∧ m.numEmbeddings < 2 ^ 64 ∧
    m.numDocuments < 2 ^ 64 ∧ m.embeddingDim < 2 ^ 64) (hr : (F.shows m.avgDoclen).isSome) : Writable F m.toJ := by
  obtain ⟨h1, h2, h3, h4, h5, h6⟩ := h
  simp only [Metadata.toJ, entry, Writable, WritableMembers, and_true, hr, true_and]
  exact ⟨writable_natJ h1, writable_natJ h2, writable_natJ h3, writable_natJ h4, writable_natJ h5, writable_natJ h6⟩

theorem metadata_depth (m : Metadata R) : depth m.toJ = 1 := by
  simp [Metadata.toJ, entry, depth, depthMembers, depth_natJ]

theorem stored_read (c : Stored) (scratch : Nat) (h : c.nbits < 2 ^ 64 ∧ c.batchSize < 2 ^ 64 ∧ (∀ n ∈ c.seed, n < 2 ^ 64) ∧
    c.startFromScratch < 2 ^ 64 ∧ ∀ n ∈ c.maxDocuments, n < 2 ^ 64) : readStored (R := R) scratch c.toJ = some c := by
  obtain ⟨h1, h2, h3, h4, h5⟩ := h
  unfold readStored Stored.toJ
  refine bind_of (fields_obj _) ?_
  refine bind_of (field_of (by simp [entry]) (readNat_natJ h1)) ?_
  refine bind_of (field_of (by simp [entry]) (readNat_natJ h2)) ?_
  refine bind_of (field_of (by simp [entry]) (readOpt_natJ h3)) ?_
  refine bind_of (field_of (by simp [entry]) (readNat_natJ h4)) ?_
  refine bind_of (field_of (by simp [entry]) (readOpt_natJ h5)) ?_
  refine bind_of (field_of (v := .str c.tokenizer) (by simp [entry]) rfl) ?_
  rfl

theorem stored_writable (c : Stored) (h : c.nbits < 2 ^ 64 ∧ c.batchSize < 2 ^ 64 ∧ (∀ n ∈ c.seed, n < 2 ^ 64) ∧
    c.startFromScratch < 2 ^ 64 ∧ ∀ n ∈ c.maxDocuments, n < 2 ^ 64) : Writable F c.toJ := by
  obtain ⟨h1, h2, h3, h4, h5⟩ := h
  simp only [Stored.toJ, entry, Writable, WritableMembers, and_true]
  exact ⟨writable_natJ h1, writable_natJ h2, writable_opt h3, writable_natJ h4, writable_opt h5⟩

theorem stored_depth (c : Stored) : depth (R := R) c.toJ = 1 := by
  simp [Stored.toJ, entry, depth, depthMembers, depth_natJ, depth_opt]

theorem info_read (i : Info) (h : i.hash < 2 ^ 64 ∧ i.mtime < 2 ^ 64 ∧ i.size < 2 ^ 64) : readInfo (R := R) i.toJ = some i := by
  obtain ⟨h1, h2, h3⟩ := h
  unfold readInfo Info.toJ
  refine bind_of (fields_obj _) ?_
  refine bind_of (field_of (by simp [entry]) (readNat_natJ h1)) ?_
  refine bind_of (field_of (by simp [entry]) (readNat_natJ h2)) ?_
  refine bind_of (field_of (by simp [entry]) (readNat_natJ h3)) ?_
  rfl

theorem info_writable (i : Info) (h : i.hash < 2 ^ 64 ∧ i.mtime < 2 ^ 64 ∧ i.size < 2 ^ 64) : Writable F i.toJ := by
  obtain ⟨h1, h2, h3⟩ := h
  simp only [Info.toJ, entry, Writable, WritableMembers, and_true]
  exact ⟨writable_natJ h1, writable_natJ h2, writable_natJ h3⟩

theorem info_depth (i : Info) : depth (R := R) i.toJ = 1 := by simp [Info.toJ, entry, depth, depthMembers, depth_natJ]

theorem state_read (s : State) (h : (∀ e ∈ s.files, e.2.hash < 2 ^ 64 ∧ e.2.mtime < 2 ^ 64 ∧ e.2.size < 2 ^ 64) ∧ s.searches < 2 ^ 64 ∧
    s.format < 2 ^ 32) : readState (R := R) s.toJ = some s := by
  obtain ⟨h1, h2, h3⟩ := h
  have hf : readMap (R := R) readInfo (.obj (s.files.map fun e => (e.1, e.2.toJ))) = some s.files :=
    readEntries_map (f := Info.toJ) s.files (fun e he => info_read e.2 (h1 e he))
  have hi : readList (R := R) readStr (.arr (s.ignored.map .str)) = some s.ignored := readAll_map s.ignored (fun _ _ => rfl)
  unfold readState State.toJ
  refine bind_of (fields_obj _) ?_
  refine bind_of (field_of (v := .str s.version) (by simp [entry]) rfl) ?_
  refine bind_of (field_of (by simp [entry]) (readNat32_natJ h3)) ?_
  refine bind_of (field_of (by simp [entry]) hf) ?_
  refine bind_of (field_of (by simp [entry]) hi) ?_
  refine bind_of (field_of (by simp [entry]) (readNat_natJ h2)) ?_
  refine bind_of (field_of (v := .bool s.dirty) (by simp [entry]) rfl) ?_
  rfl

theorem state_writable (s : State) (h : (∀ e ∈ s.files, e.2.hash < 2 ^ 64 ∧ e.2.mtime < 2 ^ 64 ∧ e.2.size < 2 ^ 64) ∧ s.searches < 2 ^ 64 ∧
    s.format < 2 ^ 32) : Writable F s.toJ := by
  obtain ⟨h1, h2, h3⟩ := h
  simp only [State.toJ, entry, Writable, WritableMembers, and_true, true_and]
  refine ⟨writable_natJ (by omega), (writableMembers_iff _).2 ?_, (writableItems_iff _).2 ?_, writable_natJ h2⟩
  · intro e he
    obtain ⟨f, hf, rfl⟩ := List.mem_map.1 he
    exact info_writable f.2 (h1 f hf)
  · intro v hv
    obtain ⟨f, _, rfl⟩ := List.mem_map.1 hv
    unfold Writable
    trivial

theorem state_depth (s : State) : depth (R := R) s.toJ ≤ 3 := by
  have h1 : depthMembers (R := R) (s.files.map fun e => (e.1, e.2.toJ)) ≤ 1 := depthMembers_le _ _ (by
    intro e he
    obtain ⟨f, _, rfl⟩ := List.mem_map.1 he
    rw [info_depth])
  have h2 : depthItems (R := R) (s.ignored.map .str) ≤ 0 := depthItems_le _ _ (by
    intro e he
    obtain ⟨f, _, rfl⟩ := List.mem_map.1 he
    simp [depth])
  simp [State.toJ, entry, depth, depthMembers, depth_natJ]
  omega

theorem project_read (p : Project) : readProject (R := R) p.toJ = some p := by
  have := readOpt_str (R := R) p.model
  simp [readProject, Project.toJ, fields, field, entry, readStr, this]

theorem project_writable (p : Project) : Writable F p.toJ := by
  simp only [Project.toJ, entry, Writable, WritableMembers, and_true, true_and]
  exact writable_optStr _

theorem project_depth (p : Project) : depth (R := R) p.toJ = 1 := by
  simp [Project.toJ, entry, depth, depthMembers, depth_optStr]

/-! ### The files -/

theorem doclens_load (hF : LawfulReals F) (l : List Int) (h : ∀ n ∈ l, -2 ^ 63 ≤ n ∧ n < 2 ^ 63) : loadDoclens F (doclensText F l) = some l := by
  unfold loadDoclens doclensText compact
  have hw : Writable F (.arr (l.map .int)) := by
    unfold Writable
    refine (writableItems_iff _).2 ?_
    intro v hv
    obtain ⟨n, hn, rfl⟩ := List.mem_map.1 hv
    have := h n hn
    unfold Writable
    omega
  have hd : depth (R := R) (.arr (l.map .int)) ≤ 1 := by
    have h2 : depthItems (R := R) (l.map .int) ≤ 0 := depthItems_le _ _ (by
      intro e he
      obtain ⟨f, _, rfl⟩ := List.mem_map.1 he
      simp [depth])
    unfold depth
    omega
  rw [parse_render hF none _ hw (by omega)]
  show readAll readInt (l.map .int) = some l
  refine readAll_map l (fun n hn => ?_)
  show (if -2 ^ 63 ≤ n ∧ n < 2 ^ 63 then some n else none) = some n
  rw [if_pos (h n hn)]

theorem countDocs_eq (hF : LawfulReals F) {doclens : Nat → Option (List Char)} {lens : Nat → List Int} :
    ∀ n, (∀ i < n, doclens i = some (doclensText F (lens i)) ∧ ∀ x ∈ lens i, -2 ^ 63 ≤ x ∧ x < 2 ^ 63) →
      countDocs F doclens n = ((List.range n).map fun i => (lens i).length).sum
  | 0, _ => rfl
  | n + 1, h => by
    unfold countDocs
    rw [countDocs_eq hF n (fun i hi => h i (by omega)), (h n (by omega)).1, List.range_succ]
    simp [doclens_load hF (lens n) (h n (by omega)).2]

end NextPlaid.Records
