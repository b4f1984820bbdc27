import Verif.Model.Records

/-!
Specification for the records kept in JSON files.
-/

namespace NextPlaid.Spec
open NextPlaid.Records

/-- All numbers fit in 64 bits, as they do in the program. -/
def FitsMetadata {R : Type} (m : Metadata R) : Prop :=
  m.numChunks < 2 ^ 64 ∧ m.nbits < 2 ^ 64 ∧ m.numPartitions < 2 ^ 64 ∧ m.numEmbeddings < 2 ^ 64 ∧ m.numDocuments < 2 ^ 64 ∧ m.embeddingDim < 2 ^ 64

/-- All numbers fit in 64 bits, as they do in the program. -/
def FitsStored (c : Stored) : Prop :=
  c.nbits < 2 ^ 64 ∧ c.batchSize < 2 ^ 64 ∧ (∀ n ∈ c.seed, n < 2 ^ 64) ∧ c.startFromScratch < 2 ^ 64 ∧ ∀ n ∈ c.maxDocuments, n < 2 ^ 64

/-- All numbers fit in 64 bits, as they do in the program. -/
def FitsState (s : State) : Prop :=
  (∀ e ∈ s.files, e.2.hash < 2 ^ 64 ∧ e.2.mtime < 2 ^ 64 ∧ e.2.size < 2 ^ 64) ∧ s.searches < 2 ^ 64

/-- The configuration after one step: what was declared, with the limit last put. -/
def confStep (c : Option Stored) : ConfStep → Option Stored
  | .declare d => some d
  | .put m => c.map fun c => { c with maxDocuments := m }
  | .look => c
  | .restart => c

/-- The numbers of a step fit in 64 bits. -/
def FitsStep : ConfStep → Prop
  | .declare c => FitsStored c
  | .put m => ∀ n ∈ m, n < 2 ^ 64
  | _ => True

/-- An object has exactly one member of this name, with this value. -/
def HasMember {R : Type} (l : List (List Char × JsonText.J R)) (key : String) (v : JsonText.J R) : Prop :=
  ∃ a b, l = a ++ (key.toList, v) :: b ∧ ∀ e ∈ a ++ b, e.1 ≠ key.toList

/-- An object has no member of this name. -/
def LacksMember {R : Type} (l : List (List Char × JsonText.J R)) (key : String) : Prop := ∀ e ∈ l, e.1 ≠ key.toList

/-- The member is a number of 64 bits. -/
def HasNumber {R : Type} (l : List (List Char × JsonText.J R)) (key : String) (n : Nat) : Prop :=
  n < 2 ^ 64 ∧ HasMember l key (.int n)

/-- The member is missing or `null`, and there is no number; or it is the number. -/
def MayHaveNumber {R : Type} (l : List (List Char × JsonText.J R)) (key : String) : Option Nat → Prop
  | none => LacksMember l key ∨ HasMember l key .null
  | some n => HasNumber l key n

/-- The member is missing or `null`, and there is no text; or it is the text. -/
def MayHaveText {R : Type} (l : List (List Char × JsonText.J R)) (key : String) : Option (List Char) → Prop
  | none => LacksMember l key ∨ HasMember l key .null
  | some s => HasMember l key (.str s)

/-- The record of a file, from the members of an object. -/
def InfoIn {R : Type} (l : List (List Char × JsonText.J R)) (i : Info) : Prop := HasNumber l "content_hash" i.hash ∧ HasNumber l "mtime" i.mtime ∧
      ((LacksMember l "size" ∧ i.size = 0) ∨ HasNumber l "size" i.size)

/-- The records of the files, one for each member of an object. -/
inductive FilesIn {R : Type} : List (List Char × JsonText.J R) → List (List Char × Info) → Prop
  | nil : FilesIn [] []
  | cons {k : List Char} {m : List (List Char × JsonText.J R)} {i : Info} {l : List (List Char × JsonText.J R)} {r : List (List Char × Info)} :
      InfoIn m i → FilesIn l r → FilesIn ((k, .obj m) :: l) ((k, i) :: r)

/-- The configuration of an index, from the members of an object: what is optional has the default if it is missing; other members do not
matter. -/
def StoredIn (scratch : Nat) {R : Type} (l : List (List Char × JsonText.J R)) (c : Stored) : Prop :=
      HasNumber l "nbits" c.nbits ∧ HasNumber l "batch_size" c.batchSize ∧ MayHaveNumber l "seed" c.seed ∧
      ((LacksMember l "start_from_scratch" ∧ c.startFromScratch = scratch) ∨ HasNumber l "start_from_scratch" c.startFromScratch) ∧
      MayHaveNumber l "max_documents" c.maxDocuments ∧
      ((LacksMember l "fts_tokenizer" ∧ c.tokenizer = "unicode61".toList) ∨ HasMember l "fts_tokenizer" (.str c.tokenizer))

/-- The state of a colgrep index, from the members of an object. -/
def StateIn {R : Type} (l : List (List Char × JsonText.J R)) (s : State) : Prop :=
      ((LacksMember l "cli_version" ∧ s.version = []) ∨ HasMember l "cli_version" (.str s.version)) ∧
      ((LacksMember l "index_format_version" ∧ s.format = 0) ∨ (s.format < 2 ^ 32 ∧ HasMember l "index_format_version" (.int s.format))) ∧
      (∃ m, HasMember l "files" (.obj m) ∧ FilesIn m s.files) ∧
      ((LacksMember l "ignored_files" ∧ s.ignored = []) ∨ HasMember l "ignored_files" (.arr (s.ignored.map .str))) ∧
      ((LacksMember l "search_count" ∧ s.searches = 0) ∨ HasNumber l "search_count" s.searches) ∧
      ((LacksMember l "dirty" ∧ s.dirty = false) ∨ HasMember l "dirty" (.bool s.dirty))

/-- The metadata of an index, from the members of an object. -/
def MetadataIn {R : Type} (F : JsonText.Reals R) (l : List (List Char × JsonText.J R)) (m : Metadata R) : Prop :=
      HasNumber l "num_chunks" m.numChunks ∧ HasNumber l "nbits" m.nbits ∧ HasNumber l "num_partitions" m.numPartitions ∧
      HasNumber l "num_embeddings" m.numEmbeddings ∧
      (HasMember l "avg_doclen" (.real m.avgDoclen) ∨ ∃ i, HasMember l "avg_doclen" (.int i) ∧ F.ofInt i = m.avgDoclen) ∧
      ((LacksMember l "num_documents" ∧ m.numDocuments = 0) ∨ HasNumber l "num_documents" m.numDocuments) ∧
      ((LacksMember l "embedding_dim" ∧ m.embeddingDim = 0) ∨ HasNumber l "embedding_dim" m.embeddingDim) ∧
      ((LacksMember l "next_plaid_compatible" ∧ m.compatible = false) ∨ HasMember l "next_plaid_compatible" (.bool m.compatible))

/-- The project of a colgrep index, from the members of an object. -/
def ProjectIn {R : Type} (l : List (List Char × JsonText.J R)) (p : Project) : Prop := HasMember l "project_path" (.str p.path) ∧ HasMember l "project_name" (.str p.name) ∧
      MayHaveText l "model" p.model

end NextPlaid.Spec
