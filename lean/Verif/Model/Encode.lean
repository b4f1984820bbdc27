import Verif.Model.Basic
import Mathlib.Data.List.Sort

/-!
Model of how next-plaid-onnx splits documents into batches and puts the embeddings back in order:
/repo/next-plaid-onnx/src/lib.rs.  `T` is a text, `D` a tokenised text, `E` the embeddings of one text.
-/

namespace NextPlaid.Encode

variable {T D E : Type}

/-- The loaded model: `Colbert`, lib.rs:1065-1082.  `tok` stands for `preprocess_texts` and the tokenizer (lines 1697-1738), `len` for the number
of tokens, `run session planned docs` for `prepare_batch_from_tokenized_documents` and `session.run` (lines 1879-2246), which the model does
not look into here. -/
structure Engine (T D E : Type) where
  tok : T → Res D
  len : D → Nat
  run : Nat → Option Nat → List D → Res (List E)
  batchSize : Nat
  docLen : Nat
  sessions : Nat
  /-- `dynamic_batch` and not the CPU provider: lines 1155-1157. -/
  dynamic : Bool

/-- One piece after the other, the first document and then at most `n - 1` more: lines 1165-1173 and 1225-1234.  Also `slice::chunks(n)` for
`n ≥ 1`, lines 1571 and 1619. -/
def pieces {α : Type} (n : Nat) : List α → List (List α)
  | [] => []
  | a :: l => (a :: l.take (n - 1)) :: pieces n (l.drop (n - 1))
termination_by l => l.length
decreasing_by simp; omega

/-- `round_up_len_for_planning`: lines 1740-1746. -/
def roundUp (len : Nat) : Nat := if len ≤ 8 then max len 1 else (len + 31) / 32 * 32

/-- `FixedDynamicShape`: lines 1748-1752. -/
structure Shape where
  docs : Nat
  planned : Nat
deriving DecidableEq, Repr

/-- The loop of `build_fixed_dynamic_shapes`: lines 1764-1782, in the order in which the shapes are found.  The code stops when the next length
equals this one; the next length is never greater (`next_le` in the proofs), so the test here is the same. -/
def shapesFrom (budget maxLen minLen planned : Nat) : List Shape :=
  ⟨max (budget / planned) 1, planned⟩ ::
    (if planned ≤ minLen then []
     else
      if _h : min (roundUp (max (planned / 2) minLen)) maxLen < planned then
        shapesFrom budget maxLen minLen (min (roundUp (max (planned / 2) minLen)) maxLen)
      else [])
termination_by planned

/-- `build_fixed_dynamic_shapes`: lines 1756-1786.  Every length is smaller than the one before, so sorting by length turns the list round.
`saturating_mul` is a plain product here. -/
def shapes (batchSize docLen : Nat) : List Shape :=
  let maxLen := max docLen 1
  let planned := min (roundUp maxLen) maxLen
  (shapesFrom (max batchSize 1 * maxLen) maxLen (min 128 (max planned 1)) planned).reverse

/-- `PreparedDocumentBatch`: lines 736-765, as far as the order of documents goes. -/
structure Batch (D : Type) where
  planned : Option Nat
  /-- `original_input_indices` with the documents. -/
  docs : List (Nat × D)

/-- The number of tokens after truncation and with the prefix token: lines 1197-1200. -/
def preparedLen (e : Engine T D E) (d : D) : Nat := min (e.len d) (e.docLen - 1) + 1

/-- The bucket of a document: lines 1215-1218. -/
def bucket (ss : List Shape) (len : Nat) : Nat := (ss.findIdx? fun s => len ≤ s.planned).getD (ss.length - 1)

/-- Documents by length, equal lengths in the given order: lines 1201-1207. -/
def byLength (e : Engine T D E) (docs : List (Nat × D)) : List (Nat × D) :=
  docs.insertionSort fun a b => preparedLen e a.2 ≤ preparedLen e b.2

/-- The part of `tokenize_documents_in_batches` behind the tokenizer: lines 1159-1246. -/
def batches (e : Engine T D E) (docs : List D) : List (Batch D) :=
  let items := docs.zipIdx.map fun p => (p.2, p.1)
  if e.dynamic then
    let ss := shapes (max e.batchSize 1) e.docLen
    let sorted := byLength e items
    (ss.zipIdx.map fun s => (pieces (max s.1.docs 1) (sorted.filter fun p => bucket ss (preparedLen e p.2) = s.2)).map fun l =>
      (⟨some s.1.planned, l⟩ : Batch D)).flatten
  else (pieces (max e.batchSize 1) items).map fun l => ⟨none, l⟩

/-- `tokenize_documents_in_batches`: lines 1144-1248. -/
def tokenize (e : Engine T D E) (texts : List T) : Res (List (Batch D)) := do
  let docs ← texts.mapM e.tok
  return batches e docs

/-- All batches, each on its session; `cancelled i` says whether the caller has cancelled before batch `i`: lines 1300-1347.  With one session
and with several the results are put together in the order of the batches. -/
def runAll (e : Engine T D E) (cancelled : Nat → Bool) : Nat → List (Batch D) → Res (List E)
  | _, [] => .ok []
  | i, b :: bs =>
    if cancelled i then .error .err
    else do
      let es ← e.run (i % e.sessions) b.planned (b.docs.map (·.2))
      let rest ← runAll e cancelled (i + 1) bs
      return es ++ rest

/-- `reordered[target] = Some(embedding)` for each embedding: lines 1354-1366. -/
def place (n : Nat) : List (Nat × E) → List (Option E) → Res (List (Option E))
  | [], out => .ok out
  | (target, emb) :: rest, out => if target ≥ n then .error .err else place n rest (out.set target (some emb))

/-- Lines 1367-1376. -/
def filled : List (Option E) → Res (List E)
  | [] => .ok []
  | none :: _ => .error .err
  | some a :: rest => do
    let r ← filled rest
    return a :: r

/-- Back to the order of the input: lines 1349-1376. -/
def restore (idxs : List Nat) (encoded : List E) : Res (List E) :=
  if idxs = [] ∨ idxs.length ≠ encoded.length then .ok encoded
  else do
    let out ← place encoded.length (idxs.zip encoded) (List.replicate encoded.length none)
    filled out

/-- `encode_prepared_document_batches_cancellable`: lines 1274-1377. -/
def encodeBatches (e : Engine T D E) (cancelled : Nat → Bool) (bs : List (Batch D)) : Res (List E) := do
  let encoded ← runAll e cancelled 0 bs
  restore (bs.flatMap fun b => b.docs.map (·.1)) encoded

/-- `tokenize_documents_in_batches` followed by `encode_prepared_document_batches_cancellable`, as colgrep's stages call them:
/repo/colgrep/src/index/mod.rs:509-514 and 538. -/
def encodeDocs (e : Engine T D E) (cancelled : Nat → Bool) (texts : List T) : Res (List E) := do
  let bs ← tokenize e texts
  encodeBatches e cancelled bs

/-- `encode_parallel`, `encode_single_session`: lines 1535-1605; `direct session texts` is `encode_batch_with_session`. `chunks(0)` panics on one
session (line 1545); with several sessions the size is at least 1 (line 1571). -/
def encodeSimple (direct : Nat → List T → Res (List E)) (batchSize sessions : Nat) (texts : List T) : Res (List E) :=
  if texts = [] then .ok []
  else if sessions = 1 ∧ batchSize = 0 then .error .panic
  else do
    let parts ← ((pieces (max batchSize 1) texts).zipIdx).mapM fun p => direct (p.2 % sessions) p.1
    return parts.flatten

/-! ### The stream: lines 1379-1485 -/

/-- `build_document_work_queue`: lines 1607-1620.  Chunk number, offset, texts. -/
def workQueue (batchSize : Nat) (texts : List T) : List (Nat × Nat × List T) :=
  (pieces (max batchSize 1) texts).zipIdx.map fun p => (p.2, p.2 * max batchSize 1, p.1)

/-- What a worker sends for a chunk: lines 1446-1466.  `direct` is `encode_batch_with_session`. -/
def streamJob (direct : Nat → List T → Res (List E)) (session : Nat) (w : Nat × Nat × List T) : Res (Nat × Nat × List E) := do
  let es ← direct session w.2.2
  return (w.1, w.2.1, es)

/-- The workers at some moment: the shared queue, what each session is working on, and what the caller has received. -/
structure Workers (W R : Type) where
  queue : List W
  busy : List (Option W)
  out : List R

/-- Lines 1436-1473: a worker takes the first chunk, or sends its result. -/
inductive Workers.Step {W R : Type} (job : Nat → W → R) : Workers W R → Workers W R → Prop
  | take {s : Workers W R} {w : W} {q : List W} (i : Nat) (hq : s.queue = w :: q) (hi : s.busy[i]? = some none) :
      Workers.Step job s { s with queue := q, busy := s.busy.set i (some w) }
  | send {s : Workers W R} {w : W} (i : Nat) (hi : s.busy[i]? = some (some w)) :
      Workers.Step job s { s with busy := s.busy.set i none, out := s.out ++ [job i w] }

/-- Before the first step; one worker for each session. -/
def Workers.begin {W R : Type} (queue : List W) (sessions : Nat) : Workers W R := ⟨queue, List.replicate sessions none, []⟩

/-- Any number of steps. -/
inductive Workers.Run {W R : Type} (job : Nat → W → R) : Workers W R → Workers W R → Prop
  | refl (s : Workers W R) : Workers.Run job s s
  | step {a b c : Workers W R} (h : Workers.Run job a b) (s : Workers.Step job b c) : Workers.Run job a c

/-- The stream is over: the channel closes when all workers have seen the empty queue. -/
def Workers.Over {W R : Type} (s : Workers W R) : Prop := s.queue = [] ∧ ∀ b ∈ s.busy, b = none

end NextPlaid.Encode
