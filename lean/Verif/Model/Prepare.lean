import Verif.Model.Encode

/-!
Model of how next-plaid-onnx makes the input of a forward pass from tokenised texts, and cuts its output into embeddings:
/repo/next-plaid-onnx/src/lib.rs lines 1697-2246.  `K` is a number of the output.
-/

namespace NextPlaid.Prepare

/-- What the configuration says of queries, or of documents: lines 1888-1911.  `vocab` is `tokenizer.token_to_id(prefix_str)`; `expand` is
`is_query && config.do_query_expansion`. -/
structure Kind where
  prefixId : Option Nat
  vocab : Option Nat
  maxLen : Nat
  expand : Bool
  padId : Nat
  maskId : Nat
  useTypes : Bool

/-- `tokenizers::Encoding`: one entry per position, padding included. -/
structure Encoding where
  ids : List Nat
  masks : List Nat
  types : List Nat
deriving DecidableEq

/-- `TokenizedDocument`: lines 761-764. -/
structure TokDoc where
  ids : List Nat
  types : List Nat
deriving DecidableEq

/-- The tensors of a batch, row after row: `all_input_ids`, `all_attention_mask`, `all_token_type_ids`. -/
structure Arrays where
  ids : List Nat
  mask : List Nat
  types : List Nat
deriving DecidableEq

/-- `PreparedDocumentBatch`: lines 742-759, without `original_input_indices`, which `Encode.Batch` has. -/
structure Prepared where
  size : Nat
  len : Nat
  arrays : Arrays
  tokens : List (List Nat)
  lens : List Nat
deriving DecidableEq

/-- `take_while(|&&v| v != 0).count().max(1)`: lines 1729-1735 and 2051-2057. -/
def realLen (masks : List Nat) : Nat := max (masks.takeWhile (· ≠ 0)).length 1

/-- `v[..n]`. -/
def sliceTo {α : Type} (l : List α) (n : Nat) : Res (List α) := if n ≤ l.length then .ok (l.take n) else .error .panic

/-- One text of `tokenize_processed_texts_individually`: lines 1724-1739. -/
def tokOne (e : Encoding) : Res TokDoc := do
  let ids ← sliceTo e.ids (realLen e.masks)
  let types ← sliceTo e.types (realLen e.masks)
  return ⟨ids, types⟩

/-- The id of the prefix token: lines 1903-1911 and 2028-2036. -/
def Kind.prefix (k : Kind) : Res Nat :=
  match k.prefixId with
  | some i => .ok i
  | none => match k.vocab with
    | some i => .ok i
    | none => .error .err

/-- The length of a row with the prefix: lines 1916-1920 and 2061-2065. -/
def effective (k : Kind) (n : Nat) : Nat := if n > k.maxLen - 1 then k.maxLen else n + 1

/-- `batch_max_len`: lines 1914-1928 and 2038-2072. -/
def batchLen (k : Kind) (lens : List Nat) (pad : Option Nat) : Nat :=
  let m := (lens.map (effective k)).foldl max 0
  let m := match pad with
    | some p => max m (min p k.maxLen)
    | none => m
  if k.expand then k.maxLen else m

/-- Fill values: lines 1931-1945 and 2075-2089. -/
def blank (k : Kind) (n : Nat) : Arrays :=
  ⟨List.replicate n (if k.expand then k.maskId else k.padId), List.replicate n (if k.expand then 1 else 0), List.replicate n 0⟩

/-- `all_input_ids[pos] = ...` and so on; a panic when out of bounds. -/
def put (a : Arrays) (pos id mask type : Nat) : Res Arrays :=
  if pos < a.ids.length then .ok ⟨a.ids.set pos id, a.mask.set pos mask, a.types.set pos type⟩ else .error .panic

/-- One token of the text is copied, and remembered: lines 1970-1976 and 1980-1983.  `maskAt` is 1 for a tokenised document and the entry of the
encoding's mask otherwise. -/
def copy (ids : List Nat) (maskAt : Nat → Res Nat) (types : List Nat) (a : Arrays × List Nat) (pos src : Nat) : Res (Arrays × List Nat) := do
  let i ← idx ids src
  let m ← maskAt src
  let t ← idx types src
  let a' ← put a.1 pos i m t
  return (a', a.2 ++ [i])

/-- `for src_idx in src..src+n`: lines 1970-1976 and 2118-2124. -/
def copyLoop (ids : List Nat) (maskAt : Nat → Res Nat) (types : List Nat) : Nat → Nat → Nat → Arrays × List Nat → Res (Arrays × List Nat)
  | 0, _, _, a => .ok a
  | n + 1, pos, src, a => do
    let a' ← copy ids maskAt types a pos src
    copyLoop ids maskAt types n (pos + 1) (src + 1) a'

/-- The body of the loop over rows: lines 1947-1987 and 2095-2134.  Both functions write the same; what differs is `maskAt`. -/
def row (k : Kind) (pre len : Nat) (a : Arrays) (i real : Nat) (ids : List Nat) (maskAt : Nat → Res Nat) (types : List Nat) : Res (Arrays × List Nat) := do
  let cut := real > k.maxLen - 1
  let content := if cut then k.maxLen - 1 - 1 else real
  let first ← copy ids maskAt types (a, []) (i * len) 0
  let a2 ← put first.1 (i * len + 1) pre 1 0
  let body ← copyLoop ids maskAt types (content - 1) (i * len + 2) 1 (a2, first.2 ++ [pre])
  if cut then copy ids maskAt types body (i * len + 2 + (content - 1)) (real - 1) else return body

/-- `original_lengths`: lines 1955-1956 and 2106-2107. -/
def finalLen (k : Kind) (real : Nat) : Nat := if real > k.maxLen - 1 then k.maxLen else real + 1

/-- The loop over the documents of a batch: lines 1947-1988; a document is its length, its ids, its mask and its types. -/
def rows (k : Kind) (pre len : Nat) : Nat → List (Nat × List Nat × (Nat → Res Nat) × List Nat) → Arrays × List (List Nat) → Res (Arrays × List (List Nat))
  | _, [], a => .ok a
  | i, (real, ids, maskAt, types) :: ds, a => do
    let r ← row k pre len a.1 i real ids maskAt types
    rows k pre len (i + 1) ds (r.1, a.2 ++ [r.2])

/-- `prepare_batch_from_tokenized_documents`: lines 1879-2006. -/
def prepareDocs (k : Kind) (docs : List TokDoc) (pad : Option Nat) : Res Prepared := do
  let pre ← k.prefix
  let len := batchLen k (docs.map (·.ids.length)) pad
  let out ← rows k pre len 0 (docs.map fun d => (max d.ids.length 1, d.ids, fun _ => .ok 1, d.types)) (blank k (docs.length * len), [])
  return ⟨docs.length, len, out.1, out.2, docs.map fun d => finalLen k (max d.ids.length 1)⟩

/-- `prepare_batch_from_tokenizer_encodings`: lines 2008-2151. -/
def prepareEncodings (k : Kind) (encs : List Encoding) : Res Prepared := do
  let pre ← k.prefix
  let len := batchLen k (encs.map fun e => realLen e.masks) none
  let out ← rows k pre len 0 (encs.map fun e => (realLen e.masks, e.ids, idx e.masks, e.types)) (blank k (encs.length * len), [])
  return ⟨encs.length, len, out.1, out.2, encs.map fun e => finalLen k (realLen e.masks)⟩

/-- `v[start..start + n]`. -/
def slice {α : Type} (l : List α) (start n : Nat) : Res (List α) :=
  if start + n ≤ l.length then .ok ((l.drop start).take n) else .error .panic

/-- A forward pass: from size, length, ids, attention mask and types to the dimension and the output, all vectors in a row. -/
abbrev Pass (K : Type) := Nat → Nat → List Nat → List Nat → Option (List Nat) → Res (Nat × List K)

/-- The embeddings of row `i`: lines 2206-2242.  An `Array2` is the list of its rows.  `skip` says whether a token is filtered out. -/
def cutRow {K : Type} (k : Kind) (skip : Nat → Bool) (p : Prepared) (dim : Nat) (out : List K) (i : Nat) : Res (List (List K)) := do
  if k.expand then (List.range p.len).mapM fun j => slice out (i * p.len * dim + j * dim) dim
  else do
    let n ← idx p.lens i
    let toks ← idx p.tokens i
    let _ ← (List.range n).mapM (idx toks)
    ((toks.zipIdx.take n).filter fun t => !skip t.1).mapM fun t => slice out (i * p.len * dim + t.2 * dim) dim

/-- `encode_prepared_batch_with_session`: lines 2154-2246. -/
def encodePrepared {K : Type} (k : Kind) (pass : Pass K) (skip : Nat → Bool) (p : Prepared) : Res (List (List (List K))) :=
  if p.size = 0 then .ok []
  else do
    let out ← pass p.size p.len p.arrays.ids p.arrays.mask (if k.useTypes then some p.arrays.types else none)
    (List.range p.size).mapM (cutRow k skip p out.1 out.2)

/-- `encode_batch_with_session`: lines 1823-1838, with `prepare_batch_for_session`, lines 1840-1877.  `tok` is `tokenizer.encode_batch` after
`preprocess_texts`. -/
def encodeBatch {T K : Type} (k : Kind) (pass : Pass K) (skip : Nat → Bool) (tok : List T → Res (List Encoding)) (texts : List T) :
    Res (List (List (List K))) :=
  if texts = [] then .ok []
  else do
    let encs ← tok texts
    let p ← prepareEncodings k encs
    encodePrepared k pass skip p

/-- The engine of `Model/Encode`: `prepare_batch_from_tokenized_documents` and `encode_prepared_batch_with_session` for each batch. -/
def engine {T K : Type} (k : Kind) (pass : Nat → Pass K) (skip : Nat → Bool) (tok : T → Res Encoding) (batchSize sessions : Nat) (dynamic : Bool) :
    Encode.Engine T TokDoc (List (List K)) where
  tok t := do
    let e ← tok t
    tokOne e
  len d := d.ids.length
  run s pad docs := do
    let p ← prepareDocs k docs pad
    encodePrepared k (pass s) skip p
  batchSize := batchSize
  docLen := k.maxLen
  sessions := sessions
  dynamic := dynamic

end NextPlaid.Prepare
