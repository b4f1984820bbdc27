import Verif.Model.Single
import Verif.Model.Npy
import Mathlib.Data.List.Sort

/-!
Model of the reranking endpoint and of the two wire formats of embeddings: next-plaid-api/src/handlers/rerank.rs and next-plaid-api/src/models.rs.
A value of type `f32` is its 32 bits; `Single.F32.ofBits` gives what they stand for.
-/

namespace NextPlaid.Rerank
open Single

/-- The base64 alphabet: next-plaid/src/filtering.rs 2401, and `STANDARD` of the base64 crate. -/
def alphabet : List Char := "ABCDEFGHIJKLMNOPQRSTUVWXYZabcdefghijklmnopqrstuvwxyz0123456789+/".toList

/-- One character of base64. -/
def digit (n : Nat) : Char := alphabet.getD n '='

/-- `STANDARD.encode` of the base64 crate, and `base64_encode` of next-plaid/src/filtering.rs 2399-2425. -/
def encode64 : List Nat → List Char
  | a :: b :: c :: rest =>
    digit (a / 4) :: digit (a % 4 * 16 + b / 16) :: digit (b % 16 * 4 + c / 64) :: digit (c % 64) :: encode64 rest
  | [a, b] => [digit (a / 4), digit (a % 4 * 16 + b / 16), digit (b % 16 * 4), '=']
  | [a] => [digit (a / 4), digit (a % 4 * 16), '=', '=']
  | [] => []

/-- The six bits of a character. -/
def undigit (c : Char) : Option Nat := if c ∈ alphabet then some (alphabet.idxOf c) else none

/-- Four characters without padding. -/
def group4 (a b c d : Char) : Option (List Nat) := do
  let a ← undigit a
  let b ← undigit b
  let c ← undigit c
  let d ← undigit d
  some [a * 4 + b / 16, b % 16 * 16 + c / 4, c % 4 * 64 + d]

/-- Three characters before one `=`; the two bits left over must be zero. -/
def group3 (a b c : Char) : Option (List Nat) := do
  let a ← undigit a
  let b ← undigit b
  let c ← undigit c
  if c % 4 = 0 then some [a * 4 + b / 16, b % 16 * 16 + c / 4] else none

/-- Two characters before `==`; the four bits left over must be zero. -/
def group2 (a b : Char) : Option (List Nat) := do
  let a ← undigit a
  let b ← undigit b
  if b % 16 = 0 then some [a * 4 + b / 16] else none

/-- `STANDARD.decode` of the base64 crate: padding is required, left-over bits must be zero, no other character is accepted. -/
def decode64 : List Char → Option (List Nat)
  | [] => some []
  | [a, b, c, d] =>
    if d = '=' then (if c = '=' then group2 a b else group3 a b c) else group4 a b c d
  | a :: b :: c :: d :: rest => do
    let x ← group4 a b c d
    let y ← decode64 rest
    some (x ++ y)
  | _ => none

/-- Cut into pieces of `w`, `n` of them: the rows of `Array2::from_shape_vec`, and `chunks_exact(4)`. -/
def pieces {A : Type} (w : Nat) : Nat → List A → List (List A)
  | 0, _ => []
  | n + 1, l => l.take w :: pieces w n (l.drop w)

/-- An `Array2<f32>`: the number of columns is kept apart from the rows because an array without rows has one too. -/
structure Arr where
  ncols : Nat
  rows : List (List Nat)
  deriving DecidableEq

/-- `decode_b64_embeddings`: next-plaid-api/src/models.rs 903-935; `usize` has 64 bits. -/
def decodeB64 (b64 : List Char) (shape : Nat × Nat) : Option (List Nat) :=
  match decode64 b64 with
  | none => none
  | some bytes =>
    if 2 ^ 64 ≤ shape.1 * shape.2 then none
    else if 2 ^ 64 ≤ shape.1 * shape.2 * 4 then none
    else if bytes.length ≠ shape.1 * shape.2 * 4 then none
    else
      let floats := (pieces 4 (bytes.length / 4) bytes).map Npy.leVal
      if floats.all (fun f => (F32.ofBits f).isFinite) then some floats else none

/-- `validate_embedding_shape`: next-plaid-api/src/models.rs 937-945. -/
def validShape (shape : Nat × Nat) : Bool := decide (shape.1 ≠ 0) && decide (shape.2 ≠ 0)

/-- `decode_b64_embeddings_to_array2`: next-plaid-api/src/models.rs 948-957. -/
def b64ToArray (b64 : List Char) (shape : Nat × Nat) : Option Arr :=
  if validShape shape then (decodeB64 b64 shape).map (fun fs => ⟨shape.2, pieces shape.2 shape.1 fs⟩) else none

/-- `json_embeddings_to_array2`: next-plaid-api/src/models.rs 960-995. -/
def jsonToArray (e : List (List Nat)) : Option Arr :=
  if validShape (e.length, (e.head?.map List.length).getD 0) then
    let cols := (e.headD []).length
    if e.all (fun row => decide (row.length = cols) && row.all (fun f => (F32.ofBits f).isFinite)) then
      some ⟨cols, pieces cols e.length e.flatten⟩
    else none
  else none

/-- `encode_b64_embeddings`: next-plaid-api/src/models.rs 996-1006. -/
def encodeB64 (e : List (List Nat)) : List Char × (Nat × Nat) :=
  (encode64 (e.flatMap (fun row => row.flatMap (Npy.leBytes 4))), (e.length, if 0 < e.length then (e.headD []).length else 0))

/-- The embeddings of a query or a document in a request: next-plaid-api/src/models.rs, `DocumentEmbeddings`, `QueryEmbeddings` and the three fields
`query`, `query_b64`, `query_shape` of `RerankRequest`. -/
structure Sent where
  json : Option (List (List Nat))
  b64 : Option (List Char)
  shape : Option (Nat × Nat)

/-- `doc_to_ndarray`, and the same for the query in `rerank`: next-plaid-api/src/handlers/rerank.rs 18-40, 123-133. -/
def strictArray (s : Sent) : Option Arr :=
  match s.b64, s.shape with
  | some b, some sh => b64ToArray b sh
  | _, _ => s.json.bind jsonToArray

/-- `to_ndarray` of the search endpoints and of the endpoints that add documents: next-plaid-api/src/handlers/search.rs 29-72 and
next-plaid-api/src/handlers/documents.rs 586-629. -/
def lenientArray (s : Sent) : Option Arr :=
  match s.b64, s.shape with
  | some b, some sh => (decodeB64 b sh).map (fun fs => ⟨sh.2, pieces sh.2 sh.1 fs⟩)
  | _, _ =>
    match s.json with
    | none => none
    | some e =>
      if e.length = 0 then none
      else if (e.headD []).length = 0 then none
      else if e.all (fun row => decide (row.length = (e.headD []).length)) then
        some ⟨(e.headD []).length, pieces (e.headD []).length e.length e.flatten⟩
      else none

/-- A failed request. -/
inductive Refusal where
  | badRequest
  | dimensionMismatch (expected actual : Nat)
  deriving DecidableEq

/-- The similarity of two tokens: next-plaid-api/src/handlers/rerank.rs 66-71.  `start` is where `Iterator::sum` begins: the negative zero in new versions
of the standard library, the positive zero in old ones. -/
def dot (start : F32) (q d : List Nat) : F32 :=
  (List.zipWith (fun a b => F32.mul (F32.ofBits a) (F32.ofBits b)) q d).foldl F32.add start

/-- The inner loop: next-plaid-api/src/handlers/rerank.rs 65-80. -/
def bestSim (start : F32) (q : List Nat) : List (List Nat) → F32 → Except Refusal F32
  | [], m => .ok m
  | d :: ds, m =>
    if (dot start q d).isFinite then bestSim start q ds (if F32.gt (dot start q d) m then dot start q d else m)
    else .error .badRequest

/-- The outer loop: next-plaid-api/src/handlers/rerank.rs 60-93. -/
def addSims (start : F32) (doc : List (List Nat)) : List (List Nat) → F32 → Except Refusal F32
  | [], total => .ok total
  | q :: qs, total =>
    match bestSim start q doc (.inf true) with
    | .error e => .error e
    | .ok m =>
      if F32.gt m (.inf true) then
        if (F32.add total m).isFinite then addSims start doc qs (F32.add total m) else .error .badRequest
      else addSims start doc qs total

/-- `compute_maxsim`: next-plaid-api/src/handlers/rerank.rs 57-94. -/
def computeMaxsim (start : F32) (query doc : Arr) : Except Refusal F32 := addSims start doc.rows query.rows (.num 0)

/-- `score_desc_cmp(a, b)` is not `Greater`: next-plaid-api/src/handlers/rerank.rs 42-49. -/
def notAfter (a b : F32) : Bool :=
  match a.isFinite, b.isFinite with
  | true, true => !F32.totalLt a b
  | true, false => true
  | false, true => false
  | false, false => true

/-- The first error, or all values: `collect::<ApiResult<Vec<_>>>`. -/
def collect {A B : Type} (f : A → Except Refusal B) : List A → Except Refusal (List B)
  | [] => .ok []
  | a :: as =>
    match f a with
    | .error e => .error e
    | .ok b =>
      match collect f as with
      | .error e => .error e
      | .ok bs => .ok (b :: bs)

/-- Convert one document and check its dimension: next-plaid-api/src/handlers/rerank.rs 141-150. -/
def oneDoc (dim : Nat) (s : Sent) : Except Refusal Arr :=
  match strictArray s with
  | none => .error .badRequest
  | some a => if a.ncols ≠ dim then .error (.dimensionMismatch dim a.ncols) else .ok a

/-- Score the documents and sort: next-plaid-api/src/handlers/rerank.rs 157-165 and 254-262.  `sort_by` is stable; a stable insertion sort stands for it. -/
def scoreAndSort (start : F32) (query : Arr) (docs : List Arr) : Except Refusal (List (Nat × F32)) :=
  match collect (fun p : Arr × Nat => (computeMaxsim start query p.1).map (fun s => (p.2, s))) docs.zipIdx with
  | .error e => .error e
  | .ok results => .ok (results.insertionSort (fun a b => notAfter a.2 b.2 = true))

/-- `rerank`: next-plaid-api/src/handlers/rerank.rs 110-182.  The answer: the number of documents, and index and score of each in order. -/
def rerank (start : F32) (query : Sent) (documents : List Sent) : Except Refusal (Nat × List (Nat × F32)) :=
  if documents.isEmpty then .error .badRequest
  else
    match strictArray query with
    | none => .error .badRequest
    | some q =>
      match collect (oneDoc q.ncols) documents with
      | .error e => .error e
      | .ok docs =>
        match scoreAndSort start q docs with
        | .error e => .error e
        | .ok results => .ok (docs.length, results)

end NextPlaid.Rerank
