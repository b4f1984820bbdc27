import Verif.Model.Search
import Verif.Model.Db
import Verif.Model.Fusion
import Verif.Model.Rerank

/-!
Model of the search endpoints: /repo/next-plaid-api/src/handlers/search.rs.

A request reads the shared state several times (metadata database, index slot, keyword index, metadata database again), and
other requests may change it between the reads. `World` is the state as one read finds it; the handler gets one world for
each of its reads. Log messages and timings are left out.
-/

namespace NextPlaid.SearchApi

open NextPlaid NextPlaid.Index NextPlaid.Search NextPlaid.Db NextPlaid.Fusion NextPlaid.Rerank

/-- What the handler answers instead of results: `ApiError`, /repo/next-plaid-api/src/error.rs:75-130. A panic ends the
request without an answer. -/
inductive Refusal where
  | badRequest | indexNotFound | metadataNotFound | dimensionMismatch | internal | panic
deriving DecidableEq, Repr

/-- What one read finds: the index slot (`get_index_for_read`, /repo/next-plaid-api/src/state.rs:413-416; failures to load are not told
apart from a missing index), the metadata database, and the keyword index. `ask text k` runs the statement of `text_search::search` (argument
`none`) or of one chunk of `search_filtered` (argument `some ids`) with limit `k`; it fails if the query is not valid or there
is no keyword index. The scores of keyword search are finite. /repo/next-plaid/src/text_search.rs:1246-1268, 1300-1331. -/
structure World (E : Env) (S : Sql) (K : Type) where
  slot : Option (Loaded E)
  db : Option (Tables S)
  ask : List Char → Nat → Res (Option (List Int) → List (Int × K))

/-- The parts below the handler. `tokens` are the query tokens of an array; `dim` is `embedding_dim`; `finite` reads a finite score as a number (fusion is
modelled for finite scores only, see `Fusion`); `mapOrder` and `rowOrder` are the orders left open by hash maps and SQL. -/
structure Backend (E : Env) (S : Sql) (K : Type) [LinearOrder K] where
  N : Num E K
  oracle : Nat → Oracle K
  tokens : Arr → List N.Q
  dim : Loaded E → Nat
  finite : Score K → K
  rounding : Rounding K
  mapOrder : List (Int × K) → List (Int × K)
  rowOrder : List (OutRow S) → List (OutRow S)
  defaultTopK : Nat

/-- `SearchRequest` with `SearchParamsRequest`: /repo/next-plaid-api/src/models.rs:210-286. `filter` is the condition with its parameters:
whether it is valid, and the rows that satisfy it. -/
structure Request (S : Sql) (K : Type) where
  queries : Option (List Sent)
  textQuery : Option (List (List Char))
  topK : Option Nat
  nIvfProbe : Option Nat
  nFullScores : Option Nat
  threshold : Option (Option (Score K))
  subset : Option (List Int)
  alpha : Option K
  fusion : Option (List Char)
  filter : Option (Bool × (OutRow S → Bool))

/-- `QueryResultResponse`: /repo/next-plaid-api/src/models.rs:288-302. -/
structure Answer (S : Sql) (K : Type) where
  queryId : Nat
  ids : List Int
  scores : List (Score K)
  metadata : List (Option (OutRow S))

/-- `.map(f).collect::<ApiResult<Vec<_>>>()`, and a loop with `?`: the first failure is the result. -/
def collect {A B : Type} (f : A → Except Refusal B) : List A → Except Refusal (List B)
  | [] => .ok []
  | a :: l => (f a).bind fun b => (collect f l).bind fun bs => .ok (b :: bs)

/-- An error of the library is an internal error; a panic stays a panic. -/
def lift {A : Type} : Res A → Except Refusal A
  | .ok a => .ok a
  | .error .err => .error .internal
  | .error .panic => .error .panic

variable {E : Env} {S : Sql} {K : Type} [Field K] [LinearOrder K] [IsStrictOrderedRing K]

/-- `fetch_metadata_for_docs`: /repo/next-plaid-api/src/handlers/search.rs:79-105. Of several rows with the same id the map keeps the
last. -/
def fetchMetadata (rowOrder : List (OutRow S) → List (OutRow S)) (db : Option (Tables S)) (ids : List Int) :
    Except Refusal (List (Option (OutRow S))) :=
  if db.isNone then .ok (ids.map fun _ => none)
  else (lift (get rowOrder db none (some ids))).map fun rows =>
    ids.map fun id => rows.reverse.find? fun r => r.subset == id

/-- `has_queries`: lines 131. -/
def hasQueries (req : Request S K) : Bool := !(req.queries.getD []).isEmpty

/-- `has_text_query`: lines 132-136. -/
def hasText (req : Request S K) : Bool := !(req.textQuery.getD []).isEmpty

def rrfName : List Char := ['r', 'r', 'f']
def relativeName : List Char := ['r', 'e', 'l', 'a', 't', 'i', 'v', 'e', '_', 's', 'c', 'o', 'r', 'e']

/-- The first checks: lines 138-176. The default of `alpha` is 0.75. -/
def checkRequest (req : Request S K) : Except Refusal Unit :=
  if !hasQueries req && !hasText req then .error .badRequest
  else if ¬ (0 ≤ req.alpha.getD (3 / 4) ∧ req.alpha.getD (3 / 4) ≤ 1) then .error .badRequest
  else if req.fusion.getD relativeName ≠ rrfName ∧ req.fusion.getD relativeName ≠ relativeName then .error .badRequest
  else if hasQueries req ∧ hasText req ∧ (req.queries.getD []).length ≠ 1 then .error .badRequest
  else .ok ()

/-- The filter becomes a list of ids and replaces `subset`: lines 181-191. -/
def resolveSubset (w : World E S K) (req : Request S K) : Except Refusal (Option (List Int)) :=
  match req.filter with
  | none => .ok req.subset
  | some c =>
    if w.db.isNone then .error .metadataNotFound
    else match whereCondition w.db c.1 c.2 with
      | .ok ids => .ok (some ids)
      | .error .err => .error .badRequest
      | .error .panic => .error .panic

/-- `SearchParameters`: lines 211-218, 306-313; the other fields have the defaults of the library,
/repo/next-plaid/src/search.rs:50-70. -/
def paramsOf (req : Request S K) (k : Nat) : Params K :=
  { nFullScores := req.nFullScores.getD 4096, topK := k, nIvfProbe := req.nIvfProbe.getD 8, centroidBatchSize := 100000,
    threshold := req.threshold.getD none }

/-- `to_ndarray(..)?`: lines 196-199, 297. -/
def readQuery (s : Sent) : Except Refusal Arr :=
  match lenientArray s with
  | some a => .ok a
  | none => .error .badRequest

/-- `get_index_for_read(..)?`: lines 201, 298. -/
def readIndex (w : World E S K) : Except Refusal (Loaded E) :=
  match w.slot with
  | some x => .ok x
  | none => .error .indexNotFound

/-- The check of the dimension: lines 202-210, 299-305. -/
def checkDim (B : Backend E S K) (x : Loaded E) (a : Arr) : Except Refusal Unit :=
  if a.ncols = B.dim x then .ok () else .error .dimensionMismatch

/-- One query is searched by itself, several as a batch: lines 220-230. -/
def searchAll (B : Backend E S K) (x : Loaded E) (p : Params K) (subset : Option (List Int)) (qs : List Arr) :
    Except Refusal (List (Result K)) :=
  match qs with
  | [q] => (lift (searchOne (B.oracle 0) B.N x (B.tokens q) p subset)).map fun r => [r]
  | qs => lift (searchMany B.oracle B.N x (qs.map B.tokens) p true subset)

/-- The results with their metadata: lines 232-245. World `i` is read for result `i`. -/
def withMetadata (B : Backend E S K) (w : Nat → World E S K) : Nat → List (Result K) → Except Refusal (List (Answer S K))
  | _, [] => .ok []
  | i, r :: rs => (fetchMetadata B.rowOrder (w i).db r.passageIds).bind fun m =>
      (withMetadata B w (i + 1) rs).bind fun l => .ok (⟨r.queryId, r.passageIds, r.scores, m⟩ :: l)

/-- The part for embeddings only: lines 193-270. -/
def semanticOnly (B : Backend E S K) (w : Nat → World E S K) (req : Request S K) (subset : Option (List Int)) :
    Except Refusal (List (Answer S K)) :=
  (collect readQuery (req.queries.getD [])).bind fun qs =>
  (readIndex (w 1)).bind fun x =>
  (collect (checkDim B x) qs).bind fun _ =>
  (searchAll B x (paramsOf req (req.topK.getD B.defaultTopK)) subset qs).bind fun rs =>
  withMetadata B w 2 rs

/-- `text_search::search` and `text_search::search_filtered`: /repo/next-plaid/src/text_search.rs:1246-1342. -/
def keywordSearch (w : World E S K) (text : List Char) (k : Nat) (subset : Option (List Int)) : Res (List (Int × K)) :=
  match subset with
  | none => if text = [] then .ok [] else (w.ask text k).map fun f => f none
  | some sub => if sub = [] ∨ text = [] then .ok [] else (w.ask text k).map fun f => searchFiltered (fun ids => f (some ids)) id k sub

/-- The semantic part of query `i`: lines 294-317. -/
def semanticPart (B : Backend E S K) (w : World E S K) (req : Request S K) (k : Nat) (subset : Option (List Int)) (i : Nat) :
    Except Refusal (Option (Result K)) :=
  if hasQueries req then
    match (req.queries.getD [])[i]? with
    | none => .error .panic
    | some s => (readQuery s).bind fun q => (readIndex w).bind fun x => (checkDim B x q).bind fun _ =>
        (lift (searchOne (B.oracle 0) B.N x (B.tokens q) (paramsOf req k) subset)).map some
  else .ok none

/-- The keyword part: lines 322-340. An error is only logged. The text is not empty of queries here. -/
def keywordPart (w : World E S K) (text : List Char) (k : Nat) (subset : Option (List Int)) : Except Refusal (Option (List (Int × K))) :=
  match keywordSearch w text k subset with
  | .ok l => .ok (some l)
  | .error .err => .ok none
  | .error .panic => .error .panic

/-- The fusion: lines 343-374. -/
def fuse (B : Backend E S K) (req : Request S K) (k : Nat) (sem : Option (Result K)) (kw : Option (List (Int × K))) :
    List Int × List (Score K) :=
  match sem, kw with
  | some r, some l =>
    let fused := if req.fusion.getD relativeName = rrfName
      then fuseRrf B.rounding B.mapOrder r.passageIds (l.map Prod.fst) (req.alpha.getD (3 / 4)) k
      else fuseRelative B.rounding B.mapOrder r.passageIds (r.scores.map B.finite) (l.map Prod.fst) (l.map Prod.snd)
        (req.alpha.getD (3 / 4)) k
    (fused.map Prod.fst, fused.map fun p => .fin p.2)
  | some r, none => (((r.passageIds.zip r.scores).take k).map Prod.fst, ((r.passageIds.zip r.scores).take k).map Prod.snd)
  | none, some l => ((l.take k).map Prod.fst, (l.take k).map fun p => .fin p.2)
  | none, none => ([], [])

/-- One round of the loop over the queries: lines 291-386. Its reads are those of the worlds `1 + 3 * i`, `2 + 3 * i` and `3 + 3 * i`. `top_k * 3` is not reduced modulo
the word size. -/
def hybridOne (B : Backend E S K) (w : Nat → World E S K) (req : Request S K) (subset : Option (List Int)) (i : Nat)
    (text : List Char) : Except Refusal (Answer S K) :=
  let k := req.topK.getD B.defaultTopK
  let fetch := if hasQueries req then k * 3 else k
  (semanticPart B (w (1 + 3 * i)) req fetch subset i).bind fun sem =>
  (keywordPart (w (2 + 3 * i)) text fetch subset).bind fun kw =>
  (fetchMetadata B.rowOrder (w (3 + 3 * i)).db (fuse B req k sem kw).1).map fun m =>
    ⟨i, (fuse B req k sem kw).1, (fuse B req k sem kw).2, m⟩

/-- The loop over the queries. -/
def hybridFrom (B : Backend E S K) (w : Nat → World E S K) (req : Request S K) (subset : Option (List Int)) :
    Nat → List (List Char) → Except Refusal (List (Answer S K))
  | _, [] => .ok []
  | i, t :: ts => (hybridOne B w req subset i t).bind fun a => (hybridFrom B w req subset (i + 1) ts).bind fun l => .ok (a :: l)

/-- Keyword and hybrid search: lines 272-412. -/
def textual (B : Backend E S K) (w : Nat → World E S K) (req : Request S K) (subset : Option (List Int)) :
    Except Refusal (List (Answer S K)) :=
  if hasQueries req ∧ (req.queries.getD []).length ≠ (req.textQuery.getD []).length then .error .badRequest
  else hybridFrom B w req subset 0 (req.textQuery.getD [])

/-- `search`: /repo/next-plaid-api/src/handlers/search.rs:122-412. -/
def search (B : Backend E S K) (w : Nat → World E S K) (req : Request S K) : Except Refusal (List (Answer S K)) :=
  (checkRequest req).bind fun _ =>
  (resolveSubset (w 0) req).bind fun subset =>
  if hasText req then textual B w req subset else semanticOnly B w req subset

/-- `search_filtered`: lines 432-457. -/
def searchFilteredApi (B : Backend E S K) (w : Nat → World E S K) (queries : List Sent) (params : Request S K)
    (filter : Bool × (OutRow S → Bool)) : Except Refusal (List (Answer S K)) :=
  if queries.isEmpty then .error .badRequest
  else search B w { params with queries := some queries, textQuery := none, subset := none, alpha := none, fusion := none, filter := some filter }

/-- `search_with_encoding` and `search_filtered_with_encoding`: lines 478-541, 561-612. `encode` are the embeddings of the texts, as JSON
arrays, or the refusal of the encoder. -/
def searchWithEncoding (B : Backend E S K) (w : Nat → World E S K) (encode : List (List Char) → Except Refusal (List Sent))
    (texts : List (List Char)) (params : Request S K) (filter : Option (Bool × (OutRow S → Bool))) :
    Except Refusal (List (Answer S K)) :=
  if texts.isEmpty then .error .badRequest
  else (encode texts).bind fun qs =>
    search B w { params with queries := some qs, subset := if filter.isSome then none else params.subset, filter := filter }

end NextPlaid.SearchApi
