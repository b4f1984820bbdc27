import Verif.Model.SearchApi
import Verif.Spec.Search
import Verif.Spec.Db
import Verif.Spec.Fusion

/-! Specification of the search endpoints. -/

namespace NextPlaid.Spec

open NextPlaid NextPlaid.Index NextPlaid.Search NextPlaid.Db NextPlaid.Fusion NextPlaid.SearchApi

variable {E : Env} {S : Sql} {K : Type} [Field K] [LinearOrder K] [IsStrictOrderedRing K]

/-- The request lets document `id` into the results: with a filter, a row listed under `id` satisfies it; otherwise `id` is in the
subset, if one is given. -/
def Allowed (w : World E S K) (req : Request S K) (id : Int) : Prop :=
  match req.filter with
  | some c => ∃ all, get (fun l => l) w.db none none = .ok all ∧ ∃ row ∈ all, row.subset = id ∧ c.2 row = true
  | none => ∀ sub, req.subset = some sub → id ∈ sub

/-- `ids` are the documents the request lets in (`none`: it says nothing about them). -/
def Limits (w : World E S K) (req : Request S K) : Option (List Int) → Prop
  | none => req.filter = none ∧ req.subset = none
  | some ids => (req.filter ≠ none ∨ req.subset ≠ none) ∧ ∀ id, id ∈ ids ↔ Allowed w req id

/-- `found` are the rows of the keyword index that match the text, one per document, with their scores; the statements return the best of
them. -/
def BestMatches (w : World E S K) (text : List Char) (found : List (Int × K)) : Prop :=
  (found.map Prod.fst).Nodup ∧ ∀ k f, w.ask text k = .ok f →
    TopOf k found (f none) ∧ ∀ ids, TopOf k (found.filter fun p => decide (p.1 ∈ ids)) (f (some ids))

/-- No document is let in twice: the subset has no repetitions, and the rows of the metadata have distinct ids. -/
def LetInOnce (w : World E S K) (req : Request S K) : Prop :=
  (∀ sub, req.subset = some sub → sub.Nodup) ∧ ∀ t, w.db = some t → ∃ rows, Kept (some t) rows

/-- The keyword index answers every query in this way. -/
def KeywordsWork (w : World E S K) : Prop := ∀ text, ∃ found, BestMatches w text found

/-- The number of results wanted. -/
def wanted (B : Backend E S K) (req : Request S K) : Nat := req.topK.getD B.defaultTopK

/-- The search parameters documented for the endpoint, for `k` results. -/
def searchParams (req : Request S K) (k : Nat) : Params K :=
  ⟨req.nFullScores.getD 4096, k, req.nIvfProbe.getD 8, 100000, req.threshold.getD none⟩

/-- `r` is the answer of the index found in world `w` to the embeddings `s`. -/
def IndexAnswers (B : Backend E S K) (o : Oracle K) (w : World E S K) (p : Params K) (subset : Option (List Int)) (s : Rerank.Sent)
    (r : Result K) : Prop :=
  ∃ x q, w.slot = some x ∧ Rerank.lenientArray s = some q ∧ q.ncols = B.dim x ∧
    searchOne o B.N x (B.tokens q) p subset = .ok r

/-- `l` is a best-`k` list of the matches of the text among the documents let in; nothing for an empty text. -/
def KeywordsAnswer (w : World E S K) (k : Nat) (subset : Option (List Int)) (text : List Char) (l : List (Int × K)) : Prop :=
  (text = [] → l = []) ∧ (text ≠ [] → ∀ found, BestMatches w text found →
    match subset with
    | none => TopOf k found l
    | some ids => TopOf k (found.filter fun p => decide (p.1 ∈ ids)) l)

/-- The two lists of an answer are the scored ids `out`. -/
def Lists (a : Answer S K) (out : List (Int × K)) : Prop := a.ids = out.map Prod.fst ∧ a.scores = out.map fun p => .fin p.2

/-- The answer is the best `k` of both lists, scored by rank. -/
def FusedByRank (B : Backend E S K) (alpha : K) (k : Nat) (r : Result K) (l : List (Int × K)) (a : Answer S K) : Prop :=
  ∃ out all, Lists a out ∧ TopOf k all out ∧ (all.map Prod.fst).Nodup ∧ ∀ id s, (id, s) ∈ all ↔
    (id ∈ r.passageIds ∨ id ∈ l.map Prod.fst) ∧ s = B.rounding.rnd (rankShare B.rounding alpha r.passageIds id +
      rankShare B.rounding (B.rounding.rnd (1 - alpha)) (l.map Prod.fst) id)

/-- The answer is the best `k` of both lists, scored by relative score. -/
def FusedByScore (B : Backend E S K) (alpha : K) (k : Nat) (r : Result K) (l : List (Int × K)) (a : Answer S K) : Prop :=
  ∃ out all, Lists a out ∧ TopOf k all out ∧ (all.map Prod.fst).Nodup ∧ ∀ id s, (id, s) ∈ all ↔
    (id ∈ r.passageIds ∨ id ∈ l.map Prod.fst) ∧ ∃ x y,
      ScoreShare B.rounding alpha (r.passageIds.zip (r.scores.map B.finite)) id x ∧
      ScoreShare B.rounding (B.rounding.rnd (1 - alpha)) l id y ∧ s = B.rounding.rnd (x + y)

/-- `metadata` are the rows of the documents `ids` in a database that means the list `rows`: `none` where there is no such row. -/
def OwnRows (rows : List (Item S)) (ids : List Int) (metadata : List (Option (OutRow S))) : Prop :=
  metadata.length = ids.length ∧ ∃ ty : String → S.Ty, ∀ (p : Nat) (id : Int) (m : Option (OutRow S)),
    ids[p]? = some id → metadata[p]? = some m → (id < 0 → m = none) ∧ ∀ n : Nat, id = n →
      (rows[n]? = none → m = none) ∧ ∀ it, rows[n]? = some it → ∃ row, m = some row ∧ row.subset = id ∧
        ∀ col, row.value col = S.cell (ty col) (it.value col)

/-- The embeddings and the texts of a request. -/
def embeddings (req : Request S K) : List Rerank.Sent := req.queries.getD []
def texts (req : Request S K) : List (List Char) := req.textQuery.getD []

/-- A request that can be answered: it asks something, its numbers make sense, and everything it refers to exists. -/
structure Answerable (B : Backend E S K) (w : Nat → World E S K) (req : Request S K) : Prop where
  asks : embeddings req ≠ [] ∨ texts req ≠ []
  alpha : ∀ a, req.alpha = some a → 0 ≤ a ∧ a ≤ 1
  fusion : ∀ f, req.fusion = some f → f = "rrf".toList ∨ f = "relative_score".toList
  one : embeddings req ≠ [] → texts req ≠ [] → (embeddings req).length = 1 ∧ (texts req).length = 1
  filter : ∀ c, req.filter = some c → (w 0).db ≠ none ∧ c.1 = true
  index : embeddings req ≠ [] → ∃ x, (w 1).slot = some x ∧
    ∀ s ∈ embeddings req, ∃ q, Rerank.lenientArray s = some q ∧ q.ncols = B.dim x

/-- Why a request is refused. -/
def Reason (B : Backend E S K) (w : Nat → World E S K) (req : Request S K) : Refusal → Prop
  | .internal => False
  | .indexNotFound => embeddings req ≠ [] ∧ (w 1).slot = none
  | .metadataNotFound => req.filter ≠ none ∧ (w 0).db = none
  | .dimensionMismatch => ∃ x, (w 1).slot = some x ∧ ∃ s ∈ embeddings req, ∃ q, Rerank.lenientArray s = some q ∧ q.ncols ≠ B.dim x
  | .badRequest => (embeddings req = [] ∧ texts req = []) ∨ (∃ a, req.alpha = some a ∧ ¬ (0 ≤ a ∧ a ≤ 1)) ∨
      (∃ f, req.fusion = some f ∧ f ≠ "rrf".toList ∧ f ≠ "relative_score".toList) ∨
      (embeddings req ≠ [] ∧ texts req ≠ [] ∧ ¬ ((embeddings req).length = 1 ∧ (texts req).length = 1)) ∨
      (∃ c, req.filter = some c ∧ c.1 = false) ∨ ∃ s ∈ embeddings req, Rerank.lenientArray s = none
  | .panic => (∃ i x q p subset, (w 1).slot = some x ∧ p.nIvfProbe = req.nIvfProbe.getD 8 ∧
      searchOne (B.oracle i) B.N x (B.tokens q) p subset = .error .panic) ∨ ∃ i text k, (w i).ask text k = .error .panic

end NextPlaid.Spec
