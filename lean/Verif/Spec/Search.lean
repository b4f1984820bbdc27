import Verif.Spec.Index
import Verif.Model.Search

/-! Specification of search results. -/

namespace NextPlaid.Spec
open NextPlaid NextPlaid.Index NextPlaid.Search

variable {E : Env} {α : Type} [LinearOrder α]

/-- `s` is the exact score of document `id`: the late-interaction score of the query against the
decompressed tokens of that document. -/
def ScoreOf (N : Num E α) (x : Loaded E) (query : List N.Q) (id : Int) (s : Score α) : Prop :=
  0 ≤ id ∧ id < (x.numDocuments : Int) ∧ ∃ toks v, x.docTokens id.toNat = .ok toks ∧
    N.decode x.centroids x.quant toks = .ok v ∧ s = N.exact query v

/-- Document `id` exists and has at least one token. -/
def HasToken (x : Loaded E) (id : Int) : Prop :=
  0 ≤ id ∧ ∃ toks, x.docTokens id.toNat = .ok toks ∧ toks ≠ []

/-- Document `id` has a token assigned to centroid `c`. -/
def TokenIn (x : Loaded E) (id : Int) (c : Nat) : Prop :=
  0 ≤ id ∧ ∃ toks, x.docTokens id.toNat = .ok toks ∧ ∃ t ∈ toks, t.1 = c

/-- A strictly better score in the ranking order of the code (finite beats non-finite). -/
def StrictlyBetter (a b : Score α) : Prop := Score.cmpForMax a b = .gt

/-- A well-formed answer: at most `k` results, as many scores as ids, no repeated id, only existing
documents, each with its exact score, best first. -/
structure WellFormed (N : Num E α) (x : Loaded E) (query : List N.Q) (k : Nat) (r : Result α) : Prop where
  atMost : r.passageIds.length ≤ k
  sameLength : r.passageIds.length = r.scores.length
  distinct : r.passageIds.Nodup
  scored : ∀ (i : Nat) id s, r.passageIds[i]? = some id → r.scores[i]? = some s → ScoreOf N x query id s
  sorted : ∀ (i j : Nat) s t, i < j → r.scores[i]? = some s → r.scores[j]? = some t → ¬ StrictlyBetter t s

/-- `r` is a best-`k` answer among the documents satisfying `P`: only such documents; fewer than `k`
only if all of them are returned; no omitted one is strictly better than a returned one. -/
structure BestK (N : Num E α) (x : Loaded E) (query : List N.Q) (k : Nat) (P : Int → Prop)
    (r : Result α) : Prop where
  wellFormed : WellFormed N x query k r
  only : ∀ id ∈ r.passageIds, P id
  full : r.passageIds.length < k → ∀ id, P id → id ∈ r.passageIds
  best : ∀ id s, P id → ScoreOf N x query id s → id ∉ r.passageIds → ∀ t ∈ r.scores, ¬ StrictlyBetter s t

/-- No more than `n` ids satisfy `P`. -/
def AtMost (P : Int → Prop) (n : Nat) : Prop :=
  ∀ ids : List Int, ids.Nodup → (∀ id ∈ ids, P id) → ids.length ≤ n

/-- A score is at least the (finite) threshold `t`; `nonfin 2` is `+inf`. -/
def AtLeast (s : Score α) (t : α) : Prop := (∃ a, s = .fin a ∧ t ≤ a) ∨ s = .nonfin 2

/-- Document `id` has a token in a centroid that scores at least `t` against some query token. -/
def NearQuery (N : Num E α) (x : Loaded E) (query : List N.Q) (t : α) (id : Int) : Prop :=
  ∃ c cent, x.centroids[c]? = some cent ∧ TokenIn x id c ∧ ∃ q ∈ query, AtLeast (N.dot q cent) t

/-- A query token never scores two centroids equally. -/
def NoTies (N : Num E α) (cents : List E.Cent) (q : N.Q) : Prop :=
  ∀ (i j : Nat) ci cj, cents[i]? = some ci → cents[j]? = some cj → i ≠ j →
    StrictlyBetter (N.dot q ci) (N.dot q cj) ∨ StrictlyBetter (N.dot q cj) (N.dot q ci)

end NextPlaid.Spec
