import Verif.Proofs.Search5
import Verif.Props.Index
import Mathlib.Data.Nat.Basic

/-!
Property theorems C13-C18 and C20 (search and reconstruction).

`Spec.Stored d raw`: the directories reached by the index operations.  `Oracle.Lawful`: what the
standard library promises about partial selection and iteration orders; the theorems hold for every
such choice.  `Spec.WellFormed`, `Spec.BestK`, `Spec.ScoreOf`: what an answer means.
-/

namespace NextPlaid.Props
open NextPlaid NextPlaid.Index NextPlaid.Spec NextPlaid.Search

variable {E : Env} {α : Type} [LinearOrder α]

theorem stored_idx (hE : E.Lawful) {d : Disk E} {raw} (h : Stored d raw) : Idx d raw := by
  cases h with
  | built h => exact built_idx hE h
  | history hne hops hrun => exact (history_inv hE _ hops hne hrun).1.1

theorem stored_sound (hE : E.Lawful) {d : Disk E} {raw} (h : Stored d raw) {x} (hx : load d = .ok x) :
    Sound x := Idx.sound hE (stored_idx hE h) hx

/-! ### A concrete instance -/

/-- Query tokens are numbers; a score is 100 minus the distance. -/
@[reducible] def toyNum : Num Toy Nat where
  Q := Nat
  V := Nat
  dot := fun q c => .fin (100 - ((q - c) + (c - q)))
  zero := .fin 0
  add := fun a b => match a, b with
    | .fin a, .fin b => .fin (a + b)
    | _, _ => .nonfin 3
  decode := fun _ _ toks => .ok (toks.map (·.2))
  exact := fun query v =>
    .fin ((query.map fun q => (v.map fun r => 100 - ((q - r) + (r - q))).foldl Nat.max 0).sum)

/-- Sort descending by insertion: one lawful way of selecting. -/
def insertEntry (a : Entry Nat) : List (Entry Nat) → List (Entry Nat)
  | [] => [a]
  | b :: l => if better b.2 a.2 then b :: insertEntry a l else a :: b :: l

def sortEntries : List (Entry Nat) → List (Entry Nat)
  | [] => []
  | a :: l => insertEntry a (sortEntries l)

@[reducible] def toyOracle : Oracle Nat where
  selectNth := fun _ l => sortEntries l
  setOrder := fun l => l
  heapOrder := fun l => l

theorem insertEntry_perm (a : Entry Nat) : ∀ l, (insertEntry a l).Perm (a :: l)
  | [] => .refl _
  | b :: l => by
    unfold insertEntry
    split
    · exact ((insertEntry_perm a l).cons b).trans (.swap a b l)
    · exact .refl _

theorem sortEntries_perm : ∀ l, (sortEntries l).Perm l
  | [] => .refl _
  | a :: l => (insertEntry_perm a _).trans ((sortEntries_perm l).cons a)

theorem insertEntry_sorted (a : Entry Nat) : ∀ l, l.Pairwise (fun x y => Score.ge x.2 y.2) →
    (insertEntry a l).Pairwise (fun x y => Score.ge x.2 y.2)
  | [], _ => by simp [insertEntry]
  | b :: l, h => by
    rw [List.pairwise_cons] at h
    unfold insertEntry
    split
    · next hb =>
      rw [List.pairwise_cons]
      refine ⟨?_, insertEntry_sorted a l h.2⟩
      intro y hy
      rcases List.mem_cons.1 ((insertEntry_perm a l).mem_iff.1 hy) with rfl | hy
      · rcases ge_total b.2 y.2 with h | h
        · exact h
        · exact absurd h (better_iff.1 hb)
      · exact h.1 y hy
    · next hb =>
      have hab : Score.ge a.2 b.2 := not_better.1 (Bool.eq_false_iff.2 hb)
      rw [List.pairwise_cons, List.pairwise_cons]
      refine ⟨?_, h⟩
      intro y hy
      rcases List.mem_cons.1 hy with rfl | hy
      · exact hab
      · exact Score.ge_trans hab (h.1 y hy)

theorem sortEntries_sorted : ∀ l, (sortEntries l).Pairwise (fun x y => Score.ge x.2 y.2)
  | [] => .nil
  | a :: l => insertEntry_sorted a _ (sortEntries_sorted l)

/-- Selecting by sorting is lawful, also after any rearrangement. -/
theorem sorting_lawful (f : List (Entry Nat) → List (Entry Nat)) (hf : ∀ l, (f l).Perm l) :
    Oracle.Lawful ⟨fun _ l => sortEntries (f l), fun l => l, fun l => l⟩ where
  selectNth_perm := fun _ l => (sortEntries_perm (f l)).trans (hf l)
  selectNth_pivot := by
    intro k l hk
    have hl : k < (sortEntries (f l)).length := by
      rw [(sortEntries_perm (f l)).length_eq, (hf l).length_eq]; exact hk
    refine ⟨(sortEntries (f l))[k], List.getElem?_eq_getElem hl, ?_, ?_⟩
    · intro i e hi he
      obtain ⟨hi', rfl⟩ := List.getElem?_eq_some_iff.1 he
      exact not_better.2 (List.pairwise_iff_getElem.1 (sortEntries_sorted (f l)) i k hi' hl hi)
    · intro i e hi he
      obtain ⟨hi', rfl⟩ := List.getElem?_eq_some_iff.1 he
      exact not_better.2 (List.pairwise_iff_getElem.1 (sortEntries_sorted (f l)) k i hl hi' hi)
  setOrder_perm := fun _ => .refl _
  heapOrder_perm := fun _ => .refl _

theorem toyOracle_lawful : toyOracle.Lawful := sorting_lawful id (fun _ => .refl _)

/-- Four documents over the centroids 0, 1 and 2. -/
def toyDocs : List (List Nat) := [[7, 8], [5], [], [9, 4]]

def toyDisk : Disk Toy :=
  match createWithKmeans (E := Toy) toyCfg toyDocs with
  | .ok ws => applyAll {} ws
  | .error _ => {}

theorem toyStored : Stored (E := Toy) toyDisk toyDocs :=
  .built (.create (cfg := toyCfg) {} (by decide) rfl)

def toyLoaded : Loaded Toy := match load toyDisk with
  | .ok x => x
  | .error _ => ⟨⟨0, 0, 0, 0⟩, [], (), [], [], [], [], [], [], []⟩

/-- What a search returns, in a form that can be computed. -/
def toyAnswer (r : Res (Result Nat)) : Option (List (Int × Option Nat)) :=
  match r with
  | .ok r => some (r.passageIds.zip (r.scores.map fun s => match s with | .fin a => some a | _ => none))
  | .error _ => none

def toyParams : Params Nat := ⟨16, 2, 3, 0, none⟩

/-! ### C13 -/

/-- C13: every answer is well formed: at most `top_k` distinct existing documents, each with its exact
score, best first.  Any loaded index, query, parameters, probing path and subset. -/
theorem C13_well_formed (o : Oracle α) (N : Num E α) (x : Loaded E) (query : List N.Q) (p : Params α)
    (subset : Option (List Int)) (r) (hrun : searchOne o N x query p subset = .ok r) :
    WellFormed N x query p.topK r := (searchOne_wellFormed hrun).1

/-- C13: on every index reached by the index operations search does return an answer (it does not
panic), provided at least one cell is probed and decompression does not panic. -/
theorem C13_search_answers (hE : E.Lawful) (o : Oracle α) (ho : o.Lawful) (N : Num E α) (d : Disk E) (raw)
    (hst : Stored d raw) (x) (hx : load d = .ok x) (query : List N.Q) (p : Params α)
    (subset : Option (List Int)) (hn : 0 < p.nIvfProbe)
    (hdec : ∀ i toks, x.docTokens i = .ok toks → N.decode x.centroids x.quant toks ≠ .error .panic) :
    ∃ r, searchOne o N x query p subset = .ok r ∧ WellFormed N x query p.topK r := by
  obtain ⟨r, hr⟩ := searchOne_ok ho (stored_sound hE hst hx) (query := query) (subset := subset) hn hdec
  exact ⟨r, hr, C13_well_formed o N x query p subset r hr⟩

/-- Both probing paths on four documents, one of them empty. -/
example : load toyDisk = .ok toyLoaded ∧
    toyAnswer (searchOne toyOracle toyNum toyLoaded [8, 4] toyParams none) = some [(3, some 199), (0, some 197)] ∧
    toyAnswer (searchOne toyOracle toyNum toyLoaded [8, 4] { toyParams with centroidBatchSize := 2 } none) =
      some [(3, some 199), (0, some 197)] ∧
    (∀ i toks, toyLoaded.docTokens i = .ok toks →
      toyNum.decode toyLoaded.centroids toyLoaded.quant toks ≠ .error .panic) :=
  ⟨rfl, by decide +kernel, by decide +kernel, fun _ _ _ h => by cases h⟩

/-- With a probe count of zero the standard path panics (`n_probe - 1`), while the batched path
returns nothing (/repo/next-plaid/src/search.rs:405-409, 175-197). -/
theorem C13_zero_probe_panics :
    searchOne toyOracle toyNum toyLoaded [8, 4] { toyParams with nIvfProbe := 0 } none = .error .panic ∧
    toyAnswer (searchOne toyOracle toyNum toyLoaded [8, 4]
      { toyParams with nIvfProbe := 0, centroidBatchSize := 2 } none) = some [] := by
  constructor
  · rfl
  · decide +kernel

/-! ### C14 -/

/-- C14: with a subset, every result is in the subset. -/
theorem C14_subset (o : Oracle α) (N : Num E α) (x : Loaded E) (query : List N.Q) (p : Params α)
    (sub : List Int) (r) (hrun : searchOne o N x query p (some sub) = .ok r) :
    ∀ id ∈ r.passageIds, id ∈ sub := (searchOne_wellFormed hrun).2 sub rfl

/-- A subset with a repeated id, an id that does not exist and a negative one. -/
example : toyAnswer (searchOne toyOracle toyNum toyLoaded [8, 4] toyParams (some [1, 77, 0, 1, -3])) =
    some [(0, some 197), (1, some 196)] := by decide +kernel

/-! ### C15 -/

/-- C15: probing every centroid, without a threshold, with a re-ranking budget that covers the documents
in question, search returns a best-`top_k` answer among all documents (of the subset) that have a token. -/
theorem C15_exhaustive (hE : E.Lawful) (o : Oracle α) (ho : o.Lawful) (N : Num E α) (d : Disk E) (raw)
    (hst : Stored d raw) (x) (hx : load d = .ok x) (query : List N.Q) (hq : query ≠ []) (p : Params α)
    (subset : Option (List Int)) (hprobe : x.centroids.length ≤ p.nIvfProbe) (hthr : p.threshold = none)
    (P : Int → Prop) (hP : ∀ id, P id ↔ HasToken x id ∧ ∀ sub, subset = some sub → id ∈ sub)
    (hfull : AtMost P p.nFullScores) (hfull' : AtMost P (max (p.nFullScores / 4) p.topK))
    (hdec : ∀ i toks, x.docTokens i = .ok toks → ∃ v, N.decode x.centroids x.quant toks = .ok v)
    (r) (hrun : searchOne o N x query p subset = .ok r) : BestK N x query p.topK P r := by
  have hs := stored_sound hE hst hx
  refine search_exhaustive ho hs hprobe ?_ (by simp [hthr]) (by simp [hthr]) hfull hfull' hdec hrun
  intro id
  rw [hP]
  refine and_congr_left fun _ => ?_
  constructor
  · rintro ⟨h0, toks, ht, hne⟩
    obtain ⟨t, htm⟩ := List.exists_mem_of_ne_nil toks hne
    obtain ⟨q, hqm⟩ := List.exists_mem_of_ne_nil query hq
    obtain ⟨toks', ht', hlt⟩ := hs.tokens _ (docTokens_lt ht)
    rw [ht] at ht'; cases ht'
    exact ⟨t.1, _, List.getElem?_eq_getElem (hlt t htm), ⟨h0, toks, ht, t, htm, rfl⟩, q, hqm, by simp [hthr]⟩
  · rintro ⟨c, _, _, ⟨h0, toks, ht, t, htm, _⟩, _⟩
    exact ⟨h0, toks, ht, List.ne_nil_of_mem htm⟩

/-- The budget hypotheses of `C15_exhaustive` hold when `n_full_scores` and `top_k` are at least the
number of documents. -/
theorem C15_budget (x : Loaded E) (subset : Option (List Int)) (n : Nat) (hn : x.numDocuments ≤ n) :
    AtMost (fun id => HasToken x id ∧ ∀ sub, subset = some sub → id ∈ sub) n := by
  intro ids hnd hids
  have hmap : (ids.map Int.toNat).Nodup := by
    rw [List.nodup_map_iff_inj_on hnd]
    intro a ha b hb hab
    have := (hids a ha).1.1
    have := (hids b hb).1.1
    omega
  have := nodup_le hmap (k := x.numDocuments) (by
    intro c hc
    obtain ⟨id, hid, rfl⟩ := List.mem_map.1 hc
    obtain ⟨_, toks, ht, _⟩ := (hids id hid).1
    exact docTokens_lt ht)
  rw [List.length_map] at this
  omega

/-- C15, in numbers: `n_full_scores` and `top_k` at least the number of documents. -/
theorem C15_exhaustive_numbers (hE : E.Lawful) (o : Oracle α) (ho : o.Lawful) (N : Num E α) (d : Disk E) (raw)
    (hst : Stored d raw) (x) (hx : load d = .ok x) (query : List N.Q) (hq : query ≠ []) (p : Params α)
    (subset : Option (List Int)) (hprobe : x.centroids.length ≤ p.nIvfProbe) (hthr : p.threshold = none)
    (hfull : x.numDocuments ≤ p.nFullScores) (hfull' : x.numDocuments ≤ max (p.nFullScores / 4) p.topK)
    (hdec : ∀ i toks, x.docTokens i = .ok toks → ∃ v, N.decode x.centroids x.quant toks = .ok v)
    (r) (hrun : searchOne o N x query p subset = .ok r) :
    BestK N x query p.topK (fun id => HasToken x id ∧ ∀ sub, subset = some sub → id ∈ sub) r :=
  C15_exhaustive hE o ho N d raw hst x hx query hq p subset hprobe hthr _ (fun _ => Iff.rfl)
    (C15_budget x subset _ hfull) (C15_budget x subset _ hfull') hdec r hrun

/-- The hypotheses on a concrete index; the answer ranks the three documents with tokens. -/
example : toyLoaded.centroids.length ≤ toyParams.nIvfProbe ∧ toyParams.threshold = none ∧
    toyLoaded.numDocuments ≤ toyParams.nFullScores ∧
    toyLoaded.numDocuments ≤ max (toyParams.nFullScores / 4) toyParams.topK ∧
    toyAnswer (searchOne toyOracle toyNum toyLoaded [8, 4] { toyParams with topK := 5 } none) =
      some [(3, some 199), (0, some 197), (1, some 196)] := by
  refine ⟨by decide, rfl, by decide, by decide, by decide +kernel⟩

/-- A re-ranking budget smaller than the number of candidates can lose the best document: the
approximate scores tie, and the first document in id order is re-ranked although the last one is an
exact match (/repo/next-plaid/src/search.rs:469-485). -/
theorem C15_small_budget_misses :
    toyAnswer (searchOne toyOracle toyNum toyLoaded [9, 4] ⟨16, 1, 3, 0, none⟩ none) = some [(3, some 200)] ∧
    toyAnswer (searchOne toyOracle toyNum toyLoaded [9, 4] ⟨1, 1, 3, 0, none⟩ none) = some [(0, some 196)] := by
  constructor <;> decide +kernel

/-! ### C16 -/

/-- C16: with a centroid score threshold `t`, every returned document has a token in a centroid that
scores at least `t` against some query token (both probing paths). -/
theorem C16_threshold_sound (hE : E.Lawful) (o : Oracle α) (ho : o.Lawful) (N : Num E α) (d : Disk E) (raw)
    (hst : Stored d raw) (x) (hx : load d = .ok x) (query : List N.Q) (p : Params α)
    (subset : Option (List Int)) (t : α) (hthr : p.threshold = some (.fin t))
    (r) (hrun : searchOne o N x query p subset = .ok r) :
    ∀ id ∈ r.passageIds, NearQuery N x query t id :=
  search_near ho (stored_sound hE hst hx) hthr hrun

/-- C16: nothing else is pruned: when every centroid is probed, the answer is a best-`top_k` answer among
all documents (of the subset) with a token in a centroid scoring at least `t` against some query token.
Scores are assumed finite (no NaN or infinity among the query-centroid products). -/
theorem C16_threshold_exact (hE : E.Lawful) (o : Oracle α) (ho : o.Lawful) (N : Num E α) (d : Disk E) (raw)
    (hst : Stored d raw) (x) (hx : load d = .ok x) (query : List N.Q) (p : Params α)
    (subset : Option (List Int)) (t : α) (hthr : p.threshold = some (.fin t))
    (hprobe : x.centroids.length ≤ p.nIvfProbe)
    (hfin : ∀ q ∈ query, ∀ cent ∈ x.centroids, ∃ a, N.dot q cent = .fin a)
    (P : Int → Prop) (hP : ∀ id, P id ↔ NearQuery N x query t id ∧ ∀ sub, subset = some sub → id ∈ sub)
    (hfull : AtMost P p.nFullScores) (hfull' : AtMost P (max (p.nFullScores / 4) p.topK))
    (hdec : ∀ i toks, x.docTokens i = .ok toks → ∃ v, N.decode x.centroids x.quant toks = .ok v)
    (r) (hrun : searchOne o N x query p subset = .ok r) : BestK N x query p.topK P r := by
  refine search_exhaustive ho (stored_sound hE hst hx) hprobe ?_ ?_ ?_ hfull hfull' hdec hrun
  · intro id
    rw [hP, hthr]
    refine and_congr_left fun _ => ?_
    constructor
    · rintro ⟨c, cent, hc, htok, q, hq, hge⟩
      exact ⟨c, cent, hc, htok, q, hq, fun t' e => by cases e; exact ⟨t, rfl, hge⟩⟩
    · rintro ⟨c, cent, hc, htok, q, hq, hge⟩
      obtain ⟨t', e, hge⟩ := hge _ rfl
      cases e
      exact ⟨c, cent, hc, htok, q, hq, hge⟩
  · intro t' e; rw [hthr] at e; cases e; exact ⟨t, rfl⟩
  · intro _ _; exact hfin

/-- Threshold 93 keeps only centroid 2 for query token 9: documents 0 (token 8) and 1 (token 5). -/
example : (∀ q ∈ ([9] : List Nat), ∀ cent ∈ toyLoaded.centroids, ∃ a, toyNum.dot q cent = .fin a) ∧
    toyAnswer (searchOne toyOracle toyNum toyLoaded [9] ⟨16, 4, 3, 0, some (.fin 93)⟩ none) =
      some [(0, some 99), (1, some 96)] ∧
    toyAnswer (searchOne toyOracle toyNum toyLoaded [9] ⟨16, 4, 3, 2, some (.fin 93)⟩ none) =
      some [(0, some 99), (1, some 96)] :=
  ⟨fun _ _ _ _ => ⟨_, rfl⟩, by decide +kernel, by decide +kernel⟩

/-! ### C17 -/

/-- C17: probing the centroids in slices of any size selects the same set of cells as scoring them all
at once, when no query token scores two centroids equally. -/
theorem C17_same_cells (o o' : Oracle α) (ho : o.Lawful) (ho' : o'.Lawful) (N : Num E α)
    (cents : List E.Cent) (query : List N.Q) (n slice : Nat) (cells cells')
    (hties : ∀ q ∈ query, NoTies N cents q)
    (hrun : probeBatched o N cents query n slice none = .ok cells)
    (hrun' : probeStandard o' (scoreRows N cents query) cents.length none n none = .ok cells') :
    ∀ c, c ∈ cells ↔ c ∈ cells' := fun c => probe_same ho ho' hties hrun hrun' c

/-- C17: hence the whole search gives the same answer, whatever the slice size. -/
theorem C17_same_answer (hE : E.Lawful) (o o' : Oracle α) (ho : o.Lawful) (ho' : o'.Lawful) (N : Num E α)
    (d : Disk E) (raw) (hst : Stored d raw) (x) (hx : load d = .ok x) (query : List N.Q) (p : Params α)
    (hn : 0 < p.nIvfProbe) (hthr : p.threshold = none) (hties : ∀ q ∈ query, NoTies N x.centroids q) :
    searchOne o N x query p none = searchOne o' N x query { p with centroidBatchSize := 0 } none := by
  have hs := stored_sound hE hst hx
  by_cases hb : 0 < p.centroidBatchSize ∧ p.centroidBatchSize < x.centroids.length
  · exact search_same ho ho' hs hn hthr hties hb.1 hb.2 rfl
  · unfold searchOne
    rw [if_neg hb, if_neg (by simp)]
    exact searchStandard_same ho ho' hs hn hthr hties rfl

/-- Two query tokens, three centroids, no ties; slices of one and of two centroids. -/
example : (∀ q ∈ ([8, 0] : List Nat), NoTies toyNum toyLoaded.centroids q) ∧
    probeBatched toyOracle toyNum toyLoaded.centroids [8, 0] 1 2 none = .ok [2, 0] ∧
    probeBatched toyOracle toyNum toyLoaded.centroids [8, 0] 1 1 none = .ok [2, 0] ∧
    probeStandard toyOracle (scoreRows toyNum toyLoaded.centroids [8, 0]) 3 none 1 none = .ok [2, 0] := by
  refine ⟨?_, by decide +kernel, by decide +kernel, by decide +kernel⟩
  intro q hq i j ci cj hi hj hij
  have hil : i < 3 := (List.getElem?_eq_some_iff.1 hi).1
  have hjl : j < 3 := (List.getElem?_eq_some_iff.1 hj).1
  have hcents : toyLoaded.centroids = [0, 1, 2] := rfl
  rw [hcents] at hi hj
  simp only [List.mem_cons, List.not_mem_nil, or_false] at hq
  have h3 : ∀ k : Nat, k < 3 → k = 0 ∨ k = 1 ∨ k = 2 := by intro k hk; omega
  rcases hq with rfl | rfl <;> rcases h3 i hil with rfl | rfl | rfl <;> rcases h3 j hjl with rfl | rfl | rfl <;>
    first
    | exact absurd rfl hij
    | (cases hi; cases hj; exact Or.inl (by unfold StrictlyBetter; decide +kernel))
    | (cases hi; cases hj; exact Or.inr (by unfold StrictlyBetter; decide +kernel))

/-- With ties the sliced selection may differ: the heap keeps the first of two equal centroids, while the
partial selection may keep either. -/
theorem C17_ties_may_differ :
    ∃ o : Oracle Nat, o.Lawful ∧
      probeBatched o toyNum ([0, 2] : List Nat) [1] 1 1 none = .ok [0] ∧
      probeStandard o (scoreRows toyNum ([0, 2] : List Nat) [1]) 2 none 1 none = .ok [1] :=
  ⟨_, sorting_lawful List.reverse List.reverse_perm, by decide +kernel, by decide +kernel⟩

/-- Two query tokens with scores (2, 3, 0) and (9, 5, 1) against three centroids. -/
@[reducible] def tableNum : Num Toy Nat where
  Q := Nat
  V := Nat
  dot := fun q c => .fin (if q = 0 then [2, 3, 0].getD c 0 else [9, 5, 1].getD c 0)
  zero := .fin 0
  add := fun a _ => a
  decode := fun _ _ _ => .ok []
  exact := fun _ _ => .fin 0

/-- With a threshold the sliced path prunes more: centroid 1 is selected by the first query token only,
and only that token's score is compared with the threshold, although the second token scores it above
(/repo/next-plaid/src/search.rs:175-200, 239-247 against 417-426). -/
theorem C17_threshold_differs :
    probeStandard toyOracle (scoreRows tableNum ([0, 1, 2] : List Nat) [0, 1]) 3 none 1 (some (.fin 4)) = .ok [1, 0] ∧
    probeBatched toyOracle tableNum ([0, 1, 2] : List Nat) [0, 1] 1 2 (some (.fin 4)) = .ok [0] := by
  constructor <;> decide +kernel

/-! ### C18 -/

/-- C18: many queries at once give, in query order, what each gives alone (with its position as query
id), sequentially or in parallel. -/
theorem C18_batch (os : Nat → Oracle α) (N : Num E α) (x : Loaded E) (queries : List (List N.Q))
    (p : Params α) (parallel : Bool) (subset : Option (List Int)) (rs)
    (hrun : searchMany os N x queries p parallel subset = .ok rs) :
    rs.length = queries.length ∧ ∀ (i : Nat) q, queries[i]? = some q → ∃ r,
      searchOne (os i) N x q p subset = .ok r ∧ rs[i]? = some { r with queryId := i } :=
  searchMany_spec hrun

/-- C18: both modes always agree, also when a query fails. -/
theorem C18_modes_agree (os : Nat → Oracle α) (N : Num E α) (x : Loaded E) (queries : List (List N.Q))
    (p : Params α) (subset : Option (List Int)) :
    searchMany os N x queries p true subset = searchMany os N x queries p false subset :=
  searchMany_modes os N x queries p subset

/-- C18: a batch succeeds when every query of it does. -/
theorem C18_batch_answers (os : Nat → Oracle α) (N : Num E α) (x : Loaded E) (queries : List (List N.Q))
    (p : Params α) (parallel : Bool) (subset : Option (List Int))
    (h : ∀ (i : Nat) q, queries[i]? = some q → ∃ r, searchOne (os i) N x q p subset = .ok r) :
    ∃ rs, searchMany os N x queries p parallel subset = .ok rs := searchMany_ok parallel h

/-- Three queries, one of them without tokens. -/
example : (match searchMany (fun _ => toyOracle) toyNum toyLoaded ([[8, 4], [], [5]] : List (List Nat)) toyParams true none with
    | .ok rs => rs.map fun r => (r.queryId, toyAnswer (.ok r))
    | .error _ => []) =
    [(0, some [(3, some 199), (0, some 197)]), (1, some []), (2, some [(1, some 100), (3, some 99)])] := by
  decide +kernel

/-! ### C20 -/

/-- C20: a request with an id that is not an existing document, at any position, is refused. -/
theorem C20_bad_id_refused (N : Num E α) (x : Loaded E) (ids : List Int)
    (h : ∃ id ∈ ids, id < 0 ∨ (x.numDocuments : Int) ≤ id) : reconstruct N x ids = .error .err := by
  unfold reconstruct
  rw [if_pos]
  rw [List.any_eq_true]
  obtain ⟨id, hid, h⟩ := h
  exact ⟨id, hid, by simpa using h⟩

/-- C20: otherwise the answer has one matrix per requested id, in request order, and each is the
decompression of that document's own tokens (no rows for a document without tokens). -/
theorem C20_reconstruct (hE : E.Lawful) (N : Num E α) (d : Disk E) (raw) (hst : Stored d raw) (x)
    (hx : load d = .ok x) (ids : List Int) (hval : ∀ id ∈ ids, 0 ≤ id ∧ id < (x.numDocuments : Int))
    (hdec : ∀ i toks, x.docTokens i = .ok toks → toks ≠ [] → ∃ v, N.decode x.centroids x.quant toks = .ok v) :
    ∃ vs, reconstruct N x ids = .ok vs ∧ vs.length = ids.length ∧
      ∀ (i : Nat) id, ids[i]? = some id → ∃ toks v, x.docTokens id.toNat = .ok toks ∧ vs[i]? = some v ∧
        (toks = [] → v = []) ∧ (toks ≠ [] → N.decode x.centroids x.quant toks = .ok v) :=
  reconstruct_spec (stored_sound hE hst hx) hval hdec

/-- Repeated ids, the empty document, and a refused request. -/
example : reconstruct toyNum toyLoaded [3, 0, 2, 3] = .ok [[9, 4], [7, 8], [], [9, 4]] ∧
    reconstruct toyNum toyLoaded [3, 4, 0] = .error .err ∧
    reconstructSingle toyNum toyLoaded 1 = .ok [5] := ⟨rfl, rfl, rfl⟩

end NextPlaid.Props
