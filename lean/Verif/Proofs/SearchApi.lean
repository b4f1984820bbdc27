import Verif.Spec.SearchApi
import Verif.Proofs.Search5
import Verif.Proofs.Db4
import Verif.Props.Fusion

/-! Lemmas about the search endpoints. -/

namespace NextPlaid.SearchApi

open NextPlaid NextPlaid.Index NextPlaid.Search NextPlaid.Db NextPlaid.Fusion NextPlaid.Spec

theorem bind_ok {A B : Type} {e : Except Refusal A} {f : A → Except Refusal B} {b : B} :
    e.bind f = .ok b ↔ ∃ a, e = .ok a ∧ f a = .ok b := by
  cases e <;> simp [Except.bind]

theorem map_ok {A B : Type} {e : Except Refusal A} {f : A → B} {b : B} :
    e.map f = .ok b ↔ ∃ a, e = .ok a ∧ f a = b := by
  cases e <;> simp [Except.map]

theorem lift_ok {A : Type} {r : Res A} {a : A} : lift r = .ok a ↔ r = .ok a := by
  unfold lift
  split <;> simp

theorem collect_ok {A B : Type} {f : A → Except Refusal B} : ∀ {l : List A} {bs : List B}, collect f l = .ok bs →
    bs.length = l.length ∧ ∀ (i : Nat) (a : A), l[i]? = some a → ∃ b, f a = .ok b ∧ bs[i]? = some b
  | [], bs, h => by
    obtain rfl : [] = bs := by simpa [collect] using h
    simp
  | a :: l, bs, h => by
    rw [collect, bind_ok] at h
    obtain ⟨b, hb, h⟩ := h
    rw [bind_ok] at h
    obtain ⟨bs', hbs, h⟩ := h
    obtain rfl : b :: bs' = bs := by simpa using h
    obtain ⟨h1, h2⟩ := collect_ok hbs
    refine ⟨by simp [h1], ?_⟩
    intro i x hx
    cases i with
    | zero =>
      obtain rfl : a = x := by simpa using hx
      exact ⟨b, hb, rfl⟩
    | succ i => simpa using h2 i x (by simpa using hx)

variable {E : Env} {S : Sql} {K : Type} [Field K] [LinearOrder K] [IsStrictOrderedRing K]

theorem fetchMetadata_length {order : List (OutRow S) → List (OutRow S)} {db : Option (Tables S)} {ids : List Int}
    {m : List (Option (OutRow S))} (h : fetchMetadata order db ids = .ok m) : m.length = ids.length := by
  unfold fetchMetadata at h
  split at h
  · obtain rfl := Except.ok.inj h; simp
  · rw [map_ok] at h
    obtain ⟨rows, _, rfl⟩ := h
    simp

theorem withMetadata_ok {B : Backend E S K} {w : Nat → World E S K} : ∀ {rs : List (Result K)} {i : Nat}
    {l : List (Answer S K)}, withMetadata B w i rs = .ok l → l.length = rs.length ∧ ∀ (j : Nat) (r : Result K),
      rs[j]? = some r → ∃ m, fetchMetadata B.rowOrder (w (i + j)).db r.passageIds = .ok m ∧
        l[j]? = some ⟨r.queryId, r.passageIds, r.scores, m⟩
  | [], i, l, h => by
    obtain rfl : [] = l := by simpa [withMetadata] using h
    simp
  | r :: rs, i, l, h => by
    rw [withMetadata, bind_ok] at h
    obtain ⟨m, hm, h⟩ := h
    rw [bind_ok] at h
    obtain ⟨l', hl, h⟩ := h
    obtain rfl := Except.ok.inj h
    obtain ⟨h1, h2⟩ := withMetadata_ok hl
    refine ⟨by simp [h1], ?_⟩
    intro j x hx
    cases j with
    | zero =>
      obtain rfl : r = x := by simpa using hx
      exact ⟨m, hm, rfl⟩
    | succ j =>
      obtain ⟨m', hm', hl'⟩ := h2 j x (by simpa using hx)
      exact ⟨m', by rw [← hm']; congr 3; omega, by simpa using hl'⟩

theorem hybridFrom_ok {B : Backend E S K} {w : Nat → World E S K} {req : Request S K} {subset : Option (List Int)} :
    ∀ {ts : List (List Char)} {i : Nat} {l : List (Answer S K)}, hybridFrom B w req subset i ts = .ok l →
      l.length = ts.length ∧ ∀ (j : Nat) (t : List Char), ts[j]? = some t →
        ∃ a, hybridOne B w req subset (i + j) t = .ok a ∧ l[j]? = some a
  | [], i, l, h => by
    obtain rfl : [] = l := by simpa [hybridFrom] using h
    simp
  | t :: ts, i, l, h => by
    rw [hybridFrom, bind_ok] at h
    obtain ⟨a, ha, h⟩ := h
    rw [bind_ok] at h
    obtain ⟨l', hl, h⟩ := h
    obtain rfl := Except.ok.inj h
    obtain ⟨h1, h2⟩ := hybridFrom_ok hl
    refine ⟨by simp [h1], ?_⟩
    intro j x hx
    cases j with
    | zero =>
      obtain rfl : t = x := by simpa using hx
      exact ⟨a, ha, rfl⟩
    | succ j =>
      obtain ⟨b, hb, hl'⟩ := h2 j x (by simpa using hx)
      exact ⟨b, by rw [← hb]; congr 1; omega, by simpa using hl'⟩

/-! ### The documents let in -/

theorem joined_listing {t : Tables S} : ∃ all, get (fun l => l) (some t) none none = .ok all ∧ all.Perm (joined t) := by
  refine ⟨_, rfl, ?_⟩
  have hins : ∀ (r : OutRow S) l, (insertBySubset r l).Perm (r :: l) := by
    intro r l
    induction l with
    | nil => exact .refl _
    | cons s l ih =>
      rw [insertBySubset]
      split
      · exact .refl _
      · exact (ih.cons s).trans (.swap r s l)
  induction joined t with
  | nil => exact .refl _
  | cons r l ih => exact (hins r _).trans (ih.cons r)

theorem resolve_limits {w : World E S K} {req : Request S K} {subset : Option (List Int)}
    (h : resolveSubset w req = .ok subset) : Limits w req subset := by
  unfold resolveSubset at h
  cases hf : req.filter with
  | none =>
    rw [hf] at h
    obtain rfl := Except.ok.inj h
    cases hs : req.subset with
    | none => exact ⟨hf, hs⟩
    | some sub =>
      refine ⟨.inr (by simp [hs]), ?_⟩
      intro id
      unfold Allowed
      rw [hf]
      simp only [hs]
      constructor
      · intro h sub' he
        obtain rfl := Option.some.inj he
        exact h
      · intro h; exact h sub rfl
  | some c =>
    rw [hf] at h
    simp only at h
    split at h
    · cases h
    · rename_i hdb
      cases hd : w.db with
      | none => rw [hd] at hdb; simp at hdb
      | some t =>
        rw [hd] at h
        unfold whereCondition at h
        simp only at h
        split at h
        · rename_i ids hids
          obtain rfl := Except.ok.inj h
          split at hids
          · obtain rfl := Except.ok.inj hids
            refine ⟨.inl (by simp [hf]), ?_⟩
            intro id
            unfold Allowed
            rw [hf, hd]
            obtain ⟨all, ha, hp⟩ := joined_listing (t := t)
            simp only [List.mem_map, List.mem_filter]
            constructor
            · rintro ⟨r, ⟨hr, hc⟩, rfl⟩
              exact ⟨all, ha, r, hp.mem_iff.2 hr, rfl, hc⟩
            · rintro ⟨all', ha', r, hr, he, hc⟩
              rw [ha] at ha'
              obtain rfl := Except.ok.inj ha'
              exact ⟨r, ⟨hp.mem_iff.1 hr, hc⟩, he⟩
          · cases hids
        · cases h
        · cases h

theorem resolve_nodup (hS : S.Lawful) {w : World E S K} {req : Request S K} {subset : Option (List Int)} (ho : LetInOnce w req)
    (h : resolveSubset w req = .ok subset) : ∀ ids, subset = some ids → ids.Nodup := by
  rintro ids rfl
  unfold resolveSubset at h
  cases hf : req.filter with
  | none =>
    rw [hf] at h
    exact ho.1 ids (Except.ok.inj h)
  | some c =>
    rw [hf] at h
    cases hd : w.db with
    | none => rw [hd] at h; cases h
    | some t =>
      rw [hd] at h
      obtain ⟨rows, hk⟩ := ho.2 t hd
      obtain ⟨P, hP, _⟩ := kept_rep hS hk
      simp only [Option.isNone_some, Bool.false_eq_true, if_false, whereCondition] at h
      cases hc : c.1 with
      | false => rw [hc] at h; cases h
      | true =>
        rw [hc] at h
        obtain rfl := Option.some.inj (Except.ok.inj h)
        rw [joined_rep hP]
        refine List.Nodup.sublist (List.filter_sublist.map _) ?_
        rw [outFrom_subsets t t.thinCols]
        exact (thinFrom_subset_pairwise t.thinCols P 0).2

/-! ### Semantic requests -/

theorem readQuery_ok {s : Rerank.Sent} {q : Rerank.Arr} : readQuery s = .ok q ↔ Rerank.lenientArray s = some q := by
  unfold readQuery
  split <;> simp_all

theorem readIndex_ok {w : World E S K} {x : Loaded E} : readIndex w = .ok x ↔ w.slot = some x := by
  unfold readIndex
  split <;> simp_all

theorem checkDim_ok {B : Backend E S K} {x : Loaded E} {a : Rerank.Arr} {u : Unit} :
    checkDim B x a = .ok u ↔ a.ncols = B.dim x := by
  unfold checkDim
  split <;> simp_all

theorem searchOne_queryId {o : Oracle K} {N : Num E K} {x : Loaded E} {query : List N.Q} {p : Params K} {subset : Option (List Int)}
    {r : Result K} (h : searchOne o N x query p subset = .ok r) : r.queryId = 0 := by
  obtain ⟨_, _, _, _, ⟨_, rfl⟩ | ⟨approx, _, hr⟩⟩ := searchOne_inv h
  · rfl
  · unfold rank at hr
    simp only at hr
    split at hr
    · obtain rfl := Except.ok.inj hr; rfl
    · obtain ⟨scored, _, hr⟩ := Search.bind_ok hr
      obtain rfl := Except.ok.inj hr
      rfl

theorem searchAll_ok {B : Backend E S K} {x : Loaded E} {p : Params K} {subset : Option (List Int)} {qs : List Rerank.Arr}
    {rs : List (Result K)} (h : searchAll B x p subset qs = .ok rs) : rs.length = qs.length ∧
      ∀ (i : Nat) (q : Rerank.Arr), qs[i]? = some q → ∃ r r', searchOne (B.oracle i) B.N x (B.tokens q) p subset = .ok r ∧
        rs[i]? = some r' ∧ r'.passageIds = r.passageIds ∧ r'.scores = r.scores ∧ r'.queryId = i := by
  have many : ∀ qs : List Rerank.Arr, lift (searchMany B.oracle B.N x (qs.map B.tokens) p true subset) = .ok rs →
      rs.length = qs.length ∧ ∀ (i : Nat) (q : Rerank.Arr), qs[i]? = some q → ∃ r r',
        searchOne (B.oracle i) B.N x (B.tokens q) p subset = .ok r ∧ rs[i]? = some r' ∧ r'.passageIds = r.passageIds ∧
        r'.scores = r.scores ∧ r'.queryId = i := by
    intro qs h
    obtain ⟨h1, h2⟩ := searchMany_spec (lift_ok.1 h)
    refine ⟨by simpa using h1, ?_⟩
    intro i q hq
    obtain ⟨r, hr, hrs⟩ := h2 i (B.tokens q) (by simp [hq])
    exact ⟨r, _, hr, hrs, rfl, rfl, rfl⟩
  match qs, h with
  | [], h => exact many [] h
  | a :: b :: qs, h => exact many (a :: b :: qs) h
  | [q], h =>
    unfold searchAll at h
    rw [map_ok] at h
    obtain ⟨r, hr, rfl⟩ := h
    rw [lift_ok] at hr
    refine ⟨rfl, ?_⟩
    intro i q' hq
    cases i with
    | zero =>
      obtain rfl : q = q' := by simpa using hq
      exact ⟨r, r, hr, rfl, rfl, rfl, searchOne_queryId hr⟩
    | succ i => simp at hq

theorem semanticOnly_ok {B : Backend E S K} {w : Nat → World E S K} {req : Request S K} {subset : Option (List Int)}
    {as : List (Answer S K)} (h : semanticOnly B w req subset = .ok as) : as.length = (req.queries.getD []).length ∧
      ∀ (i : Nat) (s : Rerank.Sent), (req.queries.getD [])[i]? = some s → ∃ (a : Answer S K) (r : Result K), as[i]? = some a ∧ a.queryId = i ∧
        IndexAnswers B (B.oracle i) (w 1) (searchParams req (wanted B req)) subset s r ∧ a.ids = r.passageIds ∧ a.scores = r.scores ∧
        fetchMetadata B.rowOrder (w (2 + i)).db a.ids = .ok a.metadata := by
  unfold semanticOnly at h
  obtain ⟨qs, hq, h⟩ := bind_ok.1 h
  obtain ⟨x, hx, h⟩ := bind_ok.1 h
  obtain ⟨us, hd, h⟩ := bind_ok.1 h
  obtain ⟨rs, hr, h⟩ := bind_ok.1 h
  obtain ⟨q1, q2⟩ := collect_ok hq
  obtain ⟨_, d2⟩ := collect_ok hd
  obtain ⟨r1, r2⟩ := searchAll_ok hr
  obtain ⟨m1, m2⟩ := withMetadata_ok h
  refine ⟨by rw [m1, r1, q1], ?_⟩
  intro i s hs
  obtain ⟨q, hrq, hqi⟩ := q2 i s hs
  obtain ⟨_, hdim, _⟩ := d2 i q hqi
  obtain ⟨r, r', hr, hri, hids, hscores, hid⟩ := r2 i q hqi
  obtain ⟨m, hm, hai⟩ := m2 i r' hri
  exact ⟨_, r, hai, hid, ⟨x, q, readIndex_ok.1 hx, readQuery_ok.1 hrq, checkDim_ok.1 hdim, hr⟩, hids, hscores, hm⟩

/-! ### Keywords -/

theorem keywordSearch_ok {w : World E S K} {text : List Char} {k : Nat} {subset : Option (List Int)} {l : List (Int × K)}
    (hn : ∀ ids, subset = some ids → ids.Nodup) (h : keywordSearch w text k subset = .ok l) : KeywordsAnswer w k subset text l := by
  unfold keywordSearch at h
  constructor
  · rintro rfl
    cases subset <;> simpa [eq_comm] using h
  · intro ht found hf
    cases subset with
    | none =>
      simp only [if_neg ht] at h
      cases ha : w.ask text k with
      | error e => rw [ha] at h; cases h
      | ok f =>
        rw [ha] at h
        obtain rfl := Except.ok.inj h
        exact (hf.2 k f ha).1
    | some ids =>
      have hn := hn ids rfl
      simp only [ht, or_false] at h
      split at h
      · rename_i he
        obtain rfl := Except.ok.inj h
        subst he
        simp only [List.not_mem_nil, decide_false, List.filter_false]
        exact ⟨[], by simp⟩
      · cases ha : w.ask text k with
        | error e => rw [ha] at h; cases h
        | ok f =>
          rw [ha] at h
          obtain rfl := Except.ok.inj h
          have := Props.C30_chunked found hf.1 k (fun ids => f (some ids)) (hf.2 k f ha).2 id (fun _ _ h => h) ids hn
          simpa using this

theorem keywordSearch_only {w : World E S K} {text : List Char} {k : Nat} {subset : Option (List Int)} {l : List (Int × K)}
    (hw : KeywordsWork w) (h : keywordSearch w text k subset = .ok l) : ∀ ids, subset = some ids → ∀ p ∈ l, p.1 ∈ ids := by
  rintro ids rfl p hp
  unfold keywordSearch at h
  simp only at h
  split at h
  · obtain rfl := Except.ok.inj h; simp at hp
  · cases ha : w.ask text k with
    | error e => rw [ha] at h; cases h
    | ok f =>
      rw [ha] at h
      obtain rfl := Except.ok.inj h
      obtain ⟨found, hf⟩ := hw text
      unfold searchFiltered at hp
      split at hp
      · simp at hp
      · have hp := List.mem_of_mem_take hp
        rw [(sortPairs_perm _).mem_iff] at hp
        simp only [List.mem_map, List.mem_flatMap] at hp
        obtain ⟨q, ⟨i, _, hq⟩, rfl⟩ := hp
        obtain ⟨rest, hperm, _⟩ := (hf.2 k f ha).2 (Index.chunkSlice ids ftsParamLimit i)
        have hm := hperm.mem_iff.1 (List.mem_append_left _ hq)
        simp only [List.mem_filter, decide_eq_true_eq] at hm
        exact List.mem_of_mem_drop (List.mem_of_mem_take hm.2)

theorem semanticPart_ok {B : Backend E S K} {w : World E S K} {req : Request S K} {k : Nat} {subset : Option (List Int)} {i : Nat}
    {sem : Option (Result K)} (h : semanticPart B w req k subset i = .ok sem) :
    (hasQueries req = false ∧ sem = none) ∨ (hasQueries req = true ∧ ∃ s r, (req.queries.getD [])[i]? = some s ∧ sem = some r ∧
      IndexAnswers B (B.oracle 0) w (searchParams req k) subset s r) := by
  unfold semanticPart at h
  cases hq : hasQueries req with
  | false =>
    rw [hq] at h
    exact .inl ⟨rfl, (Except.ok.inj h).symm⟩
  | true =>
    rw [hq, if_pos rfl] at h
    cases hs : (req.queries.getD [])[i]? with
    | none => rw [hs] at h; cases h
    | some s =>
      rw [hs] at h
      obtain ⟨q, hrq, h⟩ := bind_ok.1 h
      obtain ⟨x, hx, h⟩ := bind_ok.1 h
      obtain ⟨_, hd, h⟩ := bind_ok.1 h
      obtain ⟨r, hr, rfl⟩ := map_ok.1 h
      exact .inr ⟨rfl, s, r, rfl, rfl, x, q, readIndex_ok.1 hx, readQuery_ok.1 hrq, checkDim_ok.1 hd, lift_ok.1 hr⟩

theorem keywordPart_ok {w : World E S K} {text : List Char} {k : Nat} {subset : Option (List Int)}
    {kw : Option (List (Int × K))} (h : keywordPart w text k subset = .ok kw) :
    (∃ l, kw = some l ∧ keywordSearch w text k subset = .ok l) ∨ (kw = none ∧ text ≠ [] ∧ w.ask text k = .error .err) := by
  unfold keywordPart at h
  split at h
  · rename_i l hl
    exact .inl ⟨l, (Except.ok.inj h).symm, hl⟩
  · rename_i hl
    refine .inr ⟨(Except.ok.inj h).symm, ?_⟩
    unfold keywordSearch at hl
    cases subset with
    | none =>
      simp only at hl
      split at hl
      · cases hl
      · rename_i ht
        refine ⟨ht, ?_⟩
        cases ha : w.ask text k with
        | error e => rw [ha] at hl; rw [Except.error.inj hl]
        | ok f => rw [ha] at hl; cases hl
    | some ids =>
      simp only at hl
      split at hl
      · cases hl
      · rename_i ht
        refine ⟨fun h => ht (.inr h), ?_⟩
        cases ha : w.ask text k with
        | error e => rw [ha] at hl; rw [Except.error.inj hl]
        | ok f => rw [ha] at hl; cases hl
  · cases h

end NextPlaid.SearchApi
