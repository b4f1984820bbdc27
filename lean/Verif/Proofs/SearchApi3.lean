import Verif.Proofs.SearchApi2

/-! What an answered request of the search endpoints contains. -/

namespace NextPlaid.SearchApi

open NextPlaid NextPlaid.Index NextPlaid.Search NextPlaid.Db NextPlaid.Fusion NextPlaid.Spec

variable {E : Env} {S : Sql} {K : Type} [Field K] [LinearOrder K] [IsStrictOrderedRing K]

theorem search_inv {B : Backend E S K} {w : Nat → World E S K} {req : Request S K} {as : List (Answer S K)}
    (h : search B w req = .ok as) : ∃ subset, resolveSubset (w 0) req = .ok subset ∧ checkRequest req = .ok () ∧
      ((texts req = [] ∧ embeddings req ≠ [] ∧ semanticOnly B w req subset = .ok as) ∨
       (texts req ≠ [] ∧ (embeddings req ≠ [] → (embeddings req).length = 1 ∧ (texts req).length = 1) ∧
         hybridFrom B w req subset 0 (texts req) = .ok as)) := by
  unfold search at h
  obtain ⟨u, hu, h⟩ := bind_ok.1 h
  obtain ⟨subset, hs, h⟩ := bind_ok.1 h
  obtain ⟨h1, _, _, h4⟩ := checkRequest_ok.1 hu
  refine ⟨subset, hs, hu, ?_⟩
  split at h
  · rename_i ht
    have ht := hasText_iff.1 ht
    unfold textual at h
    split at h
    · cases h
    · rename_i hl
      refine .inr ⟨ht, ?_, h⟩
      intro he
      have h5 := h4 he ht
      refine ⟨h5, ?_⟩
      by_contra hc
      refine hl ⟨hasQueries_iff.2 he, ?_⟩
      intro h6
      exact hc (h6.symm.trans h5)
  · rename_i ht
    have ht : texts req = [] := by
      by_contra hc
      exact ht (hasText_iff.2 hc)
    exact .inl ⟨ht, h1.resolve_right (fun h => h ht), h⟩

/-- One answer of a request with texts. -/
theorem hybridOne_ok {B : Backend E S K} {w : Nat → World E S K} {req : Request S K} {subset : Option (List Int)} {i : Nat}
    {t : List Char} {a : Answer S K} (h : hybridOne B w req subset i t = .ok a) :
    ∃ (fetch : Nat) (sem : Option (Result K)) (kw : Option (List (Int × K))),
      fetch = (if embeddings req = [] then wanted B req else wanted B req * 3) ∧
      semanticPart B (w (1 + 3 * i)) req fetch subset i = .ok sem ∧ keywordPart (w (2 + 3 * i)) t fetch subset = .ok kw ∧
      a.queryId = i ∧ (a.ids, a.scores) = fuse B req (wanted B req) sem kw ∧
      fetchMetadata B.rowOrder (w (3 + 3 * i)).db a.ids = .ok a.metadata := by
  unfold hybridOne at h
  simp only at h
  obtain ⟨sem, h1, h⟩ := bind_ok.1 h
  obtain ⟨kw, h2, h⟩ := bind_ok.1 h
  obtain ⟨m, h3, rfl⟩ := map_ok.1 h
  refine ⟨_, sem, kw, ?_, h1, h2, rfl, rfl, h3⟩
  have hq := hasQueries_iff (req := req)
  by_cases he : embeddings req = []
  · rw [if_pos he, if_neg (fun h => hq.1 h he)]
    rfl
  · rw [if_neg he, if_pos (hq.2 he)]
    rfl

theorem topOf_length {k : Nat} {all out : List (Int × K)} (h : TopOf k all out) : out.length ≤ k := by
  obtain ⟨_, _, _, _, h⟩ := h
  omega

theorem topOf_mem {k : Nat} {all out : List (Int × K)} (h : TopOf k all out) : ∀ p ∈ out, p ∈ all := by
  obtain ⟨_, h, _⟩ := h
  intro p hp
  exact h.mem_iff.1 (List.mem_append_left _ hp)

theorem topOf_nodup {k : Nat} {all out : List (Int × K)} (h : TopOf k all out) (hn : (all.map Prod.fst).Nodup) :
    (out.map Prod.fst).Nodup := by
  obtain ⟨rest, h, _⟩ := h
  have := (h.map Prod.fst).nodup_iff.2 hn
  rw [List.map_append, List.nodup_append] at this
  exact this.1

theorem topOf_sorted {k : Nat} {all out : List (Int × K)} (h : TopOf k all out) : out.Pairwise fun a b => b.2 ≤ a.2 := by
  obtain ⟨_, _, h, _⟩ := h
  exact h

/-- The relative fusion in terms of scored lists. -/
theorem fuse_relative_ids {B : Backend E S K} (hm : ∀ l, (B.mapOrder l).Perm l) (r : Result K) (l : List (Int × K)) (alpha : K) (k : Nat)
    (hlen : r.passageIds.length = r.scores.length) : ∃ all, TopOf k all (fuseRelative B.rounding B.mapOrder r.passageIds (r.scores.map B.finite)
      (l.map Prod.fst) (l.map Prod.snd) alpha k) ∧ (all.map Prod.fst).Nodup ∧
      ∀ id, id ∈ all.map Prod.fst ↔ id ∈ r.passageIds ∨ id ∈ l.map Prod.fst := by
  have h1 : (r.passageIds.zip (r.scores.map B.finite)).map Prod.fst = r.passageIds := List.map_fst_zip (by simp [hlen])
  have h2 : (r.passageIds.zip (r.scores.map B.finite)).map Prod.snd = r.scores.map B.finite := List.map_snd_zip (by simp [hlen])
  have := Props.C29_ids B.rounding B.mapOrder hm (r.passageIds.zip (r.scores.map B.finite)) l alpha k
  rw [h1, h2] at this
  exact this

/-- What the lists of an answer with texts contain, whatever the parts are. -/
theorem fuse_lists {B : Backend E S K} (hm : ∀ l, (B.mapOrder l).Perm l) {req : Request S K} {k : Nat} {sem : Option (Result K)}
    {kw : Option (List (Int × K))} (hsem : ∀ r, sem = some r → r.passageIds.length = r.scores.length) {ids : List Int}
    {scores : List (Score K)} (h : (ids, scores) = fuse B req k sem kw) :
    ids.length ≤ k ∧ scores.length = ids.length ∧
    (∀ id ∈ ids, (∃ r, sem = some r ∧ id ∈ r.passageIds) ∨ ∃ l, kw = some l ∧ id ∈ l.map Prod.fst) ∧
    ((∀ r, sem = some r → r.passageIds.Nodup) → (∀ l, kw = some l → (l.map Prod.fst).Nodup) → ids.Nodup) ∧
    ((∀ r, sem = some r → ∀ (i j : Nat) s t, i < j → r.scores[i]? = some s → r.scores[j]? = some t → ¬ StrictlyBetter t s) →
      (∀ l, kw = some l → l.Pairwise fun a b => b.2 ≤ a.2) →
      ∀ (i j : Nat) s t, i < j → scores[i]? = some s → scores[j]? = some t → ¬ StrictlyBetter t s) := by
  have sorted : ∀ (l : List (Int × K)), l.Pairwise (fun a b => b.2 ≤ a.2) → ∀ (i j : Nat) s t, i < j →
      (l.map fun p => Score.fin p.2)[i]? = some s → (l.map fun p => Score.fin p.2)[j]? = some t → ¬ StrictlyBetter t s := by
    intro l hl i j s t hij hi hj
    rw [List.getElem?_map, Option.map_eq_some_iff] at hi hj
    obtain ⟨p, hp, rfl⟩ := hi
    obtain ⟨q, hq, rfl⟩ := hj
    obtain ⟨hi', rfl⟩ := List.getElem?_eq_some_iff.1 hp
    obtain ⟨hj', rfl⟩ := List.getElem?_eq_some_iff.1 hq
    have := List.pairwise_iff_getElem.1 hl i j hi' hj' hij
    intro hb
    have hle : l[j].2 ≤ l[i].2 := this
    have hb' : cmpLin l[j].2 l[i].2 = .gt := hb
    unfold cmpLin at hb'
    split at hb'
    · cases hb'
    · split at hb'
      · rename_i hlt
        exact absurd hlt (not_lt.2 hle)
      · cases hb'
  have fused : ∀ (r : Result K) (l out all : List (Int × K)), sem = some r → kw = some l → TopOf k all out → (all.map Prod.fst).Nodup →
      (∀ id, id ∈ all.map Prod.fst ↔ id ∈ r.passageIds ∨ id ∈ l.map Prod.fst) → ids = out.map Prod.fst →
      scores = out.map (fun p => Score.fin p.2) → ids.length ≤ k ∧ scores.length = ids.length ∧
    (∀ id ∈ ids, (∃ r, sem = some r ∧ id ∈ r.passageIds) ∨ ∃ l, kw = some l ∧ id ∈ l.map Prod.fst) ∧
    ((∀ r, sem = some r → r.passageIds.Nodup) → (∀ l, kw = some l → (l.map Prod.fst).Nodup) → ids.Nodup) ∧
    ((∀ r, sem = some r → ∀ (i j : Nat) s t, i < j → r.scores[i]? = some s → r.scores[j]? = some t → ¬ StrictlyBetter t s) →
      (∀ l, kw = some l → l.Pairwise fun a b => b.2 ≤ a.2) →
      ∀ (i j : Nat) s t, i < j → scores[i]? = some s → scores[j]? = some t → ¬ StrictlyBetter t s) := by
    rintro r l out all hr hl htop hnd hmem rfl rfl
    refine ⟨by rw [List.length_map]; exact topOf_length htop, by simp, ?_, fun _ _ => topOf_nodup htop hnd, fun _ _ => sorted _ (topOf_sorted htop)⟩
    intro id hid
    obtain ⟨p, hp, rfl⟩ := List.mem_map.1 hid
    rcases (hmem p.1).1 (List.mem_map_of_mem (topOf_mem htop p hp)) with h | h
    · exact .inl ⟨r, hr, h⟩
    · exact .inr ⟨l, hl, h⟩
  cases sem with
  | none =>
    cases kw with
    | none =>
      obtain ⟨rfl, rfl⟩ := Prod.mk.inj h
      simp
    | some l =>
      obtain ⟨rfl, rfl⟩ := Prod.mk.inj h
      refine ⟨by simp, by simp, ?_, ?_, ?_⟩
      · intro id hid
        rw [List.map_take] at hid
        exact .inr ⟨l, rfl, List.mem_of_mem_take hid⟩
      · intro _ hn
        rw [List.map_take]
        exact (hn l rfl).take
      · intro _ hp
        exact sorted _ ((hp l rfl).sublist (List.take_sublist _ _))
  | some r =>
    cases kw with
    | none =>
      have hlen := hsem r rfl
      have h1 : ((r.passageIds.zip r.scores).take k).map Prod.fst = r.passageIds.take k := by
        rw [List.map_take, List.map_fst_zip (by omega)]
      have h2 : ((r.passageIds.zip r.scores).take k).map Prod.snd = r.scores.take k := by
        rw [List.map_take, List.map_snd_zip (by omega)]
      simp only [fuse, h1, h2] at h
      obtain ⟨rfl, rfl⟩ := Prod.mk.inj h
      refine ⟨by simp, by simp [hlen], ?_, ?_, ?_⟩
      · intro id hid
        exact .inl ⟨r, rfl, List.mem_of_mem_take hid⟩
      · intro hn _
        exact (hn r rfl).take
      · intro hp _ i j s t hij hi hj
        rw [List.getElem?_take] at hi hj
        split at hi
        · split at hj
          · exact hp r rfl i j s t hij hi hj
          · cases hj
        · cases hi
    | some l =>
      simp only [fuse] at h
      obtain ⟨hi, hs⟩ := Prod.mk.inj h
      by_cases hf : req.fusion.getD relativeName = rrfName
      · rw [if_pos hf] at hi hs
        obtain ⟨all, a1, a2, a3⟩ := Props.C28_ids B.rounding B.mapOrder hm r.passageIds (l.map Prod.fst) (req.alpha.getD (3 / 4)) k
        exact fused r l _ all rfl rfl a1 a2 a3 hi hs
      · rw [if_neg hf] at hi hs
        obtain ⟨all, a1, a2, a3⟩ := fuse_relative_ids hm r l (req.alpha.getD (3 / 4)) k (hsem r rfl)
        exact fused r l _ all rfl rfl a1 a2 a3 hi hs

end NextPlaid.SearchApi
