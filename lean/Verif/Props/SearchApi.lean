import Verif.Proofs.SearchApi3
import Verif.Props.Search
import Verif.Props.Db

/-! C65: a search request is answered with one result per query, restricted as asked, each document with its own metadata. -/

namespace NextPlaid.Props

open NextPlaid NextPlaid.Index NextPlaid.Search NextPlaid.Db NextPlaid.Fusion NextPlaid.SearchApi NextPlaid.Spec

section

variable {E : Env} {S : Sql} {K : Type} [Field K] [LinearOrder K] [IsStrictOrderedRing K]

/-- C65: a refused request is refused for the reason the answer names: whatever the other requests do to the index, the metadata and the
keyword index meanwhile, and never with an internal error. -/
theorem C65_reason (B : Backend E S K) (w : Nat → World E S K) (req : Request S K) (r : Refusal)
    (h : SearchApi.search B w req = .error r) : Reason B w req r := search_error h

/-- C65: on indexes made by the index operations, with at least one cell probed, exactly the requests that fit are answered. -/
theorem C65_answered (hE : E.Lawful) (B : Backend E S K) (ho : ∀ i, (B.oracle i).Lawful) (w : Nat → World E S K) (req : Request S K)
    (hx : ∀ x, (w 1).slot = some x → ∃ d raw, Stored d raw ∧ load d = .ok x ∧
      ∀ i toks, x.docTokens i = .ok toks → B.N.decode x.centroids x.quant toks ≠ .error .panic)
    (hp : req.nIvfProbe ≠ some 0) (hk : ∀ i text k, (w i).ask text k ≠ .error .panic) :
    (∃ as, SearchApi.search B w req = .ok as) ↔ Answerable B w req := by
  constructor
  · rintro ⟨as, h⟩
    obtain ⟨subset, hs, hc, h⟩ := search_inv h
    obtain ⟨c1, c2, c3, c4⟩ := checkRequest_ok.1 hc
    refine ⟨c1, c2, c3, ?_, ?_, ?_⟩
    · intro he ht
      rcases h with ⟨h, _⟩ | ⟨_, h, _⟩
      · exact absurd h ht
      · exact h he
    · intro c hf
      unfold resolveSubset at hs
      rw [hf] at hs
      cases hd : (w 0).db with
      | none => rw [hd] at hs; cases hs
      | some t =>
        rw [hd] at hs
        simp only [Option.isNone_some, Bool.false_eq_true, if_false, whereCondition] at hs
        cases hv : c.1 with
        | true => simp
        | false => rw [hv] at hs; cases hs
    · intro he
      rcases h with ⟨_, _, h⟩ | ⟨ht, h1, h⟩
      · obtain ⟨_, h2⟩ := semanticOnly_ok h
        have h0 : (embeddings req)[0]? = some ((embeddings req)[0]'(List.length_pos_iff.2 he)) :=
          List.getElem?_eq_getElem (List.length_pos_iff.2 he)
        obtain ⟨_, _, _, _, ⟨x, _, hx, _⟩, _⟩ := h2 0 _ h0
        refine ⟨x, hx, ?_⟩
        intro s hs
        obtain ⟨i, hi, rfl⟩ := List.getElem_of_mem hs
        obtain ⟨_, _, _, _, ⟨x', q, hx', hq, hd, _⟩, _⟩ := h2 i _ (List.getElem?_eq_getElem hi)
        rw [hx] at hx'
        obtain rfl := Option.some.inj hx'
        exact ⟨q, hq, hd⟩
      · obtain ⟨l1, l2⟩ := h1 he
        obtain ⟨_, h2⟩ := hybridFrom_ok h
        obtain ⟨a, ha, _⟩ := h2 0 _ (List.getElem?_eq_getElem (by omega))
        obtain ⟨_, sem, _, _, hsem, _⟩ := hybridOne_ok ha
        rcases semanticPart_ok hsem with ⟨hq, _⟩ | ⟨_, s, r, hs, _, x, q, hx, hq, hd, _⟩
        · rw [hasQueries_iff.2 he] at hq
          cases hq
        · refine ⟨x, hx, ?_⟩
          intro s' hs'
          obtain ⟨i, hi, rfl⟩ := List.getElem_of_mem hs'
          obtain rfl : i = 0 := by omega
          have : (embeddings req)[0]? = some s := hs
          rw [List.getElem?_eq_getElem hi] at this
          obtain rfl := Option.some.inj this
          exact ⟨q, hq, hd⟩
  · intro hf
    cases h : SearchApi.search B w req with
    | ok as => exact ⟨as, rfl⟩
    | error r =>
      exfalso
      have hr := search_error h
      cases r with
      | internal => exact hr
      | indexNotFound =>
        obtain ⟨he, hn⟩ := hr
        obtain ⟨x, hx, _⟩ := hf.index he
        rw [hn] at hx
        cases hx
      | metadataNotFound =>
        obtain ⟨c, hc⟩ := Option.ne_none_iff_exists'.1 hr.1
        exact (hf.filter c hc).1 hr.2
      | dimensionMismatch =>
        obtain ⟨x, hx, s, hs, q, hq, hd⟩ := hr
        obtain ⟨x', hx', h⟩ := hf.index (List.ne_nil_of_mem hs)
        obtain ⟨q', hq', hd'⟩ := h s hs
        rw [hx] at hx'
        obtain rfl := Option.some.inj hx'
        rw [hq] at hq'
        obtain rfl := Option.some.inj hq'
        exact hd hd'
      | badRequest =>
        rcases hr with ⟨h1, h2⟩ | ⟨a, h1, h2⟩ | ⟨f, h1, h2, h3⟩ | ⟨h1, h2, h3⟩ | ⟨c, h1, h2⟩ | ⟨s, h1, h2⟩
        · exact hf.asks.elim (fun h => h h1) (fun h => h h2)
        · exact h2 (hf.alpha a h1)
        · exact (hf.fusion f h1).elim h2 h3
        · exact h3 (hf.one h1 h2)
        · rw [(hf.filter c h1).2] at h2
          cases h2
        · obtain ⟨x, _, h⟩ := hf.index (List.ne_nil_of_mem h1)
          obtain ⟨q, hq, _⟩ := h s h1
          rw [h2] at hq
          cases hq
      | panic =>
        rcases hr with ⟨i, x, q, p, subset, h1, h2, h3⟩ | ⟨i, t, k, h⟩
        · obtain ⟨d, raw, hst, hl, hdec⟩ := hx x h1
          obtain ⟨r, hr, _⟩ := C13_search_answers hE (B.oracle i) (ho i) B.N d raw hst x hl (B.tokens q) p subset (by
            rw [h2]
            cases hv : req.nIvfProbe with
            | none => decide
            | some n =>
              rw [hv] at hp
              show 0 < n
              rcases Nat.eq_zero_or_pos n with rfl | hn
              · exact absurd rfl hp
              · exact hn) hdec
          rw [hr] at h3
          cases h3
        · exact hk i t k h

theorem letIn_of_search {B : Backend E S K} {w : Nat → World E S K} {req : Request S K} {p : Params K} {o : Oracle K}
    {subset : Option (List Int)} {s : Rerank.Sent} {r : Result K} {v : World E S K} (h : IndexAnswers B o v p subset s r) :
    r.passageIds.length ≤ p.topK ∧ r.passageIds.length = r.scores.length ∧ r.passageIds.Nodup ∧
    (∀ (i j : Nat) s t, i < j → r.scores[i]? = some s → r.scores[j]? = some t → ¬ StrictlyBetter t s) ∧
    ∀ sub, subset = some sub → ∀ id ∈ r.passageIds, id ∈ sub := by
  obtain ⟨x, q, _, _, _, hr⟩ := h
  obtain ⟨h1, h2⟩ := searchOne_wellFormed hr
  exact ⟨h1.atMost, h1.sameLength, h1.distinct, h1.sorted, h2⟩

/-- C65: one result for each query, in the order of the request; at most the wanted number of documents, each with a score and a place for its
metadata. -/
theorem C65_shape (B : Backend E S K) (hm : ∀ l, (B.mapOrder l).Perm l) (w : Nat → World E S K) (req : Request S K)
    (as : List (Answer S K)) (h : SearchApi.search B w req = .ok as) :
    as.length = (if texts req = [] then (embeddings req).length else (texts req).length) ∧
    ∀ (i : Nat) (a : Answer S K), as[i]? = some a → a.queryId = i ∧ a.ids.length ≤ wanted B req ∧ a.scores.length = a.ids.length ∧
      a.metadata.length = a.ids.length := by
  obtain ⟨subset, hs, hc, ⟨ht, he, h⟩ | ⟨ht, h1, h⟩⟩ := search_inv h
  · obtain ⟨h1, h2⟩ := semanticOnly_ok h
    refine ⟨by rw [if_pos ht]; exact h1, ?_⟩
    intro i a hi
    have hlt : i < (req.queries.getD []).length := h1 ▸ (List.getElem?_eq_some_iff.1 hi).1
    obtain ⟨a', r, ha, hid, hr, hids, hsc, hmeta⟩ := h2 i _ (List.getElem?_eq_getElem hlt)
    rw [hi] at ha
    obtain rfl := Option.some.inj ha
    obtain ⟨r1, r2, _⟩ := letIn_of_search (w := w) (req := req) hr
    exact ⟨hid, by rw [hids]; exact r1, by rw [hids, hsc, r2], fetchMetadata_length hmeta⟩
  · obtain ⟨h1, h2⟩ := hybridFrom_ok h
    refine ⟨by rw [if_neg ht]; exact h1, ?_⟩
    intro i a hi
    have hlt : i < (texts req).length := h1 ▸ (List.getElem?_eq_some_iff.1 hi).1
    obtain ⟨a', ha', ha⟩ := h2 i _ (List.getElem?_eq_getElem hlt)
    rw [hi] at ha
    obtain rfl := Option.some.inj ha
    obtain ⟨fetch, sem, kw, _, hsem, _, hid, hf, hmeta⟩ := hybridOne_ok ha'
    obtain ⟨f1, f2, _⟩ := fuse_lists hm (by
      intro r hr
      rcases semanticPart_ok hsem with ⟨_, hn⟩ | ⟨_, s, r', _, hn, hr'⟩
      · rw [hn] at hr; cases hr
      · rw [hn] at hr
        obtain rfl := Option.some.inj hr
        exact (letIn_of_search (w := w) (req := req) hr').2.1) hf
    exact ⟨by simpa using hid, f1, f2, fetchMetadata_length hmeta⟩

/-- C65: only documents the request lets in are returned, as the filter saw them. -/
theorem C65_allowed (B : Backend E S K) (hm : ∀ l, (B.mapOrder l).Perm l) (w : Nat → World E S K) (req : Request S K)
    (hk : ∀ i, KeywordsWork (w i)) (as : List (Answer S K)) (h : SearchApi.search B w req = .ok as) :
    ∀ a ∈ as, ∀ id ∈ a.ids, Allowed (w 0) req id := by
  obtain ⟨subset, hs, hc, h⟩ := search_inv h
  have hlim := resolve_limits hs
  have hlet : ∀ id, (∀ sub, subset = some sub → id ∈ sub) → Allowed (w 0) req id := by
    intro id hid
    cases subset with
    | none =>
      unfold Allowed
      rw [hlim.1]
      intro sub hsub
      rw [hlim.2] at hsub
      cases hsub
    | some sub => exact (hlim.2 id).1 (hid sub rfl)
  intro a ha id hid
  obtain ⟨i, hi, rfl⟩ := List.getElem_of_mem ha
  apply hlet
  intro sub hsub
  rcases h with ⟨ht, he, h⟩ | ⟨ht, h1, h⟩
  · obtain ⟨h1, h2⟩ := semanticOnly_ok h
    obtain ⟨a', r, ha, _, hr, hids, _, _⟩ := h2 i _ (List.getElem?_eq_getElem (h1 ▸ hi))
    rw [List.getElem?_eq_getElem hi] at ha
    obtain rfl := Option.some.inj ha
    exact (letIn_of_search (w := w) (req := req) hr).2.2.2.2 sub hsub id (hids ▸ hid)
  · obtain ⟨h1, h2⟩ := hybridFrom_ok h
    obtain ⟨a', ha', ha⟩ := h2 i _ (List.getElem?_eq_getElem (h1 ▸ hi))
    rw [List.getElem?_eq_getElem hi] at ha
    obtain rfl := Option.some.inj ha
    obtain ⟨fetch, sem, kw, _, hsem, hkw, _, hf, _⟩ := hybridOne_ok ha'
    have hsem' := semanticPart_ok hsem
    obtain ⟨_, _, f3, _⟩ := fuse_lists hm (by
      intro r hr
      rcases hsem' with ⟨_, hn⟩ | ⟨_, s, r', _, hn, hr'⟩
      · rw [hn] at hr; cases hr
      · rw [hn] at hr
        obtain rfl := Option.some.inj hr
        exact (letIn_of_search (w := w) (req := req) hr').2.1) hf
    rcases f3 id hid with ⟨r, hr, hmem⟩ | ⟨l, hl, hmem⟩
    · rcases hsem' with ⟨_, hn⟩ | ⟨_, s, r', _, hn, hr'⟩
      · rw [hn] at hr; cases hr
      · rw [hn] at hr
        obtain rfl := Option.some.inj hr
        exact (letIn_of_search (w := w) (req := req) hr').2.2.2.2 sub hsub id hmem
    · rcases keywordPart_ok hkw with ⟨l', hl', hks⟩ | ⟨hn, _⟩
      · rw [hl'] at hl
        obtain rfl := Option.some.inj hl
        obtain ⟨p, hp, rfl⟩ := List.mem_map.1 hmem
        exact keywordSearch_only (hk _) hks sub hsub p hp
      · rw [hn] at hl; cases hl

/-- C65: no document is returned twice for a query, and the results are ordered best first. -/
theorem C65_ranked (hS : S.Lawful) (B : Backend E S K) (hm : ∀ l, (B.mapOrder l).Perm l) (w : Nat → World E S K) (req : Request S K)
    (hk : ∀ i, KeywordsWork (w i)) (hone : LetInOnce (w 0) req) (as : List (Answer S K)) (h : SearchApi.search B w req = .ok as) :
    ∀ a ∈ as, a.ids.Nodup ∧
      ∀ (i j : Nat) s t, i < j → a.scores[i]? = some s → a.scores[j]? = some t → ¬ StrictlyBetter t s := by
  obtain ⟨subset, hs, hc, h⟩ := search_inv h
  intro a ha
  obtain ⟨i, hi, rfl⟩ := List.getElem_of_mem ha
  rcases h with ⟨ht, he, h⟩ | ⟨ht, h1, h⟩
  · obtain ⟨h1, h2⟩ := semanticOnly_ok h
    obtain ⟨a', r, ha, _, hr, hids, hsc, _⟩ := h2 i _ (List.getElem?_eq_getElem (h1 ▸ hi))
    rw [List.getElem?_eq_getElem hi] at ha
    obtain rfl := Option.some.inj ha
    obtain ⟨_, _, r3, r4, _⟩ := letIn_of_search (w := w) (req := req) hr
    rw [hids, hsc]
    exact ⟨r3, r4⟩
  · obtain ⟨h1, h2⟩ := hybridFrom_ok h
    obtain ⟨a', ha', ha⟩ := h2 i _ (List.getElem?_eq_getElem (h1 ▸ hi))
    rw [List.getElem?_eq_getElem hi] at ha
    obtain rfl := Option.some.inj ha
    obtain ⟨fetch, sem, kw, _, hsem, hkw, _, hf, _⟩ := hybridOne_ok ha'
    have hsem' : ∀ r, sem = some r → r.passageIds.length = r.scores.length ∧ r.passageIds.Nodup ∧
        ∀ (i j : Nat) s t, i < j → r.scores[i]? = some s → r.scores[j]? = some t → ¬ StrictlyBetter t s := by
      intro r hr
      rcases semanticPart_ok hsem with ⟨_, hn⟩ | ⟨_, s, r', _, hn, hr'⟩
      · rw [hn] at hr; cases hr
      · rw [hn] at hr
        obtain rfl := Option.some.inj hr
        obtain ⟨_, r2, r3, r4, _⟩ := letIn_of_search (w := w) (req := req) hr'
        exact ⟨r2, r3, r4⟩
    have hkw' : ∀ l, kw = some l → (l.map Prod.fst).Nodup ∧ l.Pairwise fun a b => b.2 ≤ a.2 := by
      intro l hl
      rcases keywordPart_ok hkw with ⟨l', hl', hks⟩ | ⟨hn, _⟩
      · rw [hl'] at hl
        obtain rfl := Option.some.inj hl
        have hka := keywordSearch_ok (resolve_nodup hS hone hs) hks
        generalize hT : (texts req)[i]'(h1 ▸ hi) = t at *
        by_cases hte : t = []
        · rw [hka.1 hte]; simp
        · obtain ⟨found, hfound⟩ := hk (2 + 3 * (0 + i)) t
          have := hka.2 hte found hfound
          cases subset with
          | none => exact ⟨topOf_nodup this hfound.1, topOf_sorted this⟩
          | some ids => exact ⟨topOf_nodup this (hfound.1.sublist (List.filter_sublist.map _)), topOf_sorted this⟩
      · rw [hn] at hl; cases hl
    obtain ⟨_, _, _, f4, f5⟩ := fuse_lists hm (fun r hr => (hsem' r hr).1) hf
    exact ⟨f4 (fun r hr => (hsem' r hr).2.1) (fun l hl => (hkw' l hl).1),
      f5 (fun r hr => (hsem' r hr).2.2) (fun l hl => (hkw' l hl).2)⟩

/-- C65: a request with embeddings only gets, for each query, what the index answers to it with the documented parameters. -/
theorem C65_semantic (B : Backend E S K) (w : Nat → World E S K) (req : Request S K) (ht : texts req = [])
    (as : List (Answer S K)) (h : SearchApi.search B w req = .ok as) :
    ∃ subset, Limits (w 0) req subset ∧ ∀ (i : Nat) (s : Rerank.Sent), (embeddings req)[i]? = some s →
      ∃ a r, as[i]? = some a ∧ IndexAnswers B (B.oracle i) (w 1) (searchParams req (wanted B req)) subset s r ∧
        a.ids = r.passageIds ∧ a.scores = r.scores := by
  obtain ⟨subset, hs, hc, ⟨_, he, h⟩ | ⟨ht', _⟩⟩ := search_inv h
  · refine ⟨subset, resolve_limits hs, ?_⟩
    intro i s hi
    obtain ⟨a, r, ha, _, hr, hids, hsc, _⟩ := (semanticOnly_ok h).2 i s hi
    exact ⟨a, r, ha, hr, hids, hsc⟩
  · exact absurd ht ht'

/-- C65: a request with texts only gets, for each text, the best matches among the documents let in; nothing if the keyword index cannot
answer. -/
theorem C65_keyword (hS : S.Lawful) (B : Backend E S K) (w : Nat → World E S K) (req : Request S K) (he : embeddings req = [])
    (hone : LetInOnce (w 0) req) (hk : ∀ i, KeywordsWork (w i)) (as : List (Answer S K)) (h : SearchApi.search B w req = .ok as) :
    ∃ subset, Limits (w 0) req subset ∧ ∀ (i : Nat) (t : List Char), (texts req)[i]? = some t →
      ∃ a l, as[i]? = some a ∧ Lists a l ∧ (KeywordsAnswer (w (2 + 3 * i)) (wanted B req) subset t l ∨
        (t ≠ [] ∧ (w (2 + 3 * i)).ask t (wanted B req) = .error .err ∧ l = [])) := by
  obtain ⟨subset, hs, hc, ⟨_, he', h⟩ | ⟨ht', _, h⟩⟩ := search_inv h
  · exact absurd he he'
  · refine ⟨subset, resolve_limits hs, ?_⟩
    intro i t hi
    obtain ⟨a, ha, hai⟩ := (hybridFrom_ok h).2 i t hi
    rw [Nat.zero_add] at ha
    obtain ⟨fetch, sem, kw, hfetch, hsem, hkw, _, hf, _⟩ := hybridOne_ok ha
    rw [if_pos he] at hfetch
    subst hfetch
    rcases semanticPart_ok hsem with ⟨_, rfl⟩ | ⟨hq, _⟩
    · rcases keywordPart_ok hkw with ⟨l, rfl, hks⟩ | ⟨rfl, hne, hask⟩
      · have hka := keywordSearch_ok (resolve_nodup hS hone hs) hks
        have hlen : l.length ≤ wanted B req := by
          by_cases hte : t = []
          · rw [hka.1 hte]; simp
          · obtain ⟨found, hfound⟩ := hk (2 + 3 * i) t
            have := hka.2 hte found hfound
            cases subset with
            | none => exact topOf_length this
            | some ids => exact topOf_length this
        simp only [fuse, List.take_of_length_le hlen] at hf
        obtain ⟨h1, h2⟩ := Prod.mk.inj hf
        exact ⟨a, l, hai, ⟨h1, h2⟩, .inl hka⟩
      · simp only [fuse] at hf
        obtain ⟨h1, h2⟩ := Prod.mk.inj hf
        exact ⟨a, [], hai, ⟨h1, h2⟩, .inr ⟨hne, hask, rfl⟩⟩
    · exact absurd he (hasQueries_iff.1 hq)

/-- C65: a request with embeddings and a text gets the fusion of three times as many results of both kinds as wanted, by rank or by score as asked; the
semantic results alone if the keyword index cannot answer. -/
theorem C65_hybrid (hS : S.Lawful) (B : Backend E S K) (hm : ∀ l, (B.mapOrder l).Perm l) (hr : B.rounding.Lawful) (w : Nat → World E S K)
    (req : Request S K) (he : embeddings req ≠ []) (ht : texts req ≠ [])
    (hone : LetInOnce (w 0) req) (hk : ∀ i, KeywordsWork (w i)) (as : List (Answer S K)) (h : SearchApi.search B w req = .ok as) :
    ∃ s t a subset r, embeddings req = [s] ∧ texts req = [t] ∧ as = [a] ∧ Limits (w 0) req subset ∧
      IndexAnswers B (B.oracle 0) (w 1) (searchParams req (wanted B req * 3)) subset s r ∧
      ((∃ l, KeywordsAnswer (w 2) (wanted B req * 3) subset t l ∧
        ((req.fusion = some "rrf".toList ∧ FusedByRank B (req.alpha.getD (3 / 4)) (wanted B req) r l a) ∨
         (req.fusion ≠ some "rrf".toList ∧ FusedByScore B (req.alpha.getD (3 / 4)) (wanted B req) r l a))) ∨
       (t ≠ [] ∧ (w 2).ask t (wanted B req * 3) = .error .err ∧ a.ids = r.passageIds.take (wanted B req) ∧
         a.scores = r.scores.take (wanted B req))) := by
  obtain ⟨subset, hs, hc, ⟨ht', _⟩ | ⟨_, hlen, h⟩⟩ := search_inv h
  · exact absurd ht' ht
  · obtain ⟨l1, l2⟩ := hlen he
    obtain ⟨s, hse⟩ := List.length_eq_one_iff.1 l1
    obtain ⟨t, hte⟩ := List.length_eq_one_iff.1 l2
    rw [hte] at h
    obtain ⟨hl, hget⟩ := hybridFrom_ok h
    obtain ⟨a, hae⟩ := List.length_eq_one_iff.1 hl
    obtain ⟨a', ha, hai⟩ := hget 0 t rfl
    rw [hae] at hai
    obtain rfl : a = a' := by simpa using hai
    obtain ⟨fetch, sem, kw, hfetch, hsem, hkw, _, hf, _⟩ := hybridOne_ok ha
    rw [if_neg he] at hfetch
    subst hfetch
    rcases semanticPart_ok hsem with ⟨hq, _⟩ | ⟨_, s', r, hs', rfl, hr'⟩
    · rw [hasQueries_iff.2 he] at hq
      cases hq
    · have : (embeddings req)[0]? = some s' := hs'
      rw [hse] at this
      obtain rfl : s = s' := by simpa using this
      obtain ⟨_, r2, r3, _⟩ := letIn_of_search (w := w) (req := req) hr'
      refine ⟨s, t, a, subset, r, hse, hte, hae, resolve_limits hs, hr', ?_⟩
      rcases keywordPart_ok hkw with ⟨l, rfl, hks⟩ | ⟨rfl, hne, hask⟩
      · have hka := keywordSearch_ok (resolve_nodup hS hone hs) hks
        refine .inl ⟨l, hka, ?_⟩
        have hnd : (l.map Prod.fst).Nodup := by
          by_cases hte : t = []
          · rw [hka.1 hte]; simp
          · obtain ⟨found, hfound⟩ := hk 2 t
            have := hka.2 hte found hfound
            cases subset with
            | none => exact topOf_nodup this hfound.1
            | some ids => exact topOf_nodup this (hfound.1.sublist (List.filter_sublist.map _))
        simp only [fuse] at hf
        obtain ⟨h1, h2⟩ := Prod.mk.inj hf
        have hfu : req.fusion.getD relativeName = rrfName ↔ req.fusion = some "rrf".toList := by
          rw [← rrfName_eq]
          cases req.fusion with
          | none => simp; decide
          | some f => simp
        by_cases hrr : req.fusion.getD relativeName = rrfName
        · rw [if_pos hrr] at h1 h2
          obtain ⟨all, a1, a2, a3⟩ := C28_rrf B.rounding hr B.mapOrder hm r.passageIds (l.map Prod.fst) r3 hnd (req.alpha.getD (3 / 4)) (wanted B req)
          exact .inl ⟨hfu.1 hrr, _, all, ⟨h1, h2⟩, a1, a2, a3⟩
        · rw [if_neg hrr] at h1 h2
          have e1 : (r.passageIds.zip (r.scores.map B.finite)).map Prod.fst = r.passageIds := List.map_fst_zip (by simp [r2])
          have e2 : (r.passageIds.zip (r.scores.map B.finite)).map Prod.snd = r.scores.map B.finite := List.map_snd_zip (by simp [r2])
          have hc29 := C29_relative B.rounding hr B.mapOrder hm (r.passageIds.zip (r.scores.map B.finite)) l
            (by rw [e1]; exact r3) hnd (req.alpha.getD (3 / 4)) (wanted B req)
          rw [e1, e2] at hc29
          obtain ⟨all, a1, a2, a3⟩ := hc29
          exact .inr ⟨fun h => hrr (hfu.2 h), _, all, ⟨h1, h2⟩, a1, a2, a3⟩
      · refine .inr ⟨hne, hask, ?_⟩
        have e1 : ((r.passageIds.zip r.scores).take (wanted B req)).map Prod.fst = r.passageIds.take (wanted B req) := by
          rw [List.map_take, List.map_fst_zip (by omega)]
        have e2 : ((r.passageIds.zip r.scores).take (wanted B req)).map Prod.snd = r.scores.take (wanted B req) := by
          rw [List.map_take, List.map_snd_zip (by omega)]
        simp only [fuse, e1, e2] at hf
        exact ⟨(Prod.mk.inj hf).1, (Prod.mk.inj hf).2⟩

/-- C65: the metadata of the documents is theirs in the database as it is when it is read, after the search. -/
theorem C65_metadata (hS : S.Lawful) (B : Backend E S K) (ho : ∀ l, (B.rowOrder l).Perm l) (w : Nat → World E S K) (req : Request S K)
    (as : List (Answer S K)) (h : SearchApi.search B w req = .ok as) :
    ∀ (i : Nat) (a : Answer S K), as[i]? = some a → ∃ j, j = (if texts req = [] then 2 + i else 3 + 3 * i) ∧
      ((w j).db = none → a.metadata = a.ids.map fun _ => none) ∧
      ∀ rows, Kept (w j).db rows → OwnRows rows a.ids a.metadata := by
  obtain ⟨subset, hs, hc, ⟨ht, he, h⟩ | ⟨ht, h1, h⟩⟩ := search_inv h
  all_goals
    intro i a hi
    have key : ∀ (db : Option (Tables S)), fetchMetadata B.rowOrder db a.ids = .ok a.metadata →
        (db = none → a.metadata = a.ids.map fun _ => none) ∧ ∀ rows, Kept db rows → OwnRows rows a.ids a.metadata := by
      intro db hf
      refine ⟨?_, fun rows hk => fetch_own hS ho (kept_rep hS hk) hf⟩
      rintro rfl
      exact (Except.ok.inj hf).symm
  · obtain ⟨h1, h2⟩ := semanticOnly_ok h
    have hlt : i < (req.queries.getD []).length := h1 ▸ (List.getElem?_eq_some_iff.1 hi).1
    obtain ⟨a', r, ha, _, _, _, _, hmeta⟩ := h2 i _ (List.getElem?_eq_getElem hlt)
    rw [hi] at ha
    obtain rfl := Option.some.inj ha
    exact ⟨_, by rw [if_pos ht], key _ hmeta⟩
  · obtain ⟨h1, h2⟩ := hybridFrom_ok h
    have hlt : i < (texts req).length := h1 ▸ (List.getElem?_eq_some_iff.1 hi).1
    obtain ⟨a', ha', ha⟩ := h2 i _ (List.getElem?_eq_getElem hlt)
    rw [hi] at ha
    obtain rfl := Option.some.inj ha
    obtain ⟨_, _, _, _, _, _, _, _, hmeta⟩ := hybridOne_ok ha'
    rw [Nat.zero_add] at hmeta
    exact ⟨_, by rw [if_neg ht], key _ hmeta⟩

/-- C65, for databases that are only added to between the search and the reading of the metadata: every document that had a row when the index was
read gets that row. Missing: deletions, see `C65_race_refuted`. -/
theorem C65_own_metadata_partial (hS : S.Lawful) (B : Backend E S K) (ho : ∀ l, (B.rowOrder l).Perm l) (w : Nat → World E S K)
    (req : Request S K) (as : List (Answer S K)) (h : SearchApi.search B w req = .ok as) (i : Nat) (a : Answer S K) (hi : as[i]? = some a)
    (rows : List (Item S)) (hadd : ∀ j, 1 ≤ j → ∃ more, Kept (w j).db (rows ++ more)) :
    ∃ ty : String → S.Ty, ∀ (p n : Nat) (it : Item S), a.ids[p]? = some (n : Int) → rows[n]? = some it →
      ∃ row, a.metadata[p]? = some (some row) ∧ row.subset = (n : Int) ∧ ∀ col, row.value col = S.cell (ty col) (it.value col) := by
  obtain ⟨j, hj, _, hown⟩ := C65_metadata hS B ho w req as h i a hi
  obtain ⟨more, hk⟩ := hadd j (by rw [hj]; split <;> omega)
  obtain ⟨hlen, ty, hrow⟩ := hown _ hk
  refine ⟨ty, ?_⟩
  intro p n it hp hn
  have hlt : p < a.metadata.length := hlen ▸ (List.getElem?_eq_some_iff.1 hp).1
  have hm := List.getElem?_eq_getElem hlt
  have hn' : (rows ++ more)[n]? = some it := by
    rw [List.getElem?_append_left (List.getElem?_eq_some_iff.1 hn).1]
    exact hn
  obtain ⟨row, h1, h2, h3⟩ := ((hrow p n _ hp hm).2 n rfl).2 it hn'
  exact ⟨row, by rw [hm, h1], h2, h3⟩

/-- C65: the endpoints with a filter return only documents with a row that satisfies it; one result for each of the queries. -/
theorem C65_filtered (B : Backend E S K) (hm : ∀ l, (B.mapOrder l).Perm l) (w : Nat → World E S K) (hk : ∀ i, KeywordsWork (w i))
    (queries : List Rerank.Sent) (encode : List (List Char) → Except Refusal (List Rerank.Sent)) (ts : List (List Char))
    (params : Request S K) (filter : Bool × (OutRow S → Bool)) (as : List (Answer S K))
    (h : searchFilteredApi B w queries params filter = .ok as ∨ searchWithEncoding B w encode ts params (some filter) = .ok as) :
    ∃ all, get (fun l => l) (w 0).db none none = .ok all ∧ ∀ a ∈ as, ∀ id ∈ a.ids, ∃ row ∈ all, row.subset = id ∧ filter.2 row = true := by
  have key : ∀ req : Request S K, req.filter = some filter → SearchApi.search B w req = .ok as →
      ∃ all, get (fun l => l) (w 0).db none none = .ok all ∧ ∀ a ∈ as, ∀ id ∈ a.ids, ∃ row ∈ all, row.subset = id ∧ filter.2 row = true := by
    intro req hf hs
    obtain ⟨all, hall⟩ : ∃ all, get (fun l => l) (w 0).db none none = .ok all := by
      cases (w 0).db <;> exact ⟨_, rfl⟩
    refine ⟨all, hall, ?_⟩
    intro a ha id hid
    have := C65_allowed B hm w req hk as hs a ha id hid
    unfold Allowed at this
    rw [hf] at this
    obtain ⟨all', hall', row, hrow⟩ := this
    rw [hall] at hall'
    obtain rfl := Except.ok.inj hall'
    exact ⟨row, hrow⟩
  rcases h with h | h
  · unfold searchFilteredApi at h
    split at h
    · cases h
    · exact key _ rfl h
  · unfold searchWithEncoding at h
    split at h
    · cases h
    · obtain ⟨qs, _, h⟩ := bind_ok.1 h
      exact key _ rfl h

/-- C65: searching with texts that the server encodes is searching with the embeddings the encoder gives; all the rest of the request is kept. -/
theorem C65_encoded (B : Backend E S K) (w : Nat → World E S K) (encode : List (List Char) → Except Refusal (List Rerank.Sent))
    (ts : List (List Char)) (params : Request S K) (as : List (Answer S K)) :
    (searchWithEncoding B w encode ts params none = .ok as ↔ ts ≠ [] ∧ ∃ qs, encode ts = .ok qs ∧
      SearchApi.search B w { params with queries := some qs, filter := none } = .ok as) ∧
    (∀ f, searchWithEncoding B w encode ts params (some f) = .ok as ↔ ts ≠ [] ∧ ∃ qs, encode ts = .ok qs ∧
      SearchApi.search B w { params with queries := some qs, subset := none, filter := some f } = .ok as) ∧
    (∀ queries f, searchFilteredApi B w queries params f = .ok as ↔ queries ≠ [] ∧
      SearchApi.search B w { params with queries := some queries, textQuery := none, subset := none, alpha := none, fusion := none, filter := some f } = .ok as) := by
  refine ⟨?_, ?_, ?_⟩
  · unfold searchWithEncoding
    split
    · rename_i h
      simp [List.isEmpty_iff.1 h]
    · rename_i h
      rw [SearchApi.bind_ok]
      have : ts ≠ [] := fun he => h (by simp [he])
      simp [this]
  · intro f
    unfold searchWithEncoding
    split
    · rename_i h
      simp [List.isEmpty_iff.1 h]
    · rename_i h
      rw [SearchApi.bind_ok]
      have : ts ≠ [] := fun he => h (by simp [he])
      simp [this]
  · intro queries f
    unfold searchFilteredApi
    split
    · rename_i h
      simp [List.isEmpty_iff.1 h]
    · rename_i h
      have : queries ≠ [] := fun he => h (by simp [he])
      simp [this]

end

/-! ### Concrete requests -/

/-- Scores over the rationals for the small index. -/
@[reducible] def apiNum : Num Toy ℚ where
  Q := Nat
  V := Nat
  dot := fun q c => .fin ((100 - ((q - c) + (c - q)) : Nat) : ℚ)
  zero := .fin 0
  add := fun a b => match a, b with
    | .fin a, .fin b => .fin (a + b)
    | _, _ => .nonfin 3
  decode := fun _ _ toks => .ok (toks.map (·.2))
  exact := fun query v =>
    .fin (((query.map fun q => (v.map fun r => 100 - ((q - r) + (r - q))).foldl Nat.max 0).sum : Nat) : ℚ)

/-- The four documents `[7, 8]`, `[5]`, none, `[9, 4]`; a query is a list of rows of one number. -/
@[reducible] def apiBackend : Backend Toy ToySql ℚ where
  N := apiNum
  oracle := fun _ => ⟨fun _ l => l, fun l => l, fun l => l⟩
  tokens := fun a => a.rows.flatten
  dim := fun _ => 1
  finite := fun s => match s with
    | .fin a => a
    | .nonfin _ => 0
  rounding := exact ℚ
  mapOrder := fun l => l
  rowOrder := fun l => l
  defaultTopK := 10

/-- Metadata of four documents. -/
def apiDb : Option (Tables ToySql) :=
  (okVal (create (S := ToySql) [some [("a", 1)], some [("a", 2)], some [("a", 3)], some [("a", 4)]] (idsFrom 0 4)) (by decide +kernel)).1

/-- The keyword index: `x` is in the documents 1 and 3, most often in 1. -/
def apiAsk (text : List Char) (k : Nat) : Res (Option (List Int) → List (Int × ℚ)) :=
  if text = ['x'] then .ok fun ids => (match ids with
    | none => [(1, (5 : ℚ)), (3, 2)]
    | some ids => [(1, (5 : ℚ)), (3, 2)].filter fun p => decide (p.1 ∈ ids)).take k
  else .error .err

def apiWorld : World Toy ToySql ℚ := ⟨some toyLoaded, apiDb, apiAsk⟩

def apiRequest : Request ToySql ℚ :=
  { queries := none, textQuery := none, topK := none, nIvfProbe := none, nFullScores := none, threshold := none, subset := none,
    alpha := none, fusion := none, filter := none }

/-- Embeddings as JSON rows of one number. -/
def apiSent (l : List Nat) : Rerank.Sent := ⟨some (l.map fun n => [n]), none, none⟩

/-- One result, in a form that can be compared. -/
structure ApiLine where
  queryId : Nat
  ids : List Int
  scores : List (Option ℚ)
  metadata : List (Option (List (String × Int)))
deriving DecidableEq

/-- What a request shows, in a form that can be computed. -/
def apiShow (r : Except Refusal (List (Answer ToySql ℚ))) :
    Refusal ⊕ List ApiLine :=
  match r with
  | .error e => .inl e
  | .ok l => .inr <| l.map fun a => ⟨a.queryId, a.ids, a.scores.map (fun s => match s with | .fin q => some q | _ => none),
    a.metadata.map fun m => m.map (·.cols)⟩

/-- Two queries by embeddings; three by text, one not valid and one empty; one by both, in both ways of fusing, with a filter; and a missing
index. -/
example :
    apiShow (SearchApi.search apiBackend (fun _ => apiWorld)
      { apiRequest with queries := some [apiSent [8, 4], apiSent [5]], topK := some 2 }) =
      .inr [⟨0, [3, 0], [some 199, some 197], [some [("a", 4)], some [("a", 1)]]⟩,
        ⟨1, [1, 3], [some 100, some 99], [some [("a", 2)], some [("a", 4)]]⟩] ∧
    apiShow (SearchApi.search apiBackend (fun _ => apiWorld) { apiRequest with textQuery := some [['x'], ['y'], []] }) =
      .inr [⟨0, [1, 3], [some 5, some 2], [some [("a", 2)], some [("a", 4)]]⟩, ⟨1, [], [], []⟩, ⟨2, [], [], []⟩] ∧
    apiShow (SearchApi.search apiBackend (fun _ => apiWorld)
      { apiRequest with queries := some [apiSent [8, 4]], textQuery := some [['x']], topK := some 2 }) =
      .inr [⟨0, [3, 0], [some (3 / 4), some (1 / 4)], [some [("a", 4)], some [("a", 1)]]⟩] ∧
    apiShow (SearchApi.search apiBackend (fun _ => apiWorld)
      { apiRequest with queries := some [apiSent [8, 4]], textQuery := some [['x']], fusion := some rrfName, filter := some (true, fun r => decide (r.value "a" < 4)) }) =
      .inr [⟨0, [1, 0], [some (3 / 4 / 62 + 1 / 4 / 61), some (3 / 4 / 61)], [some [("a", 2)], some [("a", 1)]]⟩] ∧
    apiShow (SearchApi.search apiBackend (fun _ => { apiWorld with slot := none }) { apiRequest with queries := some [apiSent [8, 4]] }) =
      .inl .indexNotFound := by
  decide +kernel

/-- The hypotheses on the keyword index and on the documents let in can be met. -/
example : KeywordsWork apiWorld ∧ LetInOnce apiWorld { apiRequest with subset := some [1, 2] } ∧
    Limits apiWorld { apiRequest with subset := some [1, 2] } (some [1, 2]) ∧ Answerable apiBackend (fun _ => apiWorld)
      { apiRequest with queries := some [apiSent [8, 4]], textQuery := some [['x']], alpha := some (1 / 2) } := by
  refine ⟨?_, ⟨?_, ?_⟩, ⟨.inr (by simp), ?_⟩, ?_⟩
  · intro text
    by_cases ht : text = ['x']
    · refine ⟨[(1, 5), (3, 2)], by decide, ?_⟩
      intro k f hf
      subst ht
      obtain rfl := Except.ok.inj hf
      refine ⟨topOf_sort k _ _ (.refl _), ?_⟩
      intro ids
      have : (sortPairs ([(1, (5 : ℚ)), (3, 2)].filter fun p => decide (p.1 ∈ ids))) = [(1, (5 : ℚ)), (3, 2)].filter fun p => decide (p.1 ∈ ids) := by
        by_cases h1 : (1 : Int) ∈ ids <;> by_cases h3 : (3 : Int) ∈ ids <;> simp [h1, h3] <;> decide
      have h := topOf_sort k ([(1, (5 : ℚ)), (3, 2)].filter fun p => decide (p.1 ∈ ids)) _ (.refl _)
      rw [this] at h
      exact h
    · refine ⟨[], by simp, ?_⟩
      intro k f hf
      simp [apiWorld, apiAsk, ht] at hf
  · rintro sub rfl'
    obtain rfl := Option.some.inj rfl'
    decide
  · intro t ht
    have hk : Kept apiDb _ := .create (S := ToySql) (items := [some [("a", 1)], some [("a", 2)], some [("a", 3)], some [("a", 4)]]) (okVal_eq _ (by decide +kernel))
    have ht' : apiDb = some t := ht
    rw [ht'] at hk
    exact ⟨_, hk⟩
  · intro id
    unfold Allowed
    simp [apiRequest]
  · refine ⟨.inr (by simp [texts]), ?_, by simp [apiRequest], by simp [embeddings, texts], by simp [apiRequest], ?_⟩
    · intro a ha
      obtain rfl := Option.some.inj ha
      norm_num
    · intro _
      refine ⟨toyLoaded, rfl, ?_⟩
      intro s hs
      obtain rfl : s = apiSent [8, 4] := by simpa [embeddings] using hs
      exact ⟨⟨1, [[8], [4]]⟩, by decide +kernel, rfl⟩

/-- The metadata is read after the index, and not under the same lock: when another request deletes document 0 in between, and the rows move
up, the result shows under document 0 the metadata of document 1, and the last document loses its own
(/repo/next-plaid-api/src/handlers/search.rs:201-245). -/
theorem C65_race_refuted : ∃ (rows : List (Item ToySql)) (w : Nat → World Toy ToySql ℚ),
    Kept (w 1).db rows ∧ (∀ j, 2 ≤ j → (w j).db = (delete (w 1).db [0]).1) ∧ rows.map (·.map (·.map (·.2))) = [some [1], some [2], some [3], some [4]] ∧
    apiShow (SearchApi.search apiBackend w { apiRequest with queries := some [apiSent [8, 4]] }) =
      .inr [⟨0, [3, 0, 1], [some 199, some 197, some 196], [none, some [("a", 2)], some [("a", 3)]]⟩] := by
  refine ⟨[some [("a", 1)], some [("a", 2)], some [("a", 3)], some [("a", 4)]],
    fun j => if 2 ≤ j then { apiWorld with db := (delete apiDb [0]).1 } else apiWorld, ?_, ?_, rfl, ?_⟩
  · exact .create (S := ToySql) (items := [some [("a", 1)], some [("a", 2)], some [("a", 3)], some [("a", 4)]]) (okVal_eq _ (by decide +kernel))
  · intro j hj
    simp [hj, apiWorld]
  · decide +kernel

/-- A filter does not narrow the subset given with it, it replaces it: documents outside the subset are returned
(/repo/next-plaid-api/src/handlers/search.rs:181-191). -/
theorem C65_subset_and_filter_refuted :
    apiShow (SearchApi.search apiBackend (fun _ => apiWorld)
      { apiRequest with queries := some [apiSent [8, 4]], subset := some [3], filter := some (true, fun r => decide (r.value "a" < 4)) }) =
      .inr [⟨0, [0, 1], [some 197, some 196], [some [("a", 1)], some [("a", 2)]]⟩] := by
  decide +kernel

/-- A text search of an index that does not exist is not refused: it is answered with no results, as is one the keyword index cannot read
(/repo/next-plaid-api/src/handlers/search.rs:322-340). -/
theorem C65_unknown_index_refuted :
    apiShow (SearchApi.search apiBackend (fun _ => ⟨none, none, fun _ _ => .error .err⟩) { apiRequest with textQuery := some [['x']] }) =
      .inr [⟨0, [], [], []⟩] := by
  decide +kernel

end NextPlaid.Props
