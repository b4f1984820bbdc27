import Verif.Proofs.SearchApi

/-! Metadata and refusals of the search endpoints. -/

namespace NextPlaid.SearchApi

open NextPlaid NextPlaid.Index NextPlaid.Search NextPlaid.Db NextPlaid.Fusion NextPlaid.Spec

theorem bind_error {A B : Type} {e : Except Refusal A} {f : A → Except Refusal B} {r : Refusal} :
    e.bind f = .error r ↔ e = .error r ∨ ∃ a, e = .ok a ∧ f a = .error r := by
  cases e <;> simp [Except.bind]

theorem map_error {A B : Type} {e : Except Refusal A} {f : A → B} {r : Refusal} : e.map f = .error r ↔ e = .error r := by
  cases e <;> simp [Except.map]

theorem lift_error {A : Type} {x : Res A} {r : Refusal} : lift x = .error r ↔
    (r = .internal ∧ x = .error .err) ∨ (r = .panic ∧ x = .error .panic) := by
  rcases x with (_ | _) | _ <;> simp [lift, eq_comm]

theorem collect_error {A B : Type} {f : A → Except Refusal B} {r : Refusal} : ∀ {l : List A}, collect f l = .error r →
    ∃ a ∈ l, f a = .error r
  | [], h => by simp [collect] at h
  | a :: l, h => by
    rw [collect, bind_error] at h
    rcases h with h | ⟨_, _, h⟩
    · exact ⟨a, by simp, h⟩
    · rcases bind_error.1 h with h | ⟨_, _, h⟩
      · obtain ⟨x, hx, h⟩ := collect_error h
        exact ⟨x, by simp [hx], h⟩
      · cases h

variable {E : Env} {S : Sql} {K : Type} [Field K] [LinearOrder K] [IsStrictOrderedRing K]

/-! ### Metadata -/

theorem get_order (order : List (OutRow S) → List (OutRow S)) (db : Option (Tables S)) :
    get order db none none = get (fun l => l) db none none := by
  cases db <;> rfl

theorem fetch_find {order : List (OutRow S) → List (OutRow S)} (ho : ∀ l, (order l).Perm l) {db : Option (Tables S)}
    {rows : List (Item S)} (hr : RepO db rows) {ids : List Int} {m : List (Option (OutRow S))}
    (h : fetchMetadata order db ids = .ok m) :
    ∃ all, get (fun l => l) db none none = .ok all ∧ m = ids.map fun id => all.find? fun r => r.subset == id := by
  unfold fetchMetadata at h
  cases db with
  | none =>
    obtain rfl := Except.ok.inj h
    exact ⟨[], rfl, by simp⟩
  | some t =>
    simp only [Option.isNone_some, Bool.false_eq_true, if_false] at h
    obtain ⟨all, ha, hb⟩ := get_ids_rep hr order ho ids
    rw [hb] at h
    refine ⟨all, by rw [get_order order] at ha; exact ha, ?_⟩
    obtain ⟨rows', hrows, rfl⟩ := map_ok.1 h
    rw [lift_ok] at hrows
    obtain rfl := Except.ok.inj hrows
    apply List.map_congr_left
    intro id hid
    have key : ∀ r ∈ ids.eraseDups.filterMap (fun id => all.find? fun r => r.subset == id), r.subset = id →
        all.find? (fun r => r.subset == id) = some r := by
      intro r hr he
      obtain ⟨id', _, hf⟩ := List.mem_filterMap.1 hr
      have hp := List.find?_some hf
      simp only [beq_iff_eq] at hp
      rw [← he, hp]
      exact hf
    cases hf : (ids.eraseDups.filterMap (fun id => all.find? fun r => r.subset == id)).reverse.find? (fun r => r.subset == id) with
    | some r =>
      have hm := List.mem_reverse.1 (List.mem_of_find?_eq_some hf)
      have hp := List.find?_some hf
      simp only [beq_iff_eq] at hp
      rw [key r hm hp]
    | none =>
      cases hg : all.find? (fun r => r.subset == id) with
      | none => rfl
      | some r =>
        have hm : r ∈ ids.eraseDups.filterMap (fun id => all.find? fun r => r.subset == id) :=
          List.mem_filterMap.2 ⟨id, List.mem_eraseDups.2 hid, hg⟩
        have hp := List.find?_some hg
        have := List.find?_eq_none.1 hf r (List.mem_reverse.2 hm)
        exact absurd hp this

theorem fetch_own (hS : S.Lawful) {order : List (OutRow S) → List (OutRow S)} (ho : ∀ l, (order l).Perm l) {db : Option (Tables S)}
    {rows : List (Item S)} (hr : RepO db rows) {ids : List Int} {m : List (Option (OutRow S))}
    (h : fetchMetadata order db ids = .ok m) : OwnRows rows ids m := by
  obtain ⟨ty, out, hout, hlen, hcell⟩ := shows_of_rep hS hr
  obtain ⟨all, ha, rfl⟩ := fetch_find ho hr h
  rw [hout] at ha
  obtain rfl := Except.ok.inj ha
  have hsub : ∀ (n : Nat) r, out[n]? = some r → r.subset = (n : Int) := by
    intro n r hn
    have hlt := (List.getElem?_eq_some_iff.1 hn).1
    obtain ⟨r', h1, h2, _⟩ := hcell n _ (List.getElem?_eq_getElem (by omega))
    rw [hn] at h1
    obtain rfl := Option.some.inj h1
    exact h2
  refine ⟨by simp, ty, ?_⟩
  intro p id m hp hm
  rw [List.getElem?_map, hp] at hm
  obtain rfl := Option.some.inj hm
  constructor
  · intro hneg
    apply List.find?_eq_none.2
    intro r hr
    obtain ⟨n, hn, rfl⟩ := List.getElem_of_mem hr
    have := hsub n _ (List.getElem?_eq_getElem hn)
    simp only [beq_iff_eq]
    omega
  · rintro n rfl
    constructor
    · intro hnone
      apply List.find?_eq_none.2
      intro r hr
      obtain ⟨n', hn', rfl⟩ := List.getElem_of_mem hr
      have := hsub n' _ (List.getElem?_eq_getElem hn')
      have hge := List.getElem?_eq_none_iff.1 hnone
      simp only [beq_iff_eq]
      omega
    · intro it hit
      obtain ⟨r, h1, h2, h3⟩ := hcell n it hit
      refine ⟨r, ?_, h2, h3⟩
      have hf : (out.find? fun r => r.subset == (n : Int)).isSome := by
        rw [List.find?_isSome]
        exact ⟨r, List.mem_of_getElem? h1, by simpa using h2⟩
      obtain ⟨r', hr'⟩ := Option.isSome_iff_exists.1 hf
      show out.find? (fun r => r.subset == (n : Int)) = some r
      rw [hr']
      have hp := List.find?_some hr'
      simp only [beq_iff_eq] at hp
      obtain ⟨n', hn', he⟩ := List.getElem_of_mem (List.mem_of_find?_eq_some hr')
      have h4 := hsub n' _ (List.getElem?_eq_getElem hn')
      rw [he, hp] at h4
      obtain rfl : n = n' := by omega
      rw [List.getElem?_eq_getElem hn', he] at h1
      exact h1

/-! ### Refusals -/

theorem get_ids_ok (order : List (OutRow S) → List (OutRow S)) (db : Option (Tables S)) (ids : List Int) :
    ∃ rows, get order db none (some ids) = .ok rows := by
  cases db <;> exact ⟨_, rfl⟩

theorem fetchMetadata_answers (order : List (OutRow S) → List (OutRow S)) (db : Option (Tables S)) (ids : List Int) :
    ∃ m, fetchMetadata order db ids = .ok m := by
  unfold fetchMetadata
  split
  · exact ⟨_, rfl⟩
  · obtain ⟨rows, h⟩ := get_ids_ok order db ids
    rw [h]
    exact ⟨_, rfl⟩

theorem fetchMetadata_error {order : List (OutRow S) → List (OutRow S)} {db : Option (Tables S)} {ids : List Int} {r : Refusal}
    (h : fetchMetadata order db ids = .error r) : False := by
  obtain ⟨m, hm⟩ := fetchMetadata_answers order db ids
  rw [hm] at h
  cases h

theorem withMetadata_error {B : Backend E S K} {w : Nat → World E S K} {r : Refusal} : ∀ {rs : List (Result K)} {i : Nat},
    withMetadata B w i rs = .error r → False
  | [], _, h => by simp [withMetadata] at h
  | x :: rs, i, h => by
    rw [withMetadata, bind_error] at h
    rcases h with h | ⟨_, _, h⟩
    · exact fetchMetadata_error h
    · rcases bind_error.1 h with h | ⟨_, _, h⟩
      · exact withMetadata_error h
      · cases h

theorem readQuery_error {s : Rerank.Sent} {r : Refusal} (h : readQuery s = .error r) : r = .badRequest ∧ Rerank.lenientArray s = none := by
  unfold readQuery at h
  split at h
  · cases h
  · rename_i hn
    exact ⟨(Except.error.inj h).symm, hn⟩

theorem readIndex_error {w : World E S K} {r : Refusal} (h : readIndex w = .error r) : r = .indexNotFound ∧ w.slot = none := by
  unfold readIndex at h
  split at h
  · cases h
  · rename_i hn
    exact ⟨(Except.error.inj h).symm, hn⟩

theorem checkDim_error {B : Backend E S K} {x : Loaded E} {a : Rerank.Arr} {r : Refusal} (h : checkDim B x a = .error r) :
    r = .dimensionMismatch ∧ a.ncols ≠ B.dim x := by
  unfold checkDim at h
  split at h
  · cases h
  · rename_i hn
    exact ⟨(Except.error.inj h).symm, hn⟩

theorem searchAll_error {B : Backend E S K} {x : Loaded E} {p : Params K} {subset : Option (List Int)} {qs : List Rerank.Arr}
    {r : Refusal} (h : searchAll B x p subset qs = .error r) :
    r = .panic ∧ ∃ i q, searchOne (B.oracle i) B.N x (B.tokens q) p subset = .error .panic := by
  by_contra hc
  have hall : ∀ i q, r = .panic → searchOne (B.oracle i) B.N x (B.tokens q) p subset ≠ .error .panic :=
    fun i q hr he => hc ⟨hr, i, q, he⟩
  have many : ∀ qs : List Rerank.Arr, lift (searchMany B.oracle B.N x (qs.map B.tokens) p true subset) = .error r → False := by
    intro qs h
    by_cases hok : ∃ i q, searchOne (B.oracle i) B.N x (B.tokens q) p subset = .error .panic
    · have hr : r ≠ .panic := by
        rintro rfl
        exact hc ⟨rfl, hok⟩
      rcases lift_error.1 h with ⟨_, h⟩ | ⟨hp, _⟩
      · unfold searchMany at h
        rw [if_pos rfl] at h
        exact (NoErr.mapM (fun qi => by
          have := noErr_searchOne (B.oracle qi.2) B.N x qi.1 p subset
          cases hs : searchOne (B.oracle qi.2) B.N x qi.1 p subset with
          | ok r => simp [NoErr]
          | error e => cases e <;> simp [NoErr]) _) h
      · exact hr hp
    · obtain ⟨rs, hrs⟩ := searchMany_ok (os := B.oracle) (N := B.N) (x := x) (queries := qs.map B.tokens) (p := p) (subset := subset) true (by
        intro i q hq
        rw [List.getElem?_map] at hq
        cases hqi : qs[i]? with
        | none => rw [hqi] at hq; cases hq
        | some a =>
          rw [hqi] at hq
          obtain rfl := Option.some.inj hq
          have := noErr_searchOne (B.oracle i) B.N x (B.tokens a) p subset
          cases hs : searchOne (B.oracle i) B.N x (B.tokens a) p subset with
          | ok r => exact ⟨r, rfl⟩
          | error e =>
            cases e with
            | err => exact absurd hs this
            | panic => exact absurd ⟨i, a, hs⟩ hok)
      rw [hrs] at h
      cases h
  match qs, h with
  | [], h => exact many [] h
  | a :: b :: qs, h => exact many (a :: b :: qs) h
  | [q], h =>
    unfold searchAll at h
    rcases lift_error.1 (map_error.1 h) with ⟨_, h⟩ | ⟨rfl, h'⟩
    · exact noErr_searchOne _ _ _ _ _ _ h
    · exact hall 0 q rfl h'

theorem hasQueries_iff {req : Request S K} : hasQueries req = true ↔ embeddings req ≠ [] := by
  unfold hasQueries embeddings
  cases req.queries.getD [] <;> simp

theorem hasText_iff {req : Request S K} : hasText req = true ↔ texts req ≠ [] := by
  unfold hasText texts
  cases req.textQuery.getD [] <;> simp

theorem semanticOnly_error {B : Backend E S K} {w : Nat → World E S K} {req : Request S K} {subset : Option (List Int)} {r : Refusal}
    (he : embeddings req ≠ []) (h : semanticOnly B w req subset = .error r) : Reason B w req r := by
  unfold semanticOnly at h
  rcases bind_error.1 h with h | ⟨qs, hq, h⟩
  · obtain ⟨s, hs, h⟩ := collect_error h
    obtain ⟨rfl, h'⟩ := readQuery_error h
    exact .inr (.inr (.inr (.inr (.inr ⟨s, hs, h'⟩))))
  rcases bind_error.1 h with h | ⟨x, hx, h⟩
  · obtain ⟨rfl, h'⟩ := readIndex_error h
    exact ⟨he, h'⟩
  rw [readIndex_ok] at hx
  rcases bind_error.1 h with h | ⟨_, _, h⟩
  · obtain ⟨q, hqm, h⟩ := collect_error h
    obtain ⟨rfl, h'⟩ := checkDim_error h
    obtain ⟨i, hi, rfl⟩ := List.getElem_of_mem hqm
    obtain ⟨q1, q2⟩ := collect_ok hq
    obtain ⟨q', hq', hqi⟩ := q2 i _ (List.getElem?_eq_getElem (by omega))
    rw [List.getElem?_eq_getElem hi] at hqi
    obtain rfl := Option.some.inj hqi
    have hlt : i < (embeddings req).length := by
      show i < (req.queries.getD []).length
      omega
    exact ⟨x, hx, _, List.getElem_mem hlt, _, readQuery_ok.1 hq', h'⟩
  rcases bind_error.1 h with h | ⟨_, _, h⟩
  · obtain ⟨rfl, i, q, h'⟩ := searchAll_error h
    exact .inl ⟨i, x, q, _, subset, hx, rfl, h'⟩
  · exact (withMetadata_error h).elim

theorem keywordPart_error {w : World E S K} {text : List Char} {k : Nat} {subset : Option (List Int)} {r : Refusal}
    (h : keywordPart w text k subset = .error r) : r = .panic ∧ w.ask text k = .error .panic := by
  unfold keywordPart at h
  split at h
  · cases h
  · cases h
  · rename_i hl
    refine ⟨(Except.error.inj h).symm, ?_⟩
    unfold keywordSearch at hl
    cases subset with
    | none =>
      simp only at hl
      split at hl
      · cases hl
      · cases ha : w.ask text k with
        | error e => rw [ha] at hl; rw [Except.error.inj hl]
        | ok f => rw [ha] at hl; cases hl
    | some ids =>
      simp only at hl
      split at hl
      · cases hl
      · cases ha : w.ask text k with
        | error e => rw [ha] at hl; rw [Except.error.inj hl]
        | ok f => rw [ha] at hl; cases hl

theorem hybridFrom_error {B : Backend E S K} {w : Nat → World E S K} {req : Request S K} {subset : Option (List Int)} {r : Refusal} :
    ∀ {ts : List (List Char)} {i : Nat}, hybridFrom B w req subset i ts = .error r →
      ∃ j t, ts[j]? = some t ∧ hybridOne B w req subset (i + j) t = .error r
  | [], i, h => by simp [hybridFrom] at h
  | t :: ts, i, h => by
    rw [hybridFrom, bind_error] at h
    rcases h with h | ⟨_, _, h⟩
    · exact ⟨0, t, rfl, h⟩
    · rcases bind_error.1 h with h | ⟨_, _, h⟩
      · obtain ⟨j, t', hj, h⟩ := hybridFrom_error h
        exact ⟨j + 1, t', by simpa using hj, by rw [← h]; congr 1; omega⟩
      · cases h

theorem textual_error {B : Backend E S K} {w : Nat → World E S K} {req : Request S K} {subset : Option (List Int)} {r : Refusal}
    (ht : texts req ≠ []) (h1 : embeddings req ≠ [] → (embeddings req).length = 1) (h : textual B w req subset = .error r) :
    Reason B w req r := by
  unfold textual at h
  split at h
  · rename_i hl
    obtain rfl := Except.error.inj h
    have he := hasQueries_iff.1 hl.1
    refine .inr (.inr (.inr (.inl ⟨he, ht, ?_⟩)))
    rintro ⟨ha, hb⟩
    exact hl.2 (ha.trans hb.symm)
  · rename_i hl
    obtain ⟨j, t, hj, h⟩ := hybridFrom_error h
    unfold hybridOne at h
    simp only at h
    rcases bind_error.1 h with h | ⟨_, _, h⟩
    · unfold semanticPart at h
      split at h
      · rename_i hq
        have he := hasQueries_iff.1 hq
        have hlen : (req.queries.getD []).length = (req.textQuery.getD []).length := by
          by_contra hne
          exact hl ⟨hq, hne⟩
        have hone : (req.queries.getD []).length = 1 := h1 he
        have hjl := (List.getElem?_eq_some_iff.1 hj).1
        obtain rfl : j = 0 := by omega
        cases hs : (req.queries.getD [])[0 + 0]? with
        | none =>
          rw [List.getElem?_eq_none_iff] at hs
          omega
        | some s =>
          rw [hs] at h
          have hmem : s ∈ embeddings req := List.mem_of_getElem? hs
          rcases bind_error.1 h with h | ⟨q, hqq, h⟩
          · obtain ⟨rfl, h'⟩ := readQuery_error h
            exact .inr (.inr (.inr (.inr (.inr ⟨s, hmem, h'⟩))))
          rcases bind_error.1 h with h | ⟨x, hx, h⟩
          · obtain ⟨rfl, h'⟩ := readIndex_error h
            exact ⟨he, h'⟩
          rw [readIndex_ok] at hx
          rcases bind_error.1 h with h | ⟨_, _, h⟩
          · obtain ⟨rfl, h'⟩ := checkDim_error h
            exact ⟨x, hx, s, hmem, q, readQuery_ok.1 hqq, h'⟩
          · rcases lift_error.1 (map_error.1 h) with ⟨_, h⟩ | ⟨rfl, h'⟩
            · exact (noErr_searchOne _ _ _ _ _ _ h).elim
            · exact .inl ⟨0, x, q, _, subset, hx, rfl, h'⟩
      · cases h
    rcases bind_error.1 h with h | ⟨_, _, h⟩
    · obtain ⟨rfl, h'⟩ := keywordPart_error h
      exact .inr ⟨_, _, _, h'⟩
    · exact (fetchMetadata_error (map_error.1 h)).elim

theorem alpha_default : (0 : K) ≤ 3 / 4 ∧ (3 / 4 : K) ≤ 1 := by
  constructor
  · positivity
  · rw [div_le_one (by positivity)]
    norm_num

theorem rrfName_eq : rrfName = "rrf".toList := by decide +kernel
theorem relativeName_eq : relativeName = "relative_score".toList := by decide +kernel

theorem checkRequest_ok {req : Request S K} {u : Unit} : checkRequest req = .ok u ↔
    (embeddings req ≠ [] ∨ texts req ≠ []) ∧ (∀ a, req.alpha = some a → 0 ≤ a ∧ a ≤ 1) ∧
    (∀ f, req.fusion = some f → f = "rrf".toList ∨ f = "relative_score".toList) ∧
    (embeddings req ≠ [] → texts req ≠ [] → (embeddings req).length = 1) := by
  unfold checkRequest
  rw [← rrfName_eq, ← relativeName_eq]
  have ha : (0 ≤ req.alpha.getD (3 / 4) ∧ req.alpha.getD (3 / 4) ≤ 1) ↔ ∀ a, req.alpha = some a → 0 ≤ a ∧ a ≤ 1 := by
    cases req.alpha with
    | none => simpa using alpha_default
    | some a => simp
  have hf : ¬ (req.fusion.getD relativeName ≠ rrfName ∧ req.fusion.getD relativeName ≠ relativeName) ↔
      ∀ f, req.fusion = some f → f = rrfName ∨ f = relativeName := by
    cases req.fusion with
    | none => simp
    | some a => simp; tauto
  have hq := hasQueries_iff (req := req)
  have ht := hasText_iff (req := req)
  rw [← ha, ← hf, ← hq, ← ht]
  change _ ↔ _ ∧ _ ∧ _ ∧ (hasQueries req = true → hasText req = true → (req.queries.getD []).length = 1)
  split
  · rename_i h
    constructor
    · intro h; cases h
    · rintro ⟨h', _⟩
      revert h h'
      cases hasQueries req <;> cases hasText req <;> simp
  rename_i h1
  split
  · rename_i h
    constructor
    · intro h; cases h
    · rintro ⟨_, h', _⟩
      exact absurd h' h
  rename_i h2
  split
  · rename_i h
    constructor
    · intro h; cases h
    · rintro ⟨_, _, h', _⟩
      exact absurd h h'
  rename_i h3
  split
  · rename_i h
    constructor
    · intro h; cases h
    · rintro ⟨_, _, _, h'⟩
      exact absurd (h' h.1 h.2.1) h.2.2
  · rename_i h4
    refine ⟨fun _ => ⟨?_, not_not.1 h2, h3, ?_⟩, fun _ => rfl⟩
    · revert h1
      cases hasQueries req <;> cases hasText req <;> simp
    · intro a b
      by_contra hc
      exact h4 ⟨a, b, hc⟩

theorem checkRequest_error {req : Request S K} {r : Refusal} (h : checkRequest req = .error r) : r = .badRequest := by
  unfold checkRequest at h
  repeat' split at h
  all_goals first | exact (Except.error.inj h).symm | cases h

theorem resolve_error {B : Backend E S K} {w : Nat → World E S K} {req : Request S K} {r : Refusal}
    (h : resolveSubset (w 0) req = .error r) : Reason B w req r := by
  unfold resolveSubset at h
  cases hf : req.filter with
  | none => rw [hf] at h; cases h
  | some c =>
    rw [hf] at h
    cases hd : (w 0).db with
    | none =>
      rw [hd] at h
      obtain rfl := Except.error.inj h
      exact ⟨by simp [hf], hd⟩
    | some t =>
      rw [hd] at h
      simp only [Option.isNone_some, Bool.false_eq_true, if_false, whereCondition] at h
      cases hc : c.1 with
      | true => rw [hc] at h; cases h
      | false =>
        rw [hc] at h
        obtain rfl := Except.error.inj h
        exact .inr (.inr (.inr (.inr (.inl ⟨c, hf, hc⟩))))

theorem search_error {B : Backend E S K} {w : Nat → World E S K} {req : Request S K} {r : Refusal}
    (h : search B w req = .error r) : Reason B w req r := by
  unfold search at h
  rcases bind_error.1 h with h | ⟨u, hu, h⟩
  · obtain rfl := checkRequest_error h
    by_contra hc
    simp only [Reason, not_or, not_exists, not_and] at hc
    obtain ⟨c1, c2, c3, c4, _, _⟩ := hc
    have hok : checkRequest req = .ok () := checkRequest_ok.2 ⟨by by_cases h : embeddings req = [] <;> [exact .inr (c1 h); exact .inl h],
      fun a ha => by simpa using c2 a ha, fun f hf => by
        by_cases h : f = "rrf".toList
        · exact .inl h
        · exact .inr (not_not.1 (c3 f hf h)),
      fun he ht => by
        by_contra hn
        exact absurd (c4 he ht) (by tauto)⟩
    rw [hok] at h
    cases h
  obtain ⟨h1, _, _, h4⟩ := checkRequest_ok.1 hu
  rcases bind_error.1 h with h | ⟨subset, _, h⟩
  · exact resolve_error h
  split at h
  · rename_i ht
    have ht := hasText_iff.1 ht
    exact textual_error ht (fun he => h4 he ht) h
  · rename_i ht
    have ht : texts req = [] := by
      by_contra hc
      exact ht (hasText_iff.2 hc)
    exact semanticOnly_error (h1.resolve_right (fun h => h ht)) h

end NextPlaid.SearchApi
