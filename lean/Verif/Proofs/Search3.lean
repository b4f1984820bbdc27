import Verif.Proofs.Search2
import Verif.Proofs.Index3
import Mathlib.Data.List.Basic
import Mathlib.Data.List.Nodup
import Mathlib.Data.List.Perm.Subperm

/-! Search on sound indexes: no panics, exhaustive search, threshold, batched probing. -/

namespace NextPlaid.Search
open NextPlaid NextPlaid.Index NextPlaid.Spec

variable {E : Env} {α : Type} [LinearOrder α]

/-- What search needs of a loaded index. -/
structure Sound (x : Loaded E) : Prop where
  tokens : ∀ i, i < x.numDocuments → ∃ toks, x.docTokens i = .ok toks ∧ ∀ t ∈ toks, t.1 < x.centroids.length
  cands : ∀ cents, ∃ l, x.candidates cents = .ok l ∧ l.Pairwise (· < ·) ∧
    ∀ p : Int, p ∈ l ↔ ∃ i : Nat, p = i ∧ ∃ toks, x.docTokens i = .ok toks ∧ ∃ t ∈ toks, t.1 ∈ cents

theorem Idx.sound (hE : E.Lawful) {d : Disk E} {raw} (h : Idx d raw) {x : Loaded E}
    (hx : Index.load d = .ok x) : Sound x := by
  obtain ⟨y, hy, hh, _, _, hc⟩ := Idx.load h (Idx.load_empty h x hx)
  rw [hx] at hy; cases hy
  refine ⟨?_, hc⟩
  intro i hi
  rw [hh.1] at hi
  obtain ⟨k, k1, k2, k3⟩ := hh.2.1 i raw[i] (List.getElem?_eq_getElem hi)
  refine ⟨_, k3, ?_⟩
  intro t ht
  obtain ⟨r, _, rfl⟩ := List.mem_map.1 ht
  have hne : x.centroids.take k ≠ [] := by
    intro h0
    have := congrArg List.length h0
    rw [List.length_take] at this
    simp at this
    rcases this with h | h
    · omega
    · rw [h] at k2; simp at k2; omega
  have := hE.code_lt (x.centroids.take k) x.quant r hne
  rw [List.length_take] at this
  omega

theorem docTokens_lt {x : Loaded E} {i : Nat} {toks} (h : x.docTokens i = .ok toks) : i < x.numDocuments := by
  unfold Loaded.docTokens at h
  split at h
  · cases h
  · next h' => exact Nat.lt_of_not_le h'

theorem slice_length {β : Type} {l : List β} {s e r} (h : slice l s e = .ok r) : r.length = e - s := by
  unfold slice at h
  split at h
  · cases h
  · cases h; rw [List.length_take, List.length_drop]; omega

theorem docCodes_of {x : Loaded E} {i : Nat} {toks} (h : x.docTokens i = .ok toks) :
    docCodes x (i : Int) = .ok (toks.map (·.1)) := by
  unfold Loaded.docTokens at h
  split at h
  · cases h
  · obtain ⟨s, h1, h⟩ := bind_ok h
    obtain ⟨e, h2, h⟩ := bind_ok h
    obtain ⟨cs, h3, h⟩ := bind_ok h
    obtain ⟨rs, h4, h⟩ := bind_ok h
    cases h
    unfold docCodes
    rw [if_neg (by omega)]
    simp only [Int.toNat_natCast]
    rw [h1, h2]
    simp only [bind, Except.bind]
    rw [h3]
    have := slice_length h3
    have := slice_length h4
    rw [List.map_fst_zip (by omega)]

/-! ### No panics -/

theorem foldlM_exists {β γ : Type} {f : β → γ → Res β} : ∀ (l : List γ) (b : β),
    (∀ b, ∀ a ∈ l, ∃ b', f b a = .ok b') → ∃ r, l.foldlM f b = .ok r
  | [], b, _ => ⟨b, rfl⟩
  | a :: l, b, h => by
    obtain ⟨b', hb⟩ := h b a (by simp)
    obtain ⟨r, hr⟩ := foldlM_exists l b' (fun b a ha => h b a (List.mem_cons_of_mem _ ha))
    refine ⟨r, ?_⟩
    rw [List.foldlM_cons, hb]
    exact hr

theorem foldlM_congr' {β γ : Type} {f g : β → γ → Res β} : ∀ (l : List γ) (b : β),
    (∀ b, ∀ a ∈ l, f b a = g b a) → l.foldlM f b = l.foldlM g b
  | [], b, _ => rfl
  | a :: l, b, h => by
    rw [List.foldlM_cons, List.foldlM_cons, h b a (by simp)]
    cases g b a with
    | error e => rfl
    | ok b' => exact foldlM_congr' l b' (fun b a ha => h b a (List.mem_cons_of_mem _ ha))

theorem setInsert_nodup {s : List Nat} (h : s.Nodup) (c : Nat) : (setInsert s c).Nodup := by
  unfold setInsert
  split
  · exact h
  · next hc =>
    rw [List.nodup_append]
    refine ⟨h, by simp, ?_⟩
    intro a ha b hb
    simp only [List.mem_singleton] at hb
    intro e; exact hc (hb ▸ e ▸ ha)

theorem foldl_setInsert_nodup : ∀ (l acc : List Nat), acc.Nodup → (l.foldl setInsert acc).Nodup
  | [], _, h => h
  | c :: l, acc, h => by
    rw [List.foldl_cons]; exact foldl_setInsert_nodup l _ (setInsert_nodup h c)

theorem eligible_spec {x : Loaded E} (hs : Sound x) (sub : List Int) :
    ∃ el, eligibleCentroids x sub = .ok el ∧ el.Nodup ∧
      ∀ c, c ∈ el ↔ ∃ id ∈ sub, TokenIn x id c := by
  unfold eligibleCentroids
  have key : ∀ (l : List Int) (acc : List Nat), acc.Nodup →
      ∃ el, l.foldlM (fun acc id =>
        if 0 ≤ id ∧ id < (x.docLengths.length : Int) then do
          let cs ← docCodes x id
          Except.ok (cs.foldl setInsert acc)
        else Except.ok acc) acc = Except.ok (ε := Fault) el ∧ el.Nodup ∧
        ∀ c, c ∈ el ↔ c ∈ acc ∨ ∃ id ∈ l, TokenIn x id c := by
    intro l
    induction l with
    | nil => intro acc h; exact ⟨acc, rfl, h, by simp⟩
    | cons id l ih =>
      intro acc hacc
      rw [List.foldlM_cons]
      by_cases hid : 0 ≤ id ∧ id < (x.docLengths.length : Int)
      · rw [if_pos hid]
        obtain ⟨i, rfl⟩ := Int.eq_ofNat_of_zero_le hid.1
        obtain ⟨toks, ht, _⟩ := hs.tokens i (by unfold Loaded.numDocuments; omega)
        rw [docCodes_of ht]
        obtain ⟨el, h1, h2, h3⟩ := ih ((toks.map (·.1)).foldl setInsert acc) (foldl_setInsert_nodup _ _ hacc)
        refine ⟨el, h1, h2, ?_⟩
        intro c
        rw [h3, mem_foldl_setInsert]
        constructor
        · rintro ((h | h) | ⟨id, h, h'⟩)
          · exact Or.inl h
          · obtain ⟨t, ht', rfl⟩ := List.mem_map.1 h
            exact Or.inr ⟨i, by simp, by omega, toks, by simpa using ht, t, ht', rfl⟩
          · exact Or.inr ⟨id, List.mem_cons_of_mem _ h, h'⟩
        · rintro (h | ⟨id, h, h'⟩)
          · exact Or.inl (Or.inl h)
          · rcases List.mem_cons.1 h with rfl | h
            · obtain ⟨_, toks', e, t, ht', rfl⟩ := h'
              simp only [Int.toNat_natCast] at e
              rw [ht] at e; cases e
              exact Or.inl (Or.inr (List.mem_map.2 ⟨t, ht', rfl⟩))
            · exact Or.inr ⟨id, h, h'⟩
      · rw [if_neg hid]
        obtain ⟨el, h1, h2, h3⟩ := ih acc hacc
        refine ⟨el, h1, h2, ?_⟩
        intro c
        rw [h3]
        constructor
        · rintro (h | ⟨id, h, h'⟩)
          · exact Or.inl h
          · exact Or.inr ⟨id, List.mem_cons_of_mem _ h, h'⟩
        · rintro (h | ⟨id', h, h'⟩)
          · exact Or.inl h
          · rcases List.mem_cons.1 h with rfl | h
            · exfalso
              obtain ⟨h0, toks, ht, _⟩ := h'
              have := docTokens_lt ht
              unfold Loaded.numDocuments at this
              omega
            · exact Or.inr ⟨id', h, h'⟩
  obtain ⟨el, h1, h2, h3⟩ := key sub [] (by simp)
  exact ⟨el, h1, h2, fun c => by rw [h3]; simp⟩

theorem eligible_lt {x : Loaded E} (hs : Sound x) {sub el} (h : eligibleCentroids x sub = .ok el) :
    ∀ c ∈ el, c < x.centroids.length := by
  obtain ⟨el', h1, _, h3⟩ := eligible_spec hs sub
  rw [h] at h1; cases h1
  intro c hc
  obtain ⟨id, _, _, toks, ht, t, htm, rfl⟩ := (h3 c).1 hc
  obtain ⟨toks', ht', hlt⟩ := hs.tokens _ (docTokens_lt ht)
  rw [ht] at ht'; cases ht'
  exact hlt t htm

theorem nodup_le {l : List Nat} (h : l.Nodup) {k : Nat} (hk : ∀ c ∈ l, c < k) : l.length ≤ k := by
  have := (List.subperm_of_subset h (l₂ := List.range k) (fun c hc => List.mem_range.2 (hk c hc))).length_le
  simpa using this

theorem approxDense_ok {N : Num E α} {rows : List (List (Score α))} {codes : List Nat} {k : Nat}
    (hrows : ∀ row ∈ rows, row.length = k) (hc : ∀ c ∈ codes, c < k) :
    ∃ s, approxDense N rows codes = .ok s := by
  unfold approxDense
  refine foldlM_exists _ _ ?_
  intro b row hr
  obtain ⟨sims, hs⟩ := mapM_exists (f := fun c => idx row c) (l := codes) (by
    intro c hcm
    refine ⟨row[c]'(by rw [hrows row hr]; exact hc c hcm), ?_⟩
    unfold idx
    rw [List.getElem?_eq_getElem])
  rw [hs]
  exact ⟨_, rfl⟩

/-- `mapM` when every step succeeds. -/
theorem mapM_pure {β γ : Type} {f : β → Res γ} (g : β → γ) : ∀ (l : List β), (∀ a ∈ l, f a = .ok (g a)) →
    l.mapM f = .ok (l.map g)
  | [], _ => rfl
  | a :: l, h => by
    rw [mapM_cons_eq, h a (by simp), mapM_pure g l (fun b hb => h b (List.mem_cons_of_mem _ hb))]
    rfl

theorem foldlM_pure {β γ : Type} {f : β → γ → Res β} (g : β → γ → β) : ∀ (l : List γ) (b : β),
    (∀ b, ∀ a ∈ l, f b a = .ok (g b a)) → l.foldlM f b = .ok (l.foldl g b)
  | [], _, _ => rfl
  | a :: l, b, h => by
    rw [List.foldlM_cons, h b a (by simp), List.foldl_cons]
    exact foldlM_pure g l _ (fun b a ha => h b a (List.mem_cons_of_mem _ ha))

/-- Both approximate scores, written directly: for each query token the maximum over the document's
centroids. -/
def approxDirect (N : Num E α) (cents : List E.Cent) (query : List N.Q) (codes : List Nat) : Score α :=
  query.foldl (fun total q => approxAdd N total (codes.filterMap fun c => cents[c]?.map (N.dot q))) N.zero

theorem filterMap_map_of {β γ : Type} {f : β → Option γ} {g : β → γ} : ∀ (l : List β),
    (∀ a ∈ l, f a = some (g a)) → l.filterMap f = l.map g
  | [], _ => rfl
  | a :: l, h => by
    rw [List.filterMap_cons, h a (by simp), filterMap_map_of l (fun b hb => h b (List.mem_cons_of_mem _ hb))]
    rfl

theorem mapM_idx_dot {N : Num E α} (cents : List E.Cent) (q : N.Q) : ∀ (codes : List Nat),
    (∀ c ∈ codes, c < cents.length) →
    codes.mapM (fun c => idx (cents.map (N.dot q)) c) =
      .ok (codes.filterMap fun c => cents[c]?.map (N.dot q))
  | [], _ => rfl
  | c :: codes, h => by
    have hc := h c (by simp)
    rw [mapM_cons_eq, mapM_idx_dot cents q codes (fun b hb => h b (List.mem_cons_of_mem _ hb))]
    unfold idx
    rw [List.getElem?_map, List.filterMap_cons, List.getElem?_eq_getElem hc]
    rfl

theorem approxDense_eq {N : Num E α} (cents : List E.Cent) (query : List N.Q) (codes : List Nat)
    (hc : ∀ c ∈ codes, c < cents.length) :
    approxDense N (scoreRows N cents query) codes = .ok (approxDirect N cents query codes) := by
  unfold approxDense approxDirect scoreRows
  rw [List.foldlM_map]
  refine foldlM_pure _ _ _ ?_
  intro b q _
  rw [mapM_idx_dot cents q codes hc]
  rfl

theorem buildSparse_find {N : Num E α} {cents : List E.Cent} {query : List N.Q} : ∀ {ids : List Nat} {sp},
    buildSparse N cents query ids = .ok sp → ∀ c ∈ ids, ∃ cent, cents[c]? = some cent ∧
      sp.find? (fun e => decide (e.1 = c)) = some (c, query.map fun q => N.dot q cent)
  | [], sp, _, c, hc => by cases hc
  | i :: ids, sp, h, c, hc => by
    obtain ⟨b, r', rfl, h1, h2⟩ : ∃ b r', sp = b :: r' ∧
        (do let cent ← idx cents i; Except.ok (i, query.map fun q => N.dot q cent)) = .ok b ∧
        buildSparse N cents query ids = .ok r' := by
      have := mapM_inv_cons h
      obtain ⟨b, r', g1, g2, g3⟩ := this
      exact ⟨b, r', by first | exact g1 | exact g3 | exact g2, by first | exact g1 | exact g2 | exact g3,
        by first | exact g1 | exact g2 | exact g3⟩
    obtain ⟨cent, hi, h1⟩ := bind_ok h1
    cases h1
    unfold idx at hi
    split at hi
    · next heq =>
      cases hi
      by_cases hic : i = c
      · subst hic
        exact ⟨cent, heq, by simp⟩
      · rcases List.mem_cons.1 hc with rfl | hc
        · exact absurd rfl hic
        · obtain ⟨cent', g1, g2⟩ := buildSparse_find h2 c hc
          exact ⟨cent', g1, by rw [List.find?_cons_of_neg (by simpa using hic)]; exact g2⟩
    · cases hi

theorem range_foldl_eq {β γ : Type} (l : List β) (g : γ → β → γ) (b : γ) (f : γ → Nat → γ)
    (h : ∀ c (i : Nat) a, l[i]? = some a → f c i = g c a) : (List.range l.length).foldl f b = l.foldl g b := by
  induction l generalizing b f with
  | nil => rfl
  | cons a l ih =>
    rw [List.length_cons, List.range_succ_eq_map, List.foldl_cons, List.foldl_map, List.foldl_cons,
      h b 0 a (by simp)]
    exact ih _ _ (fun c i a' ha => h c (i + 1) a' (by simpa using ha))

theorem approxSparse_eq {N : Num E α} {cents : List E.Cent} {query : List N.Q} {ids : List Nat} {sp}
    (h : buildSparse N cents query ids = .ok sp) (codes : List Nat) (hc : ∀ c ∈ codes, c ∈ ids) :
    approxSparse N sp codes query.length = .ok (approxDirect N cents query codes) := by
  unfold approxSparse approxDirect
  have hstep : ∀ b, ∀ i ∈ List.range query.length, (do
      let sims ← codes.mapM (sparseSim sp i)
      Except.ok (approxAdd N b sims.flatten)) =
      Except.ok (ε := Fault) (match query[i]? with
        | some q => approxAdd N b (codes.filterMap fun c => cents[c]?.map (N.dot q))
        | none => b) := by
    intro b i hi
    have hi' := List.mem_range.1 hi
    have : codes.mapM (sparseSim sp i) =
        .ok (codes.map fun c => (cents[c]?.map (N.dot query[i])).toList) := by
      refine mapM_pure _ _ ?_
      intro c hcm
      obtain ⟨cent, g1, g2⟩ := buildSparse_find h c (hc c hcm)
      unfold sparseSim
      rw [g2]
      simp only []
      unfold idx
      rw [List.getElem?_map, List.getElem?_eq_getElem hi', g1]
      rfl
    rw [this, List.getElem?_eq_getElem hi']
    simp only [bind, Except.bind]
    congr 2
    clear this hc
    induction codes with
    | nil => rfl
    | cons c codes ih =>
      rw [List.map_cons, List.flatten_cons, List.filterMap_cons, ih]
      cases cents[c]? <;> rfl
  rw [foldlM_pure _ _ _ hstep]
  congr 1
  apply range_foldl_eq
  intro c i q hq
  rw [hq]

theorem approxStandard_eq {N : Num E α} {x : Loaded E} (hs : Sound x) (query : List N.Q) {cands : List Int}
    (hc : ∀ id ∈ cands, ∃ i : Nat, id = i ∧ i < x.numDocuments) :
    approxStandard N x query cands = .ok (cands.map fun id =>
      (id, approxDirect N x.centroids query (match docCodes x id with | .ok cs => cs | .error _ => []))) := by
  unfold approxStandard
  refine mapM_pure _ _ ?_
  intro id hid
  obtain ⟨i, rfl, hi⟩ := hc id hid
  obtain ⟨toks, ht, hlt⟩ := hs.tokens i hi
  rw [docCodes_of ht]
  simp only [bind, Except.bind]
  rw [approxDense_eq]
  intro c hcm
  obtain ⟨t, htm, rfl⟩ := List.mem_map.1 hcm
  exact hlt t htm

theorem approxBatched_eq {N : Num E α} {x : Loaded E} (hs : Sound x) (query : List N.Q) {cands : List Int}
    (hc : ∀ id ∈ cands, ∃ i : Nat, id = i ∧ i < x.numDocuments) :
    approxBatched N x query cands = .ok (cands.map fun id =>
      (id, approxDirect N x.centroids query (match docCodes x id with | .ok cs => cs | .error _ => []))) := by
  unfold approxBatched
  have hcodes : ∀ id ∈ cands, ∃ cs, docCodes x id = .ok cs ∧ ∀ c ∈ cs, c < x.centroids.length := by
    intro id hid
    obtain ⟨i, rfl, hi⟩ := hc id hid
    obtain ⟨toks, ht, hlt⟩ := hs.tokens i hi
    refine ⟨_, docCodes_of ht, ?_⟩
    intro c hcm
    obtain ⟨t, htm, rfl⟩ := List.mem_map.1 hcm
    exact hlt t htm
  obtain ⟨codes, hcs⟩ := mapM_exists (f := docCodes x) (l := cands) (fun id hid =>
    let ⟨cs, h, _⟩ := hcodes id hid; ⟨cs, h⟩)
  rw [hcs]
  simp only [bind, Except.bind]
  have hall : ∀ c ∈ codes.flatten.foldl setInsert [], c < x.centroids.length := by
    intro c hcm
    rw [mem_foldl_setInsert] at hcm
    simp only [List.not_mem_nil, false_or, List.mem_flatten] at hcm
    obtain ⟨l, hl, hcl⟩ := hcm
    obtain ⟨id, hid, hd⟩ := mapM_mem hcs l hl
    obtain ⟨cs, h1, h2⟩ := hcodes id hid
    rw [hd] at h1; cases h1
    exact h2 c hcl
  have : ∃ sp, buildSparse N x.centroids query (codes.flatten.foldl setInsert []) = .ok sp := by
    unfold buildSparse
    refine mapM_exists ?_
    intro c hcm
    unfold idx
    rw [List.getElem?_eq_getElem (hall c hcm)]
    exact ⟨_, rfl⟩
  obtain ⟨sp, hsp⟩ := this
  rw [hsp]
  simp only []
  refine mapM_pure _ _ ?_
  intro id hid
  obtain ⟨cs, h1, _⟩ := hcodes id hid
  rw [h1]
  simp only []
  rw [approxSparse_eq hsp]
  intro c hcm
  rw [mem_foldl_setInsert]
  obtain ⟨b, hb, hd⟩ := mapM_mem' hcs id hid
  rw [h1] at hd; cases hd
  exact Or.inr (List.mem_flatten.2 ⟨_, hb, hcm⟩)

theorem rank_ok {N : Num E α} {x : Loaded E} (hs : Sound x) {query : List N.Q} {p : Params α}
    {approx : List (Int × Score α)} (hc : ∀ q ∈ approx, ∃ i : Nat, q.1 = i ∧ i < x.numDocuments)
    (hdec : ∀ i toks, x.docTokens i = .ok toks → N.decode x.centroids x.quant toks ≠ .error .panic) :
    ∃ r, rank N x query p approx = .ok r := by
  unfold rank
  simp only []
  split
  · exact ⟨_, rfl⟩
  · rw [exactScores_eq]
    obtain ⟨ps, hps⟩ := mapM_exists (f := exactOne N x query)
      (l := (((sortDesc approx).take p.nFullScores).map (·.1)).take (max (p.nFullScores / 4) p.topK)) (by
      intro id hid
      have hid := List.mem_of_mem_take hid
      obtain ⟨q, hq, rfl⟩ := List.mem_map.1 hid
      have hq := (sortDesc_perm approx).mem_iff.1 (List.mem_of_mem_take hq)
      obtain ⟨i, hi, hlt⟩ := hc q hq
      obtain ⟨toks, ht, _⟩ := hs.tokens i hlt
      unfold exactOne
      rw [hi, if_neg (by omega)]
      simp only [Int.toNat_natCast]
      rw [ht]
      simp only [bind, Except.bind]
      cases hd : N.decode x.centroids x.quant toks with
      | ok v => exact ⟨_, rfl⟩
      | error e =>
        cases e with
        | err => exact ⟨_, rfl⟩
        | panic => exact absurd hd (hdec i toks ht))
    rw [hps]
    exact ⟨_, rfl⟩

theorem gather_ok {x : Loaded E} (hs : Sound x) (cells : List Nat) (subset : Option (List Int)) :
    ∃ l, gather x cells subset = .ok l ∧ (∀ id ∈ l, ∃ i : Nat, id = i ∧ i < x.numDocuments) ∧
      ∀ id, id ∈ l ↔ (∃ c ∈ cells, TokenIn x id c) ∧ ∀ sub, subset = some sub → id ∈ sub := by
  obtain ⟨l0, h0, _, hm⟩ := hs.cands cells
  have : ∃ l, gather x cells subset = .ok l := by
    unfold gather; rw [h0]; exact ⟨_, rfl⟩
  obtain ⟨l, hl⟩ := this
  obtain ⟨_, _, l0', h0', hm'⟩ := gather_spec hl
  rw [h0] at h0'; cases h0'
  refine ⟨l, hl, ?_, ?_⟩
  · intro id hid
    obtain ⟨i, hi, toks, ht, _⟩ := (hm id).1 ((hm' id).1 hid).1
    exact ⟨i, hi, docTokens_lt ht⟩
  · intro id
    rw [hm', hm]
    refine and_congr_left fun _ => ?_
    constructor
    · rintro ⟨i, rfl, toks, ht, t, htm, hc⟩
      exact ⟨t.1, hc, by omega, toks, by simpa using ht, t, htm, rfl⟩
    · rintro ⟨c, hc, h0, toks, ht, t, htm, rfl⟩
      exact ⟨id.toNat, by omega, toks, ht, t, htm, hc⟩

theorem scoreRows_length {N : Num E α} {cents : List E.Cent} {query : List N.Q} :
    ∀ row ∈ scoreRows N cents query, row.length = cents.length := by
  intro row hr
  obtain ⟨q, _, rfl⟩ := List.mem_map.1 hr
  simp

theorem eligibleOf_ok {x : Loaded E} (hs : Sound x) (subset : Option (List Int)) :
    ∃ el, eligibleOf x subset = .ok el ∧ (∀ l, el = some l → ∀ c ∈ l, c < x.centroids.length) ∧
      (el = none ↔ subset = none) ∧
      ∀ sub, subset = some sub → ∃ l, el = some l ∧ l.Nodup ∧ ∀ c, c ∈ l ↔ ∃ id ∈ sub, TokenIn x id c := by
  cases subset with
  | none => exact ⟨none, rfl, by simp, by simp, by simp⟩
  | some sub =>
    obtain ⟨el, h1, h2, h3⟩ := eligible_spec hs sub
    refine ⟨some el, by simp only [eligibleOf]; rw [h1]; rfl, ?_, by simp, ?_⟩
    · intro l e; cases e; exact eligible_lt hs h1
    · intro sub' e; cases e; exact ⟨el, rfl, h2, h3⟩

theorem effectiveProbe_pos {x : Loaded E} {n : Nat} (hn : 0 < n) (subset : Option (List Int))
    (el : Option (List Nat)) : 0 < effectiveProbe x n subset el := by
  unfold effectiveProbe
  split
  · split
    · next h =>
      have := List.length_pos_iff.2 h
      simp only []
      omega
    · exact hn
  · exact hn

/-- Search never panics on a sound index with a positive probe count. -/
theorem searchOne_ok {o : Oracle α} (ho : o.Lawful) {N : Num E α} {x : Loaded E} (hs : Sound x)
    {query : List N.Q} {p : Params α} {subset} (hn : 0 < p.nIvfProbe)
    (hdec : ∀ i toks, x.docTokens i = .ok toks → N.decode x.centroids x.quant toks ≠ .error .panic) :
    ∃ r, searchOne o N x query p subset = .ok r := by
  unfold searchOne
  split
  · next hb =>
    unfold searchBatched
    have : ∃ cells, probeBatched o N x.centroids query p.nIvfProbe p.centroidBatchSize p.threshold = .ok cells := by
      unfold probeBatched
      rw [if_neg (by omega)]
      exact ⟨_, rfl⟩
    obtain ⟨cells, hcells⟩ := this
    obtain ⟨cands, hg, hc, _⟩ := gather_ok hs cells subset
    rw [hcells]
    simp only [bind, Except.bind]
    rw [hg]
    simp only []
    split
    · exact ⟨_, rfl⟩
    · rw [approxBatched_eq hs query hc]
      refine rank_ok hs ?_ hdec
      intro q hq
      obtain ⟨id, hid, rfl⟩ := List.mem_map.1 hq
      exact hc id hid
  · unfold searchStandard
    obtain ⟨el, hel, hlt, _⟩ := eligibleOf_ok hs subset
    obtain ⟨cells, hcells⟩ := probeStandard_ok ho (rows := scoreRows N x.centroids query)
      (k := x.centroids.length) (thr := p.threshold) (effectiveProbe_pos (x := x) hn subset el)
      scoreRows_length hlt
    obtain ⟨cands, hg, hc, _⟩ := gather_ok hs cells subset
    rw [hel]
    simp only [bind, Except.bind]
    rw [hcells]
    simp only []
    rw [hg]
    simp only []
    split
    · exact ⟨_, rfl⟩
    · rw [approxStandard_eq hs query hc]
      refine rank_ok hs ?_ hdec
      intro q hq
      obtain ⟨id, hid, rfl⟩ := List.mem_map.1 hq
      exact hc id hid

end NextPlaid.Search
