import Verif.Proofs.SearchLists
import Verif.Proofs.Index2
import Verif.Spec.Search

/-! Search: ranking, gathering, probing. -/

namespace NextPlaid.Search
open NextPlaid NextPlaid.Index NextPlaid.Spec

variable {E : Env} {α : Type} [LinearOrder α]

theorem bind_ok {β γ : Type} {x : Res β} {f : β → Res γ} {r : γ} (h : (x >>= f) = .ok r) :
    ∃ a, x = .ok a ∧ f a = .ok r := by
  cases x with
  | error e => cases h
  | ok a => exact ⟨a, rfl, h⟩

theorem exactScores_eq (N : Num E α) (x : Loaded E) (query : List N.Q) (ids : List Int) :
    exactScores N x query ids =
      (do let ps ← ids.mapM (exactOne N x query); Except.ok ps.flatten) := by
  unfold exactScores
  have := mapM_chunks (exactOne N x query) ((List.range (numChunksFor ids.length 128)).map (chunkSlice ids 128))
  rw [chunk_flatten ids 128 (by decide), List.mapM_map] at this
  exact this

theorem exactOne_inv {N : Num E α} {x : Loaded E} {query : List N.Q} {id : Int} {ps}
    (h : exactOne N x query id = .ok ps) :
    (ps = [] ∧ ¬ ∃ s, ScoreOf N x query id s) ∨ ∃ s, ps = [(id, s)] ∧ ScoreOf N x query id s := by
  unfold exactOne at h
  split at h
  · next hneg =>
    cases h
    exact Or.inl ⟨rfl, fun ⟨s, hs⟩ => by have := hs.1; omega⟩
  · next hneg =>
    cases ht : x.docTokens id.toNat with
    | error e =>
      rw [ht] at h
      simp only [bind, Except.bind] at h
      refine Or.inl ?_
      cases e with
      | err => cases h; exact ⟨rfl, fun ⟨s, _, _, toks, v, h1, _⟩ => by rw [ht] at h1; cases h1⟩
      | panic => cases h
    | ok toks =>
      rw [ht] at h
      simp only [bind, Except.bind] at h
      cases hd : N.decode x.centroids x.quant toks with
      | error e =>
        rw [hd] at h
        refine Or.inl ?_
        cases e with
        | err =>
          cases h
          refine ⟨rfl, fun ⟨s, _, _, toks', v, h1, h2, _⟩ => ?_⟩
          rw [ht] at h1; cases h1; rw [hd] at h2; cases h2
        | panic => cases h
      | ok v =>
        rw [hd] at h
        cases h
        refine Or.inr ⟨_, rfl, by omega, ?_, toks, v, ht, hd, rfl⟩
        unfold Loaded.docTokens at ht
        split at ht
        · cases ht
        · next hlt => unfold Loaded.numDocuments; omega

theorem scoreOf_unique {N : Num E α} {x : Loaded E} {query : List N.Q} {id : Int} {s t}
    (h : ScoreOf N x query id s) (h' : ScoreOf N x query id t) : s = t := by
  obtain ⟨_, _, toks, v, h1, h2, rfl⟩ := h
  obtain ⟨_, _, toks', v', h1', h2', rfl⟩ := h'
  rw [h1] at h1'; cases h1'; rw [h2] at h2'; cases h2'; rfl

/-- The scored list: a sublist of the ids, each with its exact score. -/
theorem exactScores_spec {N : Num E α} {x : Loaded E} {query : List N.Q} : ∀ {ids : List Int} {ps},
    exactScores N x query ids = .ok ps →
    (ps.map (·.1)).Sublist ids ∧ (∀ p ∈ ps, ScoreOf N x query p.1 p.2) ∧
      (∀ id ∈ ids, ∀ s, ScoreOf N x query id s → (id, s) ∈ ps) := by
  intro ids ps h
  rw [exactScores_eq] at h
  obtain ⟨parts, h1, h2⟩ := bind_ok h
  cases h2
  clear h
  induction ids generalizing parts with
  | nil => cases h1; simp
  | cons id ids ih =>
    obtain ⟨p, parts', g1, g2, rfl⟩ := mapM_inv_cons h1
    obtain ⟨i1, i2, i3⟩ := ih parts' g2
    rw [List.flatten_cons]
    rcases exactOne_inv g1 with ⟨rfl, hno⟩ | ⟨s, rfl, hs⟩
    · rw [List.nil_append]
      refine ⟨i1.cons id, i2, ?_⟩
      intro id' hid' s hs
      rcases List.mem_cons.1 hid' with rfl | hid'
      · exact absurd ⟨s, hs⟩ hno
      · exact i3 id' hid' s hs
    · rw [List.singleton_append, List.map_cons]
      refine ⟨i1.cons₂ id, ?_, ?_⟩
      · intro p hp
        rcases List.mem_cons.1 hp with rfl | hp
        · exact hs
        · exact i2 p hp
      · intro id' hid' s' hs'
        rcases List.mem_cons.1 hid' with rfl | hid'
        · rw [scoreOf_unique hs hs']; simp
        · exact List.mem_cons_of_mem _ (i3 id' hid' s' hs')

theorem wellFormed_of {N : Num E α} {x : Loaded E} {query : List N.Q} {k : Nat}
    {ps : List (Int × Score α)} (hk : ps.length ≤ k) (hn : (ps.map (·.1)).Nodup)
    (hs : ∀ p ∈ ps, ScoreOf N x query p.1 p.2) (hsort : ps.Pairwise (fun a b => Score.ge a.2 b.2)) (i : Nat) :
    WellFormed N x query k ⟨i, ps.map (·.1), ps.map (·.2)⟩ := by
  refine ⟨by simpa using hk, by simp, hn, ?_, ?_⟩
  · intro i id s h1 h2
    simp only [List.getElem?_map, Option.map_eq_some_iff] at h1 h2
    obtain ⟨p, hp, rfl⟩ := h1
    obtain ⟨p', hp', rfl⟩ := h2
    rw [hp] at hp'; cases hp'
    exact hs p (List.mem_of_getElem? hp)
  · intro i j s t hij h1 h2
    simp only [List.getElem?_map, Option.map_eq_some_iff] at h1 h2
    obtain ⟨p, hp, rfl⟩ := h1
    obtain ⟨p', hp', rfl⟩ := h2
    obtain ⟨hi, rfl⟩ := List.getElem?_eq_some_iff.1 hp
    obtain ⟨hj, rfl⟩ := List.getElem?_eq_some_iff.1 hp'
    have := List.pairwise_iff_getElem.1 hsort i j hi hj hij
    unfold StrictlyBetter
    rw [Score.gt_iff, Classical.not_not]
    exact this

theorem rank_spec {N : Num E α} {x : Loaded E} {query : List N.Q} {p : Params α}
    {approx : List (Int × Score α)} {r : Result α} (hnd : (approx.map (·.1)).Nodup)
    (h : rank N x query p approx = .ok r) :
    WellFormed N x query p.topK r ∧ (∀ id ∈ r.passageIds, id ∈ approx.map (·.1)) ∧
      (approx.length ≤ p.nFullScores → approx.length ≤ max (p.nFullScores / 4) p.topK →
        BestK N x query p.topK (fun id => id ∈ approx.map (·.1) ∧ ∃ s, ScoreOf N x query id s) r) := by
  unfold rank at h
  simp only [] at h
  generalize htop : ((sortDesc approx).take p.nFullScores).map (·.1) = top at h
  generalize htd : top.take (max (p.nFullScores / 4) p.topK) = td at h
  have hperm := sortDesc_perm approx
  have htdsub : td.Sublist ((sortDesc approx).map (·.1)) := by
    rw [← htd, ← htop]
    exact (List.take_sublist _ _).trans ((List.take_sublist _ _).map _)
  have hmem : ∀ id ∈ td, id ∈ approx.map (·.1) := fun id hid =>
    (hperm.map (·.1)).mem_iff.1 (htdsub.subset hid)
  have htdnd : td.Nodup := htdsub.nodup ((hperm.map (·.1)).nodup_iff.2 hnd)
  have hall : approx.length ≤ p.nFullScores → approx.length ≤ max (p.nFullScores / 4) p.topK →
      td = (sortDesc approx).map (·.1) := by
    intro h1 h2
    rw [← htd, ← htop, List.take_of_length_le (l := sortDesc approx) (by rw [hperm.length_eq]; exact h1),
      List.take_of_length_le (by rw [List.length_map, hperm.length_eq]; exact h2)]
  split at h
  · next h0 =>
    cases h
    have hw := wellFormed_of (N := N) (x := x) (query := query) (k := p.topK) (ps := []) (by simp)
      (by simp) (by simp) (by simp) 0
    refine ⟨hw, by simp [emptyResult], ?_⟩
    intro h1 h2
    have := hall h1 h2
    rw [h0] at this
    have hemp : approx.map (·.1) = [] := by
      have h3 := (hperm.map (·.1)).symm
      rw [← this] at h3
      exact h3.eq_nil
    refine ⟨hw, by simp [emptyResult], ?_, ?_⟩
    · intro _ id hid; rw [hemp] at hid; simp at hid
    · intro id s hid; rw [hemp] at hid; simp at hid
  · obtain ⟨scored, h1, h2⟩ := bind_ok h
    obtain ⟨s1, s2, s3⟩ := exactScores_spec h1
    cases h2
    have hp2 := sortDesc_perm scored
    have hsnd : ((sortDesc scored).map (·.1)).Nodup := (hp2.map (·.1)).nodup_iff.2 (s1.nodup htdnd)
    have htake : (sortDesc scored).take (min p.topK (sortDesc scored).length) = (sortDesc scored).take p.topK := by
      rcases Nat.le_total p.topK (sortDesc scored).length with h | h
      · rw [Nat.min_eq_left h]
      · rw [Nat.min_eq_right h, List.take_length, List.take_of_length_le h]
    simp only [htake]
    have hw := wellFormed_of (N := N) (x := x) (query := query) (k := p.topK)
      (ps := (sortDesc scored).take p.topK) (by rw [List.length_take]; omega)
      (((List.take_sublist _ _).map _).nodup hsnd)
      (fun q hq => s2 q (hp2.mem_iff.1 (List.mem_of_mem_take hq)))
      ((sortDesc_sorted scored).sublist (List.take_sublist _ _)) 0
    have hids : ∀ id ∈ ((sortDesc scored).take p.topK).map (·.1), id ∈ approx.map (·.1) ∧
        ∃ s, ScoreOf N x query id s := by
      intro id hid
      obtain ⟨q, hq, rfl⟩ := List.mem_map.1 hid
      have hq := hp2.mem_iff.1 (List.mem_of_mem_take hq)
      exact ⟨hmem _ (s1.subset (List.mem_map.2 ⟨q, hq, rfl⟩)), _, s2 q hq⟩
    refine ⟨hw, fun id hid => (hids id hid).1, ?_⟩
    intro g1 g2
    have htdall := hall g1 g2
    have hin : ∀ id, id ∈ approx.map (·.1) → id ∈ td := by
      intro id hid
      rw [htdall]
      exact (hperm.map (·.1)).mem_iff.2 hid
    refine ⟨hw, hids, ?_, ?_⟩
    · intro hlt id hid
      obtain ⟨hid, s, hs⟩ := hid
      have hmem2 := hp2.mem_iff.2 (s3 id (hin id hid) s hs)
      rw [List.length_map, List.length_take] at hlt
      rw [List.take_of_length_le (by omega)]
      exact List.mem_map.2 ⟨_, hmem2, rfl⟩
    · intro id s hid hs hnot t ht
      have hmem2 := hp2.mem_iff.2 (s3 id (hin id hid.1) s hs)
      obtain ⟨q, hq, rfl⟩ := List.mem_map.1 ht
      have hdrop : (id, s) ∈ (sortDesc scored).drop p.topK := by
        rw [← List.take_append_drop p.topK (sortDesc scored)] at hmem2
        rcases List.mem_append.1 hmem2 with h | h
        · exact absurd (List.mem_map.2 ⟨_, h, rfl⟩) hnot
        · exact h
      have hpw := sortDesc_sorted scored
      rw [← List.take_append_drop p.topK (sortDesc scored), List.pairwise_append] at hpw
      unfold StrictlyBetter
      rw [Score.gt_iff, Classical.not_not]
      exact hpw.2.2 q hq _ hdrop

theorem candidates_sorted {x : Loaded E} {cells l} (h : x.candidates cells = .ok l) :
    l.Pairwise (· < ·) := by
  unfold Loaded.candidates at h
  obtain ⟨parts, _, h2⟩ := bind_ok h
  cases h2
  exact sortDedup_sorted _

theorem gather_spec {x : Loaded E} {cells subset l} (h : gather x cells subset = .ok l) :
    l.Pairwise (· < ·) ∧ (∀ sub, subset = some sub → ∀ id ∈ l, id ∈ sub) ∧
      ∃ l0, x.candidates cells = .ok l0 ∧ ∀ id, id ∈ l ↔ id ∈ l0 ∧ ∀ sub, subset = some sub → id ∈ sub := by
  unfold gather at h
  obtain ⟨l0, h1, h2⟩ := bind_ok h
  have hs := candidates_sorted h1
  cases subset with
  | none => cases h2; exact ⟨hs, by simp, _, h1, by simp⟩
  | some sub =>
    cases h2
    refine ⟨hs.filter _, ?_, l0, h1, ?_⟩
    · intro sub' e id hid
      cases e
      simpa using (List.mem_filter.1 hid).2
    · intro id
      simp [List.mem_filter]

theorem pairwise_lt_nodup {l : List Int} (h : l.Pairwise (· < ·)) : l.Nodup :=
  h.imp (fun hab => by omega)

theorem approxStandard_ids {N : Num E α} {x : Loaded E} {query : List N.Q} {cands approx}
    (h : approxStandard N x query cands = .ok approx) : approx.map (·.1) = cands := by
  have := mapM_map (fun (p : Int × Score α) => p.1) id (by
    intro id p hp
    obtain ⟨codes, _, h2⟩ := bind_ok hp
    obtain ⟨s, _, h3⟩ := bind_ok h2
    cases h3; rfl) h
  simpa using this

theorem approxBatched_ids {N : Num E α} {x : Loaded E} {query : List N.Q} {cands approx}
    (h : approxBatched N x query cands = .ok approx) : approx.map (·.1) = cands := by
  unfold approxBatched at h
  obtain ⟨codes, _, h⟩ := bind_ok h
  obtain ⟨sparse, _, h⟩ := bind_ok h
  have := mapM_map (fun (p : Int × Score α) => p.1) id (by
    intro id p hp
    obtain ⟨codes, _, h2⟩ := bind_ok hp
    obtain ⟨s, _, h3⟩ := bind_ok h2
    cases h3; rfl) h
  simpa using this

/-- Everything a successful search went through: the probed cells, the candidates, and the answer. -/
theorem searchOne_inv {o : Oracle α} {N : Num E α} {x : Loaded E} {query : List N.Q} {p : Params α}
    {subset r} (h : searchOne o N x query p subset = .ok r) :
    ∃ cells cands,
      ((0 < p.centroidBatchSize ∧ p.centroidBatchSize < x.centroids.length ∧
          probeBatched o N x.centroids query p.nIvfProbe p.centroidBatchSize p.threshold = .ok cells) ∨
        (∃ eligible, eligibleOf x subset = .ok eligible ∧
          ¬ (0 < p.centroidBatchSize ∧ p.centroidBatchSize < x.centroids.length) ∧
          probeStandard o (scoreRows N x.centroids query) x.centroids.length eligible
            (effectiveProbe x p.nIvfProbe subset eligible) p.threshold = .ok cells)) ∧
      gather x cells subset = .ok cands ∧
      ((cands = [] ∧ r = emptyResult) ∨
        ∃ approx, approx.map (·.1) = cands ∧ rank N x query p approx = .ok r) := by
  unfold searchOne at h
  split at h
  · next hb =>
    unfold searchBatched at h
    obtain ⟨cells, h1, h⟩ := bind_ok h
    obtain ⟨cands, h2, h⟩ := bind_ok h
    refine ⟨cells, cands, Or.inl ⟨hb.1, hb.2, h1⟩, h2, ?_⟩
    split at h
    · next h0 => cases h; exact Or.inl ⟨h0, rfl⟩
    · obtain ⟨approx, h3, h⟩ := bind_ok h
      exact Or.inr ⟨approx, approxBatched_ids h3, h⟩
  · next hb =>
    unfold searchStandard at h
    obtain ⟨el, h0, h⟩ := bind_ok h
    obtain ⟨cells, h1, h⟩ := bind_ok h
    obtain ⟨cands, h2, h⟩ := bind_ok h
    refine ⟨cells, cands, Or.inr ⟨el, h0, hb, h1⟩, h2, ?_⟩
    split at h
    · next h0 => cases h; exact Or.inl ⟨h0, rfl⟩
    · obtain ⟨approx, h3, h⟩ := bind_ok h
      exact Or.inr ⟨approx, approxStandard_ids h3, h⟩

theorem searchOne_wellFormed {o : Oracle α} {N : Num E α} {x : Loaded E} {query : List N.Q} {p : Params α}
    {subset r} (h : searchOne o N x query p subset = .ok r) :
    WellFormed N x query p.topK r ∧ (∀ sub, subset = some sub → ∀ id ∈ r.passageIds, id ∈ sub) := by
  obtain ⟨cells, cands, _, hg, hr⟩ := searchOne_inv h
  obtain ⟨g1, g2, _⟩ := gather_spec hg
  rcases hr with ⟨_, rfl⟩ | ⟨approx, ha, hr⟩
  · exact ⟨wellFormed_of (ps := []) (by simp) (by simp) (by simp) (by simp) 0, by simp [emptyResult]⟩
  · obtain ⟨r1, r2, _⟩ := rank_spec (by rw [ha]; exact pairwise_lt_nodup g1) hr
    exact ⟨r1, fun sub hs id hid => g2 sub hs id (ha ▸ r2 id hid)⟩

end NextPlaid.Search
