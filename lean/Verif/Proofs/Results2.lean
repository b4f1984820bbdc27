import Verif.Proofs.Results
import Verif.Proofs.Ranking
import Verif.Props.Fusion
import Mathlib.Data.List.Perm.Subperm

/-! Lemmas for C54: candidates, the cut, and hash orders. -/

namespace NextPlaid.Rank

open NextPlaid.Spec NextPlaid.Fusion

section
variable {K : Type} [LinearOrder K]

theorem mem_pairUp : ∀ (found : List (Int × K)) (rows : List CodeUnit) (h : Hit K), h ∈ pairUp found rows →
    h.unit ∈ rows ∧ (h.unit.id, h.score) ∈ found
  | [], _, _, hm => by simp [pairUp] at hm
  | (id, s) :: l, rows, h, hm => by
    unfold pairUp at hm
    split at hm
    · next u hu =>
      rcases List.mem_cons.mp hm with rfl | hm
      · have h1 := List.find?_some hu
        simp only [decide_eq_true_eq] at h1
        exact ⟨List.mem_of_find?_eq_some hu, by simp [h1]⟩
      · obtain ⟨h1, h2⟩ := mem_pairUp l _ h hm
        exact ⟨(List.mem_filter.mp h1).1, by simp [h2]⟩
    · obtain ⟨h1, h2⟩ := mem_pairUp l _ h hm
      exact ⟨h1, by simp [h2]⟩

theorem pairUp_mem : ∀ (found : List (Int × K)) (rows : List CodeUnit), (found.map (·.1)).Nodup → (rows.map (·.id)).Nodup →
    ∀ u s, u ∈ rows → (u.id, s) ∈ found → (⟨u, s⟩ : Hit K) ∈ pairUp found rows
  | [], _, _, _, _, _, _, hm => by simp at hm
  | (id, t) :: l, rows, hf, hr, u, s, hu, hm => by
    simp only [List.map_cons, List.nodup_cons] at hf
    unfold pairUp
    rcases List.mem_cons.mp hm with heq | hml
    · injection heq with h1 h2
      have : rows.find? (fun v => v.id = id) = some u := by
        cases hfind : rows.find? fun v => v.id = id with
        | none => exact absurd h1 (by simpa using List.find?_eq_none.mp hfind u hu)
        | some v =>
          have h3 := List.find?_some hfind
          simp only [decide_eq_true_eq] at h3
          rw [List.inj_on_of_nodup_map hr (List.mem_of_find?_eq_some hfind) hu (h3.trans h1.symm)]
      rw [this]
      simp [h2]
    · have hne : u.id ≠ id := by
        rintro rfl
        exact hf.1 (List.mem_map.mpr ⟨(u.id, s), hml, rfl⟩)
      split
      · refine List.mem_cons_of_mem _ (pairUp_mem l _ hf.2 ?_ u s ?_ hml)
        · exact hr.sublist (List.filter_sublist.map _)
        · simp [hu, hne]
      · exact pairUp_mem l _ hf.2 hr u s hu hml

/-- A list of numbered ids never gives a unit twice. -/
theorem pairUp_nodup : ∀ (found : List (Int × K)) (rows : List CodeUnit), ((pairUp found rows).map (·.unit.id)).Nodup
  | [], _ => by simp [pairUp]
  | (id, s) :: l, rows => by
    unfold pairUp
    split
    · next u hu =>
      have h1 := List.find?_some hu
      simp only [decide_eq_true_eq] at h1
      rw [List.map_cons, List.nodup_cons]
      refine ⟨?_, pairUp_nodup l _⟩
      intro hm
      obtain ⟨h, hh, he⟩ := List.mem_map.mp hm
      have := (mem_pairUp l _ h hh).1
      simp only [List.mem_filter, decide_eq_true_eq] at this
      exact this.2 (he.trans h1)
    · exact pairUp_nodup l _

/-! ### The cut -/

theorem take_better {l : List (Hit K)} (hs : l.Pairwise fun a b => b.score ≤ a.score) {k : Nat} {h : Hit K} (hm : h ∈ l.take k) :
    (l.filter fun x => h.score < x.score).length < k := by
  rw [← List.take_append_drop k l, List.pairwise_append] at hs
  have hdrop : (l.drop k).filter (fun x => h.score < x.score) = [] := by
    rw [List.filter_eq_nil_iff]
    intro x hx
    simpa using hs.2.2 h hm x hx
  have : l.filter (fun x => h.score < x.score) = (l.take k).filter fun x => h.score < x.score := by
    conv_lhs => rw [← List.take_append_drop k l]
    rw [List.filter_append, hdrop, List.append_nil]
  rw [this]
  refine lt_of_lt_of_le (List.length_filter_lt_length_iff_exists.mpr ⟨h, hm, by simp⟩) ?_
  rw [List.length_take]; exact min_le_left _ _

theorem bestFiles_perm {k : Nat} {p p' out : List (Hit K)} (hp : p.Perm p') (h : BestFiles k p out) : BestFiles k p' out := by
  obtain ⟨h1, h2, h3, h4, h5⟩ := h
  refine ⟨h1, h2, h3, ?_, fun v hv => h5 v (hp.mem_iff.mpr hv)⟩
  intro x hx
  obtain ⟨⟨u, a1, a2⟩, a3, a4, ⟨v, a5, a6⟩, ⟨w, a7, a8⟩⟩ := h4 x hx
  exact ⟨⟨u, hp.mem_iff.mp a1, a2⟩, fun v hv => a3 v (hp.mem_iff.mpr hv), fun v hv => a4 v (hp.mem_iff.mpr hv), ⟨v, hp.mem_iff.mp a5, a6⟩,
    ⟨w, hp.mem_iff.mp a7, a8⟩⟩

/-- Two lists of best files, merged, sorted and cut to at most as many as each of them shows: the best files of both pools. -/
theorem cut_merged {n k : Nat} (hk : k ≤ n) {p q a b s : List (Hit K)} (ha : BestFiles n p a) (hb : BestFiles n q b)
    {m : List (Hit K)} (hm : Merged (a ++ b) m) (hp : s.Perm m) (hs : s.Pairwise fun a b => b.score ≤ a.score) :
    ((s.take k).map (·.unit.file)).Nodup ∧ (s.take k).Pairwise (fun a b => b.score ≤ a.score) ∧ (s.take k).length ≤ k ∧
    (∀ h ∈ s.take k, (∃ u ∈ p ++ q, SameUnit h.unit u.unit ∧ h.score = u.score) ∧ ∀ v ∈ p ++ q, v.unit.file = h.unit.file → v.score ≤ h.score) ∧
    ∀ v ∈ p ++ q, v.unit.file ∉ (s.take k).map (·.unit.file) → (s.take k).length = k ∧ ∀ h ∈ s.take k, v.score ≤ h.score := by
  have hfiles : (s.map (·.unit.file)).Nodup := ((hp.map _).nodup_iff).mpr hm.distinct
  -- a candidate either has an entry at least as good, or `n` entries are at least as good
  have key : ∀ v ∈ p ++ q, (∃ c ∈ s, c.unit.file = v.unit.file ∧ v.score ≤ c.score) ∨
      (n ≤ (s.filter fun x => v.score ≤ x.score).length) := by
    have side : ∀ {p a : List (Hit K)}, BestFiles n p a → (∀ c ∈ a, ∃ e ∈ s, e.unit.file = c.unit.file ∧ c.score ≤ e.score) →
        ∀ v ∈ p, (∃ c ∈ s, c.unit.file = v.unit.file ∧ v.score ≤ c.score) ∨ (n ≤ (s.filter fun x => v.score ≤ x.score).length) := by
      intro p a hpa hin v hv
      by_cases hf : v.unit.file ∈ a.map (·.unit.file)
      · obtain ⟨c, hc, hcf⟩ := List.mem_map.mp hf
        obtain ⟨e, he, h1, h2⟩ := hin c hc
        exact .inl ⟨e, he, h1.trans hcf, ((hpa.each c hc).best v hv hcf.symm).trans h2⟩
      · obtain ⟨h1, h2⟩ := hpa.rest v hv hf
        right
        rw [← h1, ← List.length_map (as := a) (·.unit.file), ← List.length_map (as := s.filter _) (·.unit.file)]
        refine (List.subperm_of_subset hpa.distinct ?_).length_le
        intro f hfa
        obtain ⟨c, hc, rfl⟩ := List.mem_map.mp hfa
        obtain ⟨e, he, h3, h4⟩ := hin c hc
        refine List.mem_map.mpr ⟨e, List.mem_filter.mpr ⟨he, ?_⟩, h3⟩
        simpa using (h2 c hc).trans h4
    have entry : ∀ c ∈ a ++ b, ∃ e ∈ s, e.unit.file = c.unit.file ∧ c.score ≤ e.score := by
      intro c hc
      obtain ⟨e, he, hef⟩ := List.mem_map.mp (hm.complete c hc)
      exact ⟨e, hp.mem_iff.mpr he, hef, (hm.each e he).best c hc hef.symm⟩
    intro v hv
    rcases List.mem_append.mp hv with hv | hv
    · exact side ha (fun c hc => entry c (by simp [hc])) v hv
    · exact side hb (fun c hc => entry c (by simp [hc])) v hv
  -- so no candidate beats a result by more than its own file's entry
  have many : ∀ v : Hit K, n ≤ (s.filter fun x => v.score ≤ x.score).length → ∀ h ∈ s.take k, v.score ≤ h.score := by
    intro v hn h hh
    by_contra hlt
    rw [not_le] at hlt
    have h1 := take_better hs hh
    have h2 : (s.filter fun x => decide (v.score ≤ x.score)).length ≤ (s.filter fun x => decide (h.score < x.score)).length := by
      refine (List.monotone_filter_right s ?_).length_le
      intro x hx
      simp only [decide_eq_true_eq] at hx ⊢
      exact lt_of_lt_of_le hlt hx
    omega
  refine ⟨hfiles.sublist ((List.take_sublist k s).map _), hs.sublist (List.take_sublist k s), by rw [List.length_take]; exact min_le_left _ _, ?_, ?_⟩
  · intro h hh
    have hhs := List.mem_of_mem_take hh
    constructor
    · obtain ⟨c, hc, h1, h2⟩ := (hm.each h (hp.mem_iff.mp hhs)).leader
      have : ∃ u ∈ p ++ q, SameUnit c.unit u.unit ∧ c.score = u.score := by
        rcases List.mem_append.mp hc with hc | hc
        · obtain ⟨u, hu, h3⟩ := (ha.each c hc).leader
          exact ⟨u, by simp [hu], h3⟩
        · obtain ⟨u, hu, h3⟩ := (hb.each c hc).leader
          exact ⟨u, by simp [hu], h3⟩
      obtain ⟨u, hu, h3, h4⟩ := this
      exact ⟨u, hu, ⟨h1.1.trans h3.1, h1.2.1.trans h3.2.1, h1.2.2.1.trans h3.2.2.1, h1.2.2.2.1.trans h3.2.2.2.1, h1.2.2.2.2.trans h3.2.2.2.2⟩,
        h2.trans h4⟩
    · intro v hv hf
      rcases key v hv with ⟨c, hc, h1, h2⟩ | hn
      · have : c = h := List.inj_on_of_nodup_map hfiles hc hhs (h1.trans hf)
        rwa [this] at h2
      · exact many v hn h hh
  · intro v hv hf
    rcases key v hv with ⟨c, hc, h1, h2⟩ | hn
    · have hcd : c ∈ s.drop k := by
        rw [← List.take_append_drop k s, List.mem_append] at hc
        rcases hc with hc | hc
        · exact absurd (List.mem_map.mpr ⟨c, hc, h1⟩) hf
        · exact hc
      have hlen : k < s.length := by
        by_contra hle
        rw [List.drop_eq_nil_of_le (not_lt.mp hle)] at hcd
        cases hcd
      refine ⟨by rw [List.length_take]; omega, ?_⟩
      intro h hh
      rw [← List.take_append_drop k s, List.pairwise_append] at hs
      exact h2.trans (hs.2.2 h hh c hcd)
    · refine ⟨?_, many v hn⟩
      have := List.length_filter_le (fun x => decide (v.score ≤ x.score)) s
      rw [List.length_take]; omega

/-- Sorting a merged list does not depend on the order it comes in. -/
theorem sort_merged {s s' m : List (Hit K)} (hd : (m.map (·.unit.file)).Nodup) (h : s.Perm m) (h' : s'.Perm m) : sortBy inOrder s = sortBy inOrder s' := by
  refine sorted_unique (((sortBy_perm s).trans h).trans ((sortBy_perm s').trans h').symm) (sortBy_sorted inOrder_total inOrder_trans s)
    (sortBy_sorted inOrder_total inOrder_trans s') ?_
  intro a ha b hb h1 h2
  have ha := h.mem_iff.mp ((sortBy_perm s).mem_iff.mp ha)
  have hb := h.mem_iff.mp ((sortBy_perm s).mem_iff.mp hb)
  exact List.inj_on_of_nodup_map hd ha hb (inOrder_file h1 h2)

end

section
variable {K : Type} [Field K] [LinearOrder K] [IsStrictOrderedRing K] (r : Rounding K) (g : Signals K)

theorem hybrid_best (o : Orders K) (rows : List CodeUnit) (query : List Char) (alpha : K) (topK : Nat) (sem kw : List (Int × K)) :
    BestFiles topK (pool r g o rows query alpha topK sem kw) (hybrid r g o rows query alpha topK sem kw) := by
  refine bestFiles_perm (sortBy_perm _) (collapse_best topK _ ?_)
  refine (sortBy_sorted byScore_total byScore_trans _).imp ?_
  intro a b h
  simpa [byScore] using h

/-- Two top-`k` answers for items without ties are equal. -/
theorem topOf_unique {k : Nat} {all out out' : List (Int × K)} (h : TopOf k all out) (h' : TopOf k all out')
    (hinj : ∀ x ∈ all, ∀ y ∈ all, x.2 = y.2 → x = y) : out = out' := by
  obtain ⟨rest, hp, hs, hr, hl⟩ := h
  obtain ⟨rest', hp', hs', hr', hl'⟩ := h'
  have hsort : ∀ {o rest : List (Int × K)}, (o ++ rest).Perm all → o.Pairwise (fun a b => b.2 ≤ a.2) → (∀ x ∈ o, ∀ y ∈ rest, y.2 ≤ x.2) →
      (o ++ sortPairs rest).Perm all ∧ (o ++ sortPairs rest).Pairwise fun a b => b.2 ≤ a.2 := by
    intro o rest h1 h2 h3
    refine ⟨(List.Perm.append_left o (sortPairs_perm rest)).trans h1, ?_⟩
    rw [List.pairwise_append]
    exact ⟨h2, sortPairs_sorted rest, fun x hx y hy => h3 x hx y ((sortPairs_perm rest).mem_iff.mp hy)⟩
  obtain ⟨a1, a2⟩ := hsort hp hs hr
  obtain ⟨b1, b2⟩ := hsort hp' hs' hr'
  have : out ++ sortPairs rest = out' ++ sortPairs rest' := by
    refine sorted_unique (le := fun a b => decide (b.2 ≤ a.2)) (a1.trans b1.symm) (a2.imp fun h => by simpa using h) (b2.imp fun h => by simpa using h) ?_
    intro x hx y hy h1 h2
    simp only [decide_eq_true_eq] at h1 h2
    exact hinj x (a1.mem_iff.mp hx) y (a1.mem_iff.mp hy) (le_antisymm h2 h1)
  have hlen : out.length = out'.length := by rw [hl, hl']
  exact (List.append_inj this hlen).1

end

end NextPlaid.Rank
