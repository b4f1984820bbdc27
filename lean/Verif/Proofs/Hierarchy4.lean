import Verif.Proofs.Hierarchy3

/-!
Proofs: in exact arithmetic the inner loop ends, and each merge joins nearest neighbours.
-/

namespace NextPlaid.Hier

open NextPlaid.Fusion NextPlaid.Spec

variable {K : Type} [Field K] [LinearOrder K] [IsStrictOrderedRing K]

theorem members_ne_nil {n : Nat} {rows : List (Row K)} (h : ∀ t row, rows[t]? = some row → row.a < row.b ∧ row.b < n + t) :
    ∀ (c : Nat), c < n + rows.length → members rows n c ≠ [] := by
  intro c
  induction c using Nat.strongRecOn with
  | ind c ih =>
    intro hc
    by_cases hn : c < n
    · rw [members_one _ hn]; exact List.cons_ne_nil _ _
    · obtain ⟨t, rfl⟩ : ∃ t, c = n + t := ⟨c - n, by omega⟩
      have ht : rows[t]? = some rows[t] := List.getElem?_eq_getElem (by omega)
      have := h t _ ht
      rw [members_row ht (by omega) (by omega)]
      intro he
      exact ih rows[t].a (by omega) (by omega) (List.append_eq_nil_iff.mp he).1

/-- What holds in exact arithmetic. -/
structure Exact (n : Nat) (sq : Nat → Nat → K) (s : St K) : Prop where
  dist : ∀ i ∈ s.active, ∀ j ∈ s.active, i ≠ j → s.dist i j = some (ward sq (members s.rows n i) (members s.rows n j))
  cache : ∀ i ∈ s.active, ∀ j d, s.cache i = some (j, d) → Least s.dist s.active i j d
  rows : ∀ t row, s.rows[t]? = some row → row.distSq = ward sq (members s.rows n row.a) (members s.rows n row.b) ∧
    ∀ c, Alive s.rows n t c → c ≠ row.a → c ≠ row.b →
      ward sq (members s.rows n row.a) (members s.rows n row.b) ≤ ward sq (members s.rows n row.a) (members s.rows n c) ∧
      ward sq (members s.rows n row.a) (members s.rows n row.b) ≤ ward sq (members s.rows n row.b) (members s.rows n c)

theorem near_least {n : Nat} {sq : Nat → Nat → K} {s : St K} (h : WF n s) (he : Exact n sq s) {i : Nat} (hi : i ∈ s.active) {j : Nat} {d : K}
    (hn : near s i = some (j, d)) : Least s.dist s.active i j d := by
  unfold near at hn
  cases hc : s.cache i with
  | some v =>
    rw [hc] at hn
    simp only [Option.some.injEq] at hn
    subst hn
    exact he.cache i hi j d hc
  | none =>
    rw [hc] at hn
    exact (nearest_least s.dist i s.active h.sorted).1 j d hn

theorem near_some {n : Nat} {sq : Nat → Nat → K} {s : St K} (h : WF n s) (he : Exact n sq s) {i : Nat} (hi : i ∈ s.active) (h2 : 2 ≤ s.active.length) :
    ∃ j d, near s i = some (j, d) := by
  unfold near
  cases hc : s.cache i with
  | some v => exact ⟨v.1, v.2, rfl⟩
  | none =>
    simp only
    cases hn : nearest s.dist i s.active with
    | some v => exact ⟨v.1, v.2, rfl⟩
    | none =>
      exfalso
      have hnone := (nearest_least s.dist i s.active h.sorted).2 hn
      -- another active cluster
      have : ∃ x ∈ s.active, x ≠ i := by
        by_contra hcon
        have hall : ∀ x ∈ s.active, x = i := by
          intro x hx
          by_contra hxi
          exact hcon ⟨x, hx, hxi⟩
        have hsub : s.active.Subperm [i] := List.subperm_of_subset h.nodup (fun x hx => by rw [hall x hx]; exact List.mem_singleton.mpr rfl)
        have := hsub.length_le
        simp only [List.length_singleton] at this
        omega
      obtain ⟨x, hx, hxi⟩ := this
      have h1 := hnone x hx hxi
      rw [he.dist i hi x hx (Ne.symm hxi)] at h1
      cases h1

theorem wardDist_exact {r : Rounding K} (hr : ∀ x, r.rnd x = x) (na nb nk : Nat) (ak bk ab : K) :
    wardDist r na nb nk ak bk ab = (((na : K) + nk) * ak + ((nb : K) + nk) * bk - (nk : K) * ab) / ((na : K) + nb + nk) := by
  unfold wardDist
  simp only [hr, Nat.cast_add]

theorem Least.le {dist : Nat → Nat → Option K} {l : List Nat} {i j : Nat} {d : K} (h : Least dist l i j d) {x : Nat} (hx : x ∈ l) (hxi : x ≠ i) {e : K}
    (he : dist i x = some e) : d ≤ e := by
  rcases h.2.2.2 x hx hxi e he with h | h
  · exact le_of_lt h
  · exact le_of_eq h.1

theorem merge_exact {r : Rounding K} (hr : ∀ x, r.rnd x = x) {n : Nat} {sq : Nat → Nat → K} (hsq : ∀ i j, sq i j = sq j i) {s : St K} (h : WF n s)
    (he : Exact n sq s) {a b : Nat} {d e : K} {rest : List Nat} (ha : a ∈ s.active) (hb : b ∈ s.active) (hca : s.cache a = some (b, d))
    (hcb : s.cache b = some (a, e)) : Exact n sq (merge r s a b d rest) := by
  have la := he.cache a ha b d hca
  have lb := he.cache b hb a e hcb
  have hab : a ≠ b := lb.2.1
  have hnext := h.next
  have hlt : ∀ c ∈ s.active, c < s.next := fun c hc => ((h.alive c).mp hc).1
  have hne : ∀ c, c < s.next → members s.rows n c ≠ [] := fun c hc => members_ne_nil h.older c (by omega)
  have hd : d = ward sq (members s.rows n a) (members s.rows n b) := by
    have := la.2.2.1
    rw [he.dist a ha b hb hab, Option.some.injEq] at this
    exact this.symm
  have hed : e = d := by
    have := lb.2.2.1
    rw [he.dist b hb a ha (Ne.symm hab), Option.some.injEq] at this
    rw [hd, ← this, ward_symm sq hsq]
  have hmem : ∀ x, x ∈ (s.active.filter fun x => x ≠ a ∧ x ≠ b) ↔ x ∈ s.active ∧ x ≠ a ∧ x ≠ b := by
    intro x
    simp only [List.mem_filter, decide_eq_true_eq]
  have hact : ∀ x, x ∈ (merge r s a b d rest).active ↔ (x ∈ s.active ∧ x ≠ a ∧ x ≠ b) ∨ x = s.next := by
    intro x
    show x ∈ _ ++ _ ↔ _
    rw [List.mem_append, hmem, List.mem_singleton]
  have hold : ∀ c, c < s.next → members (merge r s a b d rest).rows n c = members s.rows n c := fun c hc => members_old r h d rest hc
  have hnew := members_new r h ha hb d rest
  -- distances to the new cluster
  have hformula : ∀ k, k ∈ s.active → k ≠ a → k ≠ b →
      wardDist r (s.size a) (s.size b) (s.size k) (ward sq (members s.rows n a) (members s.rows n k)) (ward sq (members s.rows n b) (members s.rows n k)) d
        = ward sq (members (merge r s a b d rest).rows n s.next) (members s.rows n k) := by
    intro k hk _ _
    rw [hnew, wardDist_exact hr, h.size a ha, h.size b hb, h.size k hk, hd]
    rcases Nat.le_total a b with hle | hle
    · rw [Nat.min_eq_left hle, Nat.max_eq_right hle, ward_merge sq hsq (hne a (hlt a ha)) (hne b (hlt b hb)) (hne k (hlt k hk))]
    · rw [Nat.min_eq_right hle, Nat.max_eq_left hle, ward_merge sq hsq (hne b (hlt b hb)) (hne a (hlt a ha)) (hne k (hlt k hk)),
        ward_symm sq hsq (members s.rows n b) (members s.rows n a), add_comm ((members s.rows n b).length : K)]
      congr 1 <;> ring
  have hdnew : ∀ k, k ∈ s.active → k ≠ a → k ≠ b →
      (merge r s a b d rest).dist s.next k = some (ward sq (members (merge r s a b d rest).rows n s.next) (members s.rows n k)) ∧
      (merge r s a b d rest).dist k s.next = some (ward sq (members (merge r s a b d rest).rows n s.next) (members s.rows n k)) := by
    intro k hk hka hkb
    have hk' := (hmem k).mpr ⟨hk, hka, hkb⟩
    have hkn : k ≠ s.next := Nat.ne_of_lt (hlt k hk)
    have h1 := he.dist a ha k hk (Ne.symm hka)
    have h2 := he.dist b hb k hk (Ne.symm hkb)
    constructor
    · show mergedDist r s a b d s.next k = _
      simp only [mergedDist]
      rw [if_pos ⟨trivial, hk'⟩, h1, h2]
      simp only
      rw [hformula k hk hka hkb]
    · show mergedDist r s a b d k s.next = _
      simp only [mergedDist]
      rw [if_neg (by rintro ⟨e, _⟩; exact hkn e), if_pos ⟨trivial, hk'⟩, h1, h2]
      simp only
      rw [hformula k hk hka hkb]
  have hdold : ∀ i j, i < s.next → j < s.next → (merge r s a b d rest).dist i j = s.dist i j := by
    intro i j hi hj
    show mergedDist r s a b d i j = _
    simp only [mergedDist]
    rw [if_neg (by rintro ⟨e, _⟩; omega), if_neg (by rintro ⟨e, _⟩; omega)]
  constructor
  · intro i hi j hj hij
    rcases (hact i).mp hi with ⟨hi1, hi2, hi3⟩ | rfl
    · rcases (hact j).mp hj with ⟨hj1, hj2, hj3⟩ | rfl
      · rw [hdold i j (hlt i hi1) (hlt j hj1), hold i (hlt i hi1), hold j (hlt j hj1)]
        exact he.dist i hi1 j hj1 hij
      · rw [(hdnew i hi1 hi2 hi3).2, hold i (hlt i hi1), ward_symm sq hsq]
    · rcases (hact j).mp hj with ⟨hj1, hj2, hj3⟩ | rfl
      · rw [(hdnew j hj1 hj2 hj3).1, hold j (hlt j hj1)]
      · exact absurd rfl hij
  · intro i hi j f hc
    rcases (hact i).mp hi with ⟨hi1, hi2, hi3⟩ | rfl
    · have hin : i ≠ s.next := Nat.ne_of_lt (hlt i hi1)
      simp only [merge] at hc
      rw [if_neg hin] at hc
      split at hc
      · cases hc
      · rename_i hcond
        have hli := he.cache i hi1 j f hc
        rw [hc] at hcond
        simp only [Option.any_some, decide_eq_true_eq] at hcond
        have hja : j ≠ a := fun e => hcond ⟨(hmem i).mpr ⟨hi1, hi2, hi3⟩, Or.inl e⟩
        have hjb : j ≠ b := fun e => hcond ⟨(hmem i).mpr ⟨hi1, hi2, hi3⟩, Or.inr e⟩
        refine ⟨(hact j).mpr (Or.inl ⟨hli.1, hja, hjb⟩), hli.2.1, ?_, ?_⟩
        · rw [hdold i j (hlt i hi1) (hlt j hli.1)]
          exact hli.2.2.1
        · intro x hx hxi g hg
          rcases (hact x).mp hx with ⟨hx1, hx2, hx3⟩ | rfl
          · rw [hdold i x (hlt i hi1) (hlt x hx1)] at hg
            exact hli.2.2.2 x hx1 hxi g hg
          · -- the new cluster is not nearer
            have hle : f ≤ g := by
              rw [(hdnew i hi1 hi2 hi3).2, Option.some.injEq] at hg
              rw [← hg, ← hformula i hi1 hi2 hi3, wardDist_exact hr]
              have pa : (0 : K) < (s.size a : K) := by rw [h.size a ha]; exact cast_pos (hne a (hlt a ha))
              have pb : (0 : K) < (s.size b : K) := by rw [h.size b hb]; exact cast_pos (hne b (hlt b hb))
              have pi : (0 : K) < (s.size i : K) := by rw [h.size i hi1]; exact cast_pos (hne i (hlt i hi1))
              apply ward_reduce _ _ _ _ _ _ _ pa pb pi
              · exact la.le hi1 hi2 (he.dist a ha i hi1 (Ne.symm hi2))
              · have := lb.le hi1 hi3 (he.dist b hb i hi1 (Ne.symm hi3))
                rwa [hed] at this
              · refine hli.le ha (Ne.symm hi2) ?_
                rw [he.dist i hi1 a ha hi2, ward_symm sq hsq]
              · refine hli.le hb (Ne.symm hi3) ?_
                rw [he.dist i hi1 b hb hi3, ward_symm sq hsq]
            rcases lt_or_eq_of_le hle with h' | h'
            · exact Or.inl h'
            · exact Or.inr ⟨h', Nat.le_of_lt (hlt j hli.1)⟩
    · simp only [merge] at hc
      rw [if_pos trivial] at hc
      exact (nearest_least _ s.next _ (merge_wf r h ha hb hab d rest).sorted).1 j f hc
  · intro t row hrow
    have hrows : (merge r s a b d rest).rows = s.rows ++ [⟨min a b, max a b, d, s.size a + s.size b⟩] := rfl
    have hrow0 := hrow
    rw [hrows] at hrow
    rcases Nat.lt_or_ge t s.rows.length with ht | ht
    · rw [List.getElem?_append_left ht] at hrow
      have ho := h.older t row hrow
      have hrw := he.rows t row hrow
      rw [hold row.a (by omega), hold row.b (by omega)]
      refine ⟨hrw.1, ?_⟩
      intro c hc hca' hcb'
      have hc' : Alive s.rows n t c := by
        refine ⟨hc.1, ?_⟩
        intro x hx
        apply hc.2
        rw [hrows, List.take_append_of_le_length (by omega)]
        exact hx
      rw [hold c (by have := hc.1; omega)]
      exact hrw.2 c hc' hca' hcb'
    · rw [List.getElem?_append_right ht] at hrow
      have ht0 : t - s.rows.length = 0 := by
        by_contra hne'
        rw [List.getElem?_eq_none (by simp only [List.length_singleton]; omega)] at hrow
        cases hrow
      have ht1 : t = s.rows.length := by omega
      rw [ht0, List.getElem?_cons_zero, Option.some.injEq] at hrow
      subst hrow
      simp only
      have ha' := hlt a ha
      have hb' := hlt b hb
      rw [hold (min a b) (by omega), hold (max a b) (by omega)]
      have hsplit : ∀ P : Nat → Nat → Prop, P a b → P b a → P (min a b) (max a b) := by
        intro P h1 h2
        rcases Nat.le_total a b with hle | hle
        · rw [Nat.min_eq_left hle, Nat.max_eq_right hle]; exact h1
        · rw [Nat.min_eq_right hle, Nat.max_eq_left hle]; exact h2
      have hdab : d = ward sq (members s.rows n (min a b)) (members s.rows n (max a b)) :=
        hsplit (fun x y => d = ward sq (members s.rows n x) (members s.rows n y)) hd (by rw [ward_symm sq hsq]; exact hd)
      refine ⟨hdab, ?_⟩
      intro c hc hca' hcb'
      have hcact : c ∈ s.active := by
        rw [h.alive]
        refine ⟨by have := hc.1; omega, ?_⟩
        intro x hx
        apply hc.2
        rw [hrows, ht1, List.take_append_of_le_length (Nat.le_refl _), List.take_length]
        exact hx
      have hcc : c ≠ a ∧ c ≠ b := by omega
      rw [hold c (hlt c hcact), ← hdab]
      have k1 := la.le hcact hcc.1 (he.dist a ha c hcact (Ne.symm hcc.1))
      have k2 := lb.le hcact hcc.2 (he.dist b hb c hcact (Ne.symm hcc.2))
      rw [hed] at k2
      exact hsplit (fun x y => d ≤ ward sq (members s.rows n x) (members s.rows n c) ∧ d ≤ ward sq (members s.rows n y) (members s.rows n c)) ⟨k1, k2⟩ ⟨k2, k1⟩

/-! ### The inner loop ends -/

theorem note_exact {n : Nat} {sq : Nat → Nat → K} {s : St K} (h : WF n s) (he : Exact n sq s) {cur : Nat} (hc : cur ∈ s.active) {v : Nat × K}
    (hv : near s cur = some v) (chain : List Nat) : Exact n sq { note s cur v with chain := chain } where
  dist := he.dist
  cache := by
    intro i hi j d hij0
    have hij : (if i = cur then some v else s.cache i) = some (j, d) := hij0
    split at hij
    · rename_i e
      subst e
      rw [hij] at hv
      exact near_least h he hc hv
    · exact he.cache i hi j d hij
  rows := he.rows

theorem grow_ends (r : Rounding K) {n : Nat} {sq : Nat → Nat → K} (hsq : ∀ i j, sq i j = sq j i) : ∀ (fuel : Nat) (s : St K), WF n s → Linked s →
    Exact n sq s → 2 ≤ s.active.length → s.chain ≠ [] → s.chain.Nodup → s.active.length < fuel + s.chain.length →
    ∃ s', grow r fuel s = some (.ok s') := by
  intro fuel
  induction fuel with
  | zero =>
    intro s _ hl _ _ _ hnd hf
    exfalso
    have := (List.subperm_of_subset hnd hl.inside).length_le
    omega
  | succ fuel ih =>
    intro s h hl he h2 hch hnd hf
    cases hc : s.chain with
    | nil => exact absurd hc hch
    | cons cur below =>
      have hcur : cur ∈ s.active := hl.inside cur (by rw [hc]; exact List.mem_cons_self)
      obtain ⟨nn, d, hv⟩ := near_some h he hcur h2
      unfold grow
      rw [hc]
      simp only
      rw [hv]
      simp only
      by_cases hh : below.head? = some nn
      · rw [if_pos hh]
        exact ⟨_, rfl⟩
      · rw [if_neg hh]
        have hp := push_linked hl hc hv hh
        have hnew : nn ∉ cur :: below := by
          have hless := near_least h he hcur hv
          apply no_cycle (fun i j => ward sq (members s.rows n i) (members s.rows n j)) s.active (cur :: below)
            (fun x hx => hl.inside x (by rw [hc]; exact hx)) (by rw [← hc]; exact hnd)
            (fun x _ y _ => ward_symm sq hsq _ _)
          · intro i p q h1 h3 x hx hxq
            obtain ⟨e, hqe⟩ := hl.adj i p q (by rw [hc]; exact h1) (by rw [hc]; exact h3)
            have hq : q ∈ s.active := hl.inside q (by rw [hc]; exact List.mem_of_getElem? h3)
            have hL := he.cache q hq p e hqe
            have hpe := hL.2.2.1
            rw [he.dist q hq p hL.1 (Ne.symm hL.2.1), Option.some.injEq] at hpe
            have := hL.2.2.2 x hx hxq _ (he.dist q hq x hx (Ne.symm hxq))
            rw [← hpe] at this
            exact this
          · rfl
          · exact hless.2.1
          · intro x hx hxc
            have hpe := hless.2.2.1
            rw [he.dist cur hcur nn hless.1 (Ne.symm hless.2.1), Option.some.injEq] at hpe
            have := hless.2.2.2 x hx hxc _ (he.dist cur hcur x hx (Ne.symm hxc))
            rw [← hpe] at this
            exact this
          · rw [List.getElem?_cons_succ, ← List.head?_eq_getElem?]
            exact hh
        apply ih { note s cur (nn, d) with chain := nn :: cur :: below }
        · exact ⟨h.next, h.sorted, h.alive, h.older, h.once, h.size, h.rsize, h.part, h.count⟩
        · exact hp
        · exact note_exact h he hcur hv _
        · exact h2
        · exact List.cons_ne_nil _ _
        · show (nn :: cur :: below).Nodup
          rw [List.nodup_cons]
          exact ⟨hnew, by rw [← hc]; exact hnd⟩
        · show s.active.length < fuel + (nn :: cur :: below).length
          rw [hc] at hf
          simp only [List.length_cons] at hf ⊢
          omega

theorem start_exact {n : Nat} {sq : Nat → Nat → K} {s : St K} (he : Exact n sq s) :
    Exact n sq (if s.chain = [] then { s with chain := s.active.take 1 } else s) := by
  split
  · exact ⟨he.dist, he.cache, he.rows⟩
  · exact he

theorem grow_exact {r : Rounding K} (hr : ∀ x, r.rnd x = x) {n : Nat} {sq : Nat → Nat → K} (hsq : ∀ i j, sq i j = sq j i) {fuel : Nat} {s s' : St K}
    (h : WF n s) (hl : Linked s) (he : Exact n sq s) (hg : grow r fuel s = some (.ok s')) : Exact n sq s' ∧ s'.chain.Nodup := by
  obtain ⟨t, a, b, d, rest, h1, h2, h3, h4, ⟨e, h5⟩, h6, h7, h8, h9, h10, h11, h12⟩ := (grow_found r fuel s s' hl hg).merged
  have ht : WF n t := ⟨by rw [h10, h11]; exact h.next, by rw [h9]; exact h.sorted, by rw [h9, h10, h11]; exact h.alive, by rw [h11]; exact h.older,
    by rw [h11]; exact h.once, by rw [h9, h8, h11]; exact h.size, by rw [h11]; exact h.rsize, by rw [h9, h11]; exact h.part,
    by rw [h9, h11]; exact h.count⟩
  have het : Exact n sq t := by
    refine ⟨by rw [h9, h7, h11]; exact he.dist, ?_, by rw [h11]; exact he.rows⟩
    intro i hi j f hij
    rw [h9] at hi
    rw [h7, h9]
    exact near_least h he hi (h12 i (j, f) hij)
  have ha : a ∈ t.active := h1.inside a (by rw [h2]; exact List.mem_cons_self)
  have hb : b ∈ t.active := h1.inside b (by rw [h2]; exact List.mem_cons_of_mem _ List.mem_cons_self)
  subst h6
  refine ⟨merge_exact hr hsq ht het ha hb h4 h5, ?_⟩
  show rest.Nodup
  rw [h2, List.nodup_cons, List.nodup_cons] at h3
  exact h3.2.2

theorem merges_exact {r : Rounding K} (hr : ∀ x, r.rnd x = x) {n : Nat} {sq : Nat → Nat → K} (hsq : ∀ i j, sq i j = sq j i) {fuel : Nat}
    (hfuel : n ≤ fuel) : ∀ (m : Nat) (s : St K), WF n s → Linked s → Exact n sq s → s.chain.Nodup → s.rows.length + m + 1 ≤ n →
    ∃ s', merges r fuel m s = some (.ok s') ∧ Exact n sq s' := by
  intro m
  induction m with
  | zero => intro s _ _ he _ _; exact ⟨s, rfl, he⟩
  | succ m ih =>
    intro s h hl he hnd hm
    rw [merges]
    have hcnt := h.count
    obtain ⟨t, ht⟩ : ∃ t, t = (if s.chain = [] then { s with chain := s.active.take 1 } else s) := ⟨_, rfl⟩
    rw [← ht]
    have hwf : WF n t := ht ▸ start_wf h
    have hlk : Linked t := ht ▸ start_linked hl
    have hex : Exact n sq t := ht ▸ start_exact he
    have hta : t.active = s.active := by rw [ht]; split <;> rfl
    have htr : t.rows = s.rows := by rw [ht]; split <;> rfl
    have htc : t.chain ≠ [] ∧ t.chain.Nodup := by
      rw [ht]
      split
      · refine ⟨?_, ?_⟩
        · show s.active.take 1 ≠ []
          intro hnil
          have := congrArg List.length hnil
          rw [List.length_take, List.length_nil] at this
          omega
        · exact List.Sublist.nodup (List.take_sublist 1 s.active) h.nodup
      · rename_i hne
        exact ⟨hne, hnd⟩
    have htl : 0 < t.chain.length := List.length_pos_iff.mpr htc.1
    obtain ⟨s', hs'⟩ := grow_ends r hsq fuel t hwf hlk hex (by rw [hta]; omega) htc.1 htc.2 (by rw [hta]; omega)
    rw [hs']
    simp only
    obtain ⟨k1, k2, k3⟩ := grow_wf r hwf hlk hs'
    obtain ⟨k4, k5⟩ := grow_exact hr hsq hwf hlk hex hs'
    exact ih s' k1 k2 k4 k5 (by rw [k3, htr]; omega)

end NextPlaid.Hier
