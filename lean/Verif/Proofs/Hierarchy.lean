import Verif.Spec.Hierarchy
import Mathlib.Data.List.Nodup
import Mathlib.Data.List.Perm.Subperm
import Mathlib.Tactic.ByContra

/-!
Proofs: the linkage matrix is a tree, in any arithmetic.
-/

namespace NextPlaid.Hier

open NextPlaid.Fusion NextPlaid.Spec

variable {K : Type} [Field K] [LinearOrder K]

/-! ### The nearest neighbour -/

theorem nearest_step (dist : Nat → Nat → Option K) (i : Nat) : ∀ (l : List Nat) (b : Option (Nat × K)) (j : Nat) (d : K),
    l.foldl (fun best j =>
      if j = i then best
      else match dist i j with
        | none => best
        | some d => match best with
          | none => some (j, d)
          | some b => if d < b.2 then some (j, d) else some b) b = some (j, d) →
    b = some (j, d) ∨ j ∈ l ∧ j ≠ i ∧ dist i j = some d := by
  intro l
  induction l with
  | nil => intro b j d h; exact Or.inl h
  | cons x l ih =>
    intro b j d h
    rw [List.foldl_cons] at h
    rcases ih _ j d h with h1 | ⟨h1, h2, h3⟩
    · by_cases hx : x = i
      · rw [if_pos hx] at h1; exact Or.inl h1
      · rw [if_neg hx] at h1
        cases hd : dist i x with
        | none => rw [hd] at h1; exact Or.inl h1
        | some e =>
          rw [hd] at h1
          cases b with
          | none =>
            simp only [Option.some.injEq, Prod.mk.injEq] at h1
            obtain ⟨rfl, rfl⟩ := h1
            exact Or.inr ⟨List.mem_cons_self, hx, hd⟩
          | some b =>
            simp only at h1
            split at h1
            · simp only [Option.some.injEq, Prod.mk.injEq] at h1
              obtain ⟨rfl, rfl⟩ := h1
              exact Or.inr ⟨List.mem_cons_self, hx, hd⟩
            · exact Or.inl h1
    · exact Or.inr ⟨List.mem_cons_of_mem _ h1, h2, h3⟩

theorem nearest_mem {dist : Nat → Nat → Option K} {i : Nat} {l : List Nat} {j : Nat} {d : K} (h : nearest dist i l = some (j, d)) :
    j ∈ l ∧ j ≠ i ∧ dist i j = some d := by
  rcases nearest_step dist i l none j d h with h | h
  · cases h
  · exact h

/-! ### A chain that ends has no repetition -/

theorem chain_nodup (f : Nat → Option Nat) (c : List Nat) (hadj : ∀ i p q, c[i]? = some p → c[i + 1]? = some q → f q = some p)
    (htri : ∀ i p z, c[i]? = some p → c[i + 2]? = some z → p ≠ z) (hself : ∀ x, f x ≠ some x)
    (hend : ∀ x y, c[0]? = some x → c[1]? = some y → f x = some y) : c.Nodup := by
  rw [List.nodup_iff_getElem?_ne_getElem?]
  intro i j hij hj
  -- shift to the top
  have shift : ∀ i j : Nat, i < j → j < c.length → c[i]? = c[j]? → c[0]? = c[j - i]? := by
    intro i
    induction i with
    | zero => intro j _ _ h; simpa using h
    | succ i ih =>
      intro j h1 h2 h
      have h3 := ih (j - 1) (by omega) (by omega) (by
        have e1 : c[i + 1]? = some c[i + 1] := List.getElem?_eq_getElem (by omega)
        have e2 : c[i]? = some c[i] := List.getElem?_eq_getElem (by omega)
        have e3 : c[j]? = some c[j] := List.getElem?_eq_getElem (by omega)
        have e4 : c[j - 1]? = some c[j - 1] := List.getElem?_eq_getElem (by omega)
        have f1 := hadj i _ _ e2 e1
        have f2 := hadj (j - 1) _ _ e4 (by rw [show j - 1 + 1 = j by omega]; exact e3)
        rw [e1, e3] at h
        rw [Option.some.injEq] at h
        rw [h] at f1
        rw [f1] at f2
        rw [e2, e4, f2])
      rw [h3]
      congr 1
      omega
  intro h
  have h0 := shift i j hij hj h
  obtain ⟨t, ht⟩ : ∃ t, t = j - i := ⟨_, rfl⟩
  rw [← ht] at h0
  have ht1 : 0 < t := by omega
  have ht2 : t < c.length := by omega
  have e0 : c[0]? = some c[0] := List.getElem?_eq_getElem (by omega)
  have e1 : c[1]? = some c[1] := List.getElem?_eq_getElem (by omega)
  have et : c[t]? = some c[t] := List.getElem?_eq_getElem (by omega)
  have hx := hend _ _ e0 e1
  have hy := hadj 0 _ _ e0 e1
  have h0' : c[0] = c[t] := by rw [e0, et] at h0; simpa using h0
  rcases Nat.lt_or_ge t 2 with h2 | h2
  · have : t = 1 := by omega
    subst this
    rw [← h0'] at hy
    exact hself _ hy
  · have et1 : c[t - 1]? = some c[t - 1] := List.getElem?_eq_getElem (by omega)
    have et2 : c[t - 2]? = some c[t - 2] := List.getElem?_eq_getElem (by omega)
    have g1 := hadj (t - 1) _ _ et1 (by rw [show t - 1 + 1 = t by omega]; exact et)
    have g2 := hadj (t - 2) _ _ et2 (by rw [show t - 2 + 1 = t - 1 by omega]; exact et1)
    rw [← h0', hx, Option.some.injEq] at g1
    rw [← g1, hy, Option.some.injEq] at g2
    exact htri (t - 2) _ _ et2 (by rw [show t - 2 + 2 = t by omega]; exact et) (by rw [← g2, h0'])

/-! ### The states of the inner loop -/

/-- What holds of the chain and of the cache. -/
structure Linked (s : St K) : Prop where
  inside : ∀ x ∈ s.chain, x ∈ s.active
  target : ∀ x ∈ s.active, ∀ v, s.cache x = some v → v.1 ∈ s.active ∧ v.1 ≠ x
  adj : ∀ i p q, s.chain[i]? = some p → s.chain[i + 1]? = some q → ∃ d, s.cache q = some (p, d)
  tri : ∀ i p z, s.chain[i]? = some p → s.chain[i + 2]? = some z → p ≠ z

theorem near_target {s : St K} (h : Linked s) {x : Nat} (hx : x ∈ s.active) {v : Nat × K} (hv : near s x = some v) :
    v.1 ∈ s.active ∧ v.1 ≠ x := by
  unfold near at hv
  cases hc : s.cache x with
  | some w =>
    rw [hc] at hv
    simp only [Option.some.injEq] at hv
    subst hv
    exact h.target x hx w hc
  | none =>
    rw [hc] at hv
    obtain ⟨j, d⟩ := v
    have := nearest_mem hv
    exact ⟨this.1, this.2.1⟩

/-- The state with the neighbour of `cur` remembered. -/
def note (s : St K) (cur : Nat) (v : Nat × K) : St K := { s with cache := fun k => if k = cur then some v else s.cache k }

theorem note_old {s : St K} {cur : Nat} {v : Nat × K} (hv : near s cur = some v) {k : Nat} {w : Nat × K} (hk : s.cache k = some w) :
    (note s cur v).cache k = some w := by
  unfold note
  simp only
  split
  · rename_i h
    subst h
    unfold near at hv
    rw [hk] at hv
    simp only [Option.some.injEq] at hv
    rw [hv]
  · exact hk

theorem note_linked {s : St K} (h : Linked s) {cur : Nat} {v : Nat × K} (hc : cur ∈ s.active) (hv : near s cur = some v) : Linked (note s cur v) where
  inside := h.inside
  target := by
    intro x hx w hw
    unfold note at hw
    simp only at hw
    split at hw
    · rename_i e
      subst e
      simp only [Option.some.injEq] at hw
      subst hw
      exact near_target h hc hv
    · exact h.target x hx w hw
  adj := by
    intro i p q h1 h2
    obtain ⟨d, hd⟩ := h.adj i p q h1 h2
    exact ⟨d, note_old hv hd⟩
  tri := h.tri

theorem push_linked {s : St K} (h : Linked s) {cur : Nat} {below : List Nat} (hch : s.chain = cur :: below) {v : Nat × K} (hv : near s cur = some v)
    (hne : below.head? ≠ some v.1) : Linked { note s cur v with chain := v.1 :: cur :: below } where
  inside := by
    intro x hx
    have hc : cur ∈ s.active := h.inside cur (by rw [hch]; exact List.mem_cons_self)
    rcases List.mem_cons.mp hx with rfl | hx
    · exact (near_target h hc hv).1
    · exact h.inside x (by rw [hch]; exact hx)
  target := (note_linked h (h.inside cur (by rw [hch]; exact List.mem_cons_self)) hv).target
  adj := by
    intro i p q h1 h2
    cases i with
    | zero =>
      simp only [List.getElem?_cons_zero, Option.some.injEq, List.getElem?_cons_succ] at h1 h2
      subst h1; subst h2
      exact ⟨v.2, by simp [note]⟩
    | succ i =>
      simp only [List.getElem?_cons_succ] at h1 h2
      obtain ⟨d, hd⟩ := h.adj i p q (by rw [hch]; exact h1) (by rw [hch]; exact h2)
      exact ⟨d, note_old hv hd⟩
  tri := by
    intro i p z h1 h2
    cases i with
    | zero =>
      simp only [List.getElem?_cons_zero, Option.some.injEq, List.getElem?_cons_succ] at h1 h2
      subst h1
      intro e
      subst e
      exact hne (by rw [List.head?_eq_getElem?]; exact h2)
    | succ i =>
      simp only [List.getElem?_cons_succ] at h1 h2
      exact h.tri i p z (by rw [hch]; exact h1) (by rw [hch]; exact h2)

/-- How a round of the outer loop ends. -/
structure Found (r : Rounding K) (s s' : St K) : Prop where
  merged : ∃ t : St K, ∃ a b : Nat, ∃ d : K, ∃ rest : List Nat, Linked t ∧ t.chain = a :: b :: rest ∧ t.chain.Nodup ∧ t.cache a = some (b, d) ∧
    (∃ e, t.cache b = some (a, e)) ∧ s' = merge r t a b d rest ∧
    t.dist = s.dist ∧ t.size = s.size ∧ t.active = s.active ∧ t.next = s.next ∧ t.rows = s.rows ∧
    (∀ k v, t.cache k = some v → near s k = some v)

theorem grow_found (r : Rounding K) : ∀ (fuel : Nat) (s s' : St K), Linked s → grow r fuel s = some (.ok s') → Found r s s' := by
  intro fuel
  induction fuel with
  | zero => intro s s' _ h; cases h
  | succ fuel ih =>
    intro s s' hl h
    unfold grow at h
    cases hch : s.chain with
    | nil => rw [hch] at h; cases h
    | cons cur below =>
      rw [hch] at h
      simp only at h
      cases hv : near s cur with
      | none => rw [hv] at h; cases h
      | some v =>
        obtain ⟨nn, d⟩ := v
        rw [hv] at h
        simp only at h
        have hc : cur ∈ s.active := hl.inside cur (by rw [hch]; exact List.mem_cons_self)
        have hnear : ∀ k v, (note s cur (nn, d)).cache k = some v → near s k = some v := by
          intro k v hk
          unfold note at hk
          simp only at hk
          split at hk
          · rename_i e
            subst e
            simp only [Option.some.injEq] at hk
            rw [← hk, hv]
          · unfold near
            rw [hk]
        by_cases hh : below.head? = some nn
        · rw [if_pos hh] at h
          cases below with
          | nil => cases hh
          | cons b rest =>
            simp only [List.head?_cons, Option.some.injEq] at hh
            subst hh
            simp only [List.tail_cons, Option.some.injEq, Except.ok.injEq] at h
            have hl1 := note_linked hl hc hv
            have hcur : (note s cur (b, d)).cache cur = some (b, d) := by simp [note]
            have hch1 : (note s cur (b, d)).chain = cur :: b :: rest := hch
            obtain ⟨e, he⟩ := hl1.adj 0 cur b (by rw [hch1]; rfl) (by rw [hch1]; rfl)
            have hnd : (cur :: b :: rest).Nodup := by
              apply chain_nodup (fun x => if x ∈ s.active then ((note s cur (b, d)).cache x).map (·.1) else none)
              · intro i p q h1 h2
                obtain ⟨e, he⟩ := hl1.adj i p q (by rw [hch1]; exact h1) (by rw [hch1]; exact h2)
                have : q ∈ s.active := hl.inside q (by rw [hch]; exact List.mem_of_getElem? h2)
                simp only [if_pos this, he, Option.map_some]
              · intro i p z h1 h2
                exact hl1.tri i p z (by rw [hch1]; exact h1) (by rw [hch1]; exact h2)
              · intro x hx
                split at hx
                · rename_i hxa
                  cases hcx : (note s cur (b, d)).cache x with
                  | none => rw [hcx] at hx; cases hx
                  | some w =>
                    rw [hcx] at hx
                    simp only [Option.map_some, Option.some.injEq] at hx
                    exact (hl1.target x hxa w hcx).2 hx
                · cases hx
              · intro x y hx hy
                simp only [List.getElem?_cons_zero, List.getElem?_cons_succ, Option.some.injEq] at hx hy
                subst hx; subst hy
                simp only [if_pos hc, hcur, Option.map_some]
            refine ⟨⟨note s cur (b, d), cur, b, d, rest, hl1, hch1, ?_, hcur, ⟨e, he⟩, h.symm, rfl, rfl, rfl, rfl, rfl, hnear⟩⟩
            rw [hch1]; exact hnd
        · rw [if_neg hh] at h
          have hp := push_linked hl hch hv hh
          obtain ⟨t, a, b, e, rest, h1, h2, h3, h4, h5, h6, h7, h8, h9, h10, h11, h12⟩ := (ih _ _ hp h).merged
          refine ⟨⟨t, a, b, e, rest, h1, h2, h3, h4, h5, h6, h7, h8, h9, h10, h11, ?_⟩⟩
          intro k v hk
          have hk' := h12 k v hk
          -- `near` of the noted state is `near` of the old one
          unfold near at hk'
          have hcase : ({ note s cur (nn, d) with chain := nn :: cur :: below } : St K).cache k = (note s cur (nn, d)).cache k := rfl
          rw [hcase] at hk'
          cases hkc : (note s cur (nn, d)).cache k with
          | some w =>
            rw [hkc] at hk'
            simp only [Option.some.injEq] at hk'
            rw [← hk']
            exact hnear k w hkc
          | none =>
            rw [hkc] at hk'
            have : s.cache k = none := by
              unfold note at hkc
              simp only at hkc
              split at hkc
              · cases hkc
              · exact hkc
            unfold near
            rw [this]
            exact hk'

/-! ### Members -/

omit [Field K] [LinearOrder K] in
theorem members_one (rows : List (Row K)) {n c : Nat} (h : c < n) : members rows n c = [c] := by
  unfold members
  rw [if_pos h]

omit [Field K] [LinearOrder K] in
theorem members_row {rows : List (Row K)} {n t : Nat} {row : Row K} (h : rows[t]? = some row) (ha : row.a < n + t) (hb : row.b < n + t) :
    members rows n (n + t) = members rows n row.a ++ members rows n row.b := by
  rw [members]
  have e : n + t - n = t := by omega
  rw [if_neg (by omega), e, h]
  simp only [dif_pos (show row.a < n + t ∧ row.b < n + t from ⟨ha, hb⟩)]

omit [Field K] [LinearOrder K] in
theorem members_append (rows more : List (Row K)) (n : Nat) : ∀ (c : Nat), c < n + rows.length → members (rows ++ more) n c = members rows n c := by
  intro c
  induction c using Nat.strongRecOn with
  | ind c ih =>
    intro h
    rw [members]
    conv_rhs => rw [members]
    by_cases hc : c < n
    · rw [if_pos hc, if_pos hc]
    · rw [if_neg hc, if_neg hc, List.getElem?_append_left (by omega)]
      cases rows[c - n]? with
      | none => rfl
      | some row =>
        simp only
        by_cases hr : row.a < c ∧ row.b < c
        · rw [dif_pos hr, dif_pos hr, ih _ hr.1 (by omega), ih _ hr.2 (by omega)]
        · rw [dif_neg hr, dif_neg hr]

omit [Field K] [LinearOrder K] in
theorem split_two {l : List Nat} (hn : l.Nodup) {a b : Nat} (ha : a ∈ l) (hb : b ∈ l) (hab : a ≠ b) :
    l.Perm (a :: b :: l.filter fun x => x ≠ a ∧ x ≠ b) := by
  rw [List.perm_ext_iff_of_nodup hn]
  · intro x
    simp only [List.mem_cons, List.mem_filter, decide_eq_true_eq]
    constructor
    · intro h
      by_cases h1 : x = a
      · exact Or.inl h1
      · by_cases h2 : x = b
        · exact Or.inr (Or.inl h2)
        · exact Or.inr (Or.inr ⟨h, h1, h2⟩)
    · rintro (rfl | rfl | h)
      · exact ha
      · exact hb
      · exact h.1
  · rw [List.nodup_cons, List.nodup_cons]
    refine ⟨?_, ?_, hn.filter _⟩
    · simp [hab]
    · simp

/-- The part of the state that is the tree. -/
structure WF (n : Nat) (s : St K) : Prop where
  next : s.next = n + s.rows.length
  sorted : s.active.Pairwise (· < ·)
  alive : ∀ c, c ∈ s.active ↔ c < s.next ∧ ∀ x ∈ s.rows, c ≠ x.a ∧ c ≠ x.b
  older : ∀ t row, s.rows[t]? = some row → row.a < row.b ∧ row.b < n + t
  once : (s.rows.flatMap fun x => [x.a, x.b]).Nodup
  size : ∀ c ∈ s.active, s.size c = (members s.rows n c).length
  rsize : ∀ t row, s.rows[t]? = some row → row.size = (members s.rows n (n + t)).length
  part : (s.active.flatMap (members s.rows n)).Perm (List.range n)
  count : s.active.length + s.rows.length = n

theorem WF.nodup {n : Nat} {s : St K} (h : WF n s) : s.active.Nodup := h.sorted.imp fun h => Nat.ne_of_lt h

theorem members_new (r : Rounding K) {n : Nat} {s : St K} (h : WF n s) {a b : Nat} (ha : a ∈ s.active) (hb : b ∈ s.active) (d : K)
    (rest : List Nat) : members (merge r s a b d rest).rows n s.next = members s.rows n (min a b) ++ members s.rows n (max a b) := by
  have ha' := ((h.alive a).mp ha).1
  have hb' := ((h.alive b).mp hb).1
  have hnx := h.next
  have hrow : (merge r s a b d rest).rows[s.rows.length]? = some ⟨min a b, max a b, d, s.size a + s.size b⟩ := by
    simp only [merge]
    rw [List.getElem?_append_right (Nat.le_refl _), Nat.sub_self, List.getElem?_cons_zero]
  rw [hnx, members_row hrow (by simp only; omega) (by simp only; omega)]
  simp only [merge]
  rw [members_append _ _ _ _ (by omega), members_append _ _ _ _ (by omega)]

theorem members_old (r : Rounding K) {n : Nat} {s : St K} (h : WF n s) {a b : Nat} (d : K) (rest : List Nat) {c : Nat} (hc : c < s.next) :
    members (merge r s a b d rest).rows n c = members s.rows n c := by
  have hnx := h.next
  simp only [merge]
  rw [members_append _ _ _ _ (by omega)]

omit [Field K] [LinearOrder K] in
theorem members_perm {rows : List (Row K)} {n a b : Nat} :
    (members rows n (min a b) ++ members rows n (max a b)).Perm (members rows n a ++ members rows n b) := by
  rcases Nat.le_total a b with h | h
  · rw [Nat.min_eq_left h, Nat.max_eq_right h]
  · rw [Nat.min_eq_right h, Nat.max_eq_left h]
    exact List.perm_append_comm

theorem merge_wf (r : Rounding K) {n : Nat} {s : St K} (h : WF n s) {a b : Nat} (ha : a ∈ s.active) (hb : b ∈ s.active) (hab : a ≠ b) (d : K)
    (rest : List Nat) : WF n (merge r s a b d rest) := by
  have ha' := (h.alive a).mp ha
  have hb' := (h.alive b).mp hb
  have hnx := h.next
  have hrows : (merge r s a b d rest).rows = s.rows ++ [⟨min a b, max a b, d, s.size a + s.size b⟩] := rfl
  have hact : (merge r s a b d rest).active = (s.active.filter fun x => x ≠ a ∧ x ≠ b) ++ [s.next] := rfl
  have hsplit := split_two h.nodup ha hb hab
  have hnew := members_new r h ha hb d rest
  have hlen : (members (merge r s a b d rest).rows n s.next).length = s.size a + s.size b := by
    rw [hnew, members_perm.length_eq, List.length_append, h.size a ha, h.size b hb]
  constructor
  · show s.next + 1 = _
    rw [hrows, List.length_append, hnx]
    rfl
  · rw [hact, List.pairwise_append]
    refine ⟨h.sorted.filter _, List.pairwise_singleton _ _, ?_⟩
    intro x hx y hy
    rw [List.mem_singleton] at hy
    subst hy
    exact ((h.alive x).mp (List.mem_of_mem_filter hx)).1
  · intro c
    rw [hact, hrows]
    show _ ↔ c < s.next + 1 ∧ _
    simp only [List.mem_append, List.mem_filter, decide_eq_true_eq, List.mem_singleton]
    rw [h.alive c]
    constructor
    · rintro (⟨⟨h1, h2⟩, h3, h4⟩ | rfl)
      · refine ⟨by omega, ?_⟩
        rintro x (hx | rfl)
        · exact h2 x hx
        · simp only; omega
      · refine ⟨by omega, ?_⟩
        rintro x (hx | rfl)
        · obtain ⟨t, ht, e⟩ := List.getElem_of_mem hx
          have := h.older t x (by rw [List.getElem?_eq_getElem ht, e])
          omega
        · simp only; omega
    · rintro ⟨h1, h2⟩
      by_cases hc : c = s.next
      · exact Or.inr hc
      · refine Or.inl ⟨⟨by omega, fun x hx => h2 x (Or.inl hx)⟩, ?_⟩
        have := h2 _ (Or.inr rfl)
        simp only at this
        omega
  · intro t row hrow
    rw [hrows] at hrow
    rcases Nat.lt_or_ge t s.rows.length with ht | ht
    · rw [List.getElem?_append_left ht] at hrow
      exact h.older t row hrow
    · rw [List.getElem?_append_right ht] at hrow
      have ht0 : t - s.rows.length = 0 := by
        by_contra hne
        rw [List.getElem?_eq_none (by simp only [List.length_singleton]; omega)] at hrow
        cases hrow
      rw [ht0, List.getElem?_cons_zero, Option.some.injEq] at hrow
      subst hrow
      simp only
      omega
  · rw [hrows, List.flatMap_append, List.nodup_append]
    refine ⟨h.once, ?_, ?_⟩
    · simp only [List.flatMap_cons, List.flatMap_nil, List.append_nil, List.nodup_cons, List.mem_singleton, List.not_mem_nil, not_false_eq_true,
        List.nodup_nil, and_true]
      omega
    · intro x hx y hy
      simp only [List.mem_flatMap] at hx
      obtain ⟨row, hrow, hx⟩ := hx
      simp only [List.flatMap_cons, List.flatMap_nil, List.append_nil, List.mem_cons, List.not_mem_nil, or_false] at hx hy
      have h1 := ha'.2 row hrow
      have h2 := hb'.2 row hrow
      omega
  · intro c hc
    rw [hact, List.mem_append, List.mem_singleton] at hc
    rcases hc with hc | rfl
    · have hc' := List.mem_of_mem_filter hc
      have hlt := ((h.alive c).mp hc').1
      rw [members_old r h d rest hlt, ← h.size c hc']
      show (if c = s.next then _ else _) = _
      rw [if_neg (by omega)]
    · rw [hlen]
      show (if s.next = s.next then _ else _) = _
      rw [if_pos rfl]
  · intro t row hrow
    rw [hrows] at hrow
    rcases Nat.lt_or_ge t s.rows.length with ht | ht
    · rw [List.getElem?_append_left ht] at hrow
      rw [members_old r h d rest (by omega)]
      exact h.rsize t row hrow
    · rw [List.getElem?_append_right ht] at hrow
      have ht0 : t - s.rows.length = 0 := by
        by_contra hne
        rw [List.getElem?_eq_none (by simp only [List.length_singleton]; omega)] at hrow
        cases hrow
      rw [ht0, List.getElem?_cons_zero, Option.some.injEq] at hrow
      subst hrow
      have : n + t = s.next := by omega
      rw [this, hlen]
  · rw [hact, List.flatMap_append, List.flatMap_cons, List.flatMap_nil, List.append_nil, hnew]
    have e1 : (s.active.filter fun x => x ≠ a ∧ x ≠ b).flatMap (members (merge r s a b d rest).rows n)
        = (s.active.filter fun x => x ≠ a ∧ x ≠ b).flatMap (members s.rows n) := by
      apply List.flatMap_congr
      intro c hc
      exact members_old r h d rest ((h.alive c).mp (List.mem_of_mem_filter hc)).1
    rw [e1]
    refine List.Perm.trans ?_ h.part
    refine List.Perm.trans ?_ (hsplit.flatMap_right _).symm
    rw [List.flatMap_cons, List.flatMap_cons, ← List.append_assoc (members s.rows n a)]
    refine List.Perm.trans List.perm_append_comm ?_
    exact (members_perm (rows := s.rows)).append_right _
  · rw [hact, hrows]
    have := hsplit.length_eq
    have := h.count
    simp only [List.length_append, List.length_cons, List.length_nil] at *
    omega

theorem merge_linked (r : Rounding K) {n : Nat} {s : St K} (h : WF n s) (hl : Linked s) {a b : Nat} {d : K} {rest : List Nat}
    (hch : s.chain = a :: b :: rest) (hnd : s.chain.Nodup) : Linked (merge r s a b d rest) := by
  rw [hch, List.nodup_cons, List.nodup_cons] at hnd
  obtain ⟨hna, hnb, hnr⟩ := hnd
  have hact : (merge r s a b d rest).active = (s.active.filter fun x => x ≠ a ∧ x ≠ b) ++ [s.next] := rfl
  have hmem : ∀ x, x ∈ (s.active.filter fun x => x ≠ a ∧ x ≠ b) ↔ x ∈ s.active ∧ x ≠ a ∧ x ≠ b := by
    intro x
    simp only [List.mem_filter, decide_eq_true_eq]
  have hin : ∀ x ∈ rest, x ∈ (s.active.filter fun x => x ≠ a ∧ x ≠ b) := by
    intro x hx
    rw [hmem]
    refine ⟨hl.inside x (by rw [hch]; exact List.mem_cons_of_mem _ (List.mem_cons_of_mem _ hx)), ?_, ?_⟩
    · rintro rfl
      exact hna (List.mem_cons_of_mem _ hx)
    · rintro rfl
      exact hnb hx
  constructor
  · intro x hx
    rw [hact]
    exact List.mem_append_left _ (hin x hx)
  · intro x hx v hv
    rw [hact, List.mem_append, List.mem_singleton] at hx
    simp only [merge] at hv
    by_cases hxn : x = s.next
    · rw [if_pos hxn] at hv
      obtain ⟨j, e⟩ := v
      have := nearest_mem hv
      rw [hxn]
      exact ⟨this.1, this.2.1⟩
    · rw [if_neg hxn] at hv
      have hx := hx.resolve_right hxn
      split at hv
      · cases hv
      · rename_i hcond
        have hx' := (hmem x).mp hx
        have ht := hl.target x hx'.1 v hv
        refine ⟨?_, ht.2⟩
        rw [hact]
        refine List.mem_append_left _ ((hmem _).mpr ⟨ht.1, ?_⟩)
        rw [hv] at hcond
        simp only [Option.any_some, decide_eq_true_eq] at hcond
        constructor
        · intro e
          exact hcond ⟨hx, Or.inl e⟩
        · intro e
          exact hcond ⟨hx, Or.inr e⟩
  · intro i p q h1 h2
    have h1 : rest[i]? = some p := h1
    have h2 : rest[i + 1]? = some q := h2
    obtain ⟨e, he⟩ := hl.adj (i + 2) p q (by rw [hch]; exact h1) (by rw [hch]; exact h2)
    have hq := hin q (List.mem_of_getElem? h2)
    have hp := hin p (List.mem_of_getElem? h1)
    refine ⟨e, ?_⟩
    simp only [merge]
    have hlt := ((h.alive q).mp ((hmem q).mp hq).1).1
    rw [if_neg (by omega), if_neg, he]
    rw [he]
    simp only [Option.any_some, decide_eq_true_eq]
    have := (hmem p).mp hp
    rintro ⟨_, h3 | h3⟩
    · exact this.2.1 h3
    · exact this.2.2 h3
  · intro i p z h1 h2
    exact hl.tri (i + 2) p z (by rw [hch]; exact h1) (by rw [hch]; exact h2)

/-- The first state of a round. -/
theorem start_linked {s : St K} (hl : Linked s) : Linked (if s.chain = [] then { s with chain := s.active.take 1 } else s) := by
  split
  · constructor
    · intro x hx
      exact List.mem_of_mem_take hx
    · exact hl.target
    · intro i p q _ h2
      have : (s.active.take 1)[i + 1]? = some q := h2
      rw [List.getElem?_eq_none (by rw [List.length_take]; omega)] at this
      cases this
    · intro i p z _ h2
      have : (s.active.take 1)[i + 2]? = some z := h2
      rw [List.getElem?_eq_none (by rw [List.length_take]; omega)] at this
      cases this
  · exact hl

theorem start_wf {n : Nat} {s : St K} (h : WF n s) : WF n (if s.chain = [] then { s with chain := s.active.take 1 } else s) := by
  split
  · exact ⟨h.next, h.sorted, h.alive, h.older, h.once, h.size, h.rsize, h.part, h.count⟩
  · exact h

theorem grow_wf (r : Rounding K) {n fuel : Nat} {s s' : St K} (h : WF n s) (hl : Linked s) (hg : grow r fuel s = some (.ok s')) :
    WF n s' ∧ Linked s' ∧ s'.rows.length = s.rows.length + 1 := by
  obtain ⟨t, a, b, d, rest, h1, h2, h3, h4, h5, h6, h7, h8, h9, h10, h11, _⟩ := (grow_found r fuel s s' hl hg).merged
  have ht : WF n t := ⟨by rw [h10, h11]; exact h.next, by rw [h9]; exact h.sorted, by rw [h9, h10, h11]; exact h.alive, by rw [h11]; exact h.older,
    by rw [h11]; exact h.once, by rw [h9, h8, h11]; exact h.size, by rw [h11]; exact h.rsize, by rw [h9, h11]; exact h.part,
    by rw [h9, h11]; exact h.count⟩
  have ha : a ∈ t.active := h1.inside a (by rw [h2]; exact List.mem_cons_self)
  have hb : b ∈ t.active := h1.inside b (by rw [h2]; exact List.mem_cons_of_mem _ List.mem_cons_self)
  have hab : a ≠ b := by
    rw [h2, List.nodup_cons] at h3
    intro e
    exact h3.1 (by rw [e]; exact List.mem_cons_self)
  subst h6
  refine ⟨merge_wf r ht ha hb hab d rest, merge_linked r ht h1 h2 h3, ?_⟩
  show (t.rows ++ [_]).length = _
  rw [List.length_append, h11]
  rfl

theorem merges_wf (r : Rounding K) (fuel n : Nat) : ∀ (m : Nat) (s s' : St K), WF n s → Linked s → merges r fuel m s = some (.ok s') →
    WF n s' ∧ s'.rows.length = s.rows.length + m := by
  intro m
  induction m with
  | zero =>
    intro s s' h _ hm
    simp only [merges, Option.some.injEq, Except.ok.injEq] at hm
    subst hm
    exact ⟨h, rfl⟩
  | succ m ih =>
    intro s s' h hl hm
    rw [merges] at hm
    cases hg : grow r fuel (if s.chain = [] then { s with chain := s.active.take 1 } else s) with
    | none => rw [hg] at hm; cases hm
    | some x =>
      rw [hg] at hm
      cases x with
      | error f => cases hm
      | ok t =>
        simp only at hm
        obtain ⟨h1, h2, h3⟩ := grow_wf r (start_wf h) (start_linked hl) hg
        obtain ⟨h4, h5⟩ := ih t s' h1 h2 hm
        refine ⟨h4, ?_⟩
        rw [h5, h3]
        split
        · show s.rows.length + 1 + m = _
          omega
        · omega

theorem begin_wf (r : Rounding K) (n : Nat) (ds : List (Option K)) : WF n (begin r n ds) where
  next := rfl
  sorted := List.pairwise_lt_range
  alive := by
    intro c
    simp [begin]
  older := by
    intro t row h
    simp [begin] at h
  once := List.nodup_nil
  size := by
    intro c hc
    have : c < n := List.mem_range.mp hc
    rw [members_one _ this]
    rfl
  rsize := by
    intro t row h
    simp [begin] at h
  part := by
    have : (begin r n ds).active.flatMap (members (begin r n ds).rows n) = List.range n := by
      show (List.range n).flatMap _ = _
      rw [List.flatMap_congr (g := fun c => [c])]
      · simp
      · intro c hc
        exact members_one _ (List.mem_range.mp hc)
    rw [this]
  count := by simp [begin]

theorem begin_linked (r : Rounding K) (n : Nat) (ds : List (Option K)) : Linked (begin r n ds) where
  inside := by
    intro x hx
    simp [begin] at hx
  target := by
    intro x hx v hv
    have hlt : x < n := List.mem_range.mp hx
    simp only [begin, if_pos hlt] at hv
    obtain ⟨j, d⟩ := v
    have := nearest_mem hv
    exact ⟨this.1, this.2.1⟩
  adj := by
    intro i p q h
    simp [begin] at h
  tri := by
    intro i p z h
    simp [begin] at h

theorem linkage_tree (r : Rounding K) {fuel n : Nat} {ds : List (Option K)} {rows : List (Row K)} (h : linkage r fuel n ds = some (.ok rows)) :
    Dendrogram n rows := by
  unfold linkage at h
  by_cases hn : n ≤ 1
  · rw [if_pos hn] at h
    simp only [Option.some.injEq, Except.ok.injEq] at h
    subst h
    exact ⟨by simp only [List.length_nil]; omega, by simp, by simp, by simp⟩
  · rw [if_neg hn] at h
    split at h
    · cases h
    · cases hm : merges r fuel (n - 1) (begin r n ds) with
      | none => rw [hm] at h; cases h
      | some x =>
        rw [hm] at h
        cases x with
        | error f => cases h
        | ok s =>
          simp only [Option.some.injEq, Except.ok.injEq] at h
          subst h
          obtain ⟨h1, h2⟩ := merges_wf r fuel n _ _ _ (begin_wf r n ds) (begin_linked r n ds) hm
          exact ⟨by rw [h2]; simp [begin], h1.older, h1.once, h1.rsize⟩

end NextPlaid.Hier
