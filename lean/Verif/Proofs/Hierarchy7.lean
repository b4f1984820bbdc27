import Verif.Proofs.Hierarchy6

/-!
Proofs: the flat clusters are those of the tree after the first merges.
-/

namespace NextPlaid.Hier

open NextPlaid.Fusion NextPlaid.Spec

variable {K : Type}

/-! ### The clusters of a tree -/

theorem members_lt (rows : List (Row K)) (n : Nat) : ∀ (c x : Nat), x ∈ members rows n c → x < n := by
  intro c
  induction c using Nat.strongRecOn with
  | ind c ih =>
    intro x hx
    rw [members] at hx
    by_cases hc : c < n
    · rw [if_pos hc, List.mem_singleton] at hx
      omega
    · rw [if_neg hc] at hx
      cases hr : rows[c - n]? with
      | none => rw [hr] at hx; cases hx
      | some row =>
        rw [hr] at hx
        simp only at hx
        split at hx
        · rename_i h
          rcases List.mem_append.mp hx with h1 | h1
          · exact ih _ h.1 x h1
          · exact ih _ h.2 x h1
        · cases hx

/-- A tree, or the beginning of one. -/
structure Tree (n : Nat) (rows : List (Row K)) : Prop where
  older : ∀ t row, rows[t]? = some row → row.a < row.b ∧ row.b < n + t
  once : (rows.flatMap fun x => [x.a, x.b]).Nodup

theorem Tree.row {n : Nat} {rows : List (Row K)} (h : Tree n rows) {t : Nat} {row : Row K} (hr : rows[t]? = some row) :
    members rows n (n + t) = members rows n row.a ++ members rows n row.b := by
  have := h.older t row hr
  exact members_row hr (by omega) (by omega)

theorem Tree.fresh {n : Nat} {rows : List (Row K)} (h : Tree n rows) {t : Nat} {row : Row K} (hr : rows[t]? = some row) :
    Alive rows n t row.a ∧ Alive rows n t row.b := by
  have ho := h.older t row hr
  have hn := h.once
  rw [List.nodup_flatMap] at hn
  have hp := hn.2
  have key : ∀ x ∈ rows.take t, row.a ≠ x.a ∧ row.a ≠ x.b ∧ row.b ≠ x.a ∧ row.b ≠ x.b := by
    intro x hx
    obtain ⟨i, hi, e⟩ := List.getElem_of_mem hx
    rw [List.length_take] at hi
    rw [List.getElem_take] at e
    obtain ⟨ht, e'⟩ := List.getElem?_eq_some_iff.mp hr
    have := (List.pairwise_iff_getElem.mp hp) i t (by omega) ht (by omega)
    rw [e, e'] at this
    simp only [Function.onFun, List.disjoint_cons_left, List.mem_cons, List.not_mem_nil, or_false, not_or] at this
    obtain ⟨⟨h1, h2⟩, ⟨h3, h4⟩, _⟩ := this
    exact ⟨Ne.symm h1, Ne.symm h3, Ne.symm h2, Ne.symm h4⟩
  exact ⟨⟨by omega, fun x hx => ⟨(key x hx).1, (key x hx).2.1⟩⟩, ⟨by omega, fun x hx => ⟨(key x hx).2.2.1, (key x hx).2.2.2⟩⟩⟩

/-- Every cluster is inside one that is alive. -/
theorem Tree.cover {n : Nat} {rows : List (Row K)} (h : Tree n rows) {m : Nat} (hm : m ≤ rows.length) : ∀ (k c : Nat), n + m - c ≤ k → c < n + m →
    ∃ c', Alive rows n m c' ∧ ∀ x ∈ members rows n c, x ∈ members rows n c' := by
  intro k
  induction k with
  | zero => intro c h1 h2; omega
  | succ k ih =>
    intro c h1 h2
    by_cases ha : ∀ x ∈ rows.take m, c ≠ x.a ∧ c ≠ x.b
    · exact ⟨c, ⟨h2, ha⟩, fun x hx => hx⟩
    · have : ∃ x ∈ rows.take m, c = x.a ∨ c = x.b := by
        by_contra hcon
        apply ha
        intro x hx
        constructor
        · intro e; exact hcon ⟨x, hx, Or.inl e⟩
        · intro e; exact hcon ⟨x, hx, Or.inr e⟩
      obtain ⟨row, hrow, hc⟩ := this
      obtain ⟨t, ht, e⟩ := List.getElem_of_mem hrow
      rw [List.length_take] at ht
      rw [List.getElem_take] at e
      have hr : rows[t]? = some row := by rw [List.getElem?_eq_getElem (by omega), e]
      have ho := h.older t row hr
      obtain ⟨c', hc', hsub⟩ := ih (n + t) (by omega) (by omega)
      refine ⟨c', hc', ?_⟩
      intro x hx
      apply hsub
      rw [h.row hr, List.mem_append]
      rcases hc with rfl | rfl
      · exact Or.inl hx
      · exact Or.inr hx

/-- Clusters that are alive have no observation in common. -/
theorem Tree.disjoint {n : Nat} {rows : List (Row K)} (h : Tree n rows) : ∀ (m : Nat), m ≤ rows.length → ∀ c c', Alive rows n m c → Alive rows n m c' →
    ∀ x, x ∈ members rows n c → x ∈ members rows n c' → c = c' := by
  intro m
  induction m with
  | zero =>
    intro _ c c' hc hc' x h1 h2
    rw [members_one _ (by have := hc.1; omega), List.mem_singleton] at h1
    rw [members_one _ (by have := hc'.1; omega), List.mem_singleton] at h2
    omega
  | succ m ih =>
    intro hm
    have hr : rows[m]? = some rows[m] := List.getElem?_eq_getElem (by omega)
    have hf := h.fresh hr
    have htake : rows.take (m + 1) = rows.take m ++ [rows[m]] := by rw [List.take_succ, hr]; rfl
    have old : ∀ c, Alive rows n (m + 1) c → c ≠ n + m → Alive rows n m c ∧ c ≠ rows[m].a ∧ c ≠ rows[m].b := by
      intro c hc hne
      refine ⟨⟨by have := hc.1; omega, fun x hx => hc.2 x (by rw [htake]; exact List.mem_append_left _ hx)⟩, ?_⟩
      exact hc.2 _ (by rw [htake]; exact List.mem_append_right _ (List.mem_singleton.mpr rfl))
    have mixed : ∀ c, Alive rows n (m + 1) c → c ≠ n + m → ∀ x, x ∈ members rows n (n + m) → x ∈ members rows n c → False := by
      intro c hc hne x h1 h2
      obtain ⟨o1, o2, o3⟩ := old c hc hne
      rw [h.row hr, List.mem_append] at h1
      rcases h1 with h1 | h1
      · exact o2 (ih (by omega) _ _ o1 hf.1 x h2 h1)
      · exact o3 (ih (by omega) _ _ o1 hf.2 x h2 h1)
    intro c c' hc hc' x h1 h2
    by_cases e1 : c = n + m
    · by_cases e2 : c' = n + m
      · rw [e1, e2]
      · rw [e1] at h1
        exact (mixed c' hc' e2 x h1 h2).elim
    · by_cases e2 : c' = n + m
      · rw [e2] at h2
        exact (mixed c hc e1 x h2 h1).elim
      · exact ih (by omega) c c' (old c hc e1).1 (old c' hc' e2).1 x h1 h2

theorem Tree.together {n : Nat} {rows : List (Row K)} (h : Tree n rows) {m : Nat} (hm : m ≤ rows.length) {c : Nat} (hc : Alive rows n m c) {o : Nat}
    (ho : o ∈ members rows n c) (x : Nat) : OneCluster rows n m o x ↔ x ∈ members rows n c := by
  constructor
  · rintro (rfl | ⟨t, ht, h1, h2⟩)
    · exact ho
    · obtain ⟨c', hc', hsub⟩ := h.cover hm (n + m) (n + t) (by omega) (by omega)
      have := h.disjoint m hm c c' hc hc' o ho (hsub o h1)
      rw [this]
      exact hsub x h2
  · intro hx
    by_cases hn : c < n
    · rw [members_one _ hn, List.mem_singleton] at ho hx
      exact Or.inl (ho.trans hx.symm)
    · obtain ⟨t, rfl⟩ : ∃ t, c = n + t := ⟨c - n, by omega⟩
      exact Or.inr ⟨t, by have := hc.1; omega, ho, hx⟩

theorem Tree.together_symm {n : Nat} {rows : List (Row K)} {m i j : Nat} (h : OneCluster rows n m i j) : OneCluster rows n m j i := by
  rcases h with h | ⟨t, h1, h2, h3⟩
  · exact Or.inl h.symm
  · exact Or.inr ⟨t, h1, h3, h2⟩

theorem observation_ok {n : Nat} {rows : List (Row K)} (h : Tree n rows) : ∀ (c : Nat), c < n + rows.length →
    ∃ o, observation rows n c = .ok o ∧ o ∈ members rows n c := by
  intro c
  induction c using Nat.strongRecOn with
  | ind c ih =>
    intro hc
    rw [observation]
    by_cases hn : c < n
    · rw [if_pos hn, members_one _ hn]
      exact ⟨c, rfl, List.mem_singleton.mpr rfl⟩
    · rw [if_neg hn]
      obtain ⟨t, rfl⟩ : ∃ t, c = n + t := ⟨c - n, by omega⟩
      have hr : rows[t]? = some rows[t] := List.getElem?_eq_getElem (by omega)
      have ho := h.older t _ hr
      rw [show n + t - n = t by omega, hr]
      simp only
      rw [dif_pos (by omega)]
      obtain ⟨o, h1, h2⟩ := ih rows[t].a (by omega) (by omega)
      exact ⟨o, h1, by rw [h.row hr]; exact List.mem_append_left _ h2⟩

/-! ### The forest after some merges -/

structure Forest (rows : List (Row K)) (n m : Nat) (p : List Nat) : Prop where
  rooted : Rooted n p
  same : ∀ k l κ μ, Rep p k κ → Rep p l μ → (κ = μ ↔ OneCluster rows n m k l)
  count : (roots p).length + m = n

theorem forest_step {n : Nat} {rows : List (Row K)} (h : Tree n rows) {m : Nat} {row : Row K} (hr : rows[m]? = some row) {p p' : List Nat}
    (hp : Forest rows n m p) {o1 o2 : Nat} (h1 : o1 ∈ members rows n row.a) (h2 : o2 ∈ members rows n row.b) (hj : Joined p p' o1 o2) :
    Forest rows n (m + 1) p' := by
  have hm : m ≤ rows.length := Nat.le_of_lt (List.getElem?_eq_some_iff.mp hr).1
  have hf := h.fresh hr
  have hlt := h.older m row hr
  obtain ⟨ρ, σ, τ, r1, r2, hτ, hrep, hcount⟩ := hj.rep
  have ina : ∀ k κ, Rep p k κ → (κ = ρ ↔ k ∈ members rows n row.a) := by
    intro k κ hk
    rw [← h.together hm hf.1 h1 k, ← hp.same o1 k ρ κ r1 hk]
    exact eq_comm
  have inb : ∀ k κ, Rep p k κ → (κ = σ ↔ k ∈ members rows n row.b) := by
    intro k κ hk
    rw [← h.together hm hf.2 h2 k, ← hp.same o2 k σ κ r2 hk]
    exact eq_comm
  have hne : ρ ≠ σ := by
    intro e
    have := (inb o1 ρ r1).mp e
    have := h.disjoint m hm _ _ hf.1 hf.2 o1 h1 this
    omega
  have hrooted : Rooted n p' := by
    refine ⟨hj.length.trans hp.rooted.1, ?_⟩
    intro i hi
    obtain ⟨κ, hκ⟩ := hp.rooted.2 i hi
    exact ⟨_, hrep i κ hκ⟩
  refine ⟨hrooted, ?_, ?_⟩
  · intro k l κ' μ' hk' hl'
    have hkn : k < n := by rw [← hrooted.1]; exact hk'.lt
    have hln : l < n := by rw [← hrooted.1]; exact hl'.lt
    obtain ⟨κ, hk⟩ := hp.rooted.2 k hkn
    obtain ⟨μ, hl⟩ := hp.rooted.2 l hln
    have ek := hk'.unique (hrep k κ hk)
    have el := hl'.unique (hrep l μ hl)
    have hmem : ∀ x ξ, Rep p x ξ → ((ξ = ρ ∨ ξ = σ) ↔ x ∈ members rows n (n + m)) := by
      intro x ξ hx
      rw [h.row hr, List.mem_append, ina x ξ hx, inb x ξ hx]
    have htog : OneCluster rows n (m + 1) k l ↔ OneCluster rows n m k l ∨ (k ∈ members rows n (n + m) ∧ l ∈ members rows n (n + m)) := by
      constructor
      · rintro (e | ⟨t, ht, g1, g2⟩)
        · exact Or.inl (Or.inl e)
        · rcases Nat.lt_or_ge t m with ht' | ht'
          · exact Or.inl (Or.inr ⟨t, ht', g1, g2⟩)
          · have : t = m := by omega
            subst this
            exact Or.inr ⟨g1, g2⟩
      · rintro ((e | ⟨t, ht, g1, g2⟩) | ⟨g1, g2⟩)
        · exact Or.inl e
        · exact Or.inr ⟨t, by omega, g1, g2⟩
        · exact Or.inr ⟨m, by omega, g1, g2⟩
    rw [htog, ← hmem k κ hk, ← hmem l μ hl, ← hp.same k l κ μ hk hl, ek, el]
    by_cases c1 : κ = ρ ∨ κ = σ
    · rw [if_pos c1]
      by_cases c2 : μ = ρ ∨ μ = σ
      · rw [if_pos c2]
        exact ⟨fun _ => Or.inr ⟨c1, c2⟩, fun _ => rfl⟩
      · rw [if_neg c2]
        constructor
        · intro e
          exfalso
          apply c2
          rw [← e]
          exact hτ
        · rintro (e | e)
          · exact absurd (e ▸ c1) c2
          · exact absurd e.2 c2
    · rw [if_neg c1]
      by_cases c2 : μ = ρ ∨ μ = σ
      · rw [if_pos c2]
        constructor
        · intro e
          exfalso
          apply c1
          rw [e]
          exact hτ
        · rintro (e | e)
          · exact absurd (e ▸ c2) c1
          · exact absurd e.1 c1
      · rw [if_neg c2]
        constructor
        · exact Or.inl
        · rintro (e | e)
          · exact e
          · exact absurd e.1 c1
  · have := hcount hne
    have := hp.count
    omega

theorem joinAll_ok {n : Nat} {rows : List (Row K)} (h : Tree n rows) {fuel : Nat} : ∀ (todo : List (Row K)) (m : Nat) (p rank : List Nat),
    (∀ i row, todo[i]? = some row → rows[m + i]? = some row) → Forest rows n m p → ∀ x, joinAll fuel rows n todo p rank = some x →
    ∃ p' rank', x = .ok (p', rank') ∧ Forest rows n (m + todo.length) p' := by
  intro todo
  induction todo with
  | nil =>
    intro m p rank _ hp x hx
    simp only [joinAll, Option.some.injEq] at hx
    exact ⟨p, rank, hx.symm, hp⟩
  | cons row todo ih =>
    intro m p rank hto hp x hx
    have hr : rows[m]? = some row := hto 0 row rfl
    have hlen := (List.getElem?_eq_some_iff.mp hr).1
    have ho := h.older m row hr
    obtain ⟨o1, e1, m1⟩ := observation_ok h row.a (by omega)
    obtain ⟨o2, e2, m2⟩ := observation_ok h row.b (by omega)
    rw [joinAll, e1, e2] at hx
    simp only at hx
    cases hu : union fuel p rank o1 o2 with
    | none => rw [hu] at hx; cases hx
    | some y =>
      obtain ⟨p', rank', rfl, hj⟩ := union_ok hp.rooted (members_lt rows n _ _ m1) (members_lt rows n _ _ m2) hu
      rw [hu] at hx
      simp only at hx
      obtain ⟨p2, rank2, hx2, hf⟩ := ih (m + 1) p' rank' (fun i row' hi => by
        have := hto (i + 1) row' hi
        rw [show m + 1 + i = m + (i + 1) by omega]
        exact this) (forest_step h hr hp m1 m2 hj) x hx
      refine ⟨p2, rank2, hx2, ?_⟩
      rw [List.length_cons, show m + (todo.length + 1) = m + 1 + todo.length by omega]
      exact hf

theorem joinAll_ends {n : Nat} {rows : List (Row K)} (h : Tree n rows) : ∀ (todo : List (Row K)) (m : Nat) (p rank : List Nat),
    (∀ i row, todo[i]? = some row → rows[m + i]? = some row) → Forest rows n m p → ∃ N x, ∀ fuel, N ≤ fuel → joinAll fuel rows n todo p rank = some x := by
  intro todo
  induction todo with
  | nil => intro m p rank _ _; exact ⟨0, .ok (p, rank), fun _ _ => rfl⟩
  | cons row todo ih =>
    intro m p rank hto hp
    have hr : rows[m]? = some row := hto 0 row rfl
    have hlen := (List.getElem?_eq_some_iff.mp hr).1
    have ho := h.older m row hr
    obtain ⟨o1, e1, m1⟩ := observation_ok h row.a (by omega)
    obtain ⟨o2, e2, m2⟩ := observation_ok h row.b (by omega)
    have l1 := members_lt rows n _ _ m1
    have l2 := members_lt rows n _ _ m2
    obtain ⟨N1, y, hy⟩ := union_ends rank hp.rooted l1 l2
    obtain ⟨p', rank', rfl, hj⟩ := union_ok hp.rooted l1 l2 (hy N1 (Nat.le_refl _))
    obtain ⟨N2, x, hx⟩ := ih (m + 1) p' rank' (fun i row' hi => by
        have := hto (i + 1) row' hi
        rw [show m + 1 + i = m + (i + 1) by omega]
        exact this) (forest_step h hr hp m1 m2 hj)
    refine ⟨max N1 N2, x, ?_⟩
    intro fuel hf
    rw [joinAll, e1, e2]
    simp only
    rw [hy fuel (by omega)]
    simp only
    exact hx fuel (by omega)

theorem begin_forest (rows : List (Row K)) (n : Nat) : Forest rows n 0 (List.range n) := by
  have hroot : ∀ i, i < n → (List.range n)[i]? = some i := fun i hi => by
    rw [List.getElem?_range hi]
  refine ⟨⟨List.length_range, fun i hi => ⟨i, Rep.root (hroot i hi)⟩⟩, ?_, ?_⟩
  · intro k l κ μ hk hl
    have h1 := hk.unique (Rep.root (hroot k (by have := hk.lt; rwa [List.length_range] at this)))
    have h2 := hl.unique (Rep.root (hroot l (by have := hl.lt; rwa [List.length_range] at this)))
    rw [h1, h2]
    constructor
    · exact Or.inl
    · rintro (e | ⟨t, ht, _⟩)
      · exact e
      · omega
  · have : roots (List.range n) = List.range n := by
      unfold roots
      rw [List.length_range, List.filter_eq_self]
      intro i hi
      simp [hroot i (List.mem_range.mp hi)]
    rw [this, List.length_range]
    rfl

theorem take_rows {rows : List (Row K)} {m : Nat} : ∀ i row, (rows.take m)[i]? = some row → rows[0 + i]? = some row := by
  intro i row h
  rw [Nat.zero_add]
  rw [List.getElem?_take] at h
  split at h
  · exact h
  · cases h

/-- What the flat clusters are. -/
structure Cut (rows : List (Row K)) (n m : Nat) (labels : List Nat) : Prop where
  length : labels.length = n
  numbered : Numbered labels (n - m)
  same : ∀ i j, i < n → j < n → (labels[i]? = labels[j]? ↔ OneCluster rows n m i j)

theorem cut_ok {n : Nat} {rows : List (Row K)} (h : Tree n rows) {fuel m : Nat} (hm : m ≤ rows.length) {x : Res (List Nat)}
    (hx : cut fuel rows n m = some x) : ∃ labels, x = .ok labels ∧ Cut rows n m labels := by
  unfold cut at hx
  rw [if_neg (by omega)] at hx
  cases hj : joinAll fuel rows n (rows.take m) (List.range n) (List.replicate n 0) with
  | none => rw [hj] at hx; cases hx
  | some y =>
    obtain ⟨p, rank, rfl, hf⟩ := joinAll_ok h _ 0 _ _ take_rows (begin_forest rows n) y hj
    rw [Nat.zero_add, List.length_take, Nat.min_eq_left hm] at hf
    rw [hj] at hx
    simp only at hx
    obtain ⟨rep, hrep⟩ : ∃ rep : Nat → Nat, ∀ i < n, Rep p i (rep i) := by
      have : ∀ i, ∃ ρ, i < n → Rep p i ρ := by
        intro i
        by_cases hi : i < n
        · obtain ⟨ρ, hρ⟩ := hf.rooted.2 i hi
          exact ⟨ρ, fun _ => hρ⟩
        · exact ⟨0, fun h => absurd h hi⟩
      exact Classical.axiomOfChoice this
    have hl := label_ok (List.range n) [] rep hrep (fun i hi => List.mem_range.mp hi) x hx
    subst hl
    have hfirst : (firsts [] ((List.range n).map rep)).length = n - m := by
      have hperm : (firsts [] ((List.range n).map rep)).Perm (roots p) := by
        rw [List.perm_ext_iff_of_nodup (firsts_nodup _ _ List.nodup_nil) (roots_nodup p)]
        intro z
        rw [mem_firsts, mem_roots, List.mem_map]
        constructor
        · rintro (h1 | ⟨i, hi, rfl⟩)
          · cases h1
          · exact (hrep i (List.mem_range.mp hi)).isRoot
        · intro hz
          have hzn : z < n := by rw [← hf.rooted.1]; exact (List.getElem?_eq_some_iff.mp hz).1
          exact Or.inr ⟨z, List.mem_range.mpr hzn, (hrep z hzn).unique (Rep.root hz)⟩
      have := hperm.length_eq
      have := hf.count
      omega
    refine ⟨_, rfl, ?_, ?_, ?_⟩
    · rw [num_eq, List.length_map, List.length_map, List.length_range]
    · rw [← hfirst]
      exact num_numbered _
    · intro i j hi hj'
      rw [← hf.same i j _ _ (hrep i hi) (hrep j hj'), num_eq]
      rw [List.map_map, List.getElem?_map, List.getElem?_map, List.getElem?_range hi, List.getElem?_range hj']
      simp only [Option.map_some, Option.some.injEq, Function.comp_apply, Nat.add_right_cancel_iff]
      constructor
      · intro e
        have hmi : rep i ∈ firsts [] ((List.range n).map rep) :=
          (mem_firsts _ _ _).mpr (Or.inr (List.mem_map.mpr ⟨i, List.mem_range.mpr hi, rfl⟩))
        exact (List.idxOf_inj hmi).mp e
      · intro e
        rw [e]

theorem cut_ends {n : Nat} {rows : List (Row K)} (h : Tree n rows) {m : Nat} (hm : m ≤ rows.length) :
    ∃ N x, ∀ fuel, N ≤ fuel → cut fuel rows n m = some x := by
  obtain ⟨N1, y, hy⟩ := joinAll_ends h (rows.take m) 0 (List.range n) (List.replicate n 0) take_rows (begin_forest rows n)
  obtain ⟨p, rank, rfl, hf⟩ := joinAll_ok h _ 0 _ _ take_rows (begin_forest rows n) y (hy N1 (Nat.le_refl _))
  obtain ⟨N2, x, hx⟩ := label_ends (List.range n) [] hf.rooted (fun i hi => List.mem_range.mp hi)
  refine ⟨max N1 N2, x, ?_⟩
  intro fuel hfu
  unfold cut
  rw [if_neg (by omega), hy fuel (by omega)]
  simp only
  exact hx fuel (by omega)

end NextPlaid.Hier
