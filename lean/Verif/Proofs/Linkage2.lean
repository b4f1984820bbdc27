import Verif.Proofs.Linkage
import Mathlib.Tactic.FieldSimp
import Mathlib.Tactic.Linarith

/-!
Proofs: what each linkage method computes.
-/

namespace NextPlaid.Linkage

open NextPlaid.Fusion NextPlaid.Hier NextPlaid.Spec

variable {K : Type} [Field K] [LinearOrder K]

omit [Field K] [LinearOrder K] in
theorem members_join {rows : List (Row (D K))} {n a b : Nat} {ds : D K} {sz : Nat} (ha : a < n + rows.length) (hb : b < n + rows.length) :
    members (rows ++ [⟨a, b, ds, sz⟩]) n (n + rows.length) = members rows n a ++ members rows n b := by
  rw [members_row (row := ⟨a, b, ds, sz⟩) (by rw [List.getElem?_append_right (Nat.le_refl _), Nat.sub_self]; rfl) ha hb]
  simp only
  rw [members_append _ _ _ _ ha, members_append _ _ _ _ hb]

/-- The tree does not depend on the numbers. -/
theorem law_any (r : Rounding K) (m : Method) (e : Nat → Nat → K) (n : Nat) : Law r m e n fun _ _ _ _ => True where
  symm := fun _ _ _ _ _ => trivial
  keep := fun _ _ _ _ _ _ _ _ => trivial
  base := fun _ _ _ _ => trivial
  step := by
    intro rows a b k x y ds _ _ _ _ _ _ _ _
    cases m <;> exact ⟨_, rfl, trivial⟩

theorem law_single (r : Rounding K) (e : Nat → Nat → K) (he : ∀ i j, e i j = e j i) (n : Nat) : Law r .single e n (ClusterDist .single e n) where
  symm := by
    rintro rows c c' d ⟨⟨a, ha, b, hb, hd⟩, h⟩
    exact ⟨⟨b, hb, a, ha, by rw [hd, he]⟩, fun b hb a ha => by rw [he]; exact h a ha b hb⟩
  keep := by
    intro rows more c c' d hc hc' h
    show NearestPair _ _ _ _
    rw [members_append _ _ _ _ hc, members_append _ _ _ _ hc']
    exact h
  base := by
    intro i j hi hj
    show NearestPair _ _ _ _
    rw [members_one _ hi, members_one _ hj]
    refine ⟨⟨i, by simp, j, by simp, rfl⟩, ?_⟩
    intro a ha b hb
    rw [List.mem_singleton] at ha hb
    rw [ha, hb]
  step := by
    rintro rows a b k x y ds ha hb hk _ _ _ ⟨⟨a1, ha1, k1, hk1, hx⟩, hx'⟩ ⟨⟨b1, hb1, k2, hk2, hy⟩, hy'⟩
    refine ⟨min x y, rfl, ?_⟩
    show NearestPair _ _ _ _
    rw [members_join ha hb, members_append _ _ _ _ hk]
    refine ⟨?_, ?_⟩
    · rcases le_total x y with h | h
      · exact ⟨a1, List.mem_append_left _ ha1, k1, hk1, by rw [min_eq_left h, hx]⟩
      · exact ⟨b1, List.mem_append_right _ hb1, k2, hk2, by rw [min_eq_right h, hy]⟩
    · intro c hc c' hc'
      rcases List.mem_append.mp hc with hc | hc
      · exact le_trans (min_le_left _ _) (hx' c hc c' hc')
      · exact le_trans (min_le_right _ _) (hy' c hc c' hc')

theorem law_complete (r : Rounding K) (e : Nat → Nat → K) (he : ∀ i j, e i j = e j i) (n : Nat) : Law r .complete e n (ClusterDist .complete e n) where
  symm := by
    rintro rows c c' d ⟨⟨a, ha, b, hb, hd⟩, h⟩
    exact ⟨⟨b, hb, a, ha, by rw [hd, he]⟩, fun b hb a ha => by rw [he]; exact h a ha b hb⟩
  keep := by
    intro rows more c c' d hc hc' h
    show FarthestPair _ _ _ _
    rw [members_append _ _ _ _ hc, members_append _ _ _ _ hc']
    exact h
  base := by
    intro i j hi hj
    show FarthestPair _ _ _ _
    rw [members_one _ hi, members_one _ hj]
    refine ⟨⟨i, by simp, j, by simp, rfl⟩, ?_⟩
    intro a ha b hb
    rw [List.mem_singleton] at ha hb
    rw [ha, hb]
  step := by
    rintro rows a b k x y ds ha hb hk _ _ _ ⟨⟨a1, ha1, k1, hk1, hx⟩, hx'⟩ ⟨⟨b1, hb1, k2, hk2, hy⟩, hy'⟩
    refine ⟨max x y, rfl, ?_⟩
    show FarthestPair _ _ _ _
    rw [members_join ha hb, members_append _ _ _ _ hk]
    refine ⟨?_, ?_⟩
    · rcases le_total y x with h | h
      · exact ⟨a1, List.mem_append_left _ ha1, k1, hk1, by rw [max_eq_left h, hx]⟩
      · exact ⟨b1, List.mem_append_right _ hb1, k2, hk2, by rw [max_eq_right h, hy]⟩
    · intro c hc c' hc'
      rcases List.mem_append.mp hc with hc | hc
      · exact le_trans (hx' c hc c' hc') (le_max_left _ _)
      · exact le_trans (hy' c hc c' hc') (le_max_right _ _)

theorem law_average [IsStrictOrderedRing K] {r : Rounding K} (hr : ∀ x, r.rnd x = x) (e : Nat → Nat → K) (he : ∀ i j, e i j = e j i) (n : Nat) :
    Law r .average e n (ClusterDist .average e n) where
  symm := by
    intro rows c c' d h
    show d = _
    rw [total_symm e he, mul_comm]
    exact h
  keep := by
    intro rows more c c' d hc hc' h
    show d = _
    rw [members_append _ _ _ _ hc, members_append _ _ _ _ hc']
    exact h
  base := by
    intro i j hi hj
    show e i j = _
    rw [members_one _ hi, members_one _ hj]
    simp [total]
  step := by
    intro rows a b k x y ds ha hb hk ha' hb' hk' hx hy
    refine ⟨_, rfl, ?_⟩
    show _ = _
    rw [members_join ha hb, members_append _ _ _ _ hk, total_append_left, List.length_append]
    simp only [hr]
    have hx : x = _ := hx
    have hy : y = _ := hy
    have pa : ((members rows n a).length : K) ≠ 0 := by exact_mod_cast fun h => ha' (List.length_eq_zero_iff.mp h)
    have pb : ((members rows n b).length : K) ≠ 0 := by exact_mod_cast fun h => hb' (List.length_eq_zero_iff.mp h)
    have pk : ((members rows n k).length : K) ≠ 0 := by exact_mod_cast fun h => hk' (List.length_eq_zero_iff.mp h)
    have pab : (((members rows n a).length + (members rows n b).length : Nat) : K) ≠ 0 := by
      have : (members rows n a).length ≠ 0 := fun h => ha' (List.length_eq_zero_iff.mp h)
      exact_mod_cast by omega
    have e1 : ((members rows n a).length : K) * x = total e (members rows n a) (members rows n k) / ((members rows n k).length : K) := by
      rw [hx]; field_simp
    have e2 : ((members rows n b).length : K) * y = total e (members rows n b) (members rows n k) / ((members rows n k).length : K) := by
      rw [hy]; field_simp
    rw [e1, e2, ← add_div, div_div, mul_comm ((members rows n k).length : K)]

theorem weighted_lift {e : Nat → Nat → K} {n : Nat} {rows more : List (Row (D K))} {c c' : Nat} {x : K} (h : WeightedDist e n rows c c' x) :
    WeightedDist e n (rows ++ more) c c' x := by
  induction h with
  | one i j hi hj => exact .one i j hi hj
  | made t c row x y hr hc _ _ ih1 ih2 =>
    refine .made t c row x y ?_ hc ih1 ih2
    rw [List.getElem?_append_left (List.getElem?_eq_some_iff.mp hr).1]
    exact hr
  | swap c c' x _ ih => exact .swap c c' x ih

theorem law_weighted {r : Rounding K} (hr : ∀ x, r.rnd x = x) (e : Nat → Nat → K) (n : Nat) : Law r .weighted e n (ClusterDist .weighted e n) where
  symm := fun rows c c' d h => .swap c c' d h
  keep := fun rows more c c' d _ _ h => weighted_lift h
  base := fun i j hi hj => .one i j hi hj
  step := by
    intro rows a b k x y ds ha hb hk _ _ _ hx hy
    refine ⟨_, rfl, ?_⟩
    simp only [hr]
    refine WeightedDist.made rows.length k ⟨a, b, ds, (members rows n a).length + (members rows n b).length⟩ x y ?_ hk (weighted_lift hx) (weighted_lift hy)
    rw [List.getElem?_append_right (Nat.le_refl _), Nat.sub_self]
    rfl

/-- The methods whose results do not depend on rounding, or exact numbers. -/
theorem law_of [IsStrictOrderedRing K] {r : Rounding K} {m : Method} (h : m = .single ∨ m = .complete ∨ ∀ x, r.rnd x = x) (e : Nat → Nat → K)
    (he : ∀ i j, e i j = e j i) (n : Nat) : Law r m e n (ClusterDist m e n) := by
  cases m with
  | single => exact law_single r e he n
  | complete => exact law_complete r e he n
  | average => exact law_average (by simpa using h) e he n
  | weighted => exact law_weighted (by simpa using h) e n

/-! ### Heights do not decrease -/

theorem update_ge [IsStrictOrderedRing K] {r : Rounding K} {m : Method} (h : m = .single ∨ m = .complete ∨ ∀ x, r.rnd x = x) {ni nj : Nat} (hi : ni ≠ 0)
    {d x y z : K} (hx : d ≤ x) (hy : d ≤ y) (hz : update r m ni nj (.fin x) (.fin y) = .fin z) : d ≤ z := by
  cases m with
  | single =>
    simp only [update, D.min, D.fin.injEq] at hz
    rw [← hz]; exact le_min hx hy
  | complete =>
    simp only [update, D.max, D.fin.injEq] at hz
    rw [← hz]; exact le_trans hx (le_max_left _ _)
  | average =>
    have hr : ∀ x, r.rnd x = x := by simpa using h
    simp only [update, D.blend, hr, D.fin.injEq] at hz
    have pi : (0 : K) < ((ni + nj : Nat) : K) := by exact_mod_cast by omega
    rw [← hz, le_div_iff₀ pi]
    have h1 : (ni : K) * d ≤ ni * x := mul_le_mul_of_nonneg_left hx (Nat.cast_nonneg _)
    have h2 : (nj : K) * d ≤ nj * y := mul_le_mul_of_nonneg_left hy (Nat.cast_nonneg _)
    push_cast
    linarith
  | weighted =>
    have hr : ∀ x, r.rnd x = x := by simpa using h
    simp only [update, D.blend, hr, D.fin.injEq] at hz
    rw [← hz]
    linarith

structure Mono (s : G K) : Prop where
  floor : ∀ row ∈ s.rows, ∀ d, row.distSq = .fin d → ∀ i j, s.active i = true → s.active j = true → i ≠ j → ∀ x, s.dist i j = .fin x → d ≤ x
  rows : s.rows.Pairwise fun p q => ∀ d d', p.distSq = .fin d → q.distSq = .fin d' → d ≤ d'

theorem join_mono [IsStrictOrderedRing K] {r : Rounding K} {m : Method} (hm : m = .single ∨ m = .complete ∨ ∀ x, r.rnd x = x) {e : Nat → Nat → K} {n : Nat}
    {J : List (Row (D K)) → Nat → Nat → K → Prop} {s : G K} (h : Inv e n J s) (ho : Mono s) {d : K} {i j : Nat} (hd : s.dist i j = .fin d)
    (hij : i < j) (hi' : s.active i = true) (hj' : s.active j = true)
    (hmin : ∀ c c', s.active c = true → s.active c' = true → c ≠ c' → ∀ x, s.dist c c' = .fin x → d ≤ x) : Mono (join r m s (.fin d) i j) := by
  have hlt : ∀ c, s.active c = true → c < s.next := fun c hc => ((h.alive c).mp hc).1
  have hrows : (join r m s (.fin d) i j).rows = s.rows ++ [⟨i, j, .fin d, s.size i + s.size j⟩] := rfl
  -- every distance after the merge is at least d
  have after : ∀ c c', (join r m s (.fin d) i j).active c = true → (join r m s (.fin d) i j).active c' = true → c ≠ c' →
      ∀ x, (join r m s (.fin d) i j).dist c c' = .fin x → d ≤ x := by
    have fresh : ∀ k, k ≠ i → k ≠ j → s.active k = true → ∀ x, update r m (s.size i) (s.size j) (s.dist i k) (s.dist j k) = .fin x → d ≤ x := by
      intro k hki hkj hk x hx
      obtain ⟨y, hy, _⟩ := h.dist i k hi' hk (Ne.symm hki)
      obtain ⟨z, hz, _⟩ := h.dist j k hj' hk (Ne.symm hkj)
      rw [hy, hz] at hx
      refine update_ge hm ?_ (hmin i k hi' hk (Ne.symm hki) y hy) (hmin j k hj' hk (Ne.symm hkj) z hz) hx
      rw [(h.size i hi').1]
      exact fun e' => (h.size i hi').2 (List.length_eq_zero_iff.mp e')
    intro c c' hc hc' hcc x hx
    rcases liveAfter_iff.mp hc with e1 | ⟨h1, h2, h3⟩
    · rcases liveAfter_iff.mp hc' with e2 | ⟨h1', h2', h3'⟩
      · exact (hcc (e1.trans e2.symm)).elim
      · subst e1
        have hx : distAfter r m s i j s.next c' = .fin x := hx
        unfold distAfter at hx
        simp only at hx
        rw [if_pos ⟨by trivial, hlt c' h3', hc'⟩] at hx
        exact fresh c' h1' h2' h3' x hx
    · have hcn := hlt c h3
      rcases liveAfter_iff.mp hc' with e2 | ⟨h1', h2', h3'⟩
      · subst e2
        have hx : distAfter r m s i j c s.next = .fin x := hx
        unfold distAfter at hx
        simp only at hx
        rw [if_neg (by omega), if_pos ⟨by trivial, hcn, hc⟩] at hx
        exact fresh c h1 h2 h3 x hx
      · have hcn' := hlt c' h3'
        have hx : distAfter r m s i j c c' = .fin x := hx
        unfold distAfter at hx
        simp only at hx
        rw [if_neg (by omega), if_neg (by omega)] at hx
        exact hmin c c' h3 h3' hcc x hx
  have before : ∀ row ∈ s.rows, ∀ d', row.distSq = .fin d' → d' ≤ d := fun row hrow d' hd' => ho.floor row hrow d' hd' i j hi' hj' (Nat.ne_of_lt hij) d hd
  constructor
  · intro row hrow d' hd' c c' hc hc' hcc x hx
    rw [hrows] at hrow
    have := after c c' hc hc' hcc x hx
    rcases List.mem_append.mp hrow with hrow | hrow
    · exact le_trans (before row hrow d' hd') this
    · rw [List.mem_singleton] at hrow
      subst hrow
      simp only [D.fin.injEq] at hd'
      rw [← hd']
      exact this
  · rw [hrows, List.pairwise_append]
    refine ⟨ho.rows, List.pairwise_singleton _ _, ?_⟩
    intro p hp q hq d1 d2 h1 h2
    rw [List.mem_singleton] at hq
    subst hq
    simp only [D.fin.injEq] at h2
    rw [← h2]
    exact before p hp d1 h1

theorem steps_mono [IsStrictOrderedRing K] {r : Rounding K} {m : Method} (hm : m = .single ∨ m = .complete ∨ ∀ x, r.rnd x = x) {e : Nat → Nat → K} {n : Nat}
    {J : List (Row (D K)) → Nat → Nat → K → Prop} (law : Law r m e n J) :
    ∀ (k : Nat) {s : G K}, Inv e n J s → Mono s → s.rows.length + k + 1 ≤ n → Mono (steps r m k s) := by
  intro k
  induction k with
  | zero => intro s _ h _; exact h
  | succ k ih =>
    intro s h ho hk
    obtain ⟨d, i, j, h1, h2, h3, h4, h5, h6, h7⟩ := h.pick (by omega)
    have hs : step r m s = join r m s (.fin d) i j := by unfold step; rw [h1]
    have hlen : (join r m s (.fin d) i j).rows.length = s.rows.length + 1 := by simp [join]
    simp only [steps]
    rw [hs]
    exact ih (join_inv law h h2 h3 h4 h5 h6 h7) (join_mono hm h ho h2 h3 h5 h6 h7) (by omega)

/-- What the result is. -/
structure Result (m : Method) (e : Nat → Nat → K) (n : Nat) (rows : List (Row (D K))) : Prop where
  tree : Dendrogram n rows
  greedy : ∀ t row, rows[t]? = some row → ∃ d, row.distSq = .fin d ∧ ClusterDist m e n rows row.a row.b d ∧
    ∀ c c', Alive rows n t c → Alive rows n t c' → c ≠ c' → ∃ d', ClusterDist m e n rows c c' d' ∧ d ≤ d'
  mono : rows.Pairwise fun p q => ∀ d d', p.distSq = .fin d → q.distSq = .fin d' → d ≤ d'

theorem result [IsStrictOrderedRing K] {r : Rounding K} {m : Method} (hm : m = .single ∨ m = .complete ∨ ∀ x, r.rnd x = x) {e : Nat → Nat → K}
    (he : ∀ i j, e i j = e j i) {n : Nat} (hn : 1 < n) :
    ∃ rows, linkageBy r m n ((upperHalf e n).map .fin) = .ok rows ∧ Result m e n rows := by
  have law := law_of hm e he n
  have hst := start_inv he law
  have h0 : (start n ((upperHalf e n).map D.fin)).rows.length + (n - 1) + 1 ≤ n := by simp only [start, List.length_nil]; omega
  obtain ⟨h1, h2⟩ := steps_inv law (n - 1) hst h0
  have h3 := steps_mono hm law (n - 1) hst ⟨by simp [start], by simp [start]⟩ h0
  refine ⟨(steps r m (n - 1) (start n ((upperHalf e n).map .fin))).rows, ?_, ⟨?_, h1.older, h1.once, h1.rsize⟩, h1.greedy, h3.rows⟩
  · unfold linkageBy
    rw [if_neg (by omega), if_neg (by simp [upper_length])]
  · rw [h2]; simp [start]

/-! ### Flat clusters -/

theorem flat_prefix {m : Method} {e : Nat → Nat → K} {n : Nat} {rows : List (Row (D K))} (h : Result m e n rows) (limit : K) (t : Nat) (row : Row (D K))
    (hr : rows[t]? = some row) :
    t < (rows.takeWhile fun x => x.distSq == .fin limit || x.distSq.lt (.fin limit)).length ↔ ∃ d, row.distSq = .fin d ∧ d ≤ limit := by
  have hp : ∀ x : D K, (x == .fin limit || x.lt (.fin limit)) = true ↔ ∃ d, x = .fin d ∧ d ≤ limit := by
    intro x
    cases x with
    | fin y =>
      simp only [D.lt, Bool.or_eq_true, beq_iff_eq, D.fin.injEq, decide_eq_true_eq, exists_eq_left']
      rw [le_iff_lt_or_eq, or_comm]
    | inf => simp [D.lt]
    | nan => simp [D.lt]
  constructor
  · intro ht
    have hmem : (rows.takeWhile fun x => x.distSq == .fin limit || x.distSq.lt (.fin limit))[t]? = some row := by
      have hpre := List.takeWhile_prefix (l := rows) (fun x => x.distSq == .fin limit || x.distSq.lt (.fin limit))
      obtain ⟨rest, hrest⟩ := hpre
      rw [← hrest, List.getElem?_append_left ht] at hr
      exact hr
    have := List.all_eq_true.mp List.all_takeWhile _ (List.mem_of_getElem? hmem)
    exact (hp _).mp this
  · rintro ⟨d, hd, hle⟩
    by_contra hnot
    have hl := (List.getElem?_eq_some_iff.mp hr).1
    obtain ⟨k, hk⟩ : ∃ k, k = (rows.takeWhile fun x => x.distSq == .fin limit || x.distSq.lt (.fin limit)).length := ⟨_, rfl⟩
    rw [← hk] at hnot
    have hkl : k < rows.length := by omega
    have hfail : ¬ (rows[k].distSq == .fin limit || rows[k].distSq.lt (.fin limit)) = true := by
      have hdr := List.takeWhile_append_dropWhile (p := fun x : Row (D K) => x.distSq == .fin limit || x.distSq.lt (.fin limit)) (l := rows)
      have hget : rows[k]? = (rows.dropWhile fun x => x.distSq == .fin limit || x.distSq.lt (.fin limit))[0]? := by
        conv_lhs => rw [← hdr]
        rw [List.getElem?_append_right (by omega), hk, Nat.sub_self]
      cases hdw : rows.dropWhile fun x => x.distSq == .fin limit || x.distSq.lt (.fin limit) with
      | nil => rw [hdw, List.getElem?_eq_getElem hkl] at hget; cases hget
      | cons a l =>
        rw [hdw, List.getElem?_eq_getElem hkl] at hget
        simp only [List.getElem?_cons_zero, Option.some.injEq] at hget
        rw [hget]
        have := List.head_dropWhile_not (fun x : Row (D K) => x.distSq == .fin limit || x.distSq.lt (.fin limit)) (l := rows) (by rw [hdw]; simp)
        simp only [hdw, List.head_cons] at this
        rw [this]
        simp
    apply hfail
    rw [hp]
    obtain ⟨dk, hdk, _⟩ := h.greedy k rows[k] (List.getElem?_eq_getElem hkl)
    refine ⟨dk, hdk, ?_⟩
    rcases Nat.lt_or_eq_of_le (show k ≤ t by omega) with hlt | heq
    · obtain ⟨htl, hte⟩ := List.getElem?_eq_some_iff.mp hr
      have := List.pairwise_iff_getElem.mp h.mono k t hkl htl hlt dk d hdk (by rw [hte]; exact hd)
      exact le_trans this hle
    · subst heq
      rw [List.getElem?_eq_getElem hkl, Option.some.injEq] at hr
      rw [hr, hd, D.fin.injEq] at hdk
      rw [← hdk]; exact hle

theorem cutAt_ok {m : Method} {e : Nat → Nat → K} {n : Nat} {rows : List (Row (D K))} (h : Result m e n rows) (limit : K) {fuel : Nat} {x : Res (List Nat)}
    (hx : cutAt fuel rows n limit = some x) : ∃ labels, x = .ok labels ∧ labels.length = n ∧ ∀ i j, i < n → j < n → (labels[i]? = labels[j]? ↔
      i = j ∨ ∃ t row d, rows[t]? = some row ∧ row.distSq = .fin d ∧ d ≤ limit ∧ i ∈ members rows n (n + t) ∧ j ∈ members rows n (n + t)) := by
  have hle : (rows.takeWhile fun x => x.distSq == .fin limit || x.distSq.lt (.fin limit)).length ≤ rows.length := (List.takeWhile_prefix _).length_le
  obtain ⟨labels, h1, h2⟩ := cut_ok (Dendro.tree h.tree) hle hx
  refine ⟨labels, h1, h2.length, ?_⟩
  intro i j hi hj
  rw [h2.same i j hi hj]
  unfold OneCluster
  constructor
  · rintro (h' | ⟨t, ht, hi', hj'⟩)
    · exact Or.inl h'
    · have hr : rows[t]? = some rows[t] := List.getElem?_eq_getElem (by omega)
      obtain ⟨d, hd, hle⟩ := (flat_prefix h limit t _ hr).mp ht
      exact Or.inr ⟨t, _, d, hr, hd, hle, hi', hj'⟩
  · rintro (h' | ⟨t, row, d, hr, hd, hle, hi', hj'⟩)
    · exact Or.inl h'
    · exact Or.inr ⟨t, (flat_prefix h limit t row hr).mpr ⟨d, hd, hle⟩, hi', hj'⟩

theorem cutAt_ends {m : Method} {e : Nat → Nat → K} {n : Nat} {rows : List (Row (D K))} (h : Result m e n rows) (limit : K) :
    ∃ N x, ∀ fuel, N ≤ fuel → cutAt fuel rows n limit = some x := by
  have hle : (rows.takeWhile fun x => x.distSq == .fin limit || x.distSq.lt (.fin limit)).length ≤ rows.length := (List.takeWhile_prefix _).length_le
  exact cut_ends (Dendro.tree h.tree) hle

/-! ### Single linkage: connected components -/

omit [Field K] in
theorem reaches_trans {e : Nat → Nat → K} {n : Nat} {limit : K} {i j k : Nat} (h : Reaches e n limit i j) (h' : Reaches e n limit j k) : Reaches e n limit i k := by
  induction h with
  | here i => exact h'
  | there i j k hj he _ ih => exact .there i j _ hj he (ih h')

omit [Field K] in
theorem reaches_symm {e : Nat → Nat → K} (he : ∀ i j, e i j = e j i) {n : Nat} {limit : K} {i j : Nat} (h : Reaches e n limit i j) (hi : i < n) :
    Reaches e n limit j i := by
  induction h with
  | here i => exact .here i
  | there i j k hj h1 h2 ih => exact reaches_trans (ih hj) (.there j i i hi (by rw [he]; exact h1) (.here i))

theorem single_reaches {e : Nat → Nat → K} (he : ∀ i j, e i j = e j i) {n : Nat} {rows : List (Row (D K))} (h : Result .single e n rows) (limit : K) :
    ∀ c, (∀ t row, rows[t]? = some row → n + t ≤ c → ∃ d, row.distSq = .fin d ∧ d ≤ limit) → ∀ i ∈ members rows n c, ∀ j ∈ members rows n c,
      Reaches e n limit i j := by
  have tr := Dendro.tree h.tree
  intro c
  induction c using Nat.strongRecOn with
  | ind c ih =>
    intro hc i hi j hj
    by_cases hn : c < n
    · rw [members_one _ hn, List.mem_singleton] at hi hj
      rw [hi, hj]; exact .here _
    · obtain ⟨t, rfl⟩ : ∃ t, c = n + t := ⟨c - n, by omega⟩
      cases hr : rows[t]? with
      | none =>
        rw [members, if_neg hn, show n + t - n = t by omega, hr] at hi
        cases hi
      | some row =>
        have ho := tr.older t row hr
        rw [tr.row hr, List.mem_append] at hi hj
        obtain ⟨d, hd, hle⟩ := hc t row hr (Nat.le_refl _)
        obtain ⟨d', hd', ⟨⟨a, ha, b, hb, hab⟩, _⟩, _⟩ := h.greedy t row hr
        rw [hd, D.fin.injEq] at hd'
        subst hd'
        have iha := ih row.a (by omega) fun t' row' h1 h2 => hc t' row' h1 (by omega)
        have ihb := ih row.b (by omega) fun t' row' h1 h2 => hc t' row' h1 (by omega)
        have hstep : Reaches e n limit a b := .there a b b (members_lt _ _ _ _ hb) (by rw [← hab]; exact hle) (.here b)
        have hback : Reaches e n limit b a := reaches_symm he hstep (members_lt _ _ _ _ ha)
        rcases hi with hi | hi <;> rcases hj with hj | hj
        · exact iha i hi j hj
        · exact reaches_trans (iha i hi a ha) (reaches_trans hstep (ihb b hb j hj))
        · exact reaches_trans (ihb i hi b hb) (reaches_trans hback (iha a ha j hj))
        · exact ihb i hi j hj

theorem single_components {e : Nat → Nat → K} (he : ∀ i j, e i j = e j i) {n : Nat} {rows : List (Row (D K))} (h : Result .single e n rows) (limit : K)
    {fuel : Nat} {x : Res (List Nat)} (hx : cutAt fuel rows n limit = some x) :
    ∃ labels, x = .ok labels ∧ labels.length = n ∧ ∀ i j, i < n → j < n → (labels[i]? = labels[j]? ↔ Reaches e n limit i j) := by
  have tr := Dendro.tree h.tree
  obtain ⟨k, hk⟩ : ∃ k, k = (rows.takeWhile fun x => x.distSq == .fin limit || x.distSq.lt (.fin limit)).length := ⟨_, rfl⟩
  have hle : k ≤ rows.length := by rw [hk]; exact (List.takeWhile_prefix _).length_le
  have hx' : cut fuel rows n k = some x := by rw [hk]; exact hx
  obtain ⟨labels, h1, h2⟩ := cut_ok tr hle hx'
  refine ⟨labels, h1, h2.length, ?_⟩
  intro i j hi hj
  rw [h2.same i j hi hj]
  have cover : ∀ i, i < n → ∃ c, Alive rows n k c ∧ i ∈ members rows n c := by
    intro i hi
    obtain ⟨c, hc, hsub⟩ := tr.cover hle (n + k) i (by omega) (by omega)
    exact ⟨c, hc, hsub i (by rw [members_one _ hi]; simp)⟩
  constructor
  · rintro (rfl | ⟨t, ht, hi', hj'⟩)
    · exact .here _
    · refine single_reaches he h limit (n + t) ?_ i hi' j hj'
      intro t' row hr hle'
      exact (flat_prefix h limit t' row hr).mp (by omega)
  · -- a step stays in a cluster
    have stepIn : ∀ i j, i < n → j < n → e i j ≤ limit → OneCluster rows n k i j := by
      intro i j hi hj hij
      obtain ⟨c, hc, hic⟩ := cover i hi
      obtain ⟨c', hc', hjc⟩ := cover j hj
      by_cases hcc : c = c'
      · subst hcc
        exact (tr.together hle hc hic j).mpr hjc
      · by_cases hkl : k < rows.length
        · exfalso
          have hr : rows[k]? = some rows[k] := List.getElem?_eq_getElem hkl
          obtain ⟨d, hd, _, hmin⟩ := h.greedy k _ hr
          obtain ⟨d', ⟨_, hall⟩, hdd⟩ := hmin c c' hc hc' hcc
          have hlim : d ≤ limit := le_trans hdd (le_trans (hall i hic j hjc) hij)
          have := (flat_prefix h limit k _ hr).mpr ⟨d, hd, hlim⟩
          omega
        · have hcount := h.tree.count
          have h1n : n - k = 1 ∨ n = 0 := by omega
          have hlab : ∀ i, i < n → labels[i]? = some 1 := by
            intro i hi
            have hil : i < labels.length := by rw [h2.length]; exact hi
            have := (h2.numbered.range labels[i]).mp (List.getElem_mem hil)
            rw [List.getElem?_eq_getElem hil]
            congr 1
            omega
          rw [← h2.same i j hi hj, hlab i hi, hlab j hj]
    intro hreach
    have : ∀ i j, Reaches e n limit i j → i < n → j < n → OneCluster rows n k i j := by
      intro i j hr
      induction hr with
      | here i => intro _ _; exact Or.inl rfl
      | there i j k' hj' hij _ ih =>
        intro hi hk'
        have h3 := stepIn i j hi hj' hij
        have h4 := ih hj' hk'
        rw [← h2.same i j hi hj'] at h3
        rw [← h2.same j k' hj' hk'] at h4
        rw [← h2.same i k' hi hk', h3, h4]
    exact this i j hreach hi hj

/-! ### Complete linkage: small clusters -/

theorem complete_small {e : Nat → Nat → K} (he : ∀ i j, e i j = e j i) {n : Nat} {rows : List (Row (D K))} (h : Result .complete e n rows) (limit : K) :
    ∀ c, (∀ t row, rows[t]? = some row → n + t ≤ c → ∃ d, row.distSq = .fin d ∧ d ≤ limit) → ∀ i ∈ members rows n c, ∀ j ∈ members rows n c,
      i ≠ j → e i j ≤ limit := by
  have tr := Dendro.tree h.tree
  intro c
  induction c using Nat.strongRecOn with
  | ind c ih =>
    intro hc i hi j hj hij
    by_cases hn : c < n
    · rw [members_one _ hn, List.mem_singleton] at hi hj
      exact (hij (hi.trans hj.symm)).elim
    · obtain ⟨t, rfl⟩ : ∃ t, c = n + t := ⟨c - n, by omega⟩
      cases hr : rows[t]? with
      | none =>
        rw [members, if_neg hn, show n + t - n = t by omega, hr] at hi
        cases hi
      | some row =>
        have ho := tr.older t row hr
        rw [tr.row hr, List.mem_append] at hi hj
        obtain ⟨d, hd, hle⟩ := hc t row hr (Nat.le_refl _)
        obtain ⟨d', hd', ⟨_, hall⟩, _⟩ := h.greedy t row hr
        rw [hd, D.fin.injEq] at hd'
        subst hd'
        have iha := ih row.a (by omega) fun t' row' h1 h2 => hc t' row' h1 (by omega)
        have ihb := ih row.b (by omega) fun t' row' h1 h2 => hc t' row' h1 (by omega)
        rcases hi with hi | hi <;> rcases hj with hj | hj
        · exact iha i hi j hj hij
        · exact le_trans (hall i hi j hj) hle
        · rw [he]; exact le_trans (hall j hj i hi) hle
        · exact ihb i hi j hj hij

end NextPlaid.Linkage
