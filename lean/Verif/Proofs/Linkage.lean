import Verif.Spec.Linkage
import Verif.Proofs.Hierarchy8

/-!
Proofs: every merge joins the two clusters at the least distance.
-/

namespace NextPlaid.Linkage

open NextPlaid.Fusion NextPlaid.Hier NextPlaid.Spec

/-! ### The condensed matrix -/

section
variable {α : Type}

theorem upper_prefix (f : Nat → Nat → α) (n : Nat) : ∀ (i : Nat),
    ((List.range i).flatMap fun i => (List.range' (i + 1) (n - (i + 1))).map (f i)).length = rowStart n i := by
  intro i
  induction i with
  | zero => rfl
  | succ i ih =>
    rw [List.range_succ, List.flatMap_append, List.length_append, ih, rowStart, List.flatMap_cons, List.flatMap_nil, List.append_nil, List.length_map,
      List.length_range']

theorem upper_length (f : Nat → Nat → α) (n : Nat) : (upperHalf f n).length = n * (n - 1) / 2 := by
  unfold upperHalf
  rw [upper_prefix, rowStart_total]

theorem upper_get (f : Nat → Nat → α) {n i j : Nat} (hij : i < j) (hj : j < n) : (upperHalf f n)[condensed n i j]? = some (f i j) := by
  unfold upperHalf
  have hr : List.range n = List.range i ++ List.range' i (n - i) := by
    have h := List.range'_append_1 (s := 0) (m := i) (n := n - i)
    rw [Nat.zero_add, show i + (n - i) = n by omega] at h
    rw [List.range_eq_range', List.range_eq_range', h]
  rw [hr, List.flatMap_append, condensed_eq hij hj, List.getElem?_append_right (by rw [upper_prefix]; omega), upper_prefix, Nat.add_sub_cancel_left]
  obtain ⟨m, hm⟩ : ∃ m, n - i = m + 1 := ⟨n - i - 1, by omega⟩
  rw [hm, List.range'_succ, List.flatMap_cons, List.getElem?_append_left (by rw [List.length_map, List.length_range']; omega), List.getElem?_map,
    List.getElem?_range' (by omega)]
  simp only [Option.map_some, Option.some.injEq]
  congr 1
  omega

theorem mapM_some {l : List (Option α)} {out : List α} (h : l = out.map some) : l.mapM id = some out := by
  subst h
  induction out with
  | nil => rfl
  | cons a out ih => rw [List.map_cons, List.mapM_cons, ih]; rfl

theorem squareform_ok (f : Nat → Nat → α) {n : Nat} (hn : n ≠ 0) {matrix : List α} (h : ∀ i j, i < n → j < n → matrix[i * n + j]? = some (f i j)) :
    squareform matrix n = .ok (upperHalf f n) := by
  unfold squareform
  rw [if_neg hn, mapM_some (out := upperHalf f n)]
  unfold upperHalf
  rw [List.map_flatMap]
  have : ∀ (l : List Nat) (g g' : Nat → List (Option α)), (∀ i ∈ l, g i = g' i) → l.flatMap g = l.flatMap g' := by
    intro l g g' h
    induction l with
    | nil => rfl
    | cons a l ih => rw [List.flatMap_cons, List.flatMap_cons, h a (by simp), ih fun i hi => h i (List.mem_cons_of_mem _ hi)]
  apply this
  intro i hi
  rw [List.map_map]
  apply List.map_congr_left
  intro j hj
  rw [List.mem_range'_1] at hj
  exact h i j (List.mem_range.mp hi) (by omega)

end

variable {K : Type} [Field K] [LinearOrder K]

/-! ### The closest pair -/

theorem mem_pairs {s : G K} {i j : Nat} : (i, j) ∈ pairs s ↔ i < j ∧ j < s.next ∧ s.active i = true ∧ s.active j = true := by
  unfold pairs
  rw [List.mem_flatMap]
  constructor
  · rintro ⟨i', h1, h2⟩
    rw [List.mem_map] at h2
    obtain ⟨j', h3, h4⟩ := h2
    obtain ⟨rfl, rfl⟩ := Prod.mk.injEq .. ▸ h4
    rw [List.mem_filter, List.mem_range] at h1
    rw [List.mem_filter, List.mem_range'_1] at h3
    exact ⟨by omega, by omega, h1.2, h3.2⟩
  · rintro ⟨h1, h2, h3, h4⟩
    refine ⟨i, List.mem_filter.mpr ⟨List.mem_range.mpr (by omega), h3⟩, List.mem_map.mpr ⟨j, ?_, rfl⟩⟩
    exact List.mem_filter.mpr ⟨List.mem_range'_1.mpr (by omega), h4⟩

theorem fold_closest (s : G K) : ∀ (l : List (Nat × Nat)) (d : K) (i j : Nat), s.dist i j = .fin d → (∀ p ∈ l, ∃ x, s.dist p.1 p.2 = .fin x) →
    ∃ d' i' j', l.foldl (fun best p => if (s.dist p.1 p.2).lt best.1 then (s.dist p.1 p.2, p.1, p.2) else best) (.fin d, i, j) = (.fin d', i', j') ∧
      s.dist i' j' = .fin d' ∧ ((i', j') = (i, j) ∨ (i', j') ∈ l) ∧ d' ≤ d ∧ ∀ p ∈ l, ∀ x, s.dist p.1 p.2 = .fin x → d' ≤ x := by
  intro l
  induction l with
  | nil => intro d i j h _; exact ⟨d, i, j, rfl, h, Or.inl rfl, le_refl _, fun p hp => by cases hp⟩
  | cons p l ih =>
    intro d i j h hl
    obtain ⟨x, hx⟩ := hl p (by simp)
    rw [List.foldl_cons]
    simp only [hx]
    by_cases hlt : x < d
    · rw [if_pos (by simpa [D.lt] using hlt)]
      obtain ⟨d', i', j', h1, h2, h3, h4, h5⟩ := ih x p.1 p.2 hx fun q hq => hl q (List.mem_cons_of_mem _ hq)
      refine ⟨d', i', j', h1, h2, ?_, le_trans h4 (le_of_lt hlt), ?_⟩
      · rcases h3 with h3 | h3
        · right; rw [h3]; exact List.mem_cons_self ..
        · right; exact List.mem_cons_of_mem _ h3
      · intro q hq y hy
        rcases List.mem_cons.mp hq with rfl | hq
        · rw [hx, D.fin.injEq] at hy; rw [← hy]; exact h4
        · exact h5 q hq y hy
    · rw [if_neg (by simpa [D.lt] using hlt)]
      obtain ⟨d', i', j', h1, h2, h3, h4, h5⟩ := ih d i j h fun q hq => hl q (List.mem_cons_of_mem _ hq)
      refine ⟨d', i', j', h1, h2, ?_, h4, ?_⟩
      · rcases h3 with h3 | h3
        · exact Or.inl h3
        · exact Or.inr (List.mem_cons_of_mem _ h3)
      · intro q hq y hy
        rcases List.mem_cons.mp hq with rfl | hq
        · rw [hx, D.fin.injEq] at hy; rw [← hy]; exact le_trans h4 (not_lt.mp hlt)
        · exact h5 q hq y hy

theorem closest_ok {s : G K} (hfin : ∀ p ∈ pairs s, ∃ x, s.dist p.1 p.2 = .fin x) (hne : pairs s ≠ []) :
    ∃ d i j, closest s = (.fin d, i, j) ∧ s.dist i j = .fin d ∧ (i, j) ∈ pairs s ∧ ∀ p ∈ pairs s, ∀ x, s.dist p.1 p.2 = .fin x → d ≤ x := by
  unfold closest
  cases hp : pairs s with
  | nil => exact (hne hp).elim
  | cons p l =>
    rw [hp] at hfin
    obtain ⟨x, hx⟩ := hfin p (by simp)
    rw [List.foldl_cons]
    have : (s.dist p.1 p.2).lt D.inf = true := by rw [hx]; rfl
    simp only [this, if_true, hx]
    obtain ⟨d', i', j', h1, h2, h3, h4, h5⟩ := fold_closest s l x p.1 p.2 hx fun q hq => hfin q (List.mem_cons_of_mem _ hq)
    refine ⟨d', i', j', h1, h2, ?_, ?_⟩
    · rcases h3 with h3 | h3
      · rw [h3]; exact List.mem_cons_self ..
      · exact List.mem_cons_of_mem _ h3
    · intro q hq y hy
      rcases List.mem_cons.mp hq with rfl | hq
      · rw [hx, D.fin.injEq] at hy; rw [← hy]; exact h4
      · exact h5 q hq y hy

/-! ### The tree -/

def live (s : G K) : List Nat := (List.range s.next).filter s.active

theorem mem_live {s : G K} {c : Nat} : c ∈ live s ↔ c < s.next ∧ s.active c = true := by
  unfold live
  rw [List.mem_filter, List.mem_range]

theorem live_nodup (s : G K) : (live s).Nodup := List.nodup_range.filter _

/-- What a method has to satisfy: `J rows c c' d` says that the distance of two clusters is `d`. -/
structure Law (r : Rounding K) (m : Method) (e : Nat → Nat → K) (n : Nat) (J : List (Row (D K)) → Nat → Nat → K → Prop) : Prop where
  symm : ∀ rows c c' d, J rows c c' d → J rows c' c d
  keep : ∀ rows more c c' d, c < n + rows.length → c' < n + rows.length → J rows c c' d → J (rows ++ more) c c' d
  base : ∀ i j, i < n → j < n → J [] i j (e i j)
  step : ∀ rows a b k x y ds, a < n + rows.length → b < n + rows.length → k < n + rows.length → members rows n a ≠ [] → members rows n b ≠ [] →
    members rows n k ≠ [] → J rows a k x → J rows b k y →
    ∃ d, update r m (members rows n a).length (members rows n b).length (.fin x) (.fin y) = .fin d ∧
      J (rows ++ [⟨a, b, ds, (members rows n a).length + (members rows n b).length⟩]) (n + rows.length) k d

structure Inv (e : Nat → Nat → K) (n : Nat) (J : List (Row (D K)) → Nat → Nat → K → Prop) (s : G K) : Prop where
  next : s.next = n + s.rows.length
  alive : ∀ c, s.active c = true ↔ c < s.next ∧ ∀ x ∈ s.rows, c ≠ x.a ∧ c ≠ x.b
  older : ∀ t row, s.rows[t]? = some row → row.a < row.b ∧ row.b < n + t
  once : (s.rows.flatMap fun x => [x.a, x.b]).Nodup
  size : ∀ c, s.active c = true → s.size c = (members s.rows n c).length ∧ members s.rows n c ≠ []
  rsize : ∀ t row, s.rows[t]? = some row → row.size = (members s.rows n (n + t)).length
  count : (live s).length + s.rows.length = n
  dist : ∀ i j, s.active i = true → s.active j = true → i ≠ j → ∃ d, s.dist i j = .fin d ∧ J s.rows i j d ∧ s.dist j i = .fin d
  greedy : ∀ t row, s.rows[t]? = some row → ∃ d, row.distSq = .fin d ∧ J s.rows row.a row.b d ∧
    ∀ c c', Alive s.rows n t c → Alive s.rows n t c' → c ≠ c' → ∃ d', J s.rows c c' d' ∧ d ≤ d'

theorem Inv.pick {e : Nat → Nat → K} {n : Nat} {J : List (Row (D K)) → Nat → Nat → K → Prop} {s : G K} (h : Inv e n J s) (hm : s.rows.length + 2 ≤ n) :
    ∃ d i j, closest s = (.fin d, i, j) ∧ s.dist i j = .fin d ∧ i < j ∧ j < s.next ∧ s.active i = true ∧ s.active j = true ∧
      ∀ c c', s.active c = true → s.active c' = true → c ≠ c' → ∀ x, s.dist c c' = .fin x → d ≤ x := by
  have hl : 2 ≤ (live s).length := by have := h.count; omega
  have hne : pairs s ≠ [] := by
    obtain ⟨a, b, ha, hb, hab⟩ : ∃ a b, a ∈ live s ∧ b ∈ live s ∧ a ≠ b := by
      have hn := live_nodup s
      cases hls : live s with
      | nil => rw [hls] at hl; simp at hl
      | cons a l =>
        cases l with
        | nil => rw [hls] at hl; simp at hl
        | cons b l =>
          rw [hls, List.nodup_cons] at hn
          exact ⟨a, b, by simp, by simp, fun e => hn.1 (by simp [e])⟩
    rw [mem_live] at ha hb
    intro hp
    rcases Nat.lt_or_gt_of_ne hab with hlt | hlt
    · have := mem_pairs.mpr ⟨hlt, hb.1, ha.2, hb.2⟩
      rw [hp] at this; cases this
    · have := mem_pairs.mpr ⟨hlt, ha.1, hb.2, ha.2⟩
      rw [hp] at this; cases this
  have hfin : ∀ p ∈ pairs s, ∃ x, s.dist p.1 p.2 = .fin x := by
    rintro ⟨i, j⟩ hp
    obtain ⟨h1, h2, h3, h4⟩ := mem_pairs.mp hp
    obtain ⟨d, hd, _⟩ := h.dist i j h3 h4 (Nat.ne_of_lt h1)
    exact ⟨d, hd⟩
  obtain ⟨d, i, j, h1, h2, h3, h4⟩ := closest_ok hfin hne
  obtain ⟨h5, h6, h7, h8⟩ := mem_pairs.mp h3
  refine ⟨d, i, j, h1, h2, h5, h6, h7, h8, ?_⟩
  intro c c' hc hc' hcc x hx
  have hcn := ((h.alive c).mp hc).1
  have hcn' := ((h.alive c').mp hc').1
  rcases Nat.lt_or_gt_of_ne hcc with hlt | hlt
  · exact h4 (c, c') (mem_pairs.mpr ⟨hlt, hcn', hc, hc'⟩) x hx
  · obtain ⟨y, e1, _, e2⟩ := h.dist c c' hc hc' hcc
    rw [hx, D.fin.injEq] at e1
    subst e1
    exact h4 (c', c) (mem_pairs.mpr ⟨hlt, hcn, hc', hc⟩) x e2

theorem start_inv {r : Rounding K} {m : Method} {e : Nat → Nat → K} (he : ∀ i j, e i j = e j i) {n : Nat} {J : List (Row (D K)) → Nat → Nat → K → Prop}
    (law : Law r m e n J) : Inv e n J (start n ((upperHalf e n).map .fin)) := by
  constructor
  · rfl
  · intro c
    simp [start]
  · intro t row ht; simp [start] at ht
  · simp [start]
  · intro c hc
    simp only [start, decide_eq_true_eq] at hc
    rw [members_one _ hc]
    exact ⟨rfl, by simp⟩
  · intro t row ht; simp [start] at ht
  · show ((List.range n).filter fun k => decide (k < n)).length + 0 = n
    rw [List.filter_eq_self.mpr fun a ha => by simpa using ha, List.length_range, Nat.add_zero]
  · intro i j hi hj hij
    simp only [start, decide_eq_true_eq] at hi hj
    have hmin : min i j < max i j := by omega
    have hget : ((upperHalf e n).map D.fin).getD (condensed n (min i j) (max i j)) .inf = .fin (e i j) := by
      rw [List.getD_eq_getElem?_getD, List.getElem?_map, upper_get e hmin (by omega)]
      simp only [Option.map_some, Option.getD_some]
      rcases Nat.lt_or_gt_of_ne hij with hlt | hlt
      · rw [Nat.min_eq_left (by omega), Nat.max_eq_right (by omega)]
      · rw [Nat.min_eq_right (by omega), Nat.max_eq_left (by omega), he]
    refine ⟨e i j, ?_, law.base i j hi hj, ?_⟩
    · simp only [start]
      rw [if_neg (by omega), if_pos ⟨hi, hj⟩, hget]
    · simp only [start]
      rw [if_neg (by omega), if_pos ⟨hj, hi⟩, Nat.min_comm, Nat.max_comm, hget]
  · intro t row ht; simp [start] at ht

theorem liveAfter_iff {s : G K} {i j k : Nat} : liveAfter s i j k = true ↔ k = s.next ∨ (k ≠ i ∧ k ≠ j ∧ s.active k = true) := by
  unfold liveAfter
  by_cases h1 : k = s.next
  · simp [h1]
  · rw [if_neg h1]
    by_cases h2 : k = i ∨ k = j
    · rw [if_pos h2]
      simp only [Bool.false_eq_true, false_iff]
      rintro (h | ⟨h3, h4, _⟩)
      · exact h1 h
      · rcases h2 with h | h
        · exact h3 h
        · exact h4 h
    · rw [if_neg h2]
      constructor
      · intro h
        exact Or.inr ⟨fun e => h2 (Or.inl e), fun e => h2 (Or.inr e), h⟩
      · rintro (h | ⟨_, _, h⟩)
        · exact (h1 h).elim
        · exact h

theorem join_inv {r : Rounding K} {m : Method} {e : Nat → Nat → K} {n : Nat} {J : List (Row (D K)) → Nat → Nat → K → Prop} (law : Law r m e n J) {s : G K}
    (h : Inv e n J s) {d : K} {i j : Nat} (hd : s.dist i j = .fin d) (hij : i < j) (hj : j < s.next) (hi' : s.active i = true) (hj' : s.active j = true)
    (hmin : ∀ c c', s.active c = true → s.active c' = true → c ≠ c' → ∀ x, s.dist c c' = .fin x → d ≤ x) : Inv e n J (join r m s (.fin d) i j) := by
  have hnx := h.next
  have hrows : (join r m s (.fin d) i j).rows = s.rows ++ [⟨i, j, .fin d, s.size i + s.size j⟩] := rfl
  have hlt : ∀ c, s.active c = true → c < s.next := fun c hc => ((h.alive c).mp hc).1
  have hold : ∀ c, c < s.next → members (join r m s (.fin d) i j).rows n c = members s.rows n c := by
    intro c hc
    rw [hrows, members_append _ _ _ _ (by omega)]
  have hnew : members (join r m s (.fin d) i j).rows n s.next = members s.rows n i ++ members s.rows n j := by
    rw [hnx, members_row (row := ⟨i, j, .fin d, s.size i + s.size j⟩) (by rw [hrows, List.getElem?_append_right (Nat.le_refl _), Nat.sub_self]; rfl)
      (by simp only; omega) (by simp only; omega)]
    simp only
    rw [hold i (by omega), hold j (by omega)]
  have hact : ∀ c, (join r m s (.fin d) i j).active c = true ↔ c = s.next ∨ (c ≠ i ∧ c ≠ j ∧ s.active c = true) := fun c => liveAfter_iff
  have hsz : ∀ c, s.active c = true → (join r m s (.fin d) i j).size c = s.size c := by
    intro c hc
    simp only [join]
    rw [if_neg (Nat.ne_of_lt (hlt c hc))]
  constructor
  · rw [hrows, List.length_append]
    show s.next + 1 = _
    rw [hnx]
    rfl
  · intro c
    rw [hact c]
    show _ ↔ c < s.next + 1 ∧ _
    rw [hrows]
    constructor
    · rintro (rfl | ⟨h1, h2, h3⟩)
      · refine ⟨by omega, ?_⟩
        intro x hx
        rcases List.mem_append.mp hx with hx | hx
        · obtain ⟨t, ht, e'⟩ := List.getElem_of_mem hx
          have := h.older t x (by rw [List.getElem?_eq_getElem ht, e'])
          omega
        · rw [List.mem_singleton] at hx
          subst hx
          simp only
          omega
      · have := (h.alive c).mp h3
        refine ⟨by omega, ?_⟩
        intro x hx
        rcases List.mem_append.mp hx with hx | hx
        · exact this.2 x hx
        · rw [List.mem_singleton] at hx
          subst hx
          exact ⟨h1, h2⟩
    · rintro ⟨h1, h2⟩
      by_cases hc : c = s.next
      · exact Or.inl hc
      · have := h2 _ (List.mem_append_right _ (List.mem_singleton.mpr rfl))
        exact Or.inr ⟨this.1, this.2, (h.alive c).mpr ⟨by omega, fun x hx => h2 x (List.mem_append_left _ hx)⟩⟩
  · intro t row ht
    rw [hrows] at ht
    by_cases htl : t < s.rows.length
    · rw [List.getElem?_append_left htl] at ht
      exact h.older t row ht
    · rw [List.getElem?_append_right (by omega)] at ht
      obtain ⟨hlen, he⟩ := List.getElem?_eq_some_iff.mp ht
      simp only [List.length_singleton] at hlen
      rw [List.getElem_singleton] at he
      subst he
      exact ⟨hij, by simp only; omega⟩
  · rw [hrows, List.flatMap_append, List.nodup_append]
    refine ⟨h.once, ?_, ?_⟩
    · simp only [List.flatMap_cons, List.flatMap_nil, List.append_nil]
      rw [List.nodup_cons, List.nodup_cons]
      simp only [List.mem_singleton, List.not_mem_nil, not_false_eq_true, List.nodup_nil, and_self, and_true]
      omega
    · intro a ha b hb
      obtain ⟨x, hx, hax⟩ := List.mem_flatMap.mp ha
      simp only [List.flatMap_cons, List.flatMap_nil, List.append_nil, List.mem_cons, List.not_mem_nil, or_false] at hb hax
      have h1 := ((h.alive i).mp hi').2 x hx
      have h2 := ((h.alive j).mp hj').2 x hx
      rcases hb with rfl | rfl
      · rcases hax with rfl | rfl
        · exact fun e' => h1.1 e'.symm
        · exact fun e' => h1.2 e'.symm
      · rcases hax with rfl | rfl
        · exact fun e' => h2.1 e'.symm
        · exact fun e' => h2.2 e'.symm
  · intro c hc
    rcases (hact c).mp hc with rfl | ⟨_, _, h3⟩
    · rw [hnew, List.length_append, ← (h.size i hi').1, ← (h.size j hj').1]
      refine ⟨by simp only [join, if_true], ?_⟩
      intro hnil
      exact (h.size i hi').2 (List.append_eq_nil_iff.mp hnil).1
    · rw [hold c (hlt c h3), hsz c h3]
      exact h.size c h3
  · intro t row ht
    rw [hrows] at ht
    by_cases htl : t < s.rows.length
    · rw [List.getElem?_append_left htl] at ht
      rw [hold _ (by omega)]
      exact h.rsize t row ht
    · rw [List.getElem?_append_right (by omega)] at ht
      obtain ⟨hlen, he⟩ := List.getElem?_eq_some_iff.mp ht
      simp only [List.length_singleton] at hlen
      rw [List.getElem_singleton] at he
      subst he
      rw [show n + t = s.next by omega, hnew, List.length_append, ← (h.size i hi').1, ← (h.size j hj').1]
  · have hsplit := split_two (live_nodup s) (mem_live.mpr ⟨by omega, hi'⟩) (mem_live.mpr ⟨hj, hj'⟩) (Nat.ne_of_lt hij)
    have hl : live (join r m s (.fin d) i j) = (live s).filter (fun x => x ≠ i ∧ x ≠ j) ++ [s.next] := by
      unfold live
      show (List.range (s.next + 1)).filter (liveAfter s i j) = _
      rw [List.range_succ, List.filter_append, List.filter_filter]
      congr 1
      · apply List.filter_congr
        intro x hx
        have hx := List.mem_range.mp hx
        rw [Bool.eq_iff_iff, liveAfter_iff]
        simp only [ne_eq, Bool.decide_and, decide_not, Bool.and_eq_true, Bool.not_eq_eq_eq_not, Bool.not_true, decide_eq_false_iff_not]
        constructor
        · rintro (e' | ⟨h1, h2, h3⟩)
          · omega
          · exact ⟨⟨h1, h2⟩, h3⟩
        · rintro ⟨⟨h1, h2⟩, h3⟩
          exact Or.inr ⟨h1, h2, h3⟩
      · rw [List.filter_cons, if_pos (liveAfter_iff.mpr (Or.inl rfl)), List.filter_nil]
    have hc := h.count
    rw [hsplit.length_eq, List.length_cons, List.length_cons] at hc
    rw [hl, hrows, List.length_append, List.length_append, List.length_singleton, List.length_singleton]
    omega
  · have fresh : ∀ k, k ≠ i → k ≠ j → s.active k = true → ∃ x, (join r m s (.fin d) i j).dist s.next k = .fin x ∧
        J (join r m s (.fin d) i j).rows s.next k x ∧ (join r m s (.fin d) i j).dist k s.next = .fin x := by
      intro k hki hkj hk
      have hkn := hlt k hk
      obtain ⟨x, hx, hxJ, _⟩ := h.dist i k hi' hk (Ne.symm hki)
      obtain ⟨y, hy, hyJ, _⟩ := h.dist j k hj' hk (Ne.symm hkj)
      obtain ⟨z, hz, hzJ⟩ := law.step s.rows i j k x y (.fin d) (by omega) (by omega) (by omega) (h.size i hi').2 (h.size j hj').2 (h.size k hk).2 hxJ hyJ
      rw [← (h.size i hi').1, ← (h.size j hj').1, ← hx, ← hy] at hz
      rw [← (h.size i hi').1, ← (h.size j hj').1, ← hnx, ← hrows] at hzJ
      have hla : liveAfter s i j k = true := liveAfter_iff.mpr (Or.inr ⟨hki, hkj, hk⟩)
      refine ⟨z, ?_, hzJ, ?_⟩
      · show distAfter r m s i j s.next k = _
        unfold distAfter
        simp only
        rw [if_pos ⟨by trivial, hkn, hla⟩, hz]
      · show distAfter r m s i j k s.next = _
        unfold distAfter
        simp only
        rw [if_neg (by omega), if_pos ⟨by trivial, hkn, hla⟩, hz]
    intro c c' hc hc' hcc
    rcases (hact c).mp hc with rfl | ⟨h1, h2, h3⟩
    · rcases (hact c').mp hc' with rfl | ⟨h1', h2', h3'⟩
      · exact (hcc rfl).elim
      · exact fresh c' h1' h2' h3'
    · have hcn := hlt c h3
      rcases (hact c').mp hc' with rfl | ⟨h1', h2', h3'⟩
      · obtain ⟨x, e1, e2, e3⟩ := fresh c h1 h2 h3
        exact ⟨x, e3, law.symm _ _ _ _ e2, e1⟩
      · have hcn' := hlt c' h3'
        obtain ⟨x, e1, e2, e3⟩ := h.dist c c' h3 h3' hcc
        refine ⟨x, ?_, ?_, ?_⟩
        · show distAfter r m s i j c c' = _
          unfold distAfter
          simp only
          rw [if_neg (by omega), if_neg (by omega), e1]
        · rw [hrows]
          exact law.keep _ _ _ _ _ (by omega) (by omega) e2
        · show distAfter r m s i j c' c = _
          unfold distAfter
          simp only
          rw [if_neg (by omega), if_neg (by omega), e3]
  · intro t row ht
    rw [hrows] at ht
    by_cases htl : t < s.rows.length
    · rw [List.getElem?_append_left htl] at ht
      obtain ⟨x, h1, h2, h3⟩ := h.greedy t row ht
      have ho := h.older t row ht
      refine ⟨x, h1, ?_, ?_⟩
      · rw [hrows]
        exact law.keep _ _ _ _ _ (by omega) (by omega) h2
      · intro c c' hc hc' hcc
        have back : ∀ c, Alive (join r m s (.fin d) i j).rows n t c → Alive s.rows n t c := by
          intro c hc
          unfold Alive at hc
          rw [hrows, List.take_append_of_le_length (by omega)] at hc
          exact hc
        have b1 := back c hc
        have b2 := back c' hc'
        obtain ⟨y, g1, g2⟩ := h3 c c' b1 b2 hcc
        refine ⟨y, ?_, g2⟩
        rw [hrows]
        exact law.keep _ _ _ _ _ (by have := b1.1; omega) (by have := b2.1; omega) g1
    · rw [List.getElem?_append_right (by omega)] at ht
      obtain ⟨hlen, he⟩ := List.getElem?_eq_some_iff.mp ht
      simp only [List.length_singleton] at hlen
      rw [List.getElem_singleton] at he
      subst he
      have htl : t = s.rows.length := by omega
      subst htl
      obtain ⟨x, e1, e2, _⟩ := h.dist i j hi' hj' (Nat.ne_of_lt hij)
      rw [hd, D.fin.injEq] at e1
      subst e1
      refine ⟨d, rfl, ?_, ?_⟩
      · rw [hrows]
        exact law.keep _ _ _ _ _ (by simp only; omega) (by simp only; omega) e2
      · intro c c' hc hc' hcc
        have back : ∀ c, Alive (join r m s (.fin d) i j).rows n s.rows.length c → s.active c = true := by
          intro c hc
          unfold Alive at hc
          rw [hrows, List.take_left] at hc
          exact (h.alive c).mpr ⟨by omega, hc.2⟩
        obtain ⟨y, g1, g2, _⟩ := h.dist c c' (back c hc) (back c' hc') hcc
        refine ⟨y, ?_, hmin c c' (back c hc) (back c' hc') hcc y g1⟩
        rw [hrows]
        exact law.keep _ _ _ _ _ (by have := hc.1; omega) (by have := hc'.1; omega) g2

theorem steps_inv {r : Rounding K} {m : Method} {e : Nat → Nat → K} {n : Nat} {J : List (Row (D K)) → Nat → Nat → K → Prop} (law : Law r m e n J) :
    ∀ (k : Nat) {s : G K}, Inv e n J s → s.rows.length + k + 1 ≤ n → Inv e n J (steps r m k s) ∧ (steps r m k s).rows.length = s.rows.length + k := by
  intro k
  induction k with
  | zero => intro s h _; exact ⟨h, rfl⟩
  | succ k ih =>
    intro s h hk
    obtain ⟨d, i, j, h1, h2, h3, h4, h5, h6, h7⟩ := h.pick (by omega)
    have hs : step r m s = join r m s (.fin d) i j := by unfold step; rw [h1]
    have hi := join_inv law h h2 h3 h4 h5 h6 h7
    have hlen : (join r m s (.fin d) i j).rows.length = s.rows.length + 1 := by simp [join]
    simp only [steps]
    rw [hs]
    obtain ⟨g1, g2⟩ := ih hi (by omega)
    exact ⟨g1, by omega⟩

theorem linkageBy_inv {r : Rounding K} {m : Method} {e : Nat → Nat → K} (he : ∀ i j, e i j = e j i) {n : Nat} (hn : 1 < n)
    {J : List (Row (D K)) → Nat → Nat → K → Prop} (law : Law r m e n J) :
    ∃ s, linkageBy r m n ((upperHalf e n).map .fin) = .ok s.rows ∧ Inv e n J s ∧ s.rows.length = n - 1 := by
  obtain ⟨h1, h2⟩ := steps_inv law (n - 1) (start_inv he law) (by simp only [start, List.length_nil]; omega)
  refine ⟨steps r m (n - 1) (start n ((upperHalf e n).map .fin)), ?_, h1, ?_⟩
  · unfold linkageBy
    rw [if_neg (by omega), if_neg (by simp [upper_length])]
  · rw [h2]; simp [start]

end NextPlaid.Linkage
