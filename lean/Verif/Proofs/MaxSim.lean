import Verif.Model.MaxSim
import Verif.Proofs.Codec2

namespace NextPlaid.MaxSim
open NextPlaid Score

variable {α : Type} [LinearOrder α]

theorem laneMax_cases (a b : Score α) : laneMax a b = a ∨ laneMax a b = b := by
  unfold laneMax; split <;> simp

theorem laneMax_left (a b : Score α) : ge (laneMax a b) a := by
  unfold laneMax
  split
  · exact ge_refl a
  · rename_i h; exact not_gt_ge (fun e => h e)

theorem laneMax_right (a b : Score α) : ge (laneMax a b) b := by
  unfold laneMax
  split
  · rename_i h; exact cmp_gt_ge h
  · exact ge_refl b

theorem better_iff {a b : Score α} : isScoreBetter a b = true ↔ cmpForMax a b = .gt := by
  unfold isScoreBetter
  split <;> simp_all

theorem vmax_length (a b : List (Score α)) (h : a.length = b.length) : (vmax a b).length = a.length := by
  simp [vmax, h]

theorem vmax_dom (a b : List (Score α)) (h : a.length = b.length) :
    (∀ x ∈ a, ∃ y ∈ vmax a b, ge y x) ∧ (∀ x ∈ b, ∃ y ∈ vmax a b, ge y x) ∧
      ∀ y ∈ vmax a b, y ∈ a ∨ y ∈ b := by
  induction a generalizing b with
  | nil => cases b with
    | nil => simp [vmax]
    | cons _ _ => simp at h
  | cons a as ih =>
    cases b with
    | nil => simp at h
    | cons b bs =>
      obtain ⟨h1, h2, h3⟩ := ih bs (by simpa using h)
      have e : vmax (a :: as) (b :: bs) = laneMax a b :: vmax as bs := rfl
      rw [e]
      refine ⟨?_, ?_, ?_⟩
      · intro x hx
        rcases List.mem_cons.1 hx with rfl | hx
        · exact ⟨_, List.mem_cons_self, laneMax_left _ _⟩
        · obtain ⟨y, hy, hg⟩ := h1 x hx
          exact ⟨y, by simp [hy], hg⟩
      · intro x hx
        rcases List.mem_cons.1 hx with rfl | hx
        · exact ⟨_, List.mem_cons_self, laneMax_right _ _⟩
        · obtain ⟨y, hy, hg⟩ := h2 x hx
          exact ⟨y, by simp [hy], hg⟩
      · intro y hy
        rcases List.mem_cons.1 hy with rfl | hy
        · rcases laneMax_cases a b with h | h <;> simp [h]
        · rcases h3 y hy with h | h <;> simp [h]

/-- `regs` dominates `pre` and consists of elements of `slice` or `-inf`. -/
structure Dom (slice pre regs : List (Score α)) : Prop where
  dom : ∀ x ∈ pre, ∃ y ∈ regs, ge y x
  sub : ∀ y ∈ regs, y = negInf ∨ y ∈ slice

theorem load_sub (w i : Nat) (slice : List (Score α)) : ∀ y ∈ load w i slice, y ∈ slice :=
  fun _ h => List.mem_of_mem_drop (List.mem_of_mem_take h)

theorem load_length (w i : Nat) (slice : List (Score α)) (h : i + w ≤ slice.length) :
    (load w i slice).length = w := by simp [load]; omega

theorem Dom.vmax {slice p q a b : List (Score α)} (h : a.length = b.length)
    (ha : Dom slice p a) (hb : Dom slice q b) : Dom slice (p ++ q) (vmax a b) := by
  obtain ⟨h1, h2, h3⟩ := vmax_dom a b h
  refine ⟨?_, ?_⟩
  · intro x hx
    rcases List.mem_append.1 hx with hx | hx
    · obtain ⟨y, hy, hg⟩ := ha.dom x hx
      obtain ⟨z, hz, hg'⟩ := h1 y hy
      exact ⟨z, hz, ge_trans hg' hg⟩
    · obtain ⟨y, hy, hg⟩ := hb.dom x hx
      obtain ⟨z, hz, hg'⟩ := h2 y hy
      exact ⟨z, hz, ge_trans hg' hg⟩
  · intro y hy
    rcases h3 y hy with h | h
    · exact ha.sub y h
    · exact hb.sub y h

theorem Dom.load (w i : Nat) (slice : List (Score α)) :
    Dom slice (load w i slice) (load w i slice) :=
  ⟨fun x hx => ⟨x, hx, ge_refl x⟩, fun y hy => Or.inr (load_sub w i slice y hy)⟩

theorem take_add_load (w i : Nat) (slice : List (Score α)) :
    slice.take (i + w) = slice.take i ++ load w i slice := by
  rw [load, List.take_add]

/-- State of the unrolled loop: every element before `i` is dominated by a register. -/
structure Loop4Inv (w : Nat) (slice : List (Score α))
    (v0 v1 v2 v3 : List (Score α)) (i : Nat) : Prop where
  l0 : v0.length = w
  l1 : v1.length = w
  l2 : v2.length = w
  l3 : v3.length = w
  ex : ∃ p0 p1 p2 p3, Dom slice p0 v0 ∧ Dom slice p1 v1 ∧ Dom slice p2 v2 ∧ Dom slice p3 v3 ∧
    ∀ x ∈ slice.take i, x ∈ p0 ∨ x ∈ p1 ∨ x ∈ p2 ∨ x ∈ p3

theorem loop4_inv (w : Nat) (slice : List (Score α)) (fuel : Nat) :
    ∀ v0 v1 v2 v3 i, Loop4Inv w slice v0 v1 v2 v3 i →
    ∀ r, loop4 w slice fuel v0 v1 v2 v3 i = r →
      Loop4Inv w slice r.1 r.2.1 r.2.2.1 r.2.2.2.1 r.2.2.2.2 := by
  induction fuel with
  | zero => intro v0 v1 v2 v3 i h r hr; subst hr; exact h
  | succ fuel ih =>
    intro v0 v1 v2 v3 i h r hr
    unfold loop4 at hr
    split at hr
    · rename_i hle
      refine ih _ _ _ _ _ ?_ r hr
      obtain ⟨l0, l1, l2, l3, p0, p1, p2, p3, d0, d1, d2, d3, hc⟩ := h
      have e0 := load_length w i slice (by omega)
      have e1 := load_length w (i + w) slice (by omega)
      have e2 := load_length w (i + 2 * w) slice (by omega)
      have e3 := load_length w (i + 3 * w) slice (by omega)
      refine ⟨by rw [vmax_length _ _ (by omega), l0], by rw [vmax_length _ _ (by omega), l1],
        by rw [vmax_length _ _ (by omega), l2], by rw [vmax_length _ _ (by omega), l3],
        _, _, _, _, d0.vmax (by omega) (Dom.load w i slice),
        d1.vmax (by omega) (Dom.load w (i + w) slice),
        d2.vmax (by omega) (Dom.load w (i + 2 * w) slice),
        d3.vmax (by omega) (Dom.load w (i + 3 * w) slice), ?_⟩
      intro x hx
      have et : slice.take (i + 4 * w) = slice.take i ++ load w i slice ++ load w (i + w) slice ++
          load w (i + 2 * w) slice ++ load w (i + 3 * w) slice := by
        have a1 : i + 4 * w = i + 3 * w + w := by omega
        have a2 : i + 3 * w = i + 2 * w + w := by omega
        have a3 : i + 2 * w = i + w + w := by omega
        rw [a1, take_add_load, a2, take_add_load, a3, take_add_load, take_add_load]
      rw [et] at hx
      simp only [List.mem_append] at hx ⊢
      rcases hx with (((hx | hx) | hx) | hx) | hx
      · rcases hc x hx with h | h | h | h <;> simp [h]
      · exact Or.inl (Or.inr hx)
      · exact Or.inr (Or.inl (Or.inr hx))
      · exact Or.inr (Or.inr (Or.inl (Or.inr hx)))
      · exact Or.inr (Or.inr (Or.inr (Or.inr hx)))
    · subst hr; exact h

theorem loop1_inv (w : Nat) (slice v1 v2 v3 : List (Score α)) (fuel : Nat) :
    ∀ v0 i, Loop4Inv w slice v0 v1 v2 v3 i → ∀ r, loop1 w slice fuel v0 i = r →
      Loop4Inv w slice r.1 v1 v2 v3 r.2 := by
  induction fuel with
  | zero => intro v0 i h r hr; subst hr; exact h
  | succ fuel ih =>
    intro v0 i h r hr
    unfold loop1 at hr
    split at hr
    · rename_i hle
      refine ih _ _ ?_ r hr
      obtain ⟨l0, l1, l2, l3, p0, p1, p2, p3, d0, d1, d2, d3, hc⟩ := h
      have e0 := load_length w i slice (by omega)
      refine ⟨by rw [vmax_length _ _ (by omega), l0], l1, l2, l3, _, p1, p2, p3,
        d0.vmax (by omega) (Dom.load w i slice), d1, d2, d3, ?_⟩
      intro x hx
      rw [take_add_load] at hx
      simp only [List.mem_append] at hx ⊢
      rcases hx with hx | hx
      · rcases hc x hx with h | h | h | h <;> simp [h]
      · exact Or.inl (Or.inr hx)
    · subst hr; exact h

/-- A horizontal maximum of a `w`-lane register. -/
def HMax (w : Nat) (hmax : List (Score α) → Score α) : Prop :=
  ∀ v : List (Score α), v.length = w → hmax v ∈ v ∧ ∀ x ∈ v, ge (hmax v) x

theorem hmax4_spec : HMax 4 (hmax4 : List (Score α) → Score α) := by
  intro v hv
  match v, hv with
  | [a, b, c, d], _ =>
    have e : hmax4 [a, b, c, d] = laneMax (laneMax a c) (laneMax b d) := rfl
    rw [e]
    constructor
    · rcases laneMax_cases (laneMax a c) (laneMax b d) with h | h <;> rw [h]
      · rcases laneMax_cases a c with h | h <;> simp [h]
      · rcases laneMax_cases b d with h | h <;> simp [h]
    · intro x hx
      have h1 := laneMax_left (laneMax a c) (laneMax b d)
      have h2 := laneMax_right (laneMax a c) (laneMax b d)
      simp only [List.mem_cons, List.not_mem_nil, or_false] at hx
      rcases hx with rfl | rfl | rfl | rfl
      · exact ge_trans h1 (laneMax_left _ _)
      · exact ge_trans h2 (laneMax_left _ _)
      · exact ge_trans h1 (laneMax_right _ _)
      · exact ge_trans h2 (laneMax_right _ _)

theorem hmax8_spec : HMax 8 (hmax8 : List (Score α) → Score α) := by
  intro v hv
  have hlen : (v.drop 4).length = (v.take 4).length := by simp; omega
  obtain ⟨h1, h2, h3⟩ := vmax_dom (v.drop 4) (v.take 4) hlen
  obtain ⟨g1, g2⟩ := hmax4_spec (vmax (v.drop 4) (v.take 4)) (by
    rw [vmax_length _ _ hlen]; simp; omega)
  refine ⟨?_, ?_⟩
  · rcases h3 _ g1 with h | h
    · exact List.mem_of_mem_drop h
    · exact List.mem_of_mem_take h
  · intro x hx
    rw [← List.take_append_drop 4 v] at hx
    rcases List.mem_append.1 hx with hx | hx
    · obtain ⟨y, hy, hg⟩ := h2 x hx
      exact ge_trans (g2 y hy) hg
    · obtain ⟨y, hy, hg⟩ := h1 x hx
      exact ge_trans (g2 y hy) hg

theorem tail_fold (l : List (Score α)) : ∀ r0 r : Score α,
    l.foldl (fun r x => if isScoreBetter x r then x else r) r0 = r →
    (r = r0 ∨ r ∈ l) ∧ ge r r0 ∧ ∀ x ∈ l, ge r x := by
  induction l with
  | nil => intro r0 r h; subst h; exact ⟨Or.inl rfl, ge_refl _, by simp⟩
  | cons y l ih =>
    intro r0 r h
    rw [List.foldl_cons] at h
    obtain ⟨h1, h2, h3⟩ := ih _ _ h
    by_cases hb : isScoreBetter y r0
    · simp only [hb, if_true] at h1 h2
      refine ⟨by rcases h1 with h | h <;> simp [h], ge_trans h2 (cmp_gt_ge (better_iff.1 hb)), ?_⟩
      intro x hx
      rcases List.mem_cons.1 hx with rfl | hx
      · exact h2
      · exact h3 x hx
    · simp only [hb] at h1 h2
      simp only [Bool.false_eq_true, if_false] at h1 h2
      refine ⟨by rcases h1 with h | h <;> simp [h], h2, ?_⟩
      intro x hx
      rcases List.mem_cons.1 hx with rfl | hx
      · exact ge_trans h2 (not_gt_ge (fun e => hb (better_iff.2 e)))
      · exact h3 x hx

theorem scalarMax_spec (slice : List (Score α)) (h : slice ≠ []) :
    scalarMax slice ∈ slice ∧ ∀ x ∈ slice, ge (scalarMax slice) x := by
  obtain ⟨m, hm⟩ := maxBy_isSome (cmpForMax (α := α)) h
  have := maxBy_spec (cmpForMax (α := α)) ge ge_refl (fun _ _ _ => ge_trans)
    (fun _ _ => cmp_gt_ge) (fun _ _ => not_gt_ge) slice m hm
  simpa only [scalarMax, hm] using this

theorem ge_antisymm_fin {a b : Score α} (ha : a.isFinite = true) (h1 : ge a b) (h2 : ge b a) : a = b := by
  cases a <;> cases b <;> simp_all [Score.isFinite]
  exact le_antisymm h2 h1

theorem simdMaxWith_eq (w : Nat) (hmax : List (Score α) → Score α) (hh : HMax w hmax)
    (slice : List (Score α)) : simdMaxWith w hmax slice = scalarMax slice := by
  unfold simdMaxWith
  have init : Dom slice ([] : List (Score α)) (List.replicate w (negInf : Score α)) :=
    ⟨by simp, fun y hy => Or.inl (List.eq_of_mem_replicate hy)⟩
  have i4 : Loop4Inv w slice (List.replicate w negInf) (List.replicate w negInf)
      (List.replicate w negInf) (List.replicate w negInf) 0 :=
    ⟨by simp, by simp, by simp, by simp, _, _, _, _, init, init, init, init, by simp⟩
  rcases h4 : loop4 w slice slice.length (List.replicate w (negInf : Score α))
    (List.replicate w negInf) (List.replicate w negInf) (List.replicate w negInf) 0 with
    ⟨v0, v1, v2, v3, i⟩
  have i4' := loop4_inv w slice slice.length _ _ _ _ _ i4 _ h4
  simp only at i4'
  rcases h1 : loop1 w slice slice.length v0 i with ⟨u0, j⟩
  have i1' := loop1_inv w slice v1 v2 v3 slice.length _ _ i4' _ h1
  simp only at i1'
  simp only [h4, h1]
  split
  · rfl
  · rename_i hcond
    simp only [Bool.or_eq_true, Bool.not_eq_true', not_or, Bool.not_eq_false] at hcond
    obtain ⟨hfin, hall⟩ := hcond
    obtain ⟨l0, l1, l2, l3, p0, p1, p2, p3, d0, d1, d2, d3, hc⟩ := i1'
    have c01 := d0.vmax (by omega) d1
    have c23 := d2.vmax (by omega) d3
    have len01 : (vmax u0 v1).length = w := by rw [vmax_length _ _ (by omega), l0]
    have len23 : (vmax v2 v3).length = w := by rw [vmax_length _ _ (by omega), l2]
    have cAll := c01.vmax (by omega) c23
    have lenAll : (vmax (vmax u0 v1) (vmax v2 v3)).length = w := by
      rw [vmax_length _ _ (by omega), len01]
    obtain ⟨hm1, hm2⟩ := hh _ lenAll
    obtain ⟨t1, t2, t3⟩ := tail_fold (slice.drop j) (hmax (vmax (vmax u0 v1) (vmax v2 v3))) _ rfl
    generalize List.foldl (fun r x => if isScoreBetter x r = true then x else r)
      (hmax (vmax (vmax u0 v1) (vmax v2 v3))) (List.drop j slice) = r at *
    have hge : ∀ x ∈ slice, ge r x := by
      intro x hx
      rw [← List.take_append_drop j slice] at hx
      rcases List.mem_append.1 hx with hx | hx
      · have : x ∈ p0 ++ p1 ++ (p2 ++ p3) := by
          simp only [List.mem_append]
          rcases hc x hx with h | h | h | h <;> simp [h]
        obtain ⟨y, hy, hg⟩ := cAll.dom x this
        exact ge_trans t2 (ge_trans (hm2 y hy) hg)
      · exact t3 x hx
    have hmem : r ∈ slice := by
      rcases t1 with h | h
      · rcases cAll.sub _ hm1 with h' | h'
        · rw [h, h'] at hfin; simp [negInf, Score.isFinite] at hfin
        · rw [h]; exact h'
      · exact List.mem_of_mem_drop h
    have hne : slice ≠ [] := List.ne_nil_of_mem hmem
    obtain ⟨s1, s2⟩ := scalarMax_spec slice hne
    exact ge_antisymm_fin hfin (hge _ s1) (s2 _ hmem)

theorem simdMax_eq (arch : Arch) (slice : List (Score α)) : simdMax arch slice = scalarMax slice := by
  cases arch
  · simp only [simdMax]
    split
    · rfl
    · exact simdMaxWith_eq 8 hmax8 hmax8_spec slice
  · rfl
  · simp only [simdMax]
    split
    · rfl
    · exact simdMaxWith_eq 4 hmax4 hmax4_spec slice
  · rfl

theorem simdArgmax_spec (arch : Arch) (slice : List (Score α)) (h : slice ≠ []) :
    ∃ m, slice[simdArgmax arch slice]? = some m ∧ ∀ s ∈ slice, ge m s := by
  have hpos : 0 < slice.length := List.length_pos_iff.2 h
  unfold simdArgmax
  rw [if_neg h]
  split
  · exact Codec.argmaxRow_spec slice h
  · obtain ⟨s1, s2⟩ := scalarMax_spec slice h
    rw [simdMax_eq]
    simp only
    by_cases hfin : (scalarMax slice).isFinite = true
    · have hex : slice.findIdx? (fun x => floatEq x (scalarMax slice)) ≠ none := by
        intro hnone
        rw [List.findIdx?_eq_none_iff] at hnone
        have := hnone _ s1
        cases hs : scalarMax slice with
        | fin a => simp [hs, floatEq] at this
        | nonfin t => simp [hs, Score.isFinite] at hfin
      cases hf : slice.findIdx? (fun x => floatEq x (scalarMax slice)) with
      | none => exact absurd hf hex
      | some i =>
        rw [List.findIdx?_eq_some_iff_getElem] at hf
        obtain ⟨hi, heq, _⟩ := hf
        have : slice[i] = scalarMax slice := by
          cases ha : slice[i] <;> cases hb : scalarMax slice <;>
            simp_all [floatEq, Score.isFinite]
        refine ⟨slice[i], by rw [List.getElem?_eq_getElem hi], ?_⟩
        rw [this]
        exact s2
    · -- every element is non-finite, so all are equally good
      have hall : ∀ x ∈ slice, x.isFinite = false := by
        intro x hx
        have := s2 x hx
        cases hb : scalarMax slice with
        | fin a => simp [hb, Score.isFinite] at hfin
        | nonfin t =>
          rw [hb] at this
          cases x with
          | fin a => exact absurd this not_ge_nonfin_fin
          | nonfin u => rfl
      have hany : ∀ i, i < slice.length → ∃ m, slice[i]? = some m ∧ ∀ s ∈ slice, ge m s := by
        intro i hi
        refine ⟨slice[i], List.getElem?_eq_getElem hi, ?_⟩
        intro s hs
        have h1 := hall _ (List.getElem_mem hi)
        have h2 := hall _ hs
        cases ha : slice[i] <;> cases s <;> simp_all [Score.isFinite]
      cases hf : slice.findIdx? (fun x => floatEq x (scalarMax slice)) with
      | none => exact hany 0 hpos
      | some i =>
        rw [List.findIdx?_eq_some_iff_getElem] at hf
        obtain ⟨hi, _, _⟩ := hf
        exact hany i hi

theorem firstBest_spec (row : List (Score α)) (h : row ≠ []) :
    ∃ m, row[firstBest row]? = some m ∧ ∀ s ∈ row, ge m s := by
  have key : ∀ (rest pre : List (Score α)) (bi : Nat) (bs : Score α),
      (pre[bi]? = some bs ∨ (bi = 0 ∧ bs = negInf)) →
      (∀ s ∈ pre, ge bs s) →
      ∀ r, rest.foldl (fun (st : Nat × Score α × Nat) score =>
        let (bestIdx, bestScore, i) := st
        if isScoreBetter score bestScore then (i, score, i + 1) else (bestIdx, bestScore, i + 1))
        (bi, bs, pre.length) = r →
      ((pre ++ rest)[r.1]? = some r.2.1 ∨ (r.1 = 0 ∧ r.2.1 = negInf)) ∧
      (∀ s ∈ pre ++ rest, ge r.2.1 s) := by
    intro rest
    induction rest with
    | nil =>
      intro pre bi bs h1 h2 r hr
      subst hr
      simpa using ⟨h1, h2⟩
    | cons x rest ih =>
      intro pre bi bs h1 h2 r hr
      rw [List.foldl_cons] at hr
      have e : pre ++ x :: rest = (pre ++ [x]) ++ rest := by simp
      rw [e]
      by_cases hb : isScoreBetter x bs = true
      · simp only [hb, if_true] at hr
        refine ih (pre ++ [x]) pre.length x (Or.inl (by simp)) ?_ r (by simpa using hr)
        intro s hs
        rcases List.mem_append.1 hs with hs | hs
        · exact ge_trans (cmp_gt_ge (better_iff.1 hb)) (h2 s hs)
        · simp at hs; subst hs; exact ge_refl _
      · simp only [hb] at hr
        refine ih (pre ++ [x]) bi bs ?_ ?_ r (by simpa using hr)
        · rcases h1 with he | h1
          · left
            rw [List.getElem?_append_left]
            · exact he
            · exact (List.getElem?_eq_some_iff.1 he).1
          · exact Or.inr h1
        · intro s hs
          rcases List.mem_append.1 hs with hs | hs
          · exact h2 s hs
          · simp at hs; subst hs
            exact not_gt_ge (fun e => hb (better_iff.2 e))
  obtain ⟨h1, h2⟩ := key row [] 0 negInf (Or.inr ⟨rfl, rfl⟩) (by simp) _ rfl
  have hpos : 0 < row.length := List.length_pos_iff.2 h
  generalize hst : (row.foldl (fun (st : Nat × Score α × Nat) score =>
        let (bestIdx, bestScore, i) := st
        if isScoreBetter score bestScore then (i, score, i + 1) else (bestIdx, bestScore, i + 1))
        (0, negInf, 0)) = st at h1 h2
  have hdef : firstBest row = st.1 := by rw [← hst]; rfl
  simp only [List.nil_append, List.length_nil, hst] at h1 h2
  rw [hdef]
  rcases h1 with he | ⟨h0, hn⟩
  · exact ⟨_, he, h2⟩
  · refine ⟨row[0], by rw [h0, List.getElem?_eq_getElem hpos], ?_⟩
    intro s hs
    have hs' := h2 s hs
    have hr := h2 _ (List.getElem_mem hpos)
    rw [hn] at hs' hr
    cases s with
    | fin a => exact absurd hs' not_ge_nonfin_fin
    | nonfin t =>
      cases ha : row[0] with
      | fin a => exact ge_fin_nonfin
      | nonfin u => exact ge_nonfin

end NextPlaid.MaxSim
