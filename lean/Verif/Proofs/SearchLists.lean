import Verif.Proofs.Score
import Verif.Proofs.IndexLists
import Verif.Model.Search

/-! Helper lemmas for search: result lists, stable sort, bounded heaps. -/

namespace NextPlaid.Search
open NextPlaid NextPlaid.Index

/-! ### `mapM` in the result monad -/

theorem mapM_cons_eq {β γ : Type} (f : β → Res γ) (a : β) (l : List β) :
    (a :: l).mapM f = (do let b ← f a; let r ← l.mapM f; .ok (b :: r)) := by
  rw [List.mapM_cons]; rfl

theorem mapM_inv_cons {β γ : Type} {f : β → Res γ} {a : β} {l : List β} {r : List γ}
    (h : (a :: l).mapM f = .ok r) : ∃ b r', f a = .ok b ∧ l.mapM f = .ok r' ∧ r = b :: r' := by
  rw [mapM_cons_eq] at h
  cases hf : f a with
  | error e => rw [hf] at h; cases h
  | ok b =>
    cases hl : l.mapM f with
    | error e => rw [hf, hl] at h; cases h
    | ok r' => rw [hf, hl] at h; cases h; exact ⟨b, r', rfl, rfl, rfl⟩

theorem mapM_nil_eq {β γ : Type} (f : β → Res γ) : ([] : List β).mapM f = .ok [] := rfl

theorem mapM_map {β γ δ : Type} {f : β → Res γ} (g : γ → δ) (h : β → δ)
    (hf : ∀ a b, f a = .ok b → g b = h a) : ∀ {l : List β} {r : List γ}, l.mapM f = .ok r → r.map g = l.map h
  | [], r, e => by cases e; rfl
  | a :: l, r, e => by
    obtain ⟨b, r', h1, h2, rfl⟩ := mapM_inv_cons e
    rw [List.map_cons, List.map_cons, hf a b h1, mapM_map g h hf h2]

theorem mapM_mem {β γ : Type} {f : β → Res γ} : ∀ {l : List β} {r : List γ}, l.mapM f = .ok r →
    ∀ b ∈ r, ∃ a ∈ l, f a = .ok b
  | [], r, e, b, hb => by cases e; cases hb
  | a :: l, r, e, b, hb => by
    obtain ⟨b', r', h1, h2, rfl⟩ := mapM_inv_cons e
    rcases List.mem_cons.1 hb with rfl | hb
    · exact ⟨a, by simp, h1⟩
    · obtain ⟨a', ha, h⟩ := mapM_mem h2 b hb
      exact ⟨a', List.mem_cons_of_mem _ ha, h⟩

theorem mapM_mem' {β γ : Type} {f : β → Res γ} : ∀ {l : List β} {r : List γ}, l.mapM f = .ok r →
    ∀ a ∈ l, ∃ b ∈ r, f a = .ok b
  | [], r, e, b, hb => by cases hb
  | a :: l, r, e, b, hb => by
    obtain ⟨b', r', h1, h2, rfl⟩ := mapM_inv_cons e
    rcases List.mem_cons.1 hb with rfl | hb
    · exact ⟨b', by simp, h1⟩
    · obtain ⟨a', ha, h⟩ := mapM_mem' h2 b hb
      exact ⟨a', List.mem_cons_of_mem _ ha, h⟩

theorem mapM_length {β γ : Type} {f : β → Res γ} : ∀ {l : List β} {r : List γ}, l.mapM f = .ok r → r.length = l.length
  | [], r, e => by cases e; rfl
  | a :: l, r, e => by
    obtain ⟨b', r', h1, h2, rfl⟩ := mapM_inv_cons e
    simp [mapM_length h2]

theorem mapM_exists {β γ : Type} {f : β → Res γ} : ∀ {l : List β}, (∀ a ∈ l, ∃ b, f a = .ok b) →
    ∃ r, l.mapM f = .ok r
  | [], _ => ⟨[], rfl⟩
  | a :: l, h => by
    obtain ⟨b, hb⟩ := h a (by simp)
    obtain ⟨r, hr⟩ := mapM_exists (l := l) (fun x hx => h x (List.mem_cons_of_mem _ hx))
    exact ⟨b :: r, by rw [mapM_cons_eq, hb, hr]; rfl⟩

theorem mapM_congr {β γ : Type} {f g : β → Res γ} : ∀ {l : List β}, (∀ a ∈ l, f a = g a) →
    l.mapM f = l.mapM g
  | [], _ => rfl
  | a :: l, h => by
    rw [mapM_cons_eq, mapM_cons_eq, h a (by simp), mapM_congr fun x hx => h x (List.mem_cons_of_mem _ hx)]

theorem mapM_append_eq {β γ : Type} (f : β → Res γ) : ∀ (l₁ l₂ : List β),
    (l₁ ++ l₂).mapM f = (do let a ← l₁.mapM f; let b ← l₂.mapM f; .ok (a ++ b))
  | [], l₂ => by
    rw [List.nil_append, mapM_nil_eq]
    cases h : l₂.mapM f <;> simp [bind, Except.bind, h]
  | a :: l₁, l₂ => by
    rw [List.cons_append, mapM_cons_eq, mapM_cons_eq, mapM_append_eq f l₁ l₂]
    cases f a <;> cases l₁.mapM f <;> cases l₂.mapM f <;> rfl

theorem mapM_chunks {β γ : Type} (f : β → Res (List γ)) : ∀ (cs : List (List β)),
    (do let parts ← cs.mapM fun c => (do let ps ← c.mapM f; Except.ok ps.flatten)
        Except.ok parts.flatten) =
      (do let ps ← cs.flatten.mapM f; Except.ok (ε := Fault) ps.flatten)
  | [] => rfl
  | c :: cs => by
    rw [mapM_cons_eq, List.flatten_cons, mapM_append_eq]
    have ih := mapM_chunks f cs
    cases hc : c.mapM f with
    | error e => rfl
    | ok a =>
      cases hm : cs.mapM fun c => (do let ps ← c.mapM f; Except.ok ps.flatten) with
      | error e =>
        rw [hm] at ih
        cases hx : cs.flatten.mapM f with
        | error e' => rw [hx] at ih; cases ih; rfl
        | ok b => rw [hx] at ih; cases ih
      | ok b =>
        rw [hm] at ih
        cases hx : cs.flatten.mapM f with
        | error e' => rw [hx] at ih; cases ih
        | ok b' =>
          rw [hx] at ih
          simp only [bind, Except.bind, Except.ok.injEq] at ih ⊢
          rw [List.flatten_cons, List.flatten_append, ih]

/-! ### Comparison -/

variable {α : Type} [LinearOrder α]

theorem better_iff {a b : Score α} : better a b = true ↔ ¬ Score.ge b a := by
  unfold better MaxSim.isScoreBetter
  rw [← Score.gt_iff]
  cases Score.cmpForMax a b <;> simp

theorem not_better {a b : Score α} : better a b = false ↔ Score.ge b a := by
  rw [← Bool.not_eq_true, better_iff, Classical.not_not]

theorem ge_total (a b : Score α) : Score.ge a b ∨ Score.ge b a := by
  cases a <;> cases b <;> simp
  exact le_total _ _

/-! ### Stable sort -/

theorem insertDesc_perm (a : Int × Score α) : ∀ l, (insertDesc a l).Perm (a :: l)
  | [] => .refl _
  | b :: l => by
    unfold insertDesc
    split
    · exact ((insertDesc_perm a l).cons b).trans (List.Perm.swap a b l)
    · exact .refl _

theorem sortDesc_perm : ∀ (l : List (Int × Score α)), (sortDesc l).Perm l
  | [] => .refl _
  | a :: l => (insertDesc_perm a _).trans ((sortDesc_perm l).cons a)

theorem insertDesc_sorted (a : Int × Score α) : ∀ l, l.Pairwise (fun x y => Score.ge x.2 y.2) →
    (insertDesc a l).Pairwise (fun x y => Score.ge x.2 y.2)
  | [], _ => by simp [insertDesc]
  | b :: l, h => by
    rw [List.pairwise_cons] at h
    unfold insertDesc
    split
    · next hb =>
      rw [List.pairwise_cons]
      refine ⟨?_, insertDesc_sorted a l h.2⟩
      intro x hx
      rcases List.mem_cons.1 ((insertDesc_perm a l).mem_iff.1 hx) with rfl | hx
      · have := better_iff.1 hb
        rcases ge_total b.2 x.2 with h1 | h1
        · exact h1
        · exact absurd h1 this
      · exact h.1 x hx
    · next hb =>
      have hb := not_better.1 (Bool.not_eq_true _ ▸ hb)
      rw [List.pairwise_cons, List.pairwise_cons]
      refine ⟨?_, h⟩
      intro x hx
      rcases List.mem_cons.1 hx with rfl | hx
      · exact hb
      · exact Score.ge_trans hb (h.1 x hx)

theorem sortDesc_sorted : ∀ (l : List (Int × Score α)), (sortDesc l).Pairwise (fun x y => Score.ge x.2 y.2)
  | [] => by simp [sortDesc]
  | a :: l => insertDesc_sorted a _ (sortDesc_sorted l)

/-! ### Sets as lists -/

theorem mem_foldl_setInsert (x : Nat) : ∀ (l acc : List Nat), x ∈ l.foldl setInsert acc ↔ x ∈ acc ∨ x ∈ l
  | [], acc => by simp
  | a :: l, acc => by
    rw [List.foldl_cons, mem_foldl_setInsert x l]
    unfold setInsert
    split
    · next h =>
      constructor
      · rintro (h1 | h1)
        · exact Or.inl h1
        · exact Or.inr (List.mem_cons_of_mem _ h1)
      · rintro (h1 | h1)
        · exact Or.inl h1
        · rcases List.mem_cons.1 h1 with rfl | h1
          · exact Or.inl h
          · exact Or.inr h1
    · simp only [List.mem_append, List.mem_cons, List.not_mem_nil, or_false, or_assoc]

/-! ### Best-n selections -/

/-- `H` is a selection of the `n` best entries of `P` (all of them if there are fewer). -/
def TopN (n : Nat) (P H : List (Entry α)) : Prop :=
  ∃ R, (H ++ R).Perm P ∧ H.length = min n P.length ∧ ∀ h ∈ H, ∀ r ∈ R, Score.ge h.2 r.2

theorem TopN.congr {n : Nat} {P P' H : List (Entry α)} (hp : P.Perm P') (h : TopN n P H) : TopN n P' H := by
  obtain ⟨R, h1, h2, h3⟩ := h
  exact ⟨R, h1.trans hp, by rw [h2, hp.length_eq], h3⟩

theorem TopN.nil (n : Nat) : TopN n ([] : List (Entry α)) [] := ⟨[], .refl _, by simp, by simp⟩

theorem TopN.self {n : Nat} {P H : List (Entry α)} (h : TopN n P H) : TopN n H H := by
  obtain ⟨R, h1, h2, h3⟩ := h
  exact ⟨[], by simp, by rw [h2]; omega, by simp⟩

theorem TopN.mem {n : Nat} {P H : List (Entry α)} (h : TopN n P H) {e} (he : e ∈ H) : e ∈ P := by
  obtain ⟨R, h1, _, _⟩ := h
  exact h1.mem_iff.1 (List.mem_append_left _ he)

theorem worseEntry_spec (a b : Entry α) :
    (worseEntry a b = a ∨ worseEntry a b = b) ∧ Score.ge a.2 (worseEntry a b).2 ∧
      Score.ge b.2 (worseEntry a b).2 := by
  unfold worseEntry
  cases h : Score.cmpForMax a.2 b.2 with
  | lt =>
    refine ⟨Or.inl rfl, Score.ge_refl _, ?_⟩
    apply Score.not_gt_ge; rw [h]; simp
  | gt => exact ⟨Or.inr rfl, Score.cmp_gt_ge h, Score.ge_refl _⟩
  | eq =>
    have h1 : Score.ge b.2 a.2 := by apply Score.not_gt_ge; rw [h]; simp
    have h2 : Score.ge a.2 b.2 := by unfold Score.ge; rw [h]; simp
    simp only []
    split
    · exact ⟨Or.inr rfl, h2, Score.ge_refl _⟩
    · exact ⟨Or.inl rfl, Score.ge_refl _, h1⟩

theorem foldl_worse (l : List (Entry α)) : ∀ (a : Entry α),
    (l.foldl worseEntry a ∈ a :: l) ∧ ∀ x ∈ a :: l, Score.ge x.2 (l.foldl worseEntry a).2 := by
  induction l with
  | nil => intro a; simp [Score.ge_refl]
  | cons b l ih =>
    intro a
    rw [List.foldl_cons]
    obtain ⟨h1, h2⟩ := ih (worseEntry a b)
    obtain ⟨w1, w2, w3⟩ := worseEntry_spec a b
    have hw := h2 (worseEntry a b) (by simp)
    constructor
    · rcases List.mem_cons.1 h1 with h | h
      · rw [h]; rcases w1 with w | w <;> rw [w] <;> simp
      · simp [h]
    · intro x hx
      rcases List.mem_cons.1 hx with rfl | hx
      · exact Score.ge_trans w2 hw
      · rcases List.mem_cons.1 hx with rfl | hx
        · exact Score.ge_trans w3 hw
        · exact h2 x (List.mem_cons_of_mem _ hx)

theorem peekWorst_spec {l : List (Entry α)} {w} (h : peekWorst l = some w) :
    w ∈ l ∧ ∀ x ∈ l, Score.ge x.2 w.2 := by
  cases l with
  | nil => cases h
  | cons a l => cases h; exact foldl_worse l a

theorem TopN.offer {n : Nat} {P H : List (Entry α)} (h : TopN n P H) (e : Entry α) :
    TopN n (e :: P) (heapOffer n H e).1 := by
  obtain ⟨R, h1, h2, h3⟩ := h
  have hlen := h1.length_eq
  rw [List.length_append] at hlen
  unfold heapOffer
  split
  · next hlt =>
    have hR : R = [] := List.eq_nil_iff_length_eq_zero.2 (by omega)
    subst hR
    refine ⟨[], ?_, ?_, by simp⟩
    · simpa using h1
    · simp only [List.length_cons]; omega
  · next hge =>
    have hlenH : H.length = n := by omega
    cases hw : peekWorst H with
    | none =>
      have : H = [] := by cases H with | nil => rfl | cons a l => cases hw
      subst this
      refine ⟨e :: R, ?_, ?_, by simp⟩
      · simpa using h1
      · simp at hlenH; simp [← hlenH]
    | some w =>
      obtain ⟨w1, w2⟩ := peekWorst_spec hw
      simp only []
      split
      · next hb =>
        have hew : Score.ge e.2 w.2 := by
          rcases ge_total e.2 w.2 with h | h
          · exact h
          · exact absurd h (better_iff.1 hb)
        refine ⟨w :: R, ?_, ?_, ?_⟩
        · have := (List.perm_cons_erase w1).symm
          have h4 : (H.erase w ++ w :: R).Perm (H ++ R) :=
            (List.perm_middle).trans (this.append_right R)
          simpa using (h4.trans h1).cons e
        · simp only [List.length_cons, List.length_erase_of_mem w1]
          have : 0 < H.length := List.length_pos_of_mem w1
          omega
        · intro x hx r hr
          rcases List.mem_cons.1 hx with rfl | hx
          · rcases List.mem_cons.1 hr with rfl | hr
            · exact hew
            · exact Score.ge_trans hew (h3 w w1 r hr)
          · have hx' := List.mem_of_mem_erase hx
            rcases List.mem_cons.1 hr with rfl | hr
            · exact w2 x hx'
            · exact h3 x hx' r hr
      · next hb =>
        have hwe := not_better.1 (Bool.not_eq_true _ ▸ hb)
        refine ⟨e :: R, ?_, ?_, ?_⟩
        · exact List.perm_middle.trans (h1.cons e)
        · simp only [List.length_cons]; omega
        · intro x hx r hr
          rcases List.mem_cons.1 hr with rfl | hr
          · exact Score.ge_trans (w2 x hx) hwe
          · exact h3 x hx r hr

theorem TopN.offers {n : Nat} : ∀ (es : List (Entry α)) {P H : List (Entry α)}, TopN n P H →
    TopN n (P ++ es) (es.foldl (fun h e => (heapOffer n h e).1) H)
  | [], P, H, h => by simpa using h
  | e :: es, P, H, h => by
    rw [List.foldl_cons]
    exact (TopN.offers es (h.offer e)).congr (List.perm_middle (l₁ := P)).symm

theorem TopN.compose {n : Nat} {A B H0 L H : List (Entry α)} (hA : TopN n A H0) (hB : TopN n B L)
    (h : TopN n (H0 ++ L) H) : TopN n (A ++ B) H := by
  obtain ⟨R0, a1, a2, a3⟩ := hA
  obtain ⟨R1, b1, b2, b3⟩ := hB
  obtain ⟨R2, c1, c2, c3⟩ := h
  have la := a1.length_eq
  have lb := b1.length_eq
  have lc := c1.length_eq
  simp only [List.length_append] at la lb lc c2
  -- an element left out of a full selection cannot beat a finally chosen one
  have key : ∀ (S R : List (Entry α)), (∀ s ∈ S, s ∈ H0 ++ L) →
      (∀ x, S.countP x ≤ (H0 ++ L).countP x) → (∀ s ∈ S, ∀ r ∈ R, Score.ge s.2 r.2) →
      (R ≠ [] → S.length = n) → ∀ x ∈ H, ∀ r ∈ R, Score.ge x.2 r.2 := by
    intro S R hS hcount hSR hn x hx r hr
    by_contra hlt
    have hSn := hn (List.ne_nil_of_mem hr)
    let p : Entry α → Bool := fun y => better y.2 x.2
    have hSp : S.countP p = S.length := by
      rw [List.countP_eq_length]
      intro s hs
      apply better_iff.2
      intro hxs
      exact hlt (Score.ge_trans hxs (hSR s hs r hr))
    have h1 := hcount p
    rw [← c1.countP_eq, List.countP_append] at h1
    have hR2 : R2.countP p = 0 := by
      rw [List.countP_eq_zero]
      intro y hy hpy
      exact better_iff.1 hpy (c3 x hx y hy)
    have hH : H.countP p < H.length := by
      apply Nat.lt_of_le_of_ne List.countP_le_length
      intro heq
      have := (List.countP_eq_length.1 heq) x hx
      exact better_iff.1 this (Score.ge_refl _)
    omega
  refine ⟨R2 ++ (R0 ++ R1), ?_, ?_, ?_⟩
  · have e1 : (H ++ (R2 ++ (R0 ++ R1))).Perm ((H0 ++ L) ++ (R0 ++ R1)) := by
      rw [← List.append_assoc]; exact c1.append_right _
    have e2 : ((H0 ++ L) ++ (R0 ++ R1)).Perm ((H0 ++ R0) ++ (L ++ R1)) := by
      rw [List.append_assoc, List.append_assoc]
      apply List.Perm.append_left
      rw [← List.append_assoc, ← List.append_assoc]
      exact List.perm_append_comm.append_right _
    exact (e1.trans e2).trans (a1.append b1)
  · simp only [List.length_append]; omega
  · intro x hx r hr
    rcases List.mem_append.1 hr with hr | hr
    · exact c3 x hx r hr
    · rcases List.mem_append.1 hr with hr | hr
      · refine key H0 R0 (by simp +contextual) ?_ a3 ?_ x hx r hr
        · intro p; rw [List.countP_append]; omega
        · intro hne
          have : 0 < R0.length := List.length_pos_iff.2 hne
          omega
      · refine key L R1 (by simp +contextual) ?_ b3 ?_ x hx r hr
        · intro p; rw [List.countP_append]; omega
        · intro hne
          have : 0 < R1.length := List.length_pos_iff.2 hne
          omega

/-- Without ties a best-n selection is unique as a set. -/
theorem TopN.unique {n : Nat} {P H H' : List (Entry α)} (h : TopN n P H) (h' : TopN n P H')
    (hties : ∀ a ∈ P, ∀ b ∈ P, a ≠ b → ¬ (Score.ge a.2 b.2 ∧ Score.ge b.2 a.2)) {e} (he : e ∈ H) : e ∈ H' := by
  by_contra hne
  have heP := h.mem he
  obtain ⟨R, h1, h2, h3⟩ := h
  have hmem' := fun (x : Entry α) (hx : x ∈ H') => TopN.mem h' hx
  obtain ⟨R', g1, g2, g3⟩ := h'
  have heR' : e ∈ R' := by
    rcases List.mem_append.1 (g1.mem_iff.2 heP) with h | h
    · exact absurd h hne
    · exact h
  let p : Entry α → Bool := fun y => better y.2 e.2
  have hH' : H'.countP p = H'.length := by
    rw [List.countP_eq_length]
    intro x hx
    apply better_iff.2
    intro hex
    exact hties e heP x (hmem' x hx) (fun h => hne (h ▸ hx)) ⟨hex, g3 x hx e heR'⟩
  have hR : R.countP p = 0 := by
    rw [List.countP_eq_zero]
    intro y hy hpy
    exact better_iff.1 hpy (h3 e he y hy)
  have hH : H.countP p < H.length := by
    apply Nat.lt_of_le_of_ne List.countP_le_length
    intro heq
    exact better_iff.1 ((List.countP_eq_length.1 heq) e he) (Score.ge_refl _)
  have e1 := h1.countP_eq p
  have e2 := g1.countP_eq p
  rw [List.countP_append] at e1 e2
  omega

/-- Partial selection followed by `take` is a best-n selection. -/
theorem TopN.selectNth {o : Oracle α} (ho : o.Lawful) (l : List (Entry α)) (n : Nat) (hn : 0 < n)
    (hlt : n < l.length) : TopN n l ((o.selectNth (n - 1) l).take n) := by
  have hp := ho.selectNth_perm (n - 1) l
  obtain ⟨p, hpk, hbefore, hafter⟩ := ho.selectNth_pivot (n - 1) l (by omega)
  refine ⟨(o.selectNth (n - 1) l).drop n, by rw [List.take_append_drop]; exact hp, ?_, ?_⟩
  · rw [List.length_take, hp.length_eq]
  · intro h hh r hr
    obtain ⟨i, hi⟩ := List.mem_iff_getElem?.1 hh
    obtain ⟨j, hj⟩ := List.mem_iff_getElem?.1 hr
    rw [List.getElem?_drop] at hj
    have hin : i < n := by
      rcases Nat.lt_or_ge i n with h | h
      · exact h
      · rw [List.getElem?_eq_none (by rw [List.length_take]; omega)] at hi; cases hi
    rw [List.getElem?_take_of_lt hin] at hi
    have g1 : Score.ge h.2 p.2 := by
      rcases Nat.lt_or_ge i (n - 1) with h' | h'
      · exact not_better.1 (hbefore i h h' hi)
      · have : i = n - 1 := by omega
        subst this
        rw [hpk] at hi; cases hi; exact Score.ge_refl _
    have g2 : Score.ge p.2 r.2 := not_better.1 (hafter (n + j) r (by omega) hj)
    exact Score.ge_trans g1 g2

end NextPlaid.Search
