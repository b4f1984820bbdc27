import Verif.Spec.Ranking
import Mathlib.Data.List.Induction
import Mathlib.Data.List.Nodup

/-! Lemmas for C54 and C55: the ranking signals. -/

namespace NextPlaid.Rank

open NextPlaid.Spec NextPlaid.Fusion

variable {K : Type} [Field K] [LinearOrder K] [IsStrictOrderedRing K] (r : Rounding K) (g : Signals K)

/-! ### Units are kept -/

theorem stemBoosted_unit (q : List Char) (best : K) (h : Hit K) : (stemBoosted r g q best h).unit = h.unit := by
  simp only [stemBoosted]; split
  · rfl
  · split <;> rfl

theorem stemBoost_units (q : List Char) (hits : List (Hit K)) : (stemBoost r g q hits).map (·.unit) = hits.map (·.unit) := by
  unfold stemBoost; split
  · rfl
  · rw [List.map_map]; exact List.map_congr_left fun h _ => stemBoosted_unit r g q _ h

theorem defBoost_units (q : List Char) (hits : List (Hit K)) : (defBoost r g q hits).map (·.unit) = hits.map (·.unit) := by
  unfold defBoost; split
  · rfl
  · rw [List.map_map]; refine List.map_congr_left fun h _ => ?_
    simp only [Function.comp]; split <;> rfl

theorem lift_units (b m : K) (hits : List (Hit K)) (t : Tally K) : (lift r b m hits t).map (·.unit) = hits.map (·.unit) := by
  apply List.ext_getElem?
  intro i
  simp only [lift, List.getElem?_map, List.getElem?_modify]
  cases hits[i]? with
  | none => rfl
  | some h => simp only [Option.map_some, Option.some.injEq]; split <;> rfl

theorem foldl_lift_units (b m : K) : ∀ (ts : List (Tally K)) (hits : List (Hit K)),
    (ts.foldl (lift r b m) hits).map (·.unit) = hits.map (·.unit)
  | [], _ => rfl
  | t :: ts, hits => by rw [List.foldl_cons, foldl_lift_units b m ts, lift_units]

theorem cohBoost_units (o : List (Tally K) → List (Tally K)) (hits : List (Hit K)) : (cohBoost r g o hits).map (·.unit) = hits.map (·.unit) := by
  unfold cohBoost; split
  · rfl
  · exact foldl_lift_units r _ _ _ _

theorem rerank_units (o : List (Tally K) → List (Tally K)) (q : List Char) (hits : List (Hit K)) :
    (rerank r g o q hits).map (·.unit) = hits.map (·.unit) := by
  unfold rerank
  rw [cohBoost_units, defBoost_units, stemBoost_units, List.map_map]
  rfl

/-! ### Tallies -/

/-- The scores of a file. -/
def scoresOf (es : List (Hit K × Nat)) (f : List Char) : List K := (es.filter fun e => e.1.unit.file = f).map (·.1.score)

theorem roundedSum_append (l : List K) (hl : l ≠ []) (x : K) : roundedSum r (l ++ [x]) = r.rnd (roundedSum r l + x) := by
  cases l with
  | nil => exact absurd rfl hl
  | cons s ss => simp [roundedSum, List.foldl_append]

/-- What the tallies are. -/
structure Tallied (es : List (Hit K × Nat)) (m : List (Tally K)) : Prop where
  distinct : (m.map (·.file)).Nodup
  top : ∀ t ∈ m, ∃ e ∈ es, e.2 = t.top ∧ e.1.unit.file = t.file ∧ e.1.score = t.best
  best : ∀ t ∈ m, ∀ e ∈ es, e.1.unit.file = t.file → e.1.score ≤ t.best ∧ (e.1.score = t.best → t.top ≤ e.2)
  sum : ∀ t ∈ m, t.sum = roundedSum r (scoresOf es t.file)
  complete : ∀ e ∈ es, e.1.unit.file ∈ m.map (·.file)

theorem scoresOf_append (es : List (Hit K × Nat)) (e : Hit K × Nat) (f : List Char) :
    scoresOf (es ++ [e]) f = scoresOf es f ++ if e.1.unit.file = f then [e.1.score] else [] := by
  simp only [scoresOf, List.filter_append, List.map_append]
  congr 1
  by_cases h : e.1.unit.file = f <;> simp [h]

theorem tally_files (m : List (Tally K)) (e : Hit K × Nat) (f : Tally K → Tally K) (hf : ∀ t, (f t).file = t.file) :
    (m.map fun t => if t.file = e.1.unit.file then f t else t).map (·.file) = m.map (·.file) := by
  rw [List.map_map]
  refine List.map_congr_left fun t _ => ?_
  simp only [Function.comp]; split
  · exact hf t
  · rfl

theorem tallied_fold : ∀ (es : List (Hit K × Nat)), es.Pairwise (fun a b => a.2 < b.2) → Tallied r es (es.foldl (tallyOne r) []) := by
  intro es
  induction es using List.reverseRecOn with
  | nil => intro _; exact ⟨by simp, by simp, by simp, by simp, by simp⟩
  | append_singleton es e ih =>
    intro hord
    rw [List.pairwise_append] at hord
    have hlt : ∀ x ∈ es, x.2 < e.2 := fun x hx => hord.2.2 x hx e (by simp)
    rw [List.foldl_append, List.foldl_cons, List.foldl_nil]
    obtain ⟨hd, htop, hbest, hsum, hcomp⟩ := ih hord.1
    generalize es.foldl (tallyOne r) [] = m at *
    unfold tallyOne
    split
    · next hany =>
      simp only [List.any_eq_true, decide_eq_true_eq] at hany
      have hfiles := tally_files m e (fun t =>
        ⟨t.file, r.rnd (t.sum + e.1.score), if t.best < e.1.score then e.2 else t.top, if t.best < e.1.score then e.1.score else t.best⟩) (fun _ => rfl)
      refine ⟨by rw [hfiles]; exact hd, ?_, ?_, ?_, ?_⟩
      · intro t' ht'
        obtain ⟨t, ht, rfl⟩ := List.mem_map.mp ht'
        obtain ⟨x, hx, h1, h2, h3⟩ := htop t ht
        split
        · next he =>
          by_cases hc : t.best < e.1.score
          · exact ⟨e, by simp, by simp [hc], by simp [he], by simp [hc]⟩
          · exact ⟨x, by simp [hx], by simp [hc, h1], h2, by simp [hc, h3]⟩
        · exact ⟨x, by simp [hx], h1, h2, h3⟩
      · intro t' ht' x hx hf
        obtain ⟨t, ht, rfl⟩ := List.mem_map.mp ht'
        revert hf
        split
        · next he =>
          intro hf
          simp only at hf ⊢
          rcases List.mem_append.mp hx with hx | hx
          · obtain ⟨h1, h2⟩ := hbest t ht x hx hf
            by_cases hc : t.best < e.1.score
            · simp only [hc, if_true]
              exact ⟨(h1.trans_lt hc).le, fun heq => absurd (heq ▸ h1) (not_le.mpr hc)⟩
            · simp only [hc, if_false]; exact ⟨h1, h2⟩
          · rw [List.mem_singleton] at hx; subst hx
            by_cases hc : t.best < x.1.score
            · simp [hc]
            · simp only [hc, if_false]
              refine ⟨not_lt.mp hc, fun _ => ?_⟩
              obtain ⟨y, hy, h1, _, _⟩ := htop t ht
              rw [← h1]; exact (hlt y hy).le
        · next hne =>
          intro hf
          rcases List.mem_append.mp hx with hx | hx
          · exact hbest t ht x hx hf
          · rw [List.mem_singleton] at hx; subst hx; exact absurd hf.symm hne
      · intro t' ht'
        obtain ⟨t, ht, rfl⟩ := List.mem_map.mp ht'
        split
        · next he =>
          simp only
          rw [scoresOf_append, if_pos he.symm, roundedSum_append, hsum t ht]
          obtain ⟨x, hx, _, h2, _⟩ := htop t ht
          simp only [scoresOf, ne_eq, List.map_eq_nil_iff, List.filter_eq_nil_iff, decide_eq_true_eq, not_forall, not_not]
          exact ⟨x, hx, h2⟩
        · next hne =>
          rw [scoresOf_append, if_neg (Ne.symm hne), List.append_nil]; exact hsum t ht
      · intro x hx
        rw [hfiles]
        rcases List.mem_append.mp hx with hx | hx
        · exact hcomp x hx
        · rw [List.mem_singleton] at hx; subst hx
          obtain ⟨t, ht, hf⟩ := hany
          exact List.mem_map.mpr ⟨t, ht, hf⟩
    · next hany =>
      simp only [List.any_eq_true, decide_eq_true_eq, not_exists, not_and] at hany
      have hfresh : ∀ x ∈ es, x.1.unit.file ≠ e.1.unit.file := by
        intro x hx he
        obtain ⟨t, ht, hf⟩ := List.mem_map.mp (hcomp x hx)
        exact hany t ht (hf.trans he)
      refine ⟨?_, ?_, ?_, ?_, ?_⟩
      · rw [List.map_append, List.nodup_append]
        refine ⟨hd, by simp, ?_⟩
        intro a ha b hb
        obtain ⟨t, ht, rfl⟩ := List.mem_map.mp ha
        simp only [List.map_cons, List.map_nil, List.mem_singleton] at hb
        subst hb
        exact fun he => hany t ht he
      · intro t ht
        rcases List.mem_append.mp ht with ht | ht
        · obtain ⟨x, hx, h1⟩ := htop t ht
          exact ⟨x, by simp [hx], h1⟩
        · rw [List.mem_singleton] at ht; subst ht
          exact ⟨e, by simp, rfl, rfl, rfl⟩
      · intro t ht x hx hf
        rcases List.mem_append.mp ht with htm | ht
        · rcases List.mem_append.mp hx with hx | hx
          · exact hbest t htm x hx hf
          · rw [List.mem_singleton] at hx; subst hx; exact absurd hf.symm (hany t htm)
        · rw [List.mem_singleton] at ht; subst ht
          rcases List.mem_append.mp hx with hx | hx
          · exact absurd hf (hfresh x hx)
          · rw [List.mem_singleton] at hx; subst hx; exact ⟨le_refl _, fun _ => le_refl _⟩
      · intro t ht
        rcases List.mem_append.mp ht with ht | ht
        · rw [scoresOf_append, if_neg (Ne.symm (hany t ht)), List.append_nil]; exact hsum t ht
        · rw [List.mem_singleton] at ht; subst ht
          have : scoresOf es e.1.unit.file = [] := by
            simp only [scoresOf, List.map_eq_nil_iff, List.filter_eq_nil_iff, decide_eq_true_eq]
            exact hfresh
          simp [scoresOf_append, this, roundedSum]
      · intro x hx
        rw [List.map_append, List.mem_append]
        rcases List.mem_append.mp hx with hx | hx
        · exact .inl (hcomp x hx)
        · rw [List.mem_singleton] at hx; subst hx; exact .inr (by simp)

theorem zipIdx_increasing {A : Type} : ∀ (l : List A) (n : Nat), (l.zipIdx n).Pairwise fun a b => a.2 < b.2
  | [], _ => .nil
  | a :: l, n => by
    rw [List.zipIdx_cons, List.pairwise_cons]
    refine ⟨?_, zipIdx_increasing l (n + 1)⟩
    intro x hx
    have := List.le_snd_of_mem_zipIdx hx
    simp only; omega

theorem tallied (hits : List (Hit K)) : Tallied r hits.zipIdx (tallies r hits) := tallied_fold r _ (zipIdx_increasing _ _)

theorem tops_nodup (hits : List (Hit K)) : ((tallies r hits).map (·.top)).Nodup := by
  have ht := tallied r hits
  rw [List.nodup_map_iff_inj_on (List.Nodup.of_map _ ht.distinct)]
  intro a ha b hb hab
  obtain ⟨x, hx, h1, h2, _⟩ := ht.top a ha
  obtain ⟨y, hy, h3, h4, _⟩ := ht.top b hb
  have hx' := List.mem_zipIdx_iff_getElem?.mp hx
  have hy' := List.mem_zipIdx_iff_getElem?.mp hy
  rw [h1] at hx'
  rw [h3, ← hab, hx'] at hy'
  have hxy : x.1 = y.1 := Option.some.inj hy'
  have hf : a.file = b.file := by rw [← h2, ← h4, hxy]
  exact List.inj_on_of_nodup_map ht.distinct ha hb hf

/-! ### Coherence does not depend on the order of the hash map -/

theorem lift_comm (b m : K) {s t : Tally K} (hne : s.top ≠ t.top) (hits : List (Hit K)) :
    lift r b m (lift r b m hits s) t = lift r b m (lift r b m hits t) s := by
  apply List.ext_getElem?
  intro i
  simp only [lift, List.getElem?_modify]
  cases hits[i]? with
  | none => rfl
  | some h =>
    by_cases h1 : s.top = i
    · have h2 : ¬ t.top = i := fun h => hne (h1.trans h.symm)
      simp [h1, h2]
    · by_cases h2 : t.top = i <;> simp [h1, h2]

theorem foldl_lift_perm (b m : K) {ts ts' : List (Tally K)} (hp : ts.Perm ts') : (ts.map (·.top)).Nodup → ∀ hits : List (Hit K),
    ts.foldl (lift r b m) hits = ts'.foldl (lift r b m) hits := by
  induction hp with
  | nil => intro _ _; rfl
  | cons t _ ih => intro hn hits; exact ih (List.nodup_cons.mp hn).2 _
  | swap s t l =>
    intro hn hits
    simp only [List.map_cons, List.nodup_cons, List.mem_cons, not_or] at hn
    simp only [List.foldl_cons]
    rw [lift_comm r b m hn.1.1]
  | trans h1 _ ih1 ih2 =>
    intro hn hits
    rw [ih1 hn, ih2 ((h1.map _).nodup_iff.mp hn)]

theorem cohBoost_order (o o' : List (Tally K) → List (Tally K)) (ho : ∀ l, (o l).Perm l) (ho' : ∀ l, (o' l).Perm l) (hits : List (Hit K)) :
    cohBoost r g o hits = cohBoost r g o' hits := by
  unfold cohBoost
  split
  · rfl
  · refine foldl_lift_perm r _ _ ((ho _).trans (ho' _).symm) ?_ _
    exact ((ho _).map _).nodup_iff.mpr (tops_nodup r hits)

theorem rerank_order (o o' : List (Tally K) → List (Tally K)) (ho : ∀ l, (o l).Perm l) (ho' : ∀ l, (o' l).Perm l) (q : List Char)
    (hits : List (Hit K)) : rerank r g o q hits = rerank r g o' q hits := cohBoost_order r g o o' ho ho' _

end NextPlaid.Rank
