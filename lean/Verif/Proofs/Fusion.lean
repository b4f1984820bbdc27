import Verif.Spec.Fusion
import Verif.Proofs.IndexLists
import Mathlib.Tactic.Linarith
import Mathlib.Data.List.Perm.Lattice

namespace NextPlaid.Fusion
open NextPlaid.Spec

/-! ### Sorting -/
section
variable {B : Type} [LinearOrder B]

theorem insertPair_perm (a : Int × B) : ∀ l, (insertPair a l).Perm (a :: l)
  | [] => List.Perm.refl _
  | b :: l => by
    unfold insertPair
    split
    · exact List.Perm.refl _
    · exact ((insertPair_perm a l).cons b).trans (List.Perm.swap a b l)

theorem sortPairs_perm : ∀ l : List (Int × B), (sortPairs l).Perm l
  | [] => List.Perm.refl _
  | a :: l => (insertPair_perm a _).trans ((sortPairs_perm l).cons a)

theorem insertPair_sorted (a : Int × B) : ∀ l : List (Int × B), l.Pairwise (fun a b => b.2 ≤ a.2) →
    (insertPair a l).Pairwise (fun a b => b.2 ≤ a.2)
  | [], _ => by simp [insertPair]
  | b :: l, h => by
    have h' := List.pairwise_cons.1 h
    unfold insertPair
    split
    · rename_i hle
      refine List.pairwise_cons.2 ⟨fun c hc => ?_, h⟩
      rcases List.mem_cons.1 hc with rfl | hc
      · exact hle
      · exact (h'.1 c hc).trans hle
    · rename_i hlt
      refine List.pairwise_cons.2 ⟨fun c hc => ?_, insertPair_sorted a l h'.2⟩
      rcases List.mem_cons.1 ((insertPair_perm a l).mem_iff.1 hc) with rfl | hc
      · exact le_of_lt (not_le.1 hlt)
      · exact h'.1 c hc

theorem sortPairs_sorted : ∀ l : List (Int × B), (sortPairs l).Pairwise (fun a b => b.2 ≤ a.2)
  | [] => List.Pairwise.nil
  | a :: l => insertPair_sorted a _ (sortPairs_sorted l)

theorem topOf_sort (k : Nat) (l all : List (Int × B)) (h : l.Perm all) : TopOf k all ((sortPairs l).take k) := by
  have hs := sortPairs_sorted l
  rw [← List.take_append_drop k (sortPairs l), List.pairwise_append] at hs
  refine ⟨(sortPairs l).drop k, ?_, hs.1, hs.2.2, ?_⟩
  · rw [List.take_append_drop]
    exact (sortPairs_perm l).trans h
  · rw [List.length_take, (sortPairs_perm l).length_eq, h.length_eq]

theorem _root_.NextPlaid.Spec.TopOf.perm {k : Nat} {all all' out : List (Int × B)} (h : TopOf k all out) (hp : all.Perm all') :
    TopOf k all' out := by
  obtain ⟨rest, h1, h2, h3, h4⟩ := h
  exact ⟨rest, h1.trans hp, h2, h3, by rw [h4, hp.length_eq]⟩

theorem _root_.NextPlaid.Spec.TopOf.mem {k : Nat} {all out : List (Int × B)} (h : TopOf k all out) {p : Int × B} (hp : p ∈ out) : p ∈ all := by
  obtain ⟨rest, h1, _⟩ := h
  exact h1.mem_iff.1 (by simp [hp])

theorem _root_.NextPlaid.Spec.TopOf.map {A : Type} [LinearOrder A] {k : Nat} {all out : List (Int × A)} (f : A → B)
    (hf : ∀ a b, a ≤ b → f a ≤ f b) (h : TopOf k all out) :
    TopOf k (all.map fun p => (p.1, f p.2)) (out.map fun p => (p.1, f p.2)) := by
  obtain ⟨rest, h1, h2, h3, h4⟩ := h
  refine ⟨rest.map fun p => (p.1, f p.2), ?_, ?_, ?_, ?_⟩
  · rw [← List.map_append]; exact h1.map _
  · rw [List.pairwise_map]
    exact h2.imp (fun {a b} hab => hf _ _ hab)
  · intro o ho x hx
    obtain ⟨o', ho', rfl⟩ := List.mem_map.1 ho
    obtain ⟨x', hx', rfl⟩ := List.mem_map.1 hx
    exact hf _ _ (h3 o' ho' x' hx')
  · simp [h4]

/-- Taking the best `k` of the union of several best-`k` lists. -/
theorem topOf_merge {ι : Type} (k : Nat) (is : List ι) (alls outs : ι → List (Int × B))
    (h : ∀ i ∈ is, TopOf k (alls i) (outs i)) :
    TopOf k (is.flatMap alls) ((sortPairs (is.flatMap outs)).take k) := by
  set o := is.flatMap outs with ho
  have hs := sortPairs_sorted o
  rw [← List.take_append_drop k (sortPairs o), List.pairwise_append] at hs
  have hex : ∃ rests : List (Int × B), (o ++ rests).Perm (is.flatMap alls) ∧
      ∀ x ∈ rests, k ≤ o.countP (fun p => decide (x.2 ≤ p.2)) := by
    rw [ho]
    clear hs ho
    clear_value o
    clear o
    induction is with
    | nil => exact ⟨[], by simp, by simp⟩
    | cons i is ih =>
      obtain ⟨rs, hr1, hr2⟩ := ih (fun j hj => h j (List.mem_cons_of_mem _ hj))
      obtain ⟨r, h1, h2, h3, h4⟩ := h i List.mem_cons_self
      refine ⟨r ++ rs, ?_, ?_⟩
      · rw [List.flatMap_cons, List.flatMap_cons]
        refine List.Perm.trans ?_ (h1.append hr1)
        rw [List.append_assoc, List.append_assoc]
        refine List.Perm.append_left _ ?_
        rw [← List.append_assoc, ← List.append_assoc]
        exact List.perm_append_comm.append_right _
      · intro x hx
        rw [List.flatMap_cons, List.countP_append]
        rcases List.mem_append.1 hx with hx | hx
        · have : (outs i).countP (fun p => decide (x.2 ≤ p.2)) = (outs i).length := by
            rw [List.countP_eq_length]
            intro o ho
            simpa using h3 o ho x hx
          have hl := h1.length_eq
          rw [List.length_append] at hl
          have : 0 < r.length := List.length_pos_of_mem hx
          omega
        · have := hr2 x hx
          omega
  obtain ⟨rests, hr1, hr2⟩ := hex
  have hlen : ((sortPairs o).take k).length = min k o.length := by
    rw [List.length_take, (sortPairs_perm o).length_eq]
  refine ⟨(sortPairs o).drop k ++ rests, ?_, hs.1, ?_, ?_⟩
  · rw [← List.append_assoc, List.take_append_drop]
    exact ((sortPairs_perm o).append_right _).trans hr1
  · intro a ha x hx
    rcases List.mem_append.1 hx with hx | hx
    · exact hs.2.2 a ha x hx
    · by_contra hlt
      rw [not_le] at hlt
      have hc := hr2 x hx
      rw [← (sortPairs_perm o).countP_eq, ← List.take_append_drop k (sortPairs o), List.countP_append] at hc
      have h0 : ((sortPairs o).drop k).countP (fun p => decide (x.2 ≤ p.2)) = 0 := by
        rw [List.countP_eq_zero]
        intro b hb
        have := hs.2.2 a ha b hb
        simpa using lt_of_le_of_lt this hlt
      have h1 : ((sortPairs o).take k).countP (fun p => decide (x.2 ≤ p.2)) ≠ ((sortPairs o).take k).length := by
        rw [Ne, List.countP_eq_length]
        intro hall
        have := hall a ha
        simp only [decide_eq_true_eq] at this
        exact absurd this (not_le.2 hlt)
      have h2 : ((sortPairs o).take k).countP (fun p => decide (x.2 ≤ p.2)) ≤ ((sortPairs o).take k).length :=
        List.countP_le_length
      omega
  · rw [hlen, ← hr1.length_eq, List.length_append]
    rcases rests with _ | ⟨x, rs⟩
    · simp
    · have h1 := hr2 x List.mem_cons_self
      have h2 : o.countP (fun p => decide (x.2 ≤ p.2)) ≤ o.length := List.countP_le_length
      simp only [List.length_cons]
      omega

/-- All best-`k` lists have the same scores. -/
theorem sorted_perm_scores {l l' : List B} (h : l.Pairwise (fun a b => b ≤ a)) (h' : l'.Pairwise (fun a b => b ≤ a))
    (hp : l.Perm l') : l = l' :=
  hp.eq_of_pairwise (fun a b _ _ h1 h2 => le_antisymm h2 h1) h h'

theorem _root_.NextPlaid.Spec.TopOf.sortedTake {k : Nat} {all out : List (Int × B)} (h : TopOf k all out) :
    out.map Prod.snd = ((sortPairs all).map Prod.snd).take k := by
  obtain ⟨rest, h1, h2, h3, h4⟩ := h
  have hs := sortPairs_sorted rest
  have hl : (out ++ sortPairs rest).Pairwise (fun a b => b.2 ≤ a.2) := by
    rw [List.pairwise_append]
    exact ⟨h2, hs, fun o ho x hx => h3 o ho x ((sortPairs_perm rest).mem_iff.1 hx)⟩
  have hp : (out ++ sortPairs rest).Perm (sortPairs all) :=
    ((List.Perm.refl _).append (sortPairs_perm rest)).trans (h1.trans (sortPairs_perm all).symm)
  have he := sorted_perm_scores (List.pairwise_map.2 hl) (List.pairwise_map.2 (sortPairs_sorted all)) (hp.map Prod.snd)
  rw [← he, List.map_append]
  have hle := h1.length_eq
  rw [List.length_append] at hle
  by_cases hk : k ≤ all.length
  · rw [List.take_left' (by simp; omega)]
  · have : rest = [] := List.length_eq_zero_iff.1 (by omega)
    subst this
    simp only [sortPairs, List.map_nil, List.append_nil]
    rw [List.take_of_length_le (by simp; omega)]

theorem _root_.NextPlaid.Spec.TopOf.scores_unique {k : Nat} {all o1 o2 : List (Int × B)} (h1 : TopOf k all o1) (h2 : TopOf k all o2) :
    o1.map Prod.snd = o2.map Prod.snd := by rw [h1.sortedTake, h2.sortedTake]

theorem _root_.NextPlaid.Spec.TopOf.unique {k : Nat} {all o1 o2 : List (Int × B)} (h1 : TopOf k all o1) (h2 : TopOf k all o2)
    (hd : (all.map Prod.snd).Nodup) : o1 = o2 := by
  have hs := h1.scores_unique h2
  apply List.ext_getElem
  · have := congrArg List.length hs
    simpa using this
  · intro i hi1 hi2
    have h : (o1[i]).2 = (o2[i]).2 := by
      have := congrArg (fun l => l[i]?) hs
      simpa [hi1, hi2] using this
    exact List.inj_on_of_nodup_map hd (h1.mem (List.getElem_mem hi1)) (h2.mem (List.getElem_mem hi2)) h

end

/-! ### The score map -/
section
variable {K : Type} [Field K] [LinearOrder K] [IsStrictOrderedRing K] (r : Rounding K)

/-- Value under a key. -/
def val (m : List (Int × K)) (j : Int) : Option K := (m.find? (fun p => p.1 == j)).map Prod.snd

theorem val_nil (j : Int) : val ([] : List (Int × K)) j = none := rfl

theorem val_isSome (m : List (Int × K)) (j : Int) : (val m j).isSome ↔ j ∈ m.map Prod.fst := by
  unfold val
  rw [Option.isSome_map, List.find?_isSome]
  simp

theorem val_mem {m : List (Int × K)} (hn : (m.map Prod.fst).Nodup) (j : Int) (s : K) :
    val m j = some s ↔ (j, s) ∈ m := by
  induction m with
  | nil => simp [val]
  | cons p m ih =>
    obtain ⟨a, b⟩ := p
    rw [List.map_cons, List.nodup_cons] at hn
    unfold val at ih ⊢
    rw [List.find?_cons]
    by_cases h : a = j
    · subst h
      simp only [beq_self_eq_true, Option.map_some, Option.some.injEq, List.mem_cons, Prod.mk.injEq, true_and]
      constructor
      · intro h; exact Or.inl h.symm
      · rintro (h | h)
        · exact h.symm
        · exact absurd (List.mem_map.2 ⟨_, h, rfl⟩) hn.1
    · have : (a == j) = false := by simpa using h
      simp only [this, List.mem_cons, Prod.mk.injEq]
      rw [ih hn.2]
      constructor
      · exact Or.inr
      · rintro (h' | h')
        · exact absurd h'.1.symm h
        · exact h'

theorem bump_keys (m : List (Int × K)) (id : Int) (x : K) :
    (bump r m id x).map Prod.fst = if id ∈ m.map Prod.fst then m.map Prod.fst else m.map Prod.fst ++ [id] := by
  unfold bump
  have : (m.any (fun p => p.1 == id) = true) ↔ id ∈ m.map Prod.fst := by simp
  by_cases h : id ∈ m.map Prod.fst
  · rw [if_pos (this.2 h), if_pos h, List.map_map]
    apply List.map_congr_left
    intro p _
    simp only [Function.comp_apply]
    split <;> rfl
  · rw [if_neg (fun hh => h (this.1 hh)), if_neg h]
    simp

theorem bump_nodup {m : List (Int × K)} (h : (m.map Prod.fst).Nodup) (id : Int) (x : K) :
    ((bump r m id x).map Prod.fst).Nodup := by
  rw [bump_keys]
  split
  · exact h
  · rename_i hn
    rw [List.nodup_append]
    refine ⟨h, by simp, ?_⟩
    intro a ha b hb hab
    rw [List.mem_singleton] at hb
    exact hn (hb ▸ hab ▸ ha)

theorem find_map_bump (m : List (Int × K)) (id j : Int) (x : K) :
    (m.map fun p => if p.1 == id then (p.1, r.rnd (p.2 + x)) else p).find? (fun p => p.1 == j) =
      (m.find? (fun p => p.1 == j)).map fun p => if p.1 == id then (p.1, r.rnd (p.2 + x)) else p := by
  rw [List.find?_map]
  congr 2
  funext p
  simp only [Function.comp_apply]
  split <;> rfl

theorem bump_val (m : List (Int × K)) (id j : Int) (x : K) :
    val (bump r m id x) j = if j = id then some (r.rnd ((val m id).getD 0 + x)) else val m j := by
  have hany : (m.any (fun p => p.1 == id) = true) ↔ id ∈ m.map Prod.fst := by simp
  by_cases h : id ∈ m.map Prod.fst
  · have hb : bump r m id x = m.map fun p => if p.1 == id then (p.1, r.rnd (p.2 + x)) else p := by
      unfold bump; rw [if_pos (hany.2 h)]
    rw [hb]
    unfold val
    rw [find_map_bump]
    by_cases hj : j = id
    · subst hj
      rw [if_pos rfl]
      obtain ⟨p, hp⟩ := Option.isSome_iff_exists.1 ((List.find?_isSome (p := fun p : Int × K => p.1 == j)).2
        (by obtain ⟨p, hp, rfl⟩ := List.mem_map.1 h; exact ⟨p, hp, by simp⟩))
      have := List.find?_some hp
      rw [hp]
      simp only [beq_iff_eq] at this
      simp [this]
    · rw [if_neg hj, Option.map_map]
      rcases hf : m.find? (fun p => p.1 == j) with _ | p
      · rw [hf]; rfl
      · have := List.find?_some hf
        simp only [beq_iff_eq] at this
        rw [hf]
        have hne : p.1 ≠ id := by rw [this]; exact hj
        simp [hne]
  · have hb : bump r m id x = m ++ [(id, r.rnd (0 + x))] := by
      unfold bump; rw [if_neg (fun hh => h (hany.1 hh))]
    have hv : val m id = none := by
      have := (val_isSome m id).not.2 h
      simpa using this
    rw [hb]
    by_cases hj : j = id
    · subst hj
      rw [if_pos rfl, hv]
      unfold val at hv ⊢
      rw [Option.map_eq_none_iff] at hv
      rw [List.find?_append, hv]
      simp
    · rw [if_neg hj]
      unfold val
      rw [List.find?_append]
      have : (id == j) = false := by simpa using fun hh => hj hh.symm
      simp [List.find?_cons, this]

theorem addWeighted_nodup (w : K) : ∀ (l m : List (Int × K)), (m.map Prod.fst).Nodup →
    ((addWeighted r w m l).map Prod.fst).Nodup
  | [], _, h => h
  | (id, _) :: l, _, h => addWeighted_nodup w l _ (bump_nodup r h id _)

theorem addWeighted_keys (w : K) : ∀ (l m : List (Int × K)) (j : Int),
    j ∈ (addWeighted r w m l).map Prod.fst ↔ j ∈ m.map Prod.fst ∨ j ∈ l.map Prod.fst
  | [], m, j => by simp [addWeighted]
  | (id, s) :: l, m, j => by
    unfold addWeighted
    rw [addWeighted_keys w l, bump_keys]
    split
    · rename_i h
      rw [List.map_cons, List.mem_cons]
      constructor
      · rintro (h' | h')
        · exact Or.inl h'
        · exact Or.inr (Or.inr h')
      · rintro (h' | rfl | h')
        · exact Or.inl h'
        · exact Or.inl h
        · exact Or.inr h'
    · rw [List.map_cons, List.mem_cons, List.mem_append, List.mem_singleton, or_assoc]

theorem addWeighted_val (w : K) : ∀ (l m : List (Int × K)) (j : Int), (l.map Prod.fst).Nodup →
    val (addWeighted r w m l) j =
      match val l j with
      | none => val m j
      | some s => some (r.rnd ((val m j).getD 0 + r.rnd (w * s)))
  | [], m, j, _ => by simp [addWeighted, val_nil]
  | (id, s) :: l, m, j, h => by
    rw [List.map_cons, List.nodup_cons] at h
    unfold addWeighted
    rw [addWeighted_val w l _ j h.2, bump_val]
    by_cases hj : j = id
    · subst hj
      have hv : val l j = none := by
        have := (val_isSome l j).not.2 h.1
        simpa using this
      have hv' : val ((j, s) :: l) j = some s := by simp [val]
      rw [hv, hv', if_pos rfl]
    · have hv' : val ((id, s) :: l) j = val l j := by
        have : (id == j) = false := by simpa using fun hh => hj hh.symm
        simp [val, List.find?_cons, this]
      rw [hv', if_neg hj]

/-- Rank contributions are weighted contributions. -/
theorem addRanks_nodup (w : K) : ∀ (ids : List Int) (m : List (Int × K)) (n : Nat), (m.map Prod.fst).Nodup →
    ((addRanks r w m n ids).map Prod.fst).Nodup
  | [], _, _, h => h
  | id :: ids, _, _, h => addRanks_nodup w ids _ _ (bump_nodup r h id _)

theorem addRanks_keys (w : K) : ∀ (ids : List Int) (m : List (Int × K)) (n : Nat) (j : Int),
    j ∈ (addRanks r w m n ids).map Prod.fst ↔ j ∈ m.map Prod.fst ∨ j ∈ ids
  | [], m, _, j => by simp [addRanks]
  | id :: ids, m, n, j => by
    unfold addRanks
    rw [addRanks_keys w ids, bump_keys]
    split
    · rename_i h
      rw [List.mem_cons]
      constructor
      · rintro (h' | h')
        · exact Or.inl h'
        · exact Or.inr (Or.inr h')
      · rintro (h' | rfl | h')
        · exact Or.inl h'
        · exact Or.inl h
        · exact Or.inr h'
    · rw [List.mem_cons, List.mem_append, List.mem_singleton, or_assoc]

theorem addRanks_val (w : K) : ∀ (ids : List Int) (m : List (Int × K)) (n : Nat) (j : Int), ids.Nodup →
    val (addRanks r w m n ids) j =
      if j ∈ ids then some (r.rnd ((val m j).getD 0 + rankScore r w (n + ids.idxOf j))) else val m j
  | [], m, _, j, _ => by simp [addRanks]
  | id :: ids, m, n, j, h => by
    rw [List.nodup_cons] at h
    unfold addRanks
    rw [addRanks_val w ids _ _ j h.2, bump_val]
    by_cases hj : j = id
    · subst hj
      rw [if_neg h.1, if_pos rfl, if_pos List.mem_cons_self, List.idxOf_cons_self, Nat.add_zero]
    · rw [if_neg hj]
      by_cases hm : j ∈ ids
      · rw [if_pos hm, if_pos (List.mem_cons_of_mem _ hm), List.idxOf_cons_ne _ (fun hh => hj hh.symm)]
        congr 4
        omega
      · rw [if_neg hm, if_neg (by simp [hj, hm])]

end
end NextPlaid.Fusion
