import Verif.Proofs.Hierarchy

/-!
Proofs: union-find and the numbering of clusters.
-/

namespace NextPlaid.Hier

/-- `ρ` is the root of `i`. -/
inductive Rep (parent : List Nat) : Nat → Nat → Prop
  | root {i : Nat} : parent[i]? = some i → Rep parent i i
  | step {i p ρ : Nat} : parent[i]? = some p → p ≠ i → Rep parent p ρ → Rep parent i ρ

theorem Rep.unique {parent : List Nat} {i ρ σ : Nat} (h : Rep parent i ρ) (h' : Rep parent i σ) : ρ = σ := by
  induction h with
  | root h1 =>
    cases h' with
    | root => rfl
    | step h2 h3 => rw [h1, Option.some.injEq] at h2; exact absurd h2.symm h3
  | step h1 h2 _ ih =>
    cases h' with
    | root h3 => rw [h1, Option.some.injEq] at h3; exact absurd h3 h2
    | step h3 _ h4 =>
      rw [h1, Option.some.injEq] at h3
      subst h3
      exact ih h4

theorem Rep.isRoot {parent : List Nat} {i ρ : Nat} (h : Rep parent i ρ) : parent[ρ]? = some ρ := by
  induction h with
  | root h => exact h
  | step _ _ _ ih => exact ih

theorem Rep.lt {parent : List Nat} {i ρ : Nat} (h : Rep parent i ρ) : i < parent.length := by
  cases h with
  | root h => exact (List.getElem?_eq_some_iff.mp h).1
  | step h => exact (List.getElem?_eq_some_iff.mp h).1

theorem Rep.rlt {parent : List Nat} {i ρ : Nat} (h : Rep parent i ρ) : ρ < parent.length :=
  (List.getElem?_eq_some_iff.mp h.isRoot).1

/-- Path compression keeps the roots. -/
theorem Rep.compress {parent : List Nat} {i ρ : Nat} (h : Rep parent i ρ) {j σ : Nat} (hj : Rep parent j σ) : Rep (parent.set i ρ) j σ := by
  have hi := h.lt
  by_cases hir : i = ρ
  · have : parent.set i ρ = parent := by
      have hroot := h.isRoot
      rw [← hir] at hroot ⊢
      rw [List.getElem?_eq_some_iff] at hroot
      obtain ⟨h1, h2⟩ := hroot
      conv_rhs => rw [← List.set_getElem_self h1]
      rw [h2]
    rw [this]
    exact hj
  · have hroot : Rep (parent.set i ρ) ρ ρ := Rep.root (by rw [List.getElem?_set_ne hir]; exact h.isRoot)
    induction hj with
    | root h1 =>
      rename_i j
      by_cases hji : i = j
      · subst hji
        exact absurd (h.unique (Rep.root h1)).symm hir
      · exact Rep.root (by rw [List.getElem?_set_ne hji]; exact h1)
    | step h1 h2 h3 ih =>
      rename_i j p σ
      by_cases hji : i = j
      · subst hji
        have := h.unique (Rep.step h1 h2 h3)
        subst this
        exact Rep.step (by rw [List.getElem?_set_self hi]) (Ne.symm hir) hroot
      · exact Rep.step (by rw [List.getElem?_set_ne hji]; exact h1) h2 ih

/-- Linking one root under another. -/
theorem Rep.link {parent : List Nat} {x y : Nat} (hx : parent[x]? = some x) (hy : parent[y]? = some y) (hxy : x ≠ y) {j σ : Nat} (hj : Rep parent j σ) :
    Rep (parent.set x y) j (if σ = x then y else σ) := by
  have hxl : x < parent.length := (List.getElem?_eq_some_iff.mp hx).1
  have hyr : Rep (parent.set x y) y y := Rep.root (by rw [List.getElem?_set_ne hxy]; exact hy)
  induction hj with
  | root h1 =>
    rename_i j
    by_cases hjx : j = x
    · subst hjx
      rw [if_pos rfl]
      exact Rep.step (by rw [List.getElem?_set_self hxl]) (Ne.symm hxy) hyr
    · rw [if_neg hjx]
      exact Rep.root (by rw [List.getElem?_set_ne (Ne.symm hjx)]; exact h1)
  | step h1 h2 h3 ih =>
    rename_i j p σ
    have hjx : x ≠ j := by
      rintro rfl
      rw [hx, Option.some.injEq] at h1
      exact h2 h1.symm
    exact Rep.step (by rw [List.getElem?_set_ne hjx]; exact h1) h2 ih

/-- Every element has a root. -/
def Rooted (n : Nat) (parent : List Nat) : Prop := parent.length = n ∧ ∀ i < n, ∃ ρ, Rep parent i ρ

/-- The roots. -/
def roots (parent : List Nat) : List Nat := (List.range parent.length).filter fun i => parent[i]? = some i

theorem mem_roots {parent : List Nat} {i : Nat} : i ∈ roots parent ↔ parent[i]? = some i := by
  simp only [roots, List.mem_filter, List.mem_range, decide_eq_true_eq]
  constructor
  · exact fun h => h.2
  · exact fun h => ⟨(List.getElem?_eq_some_iff.mp h).1, h⟩

theorem roots_nodup (parent : List Nat) : (roots parent).Nodup := List.nodup_range.filter _

/-- What `find` does to the forest. -/
def Kept (p p' : List Nat) : Prop := p'.length = p.length ∧ (∀ j σ, Rep p j σ → Rep p' j σ) ∧ roots p' = roots p

theorem Kept.trans {p q s : List Nat} (h : Kept p q) (h' : Kept q s) : Kept p s :=
  ⟨h'.1.trans h.1, fun j σ hj => h'.2.1 j σ (h.2.1 j σ hj), h'.2.2.trans h.2.2⟩

theorem Kept.refl (p : List Nat) : Kept p p := ⟨rfl, fun _ _ h => h, rfl⟩

theorem Kept.rooted {n : Nat} {p p' : List Nat} (h : Kept p p') (hr : Rooted n p) : Rooted n p' := by
  refine ⟨h.1.trans hr.1, ?_⟩
  intro i hi
  obtain ⟨ρ, hρ⟩ := hr.2 i hi
  exact ⟨ρ, h.2.1 i ρ hρ⟩

theorem kept_compress {p : List Nat} {i ρ : Nat} (h : Rep p i ρ) (hne : p[i]? ≠ some i) : Kept p (p.set i ρ) := by
  refine ⟨List.length_set, fun j σ hj => h.compress hj, ?_⟩
  unfold roots
  rw [List.length_set]
  apply List.filter_congr
  intro j _
  by_cases hji : i = j
  · subst hji
    rw [List.getElem?_set_self h.lt]
    have h1 : ρ ≠ i := by
      rintro rfl
      exact hne h.isRoot
    simp [h1, hne]
  · rw [List.getElem?_set_ne hji]

theorem find_ok : ∀ (fuel : Nat) {p : List Nat} {i ρ : Nat}, Rep p i ρ → ∀ x, find fuel p i = some x → ∃ p', x = .ok (p', ρ) ∧ Kept p p' := by
  intro fuel
  induction fuel with
  | zero => intro p i ρ _ x h; cases h
  | succ fuel ih =>
    intro p i ρ hrep x h
    unfold find at h
    cases hrep with
    | root h1 =>
      rw [h1] at h
      simp only [if_true, Option.some.injEq] at h
      exact ⟨p, h.symm, Kept.refl p⟩
    | step h1 h2 h3 =>
      rename_i q
      rw [h1] at h
      simp only [if_neg h2] at h
      cases hf : find fuel p q with
      | none => rw [hf] at h; cases h
      | some y =>
        obtain ⟨p', rfl, hk⟩ := ih h3 y hf
        rw [hf] at h
        simp only [Option.some.injEq] at h
        refine ⟨p'.set i ρ, h.symm, hk.trans (kept_compress (hk.2.1 i ρ (Rep.step h1 h2 h3)) ?_)⟩
        intro hroot
        have : i ∈ roots p' := mem_roots.mpr hroot
        rw [hk.2.2, mem_roots, h1, Option.some.injEq] at this
        exact h2 this

theorem find_ends {p : List Nat} {i ρ : Nat} (h : Rep p i ρ) : ∃ N x, ∀ fuel, N ≤ fuel → find fuel p i = some x := by
  induction h with
  | root h1 =>
    rename_i i
    refine ⟨1, .ok (p, i), ?_⟩
    intro fuel hf
    obtain ⟨f, rfl⟩ : ∃ f, fuel = f + 1 := ⟨fuel - 1, by omega⟩
    unfold find
    rw [h1]
    simp
  | step h1 h2 h3 ih =>
    rename_i i q ρ
    obtain ⟨N, x, hx⟩ := ih
    refine ⟨N + 1, (match x with | .ok (p', root) => .ok (p'.set i root, root) | .error f => .error f), ?_⟩
    intro fuel hf
    obtain ⟨f, rfl⟩ : ∃ f, fuel = f + 1 := ⟨fuel - 1, by omega⟩
    unfold find
    rw [h1]
    simp only [if_neg h2, hx f (by omega)]
    cases x with
    | error f => rfl
    | ok v => obtain ⟨a, b⟩ := v; rfl

/-- What `union` of `i` and `j` does. -/
structure Joined (p p' : List Nat) (i j : Nat) : Prop where
  length : p'.length = p.length
  rep : ∃ ρ σ τ, Rep p i ρ ∧ Rep p j σ ∧ (τ = ρ ∨ τ = σ) ∧ (∀ k κ, Rep p k κ → Rep p' k (if κ = ρ ∨ κ = σ then τ else κ)) ∧
    (ρ ≠ σ → (roots p').length + 1 = (roots p).length)

theorem roots_link {p : List Nat} {x y : Nat} (hx : p[x]? = some x) (hxy : x ≠ y) : (roots (p.set x y)).length + 1 = (roots p).length := by
  have hxl : x < p.length := (List.getElem?_eq_some_iff.mp hx).1
  have h1 : (roots p).Perm (x :: roots (p.set x y)) := by
    rw [List.perm_ext_iff_of_nodup (roots_nodup _)]
    · intro z
      rw [List.mem_cons, mem_roots, mem_roots]
      by_cases hzx : x = z
      · subst hzx
        simp [hx]
      · rw [List.getElem?_set_ne hzx]
        constructor
        · exact Or.inr
        · rintro (h | h)
          · exact absurd h.symm hzx
          · exact h
    · rw [List.nodup_cons]
      refine ⟨?_, roots_nodup _⟩
      rw [mem_roots, List.getElem?_set_self hxl]
      intro h
      rw [Option.some.injEq] at h
      exact hxy h.symm
  have := h1.length_eq
  rw [List.length_cons] at this
  omega

theorem union_ok {fuel n : Nat} {p rank : List Nat} (hr : Rooted n p) {i j : Nat} (hi : i < n) (hj : j < n) {x : Res (List Nat × List Nat)}
    (h : union fuel p rank i j = some x) : ∃ p' rank', x = .ok (p', rank') ∧ Joined p p' i j := by
  obtain ⟨ρ, hρ⟩ := hr.2 i hi
  obtain ⟨σ, hσ⟩ := hr.2 j hj
  unfold union at h
  cases hf1 : find fuel p i with
  | none => rw [hf1] at h; cases h
  | some y =>
    obtain ⟨p1, rfl, k1⟩ := find_ok fuel hρ y hf1
    rw [hf1] at h
    simp only at h
    cases hf2 : find fuel p1 j with
    | none => rw [hf2] at h; cases h
    | some z =>
      obtain ⟨p2, rfl, k2⟩ := find_ok fuel (k1.2.1 j σ hσ) z hf2
      rw [hf2] at h
      simp only at h
      have k := k1.trans k2
      have hρ2 := (k.2.1 i ρ hρ).isRoot
      have hσ2 := (k.2.1 j σ hσ).isRoot
      by_cases hrs : ρ = σ
      · rw [if_pos hrs, Option.some.injEq] at h
        subst hrs
        refine ⟨p2, rank, h.symm, k.1, ρ, ρ, ρ, hρ, hσ, Or.inl rfl, ?_, fun h => absurd rfl h⟩
        intro l κ hl
        have := k.2.1 l κ hl
        by_cases hk : κ = ρ
        · rw [if_pos (Or.inl hk)]; rw [hk] at this; exact this
        · rw [if_neg (by simp [hk])]; exact this
      · rw [if_neg hrs] at h
        have down : ∀ rank', x = .ok (p2.set ρ σ, rank') → ∃ p' rank', x = .ok (p', rank') ∧ Joined p p' i j := by
          intro rank' hx
          refine ⟨_, _, hx, by rw [List.length_set]; exact k.1, ρ, σ, σ, hρ, hσ, Or.inr rfl, ?_, ?_⟩
          · intro l κ hl
            have := (k.2.1 l κ hl).link hρ2 hσ2 hrs
            by_cases h1 : κ = ρ
            · rw [if_pos (Or.inl h1)]; rw [if_pos h1] at this; exact this
            · rw [if_neg h1] at this
              by_cases h2 : κ = σ
              · rw [if_pos (Or.inr h2)]; rw [h2] at this; exact this
              · rw [if_neg (by simp [h1, h2])]; exact this
          · intro _
            rw [roots_link hρ2 hrs, k.2.2]
        have up : ∀ rank', x = .ok (p2.set σ ρ, rank') → ∃ p' rank', x = .ok (p', rank') ∧ Joined p p' i j := by
          intro rank' hx
          refine ⟨_, _, hx, by rw [List.length_set]; exact k.1, ρ, σ, ρ, hρ, hσ, Or.inl rfl, ?_, ?_⟩
          · intro l κ hl
            have := (k.2.1 l κ hl).link hσ2 hρ2 (Ne.symm hrs)
            by_cases h1 : κ = σ
            · rw [if_pos (Or.inr h1)]; rw [if_pos h1] at this; exact this
            · rw [if_neg h1] at this
              by_cases h2 : κ = ρ
              · rw [if_pos (Or.inl h2)]; rw [h2] at this; exact this
              · rw [if_neg (by simp [h1, h2])]; exact this
          · intro _
            rw [roots_link hσ2 (Ne.symm hrs), k.2.2]
        split at h
        · rw [Option.some.injEq] at h
          exact down _ h.symm
        · split at h
          · rw [Option.some.injEq] at h
            exact up _ h.symm
          · rw [Option.some.injEq] at h
            exact up _ h.symm

theorem union_ends {n : Nat} {p : List Nat} (rank : List Nat) (hr : Rooted n p) {i j : Nat} (hi : i < n) (hj : j < n) :
    ∃ N x, ∀ fuel, N ≤ fuel → union fuel p rank i j = some x := by
  obtain ⟨ρ, hρ⟩ := hr.2 i hi
  obtain ⟨σ, hσ⟩ := hr.2 j hj
  obtain ⟨N1, x1, h1⟩ := find_ends hρ
  obtain ⟨p1, rfl, k1⟩ := find_ok N1 hρ x1 (h1 N1 (Nat.le_refl _))
  obtain ⟨N2, x2, h2⟩ := find_ends (k1.2.1 j σ hσ)
  obtain ⟨p2, rfl, k2⟩ := find_ok N2 (k1.2.1 j σ hσ) x2 (h2 N2 (Nat.le_refl _))
  refine ⟨max N1 N2, (if ρ = σ then .ok (p2, rank)
      else if rank.getD ρ 0 < rank.getD σ 0 then .ok (p2.set ρ σ, rank)
      else if rank.getD σ 0 < rank.getD ρ 0 then .ok (p2.set σ ρ, rank)
      else .ok (p2.set σ ρ, rank.modify ρ (· + 1))), ?_⟩
  intro fuel hf
  unfold union
  rw [h1 fuel (by omega)]
  simp only
  rw [h2 fuel (by omega)]
  simp only
  split
  · rfl
  · split
    · rfl
    · split <;> rfl

/-! ### Numbering -/

/-- Numbers in the order of first appearance. -/
def num (seen : List Nat) : List Nat → List Nat
  | [] => []
  | x :: rest =>
    let seen' := if x ∈ seen then seen else seen ++ [x]
    (seen'.idxOf x + 1) :: num seen' rest

/-- What has been seen at the end. -/
def firsts (seen : List Nat) : List Nat → List Nat
  | [] => seen
  | x :: rest => firsts (if x ∈ seen then seen else seen ++ [x]) rest

theorem firsts_prefix : ∀ (xs seen : List Nat), seen <+: firsts seen xs := by
  intro xs
  induction xs with
  | nil => intro seen; exact List.prefix_rfl
  | cons x xs ih =>
    intro seen
    rw [firsts]
    refine List.IsPrefix.trans ?_ (ih _)
    split
    · exact List.prefix_rfl
    · exact List.prefix_append _ _

theorem firsts_nodup : ∀ (xs seen : List Nat), seen.Nodup → (firsts seen xs).Nodup := by
  intro xs
  induction xs with
  | nil => intro seen h; exact h
  | cons x xs ih =>
    intro seen h
    rw [firsts]
    apply ih
    split
    · exact h
    · rename_i hx
      rw [List.nodup_append]
      refine ⟨h, List.nodup_singleton _, ?_⟩
      intro a ha b hb
      rw [List.mem_singleton] at hb
      subst hb
      rintro rfl
      exact hx ha

theorem mem_firsts : ∀ (xs seen : List Nat) (y : Nat), y ∈ firsts seen xs ↔ y ∈ seen ∨ y ∈ xs := by
  intro xs
  induction xs with
  | nil => intro seen y; simp [firsts]
  | cons x xs ih =>
    intro seen y
    rw [firsts, ih]
    split
    · rename_i hx
      rw [List.mem_cons]
      constructor
      · rintro (h | h)
        · exact Or.inl h
        · exact Or.inr (Or.inr h)
      · rintro (h | h | h)
        · exact Or.inl h
        · subst h; exact Or.inl hx
        · exact Or.inr h
    · rw [List.mem_append, List.mem_singleton, List.mem_cons]
      constructor
      · rintro ((h | h) | h)
        · exact Or.inl h
        · exact Or.inr (Or.inl h)
        · exact Or.inr (Or.inr h)
      · rintro (h | h | h)
        · exact Or.inl (Or.inl h)
        · exact Or.inl (Or.inr h)
        · exact Or.inr h

theorem num_eq : ∀ (xs seen : List Nat), num seen xs = xs.map fun x => (firsts seen xs).idxOf x + 1 := by
  intro xs
  induction xs with
  | nil => intro seen; rfl
  | cons x xs ih =>
    intro seen
    rw [num, List.map_cons, ih]
    have hx : x ∈ (if x ∈ seen then seen else seen ++ [x]) := by
      split
      · assumption
      · exact List.mem_append_right _ (List.mem_singleton.mpr rfl)
    obtain ⟨t, ht⟩ := firsts_prefix xs (if x ∈ seen then seen else seen ++ [x])
    have e : firsts seen (x :: xs) = firsts (if x ∈ seen then seen else seen ++ [x]) xs := rfl
    rw [e]
    congr 1
    rw [← ht, List.idxOf_append_of_mem hx]

theorem num_order : ∀ (xs seen : List Nat) (i l : Nat), (num seen xs)[i]? = some (l + 1) → l ≤ seen.length ∨ l ∈ (num seen xs).take i := by
  intro xs
  induction xs with
  | nil => intro seen i l h; simp [num] at h
  | cons x xs ih =>
    intro seen i l h
    rw [num] at h ⊢
    cases i with
    | zero =>
      simp only [List.getElem?_cons_zero, Option.some.injEq, Nat.add_right_cancel_iff] at h
      refine Or.inl ?_
      rw [← h]
      split
      · exact List.idxOf_le_length
      · rename_i hx
        rw [List.idxOf_append_of_notMem hx]
        simp
    | succ i =>
      simp only [List.getElem?_cons_succ] at h
      rw [List.take_succ_cons]
      rcases ih _ i l h with h1 | h1
      · split at h1
        · exact Or.inl h1
        · rename_i hx
          rw [List.length_append, List.length_singleton] at h1
          rcases Nat.lt_or_ge seen.length l with h2 | h2
          · refine Or.inr ?_
            rw [List.mem_cons]
            refine Or.inl ?_
            rw [if_neg hx, List.idxOf_append_of_notMem hx]
            simp only [List.idxOf_cons_self]
            omega
          · exact Or.inl h2
      · exact Or.inr (List.mem_cons_of_mem _ h1)

theorem num_numbered (xs : List Nat) : Spec.Numbered (num [] xs) (firsts [] xs).length := by
  have hn := firsts_nodup xs [] List.nodup_nil
  constructor
  · intro l
    rw [num_eq, List.mem_map]
    constructor
    · rintro ⟨x, hx, rfl⟩
      have : x ∈ firsts [] xs := (mem_firsts xs [] x).mpr (Or.inr hx)
      have := List.idxOf_lt_length_of_mem this
      omega
    · rintro ⟨h1, h2⟩
      have hlt : l - 1 < (firsts [] xs).length := by omega
      refine ⟨(firsts [] xs)[l - 1], ?_, ?_⟩
      · have := (mem_firsts xs [] _).mp (List.getElem_mem hlt)
        exact this.resolve_left (by simp)
      · rw [hn.idxOf_getElem]
        omega
  · intro i l h
    rcases num_order xs [] i l h with h1 | h1
    · exact Or.inl (by simpa using h1)
    · exact Or.inr h1

theorem label_ok : ∀ (is : List Nat) {fuel n : Nat} {p : List Nat} (seen : List Nat) (rep : Nat → Nat), (∀ i < n, Rep p i (rep i)) → (∀ i ∈ is, i < n) →
    ∀ x, label fuel is p seen = some x → x = .ok (num seen (is.map rep)) := by
  intro is
  induction is with
  | nil =>
    intro fuel n p seen rep _ _ x h
    simp only [label, Option.some.injEq] at h
    exact h.symm
  | cons i is ih =>
    intro fuel n p seen rep hrep his x h
    rw [label] at h
    cases hf : find fuel p i with
    | none => rw [hf] at h; cases h
    | some y =>
      obtain ⟨p', rfl, k⟩ := find_ok fuel (hrep i (his i List.mem_cons_self)) y hf
      rw [hf] at h
      simp only at h
      cases hl : label fuel is p' (if rep i ∈ seen then seen else seen ++ [rep i]) with
      | none => rw [hl] at h; cases h
      | some z =>
        have := ih _ rep (fun j hj => k.2.1 j _ (hrep j hj)) (fun j hj => his j (List.mem_cons_of_mem _ hj)) z hl
        subst this
        rw [hl] at h
        simp only [Option.some.injEq] at h
        rw [← h]
        rfl

theorem label_ends : ∀ (is : List Nat) {n : Nat} {p : List Nat} (seen : List Nat), Rooted n p → (∀ i ∈ is, i < n) →
    ∃ N x, ∀ fuel, N ≤ fuel → label fuel is p seen = some x := by
  intro is
  induction is with
  | nil => intro n p seen _ _; exact ⟨0, .ok [], fun _ _ => rfl⟩
  | cons i is ih =>
    intro n p seen hr his
    obtain ⟨ρ, hρ⟩ := hr.2 i (his i List.mem_cons_self)
    obtain ⟨N1, x1, h1⟩ := find_ends hρ
    obtain ⟨p1, rfl, k1⟩ := find_ok N1 hρ x1 (h1 N1 (Nat.le_refl _))
    obtain ⟨N2, x2, h2⟩ := ih (if ρ ∈ seen then seen else seen ++ [ρ]) (k1.rooted hr) (fun j hj => his j (List.mem_cons_of_mem _ hj))
    refine ⟨max N1 N2, (match x2 with | .ok ls => .ok (((if ρ ∈ seen then seen else seen ++ [ρ]).idxOf ρ + 1) :: ls) | .error f => .error f), ?_⟩
    intro fuel hf
    rw [label, h1 fuel (by omega)]
    simp only
    rw [h2 fuel (by omega)]
    cases x2 <;> rfl

end NextPlaid.Hier
