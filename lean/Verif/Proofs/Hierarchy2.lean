import Verif.Proofs.Hierarchy
import Mathlib.Data.List.Induction
import Mathlib.Algebra.Order.Field.Basic
import Mathlib.Tactic.Ring
import Mathlib.Tactic.Linarith
import Mathlib.Tactic.FieldSimp

/-!
Proofs: in exact arithmetic the linkage is computed, and each merge joins nearest neighbours.
-/

namespace NextPlaid.Hier

open NextPlaid.Fusion NextPlaid.Spec

variable {K : Type} [Field K] [LinearOrder K]

/-! ### The nearest neighbour is the first of the nearest -/

/-- `j` is the first of the nearest neighbours of `i`. -/
def Least (dist : Nat → Nat → Option K) (l : List Nat) (i j : Nat) (d : K) : Prop :=
  j ∈ l ∧ j ≠ i ∧ dist i j = some d ∧ ∀ x ∈ l, x ≠ i → ∀ e, dist i x = some e → d < e ∨ d = e ∧ j ≤ x

theorem nearest_snoc (dist : Nat → Nat → Option K) (i : Nat) (l : List Nat) (x : Nat) :
    nearest dist i (l ++ [x]) = (if x = i then nearest dist i l
      else match dist i x with
        | none => nearest dist i l
        | some d => match nearest dist i l with
          | none => some (x, d)
          | some b => if d < b.2 then some (x, d) else some b) := by
  unfold nearest
  rw [List.foldl_append, List.foldl_cons, List.foldl_nil]
  rfl

theorem nearest_least (dist : Nat → Nat → Option K) (i : Nat) (l : List Nat) (hs : l.Pairwise (· < ·)) :
    (∀ j d, nearest dist i l = some (j, d) → Least dist l i j d) ∧ (nearest dist i l = none → ∀ x ∈ l, x ≠ i → dist i x = none) := by
  induction l using List.reverseRecOn with
  | nil =>
    refine ⟨?_, ?_⟩
    · intro j d h; cases h
    · intro _ x hx; cases hx
  | append_singleton l x ih =>
    rw [List.pairwise_append] at hs
    obtain ⟨hs1, _, hs2⟩ := hs
    obtain ⟨ih1, ih2⟩ := ih hs1
    have hlt : ∀ y ∈ l, y < x := fun y hy => hs2 y hy x (List.mem_singleton.mpr rfl)
    rw [nearest_snoc]
    by_cases hx : x = i
    · rw [if_pos hx]
      refine ⟨?_, ?_⟩
      · intro j d h
        obtain ⟨h1, h2, h3, h4⟩ := ih1 j d h
        refine ⟨List.mem_append_left _ h1, h2, h3, ?_⟩
        intro y hy hyi e he
        rcases List.mem_append.mp hy with hy | hy
        · exact h4 y hy hyi e he
        · exact absurd ((List.mem_singleton.mp hy).trans hx) hyi
      · intro h y hy hyi
        rcases List.mem_append.mp hy with hy | hy
        · exact ih2 h y hy hyi
        · exact absurd ((List.mem_singleton.mp hy).trans hx) hyi
    · rw [if_neg hx]
      cases hd : dist i x with
      | none =>
        simp only
        refine ⟨?_, ?_⟩
        · intro j d h
          obtain ⟨h1, h2, h3, h4⟩ := ih1 j d h
          refine ⟨List.mem_append_left _ h1, h2, h3, ?_⟩
          intro y hy hyi e he
          rcases List.mem_append.mp hy with hy | hy
          · exact h4 y hy hyi e he
          · rw [List.mem_singleton.mp hy, hd] at he; cases he
        · intro h y hy hyi
          rcases List.mem_append.mp hy with hy | hy
          · exact ih2 h y hy hyi
          · rw [List.mem_singleton.mp hy]; exact hd
      | some f =>
        simp only
        cases hn : nearest dist i l with
        | none =>
          simp only
          refine ⟨?_, ?_⟩
          · intro j d h
            simp only [Option.some.injEq, Prod.mk.injEq] at h
            obtain ⟨rfl, rfl⟩ := h
            refine ⟨List.mem_append_right _ (List.mem_singleton.mpr rfl), hx, hd, ?_⟩
            intro y hy hyi e he
            rcases List.mem_append.mp hy with hy | hy
            · rw [ih2 hn y hy hyi] at he; cases he
            · rw [List.mem_singleton.mp hy] at he ⊢
              rw [hd, Option.some.injEq] at he
              exact Or.inr ⟨he, Nat.le_refl _⟩
          · intro h; cases h
        | some b =>
          obtain ⟨bj, bd⟩ := b
          obtain ⟨h1, h2, h3, h4⟩ := ih1 bj bd hn
          simp only
          by_cases hlt' : f < bd
          · rw [if_pos hlt']
            refine ⟨?_, ?_⟩
            · intro j d h
              simp only [Option.some.injEq, Prod.mk.injEq] at h
              obtain ⟨rfl, rfl⟩ := h
              refine ⟨List.mem_append_right _ (List.mem_singleton.mpr rfl), hx, hd, ?_⟩
              intro y hy hyi e he
              rcases List.mem_append.mp hy with hy | hy
              · rcases h4 y hy hyi e he with h | h
                · exact Or.inl (lt_trans hlt' h)
                · exact Or.inl (h.1 ▸ hlt')
              · rw [List.mem_singleton.mp hy] at he ⊢
                rw [hd, Option.some.injEq] at he
                exact Or.inr ⟨he, Nat.le_refl _⟩
            · intro h; cases h
          · rw [if_neg hlt']
            refine ⟨?_, ?_⟩
            · intro j d h
              simp only [Option.some.injEq, Prod.mk.injEq] at h
              obtain ⟨rfl, rfl⟩ := h
              refine ⟨List.mem_append_left _ h1, h2, h3, ?_⟩
              intro y hy hyi e he
              rcases List.mem_append.mp hy with hy | hy
              · exact h4 y hy hyi e he
              · rw [List.mem_singleton.mp hy] at he ⊢
                rw [hd, Option.some.injEq] at he
                subst he
                rcases lt_or_eq_of_le (not_lt.mp hlt') with h | h
                · exact Or.inl h
                · exact Or.inr ⟨h, Nat.le_of_lt (hlt _ h1)⟩
            · intro h; cases h

/-! ### No cycle -/

theorem no_cycle_aux (W : Nat → Nat → K) (p : Nat → Nat) (i : Nat) (hi : 2 ≤ i)
    (hstep : ∀ j, j + 2 ≤ i → W (p j) (p (j + 1)) < W (p (j + 1)) (p (j + 2)) ∨ W (p j) (p (j + 1)) = W (p (j + 1)) (p (j + 2)) ∧ p j ≤ p (j + 2))
    (hfirst : W (p 0) (p i) < W (p 0) (p 1) ∨ W (p 0) (p i) = W (p 0) (p 1) ∧ p i ≤ p 1)
    (hlast : W (p (i - 1)) (p (i - 1 + 1)) < W (p 0) (p i) ∨ W (p (i - 1)) (p (i - 1 + 1)) = W (p 0) (p i) ∧ p (i - 1) ≤ p 0)
    (hne : p i ≠ p 1) : False := by
  have hmono : ∀ (k j : Nat), j + k + 1 ≤ i → W (p j) (p (j + 1)) ≤ W (p (j + k)) (p (j + k + 1)) := by
    intro k
    induction k with
    | zero => intro j _; exact le_refl _
    | succ k ih =>
      intro j hj
      refine le_trans (ih j (by omega)) ?_
      rcases hstep (j + k) (by omega) with h | h
      · exact le_of_lt h
      · exact le_of_eq h.1
  have hle1 : W (p 0) (p i) ≤ W (p 0) (p 1) := by rcases hfirst with h | h; exacts [le_of_lt h, le_of_eq h.1]
  have hle2 : W (p (i - 1)) (p (i - 1 + 1)) ≤ W (p 0) (p i) := by rcases hlast with h | h; exacts [le_of_lt h, le_of_eq h.1]
  have heq : ∀ j, j + 1 ≤ i → W (p j) (p (j + 1)) = W (p 0) (p 1) := by
    intro j hj
    apply le_antisymm
    · have := hmono (i - 1 - j) j (by omega)
      rw [show j + (i - 1 - j) = i - 1 by omega] at this
      exact le_trans this (le_trans hle2 hle1)
    · have := hmono j 0 (by omega)
      rwa [Nat.zero_add, Nat.zero_add] at this
  have hup : ∀ j, j + 2 ≤ i → p j ≤ p (j + 2) := by
    intro j hj
    rcases hstep j hj with h | h
    · rw [heq j (by omega), heq (j + 1) (by omega)] at h
      exact absurd h (lt_irrefl _)
    · exact h.2
  have hlast1 := heq (i - 1) (by omega)
  have hmid : W (p 0) (p i) = W (p 0) (p 1) := le_antisymm hle1 (hlast1 ▸ hle2)
  have hyc1 : p i ≤ p 1 := by
    rcases hfirst with h | h
    · rw [hmid] at h; exact absurd h (lt_irrefl _)
    · exact h.2
  have hci1 : p (i - 1) ≤ p 0 := by
    rcases hlast with h | h
    · rw [hlast1, hmid] at h; exact absurd h (lt_irrefl _)
    · exact h.2
  have heven : ∀ m, 2 * m ≤ i → p 0 ≤ p (2 * m) := by
    intro m
    induction m with
    | zero => intro _; exact le_refl _
    | succ m ih =>
      intro hm
      exact le_trans (ih (by omega)) (hup (2 * m) (by omega))
  have hodd : ∀ m, 2 * m + 1 ≤ i → p 1 ≤ p (2 * m + 1) := by
    intro m
    induction m with
    | zero => intro _; exact le_refl _
    | succ m ih =>
      intro hm
      exact le_trans (ih (by omega)) (hup (2 * m + 1) (by omega))
  rcases Nat.even_or_odd' i with ⟨m, hm | hm⟩
  · have h1 := heven m (by omega)
    have h2 := hodd (m - 1) (by omega)
    rw [show 2 * (m - 1) + 1 = i - 1 by omega] at h2
    rw [← hm] at h1
    omega
  · have h1 := hodd m (by omega)
    rw [← hm] at h1
    omega

theorem no_cycle (W : Nat → Nat → K) (act : List Nat) (c : List Nat) (hc : ∀ x ∈ c, x ∈ act) (hnd : c.Nodup)
    (hsym : ∀ x ∈ act, ∀ y ∈ act, W x y = W y x)
    (hadj : ∀ i p q, c[i]? = some p → c[i + 1]? = some q → ∀ x ∈ act, x ≠ q → W q p < W q x ∨ W q p = W q x ∧ p ≤ x)
    (top y : Nat) (htop : c[0]? = some top) (hyt : y ≠ top) (hy : ∀ x ∈ act, x ≠ top → W top y < W top x ∨ W top y = W top x ∧ y ≤ x)
    (hsecond : c[1]? ≠ some y) : y ∉ c := by
  intro hmem
  obtain ⟨i, hi, hci⟩ := List.getElem_of_mem hmem
  obtain ⟨p, hp⟩ : ∃ p : Nat → Nat, ∀ j, j < c.length → c[j]? = some (p j) := by
    refine ⟨fun j => c.getD j 0, ?_⟩
    intro j hj
    show _ = some (c.getD j 0)
    rw [List.getD_eq_getElem?_getD, List.getElem?_eq_getElem hj]
    rfl
  have hpi : p i = y := by
    have := hp i hi
    rw [List.getElem?_eq_getElem hi, hci, Option.some.injEq] at this
    exact this.symm
  have hp0 : p 0 = top := by
    have := hp 0 (by omega)
    rw [htop, Option.some.injEq] at this
    exact this.symm
  have hi0 : i ≠ 0 := by
    rintro rfl
    exact hyt (hpi.symm.trans hp0)
  have hi1 : i ≠ 1 := by
    rintro rfl
    exact hsecond (by rw [hp 1 hi, hpi])
  have hin : ∀ j, j < c.length → p j ∈ act := fun j hj => hc _ (List.mem_of_getElem? (hp j hj))
  have hne : ∀ j k, j < c.length → k < c.length → j ≠ k → p j ≠ p k := by
    intro j k hj hk hjk e
    rw [List.nodup_iff_getElem?_ne_getElem?] at hnd
    rcases Nat.lt_or_ge j k with h | h
    · exact hnd j k h hk (by rw [hp j hj, hp k hk, e])
    · exact hnd k j (by omega) hj (by rw [hp j hj, hp k hk, e])
  apply no_cycle_aux W p i (by omega)
  · intro j hj
    have := hadj j _ _ (hp j (by omega)) (hp (j + 1) (by omega)) (p (j + 2)) (hin _ (by omega)) (hne _ _ (by omega) (by omega) (by omega))
    rwa [hsym _ (hin (j + 1) (by omega)) _ (hin j (by omega))] at this
  · have := hy (p 1) (hin 1 (by omega)) (by rw [← hp0]; exact hne 1 0 (by omega) (by omega) (by omega))
    rw [hpi, hp0]
    exact this
  · have := hadj (i - 1) _ _ (hp (i - 1) (by omega)) (hp (i - 1 + 1) (by omega)) (p 0) (hin 0 (by omega)) (hne 0 _ (by omega) (by omega) (by omega))
    rw [hsym _ (hin (i - 1 + 1) (by omega)) _ (hin (i - 1) (by omega)), hsym _ (hin (i - 1 + 1) (by omega)) _ (hin 0 (by omega))] at this
    have e : p (i - 1 + 1) = p i := by rw [show i - 1 + 1 = i by omega]
    rw [e] at this ⊢
    exact this
  · exact hne i 1 hi (by omega) hi1

end NextPlaid.Hier
