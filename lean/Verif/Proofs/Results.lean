import Verif.Spec.Results
import Mathlib.Data.List.Induction
import Mathlib.Data.List.Nodup

/-! Lemmas for C54: sorting, collapse by file, merge. -/

namespace NextPlaid.Rank

open NextPlaid.Spec

section sort
variable {A : Type} {le : A → A → Bool}

theorem insertBy_perm (a : A) : ∀ l, (insertBy le a l).Perm (a :: l)
  | [] => .refl _
  | b :: l => by
    unfold insertBy
    split
    · exact .refl _
    · exact (List.Perm.cons b (insertBy_perm a l)).trans (List.Perm.swap a b l)

theorem sortBy_perm : ∀ l, (sortBy le l).Perm l
  | [] => .refl _
  | a :: l => (insertBy_perm a _).trans ((sortBy_perm l).cons a)

theorem insertBy_sorted (htot : ∀ a b, le a b = true ∨ le b a = true) (htr : ∀ a b c, le a b = true → le b c = true → le a c = true)
    (a : A) : ∀ l, l.Pairwise (fun x y => le x y = true) → (insertBy le a l).Pairwise fun x y => le x y = true
  | [], _ => by simp [insertBy]
  | b :: l, h => by
    unfold insertBy
    rw [List.pairwise_cons] at h
    split
    · next hab =>
      refine List.pairwise_cons.mpr ⟨?_, List.pairwise_cons.mpr h⟩
      intro x hx
      rcases List.mem_cons.mp hx with rfl | hx
      · exact hab
      · exact htr _ _ _ hab (h.1 x hx)
    · next hab =>
      refine List.pairwise_cons.mpr ⟨?_, insertBy_sorted htot htr a l h.2⟩
      intro x hx
      rcases List.mem_cons.mp ((insertBy_perm a l).mem_iff.mp hx) with rfl | hx
      · exact (htot x b).resolve_left hab
      · exact h.1 x hx

theorem sortBy_sorted (htot : ∀ a b, le a b = true ∨ le b a = true) (htr : ∀ a b c, le a b = true → le b c = true → le a c = true) :
    ∀ l, (sortBy le l).Pairwise fun x y => le x y = true
  | [] => .nil
  | a :: l => insertBy_sorted htot htr a _ (sortBy_sorted htot htr l)

/-- Lists that are sorted by an order which tells their elements apart are equal if they have the same elements. -/
theorem sorted_unique : ∀ {l l' : List A}, l.Perm l' → l.Pairwise (fun x y => le x y = true) → l'.Pairwise (fun x y => le x y = true) →
    (∀ a ∈ l, ∀ b ∈ l, le a b = true → le b a = true → a = b) → l = l'
  | [], l', h, _, _, _ => by simpa using h.symm.eq_nil.symm
  | a :: l, [], h, _, _, _ => by simpa using h.eq_nil
  | a :: l, b :: l', h, h1, h2, h3 => by
    have hab : a = b := by
      rcases List.mem_cons.mp (h.mem_iff.mp (List.mem_cons_self (a := a) (l := l))) with hab | hab
      · exact hab
      · rcases List.mem_cons.mp (h.mem_iff.mpr (List.mem_cons_self (a := b) (l := l'))) with hba | hba
        · exact hba.symm
        · exact h3 a (by simp) b (by simp [hba]) ((List.pairwise_cons.mp h1).1 b hba) ((List.pairwise_cons.mp h2).1 a hab)
    subst hab
    rw [sorted_unique h.cons_inv (List.pairwise_cons.mp h1).2 (List.pairwise_cons.mp h2).2
      fun x hx y hy => h3 x (by simp [hx]) y (by simp [hy])]

end sort

section
variable {K : Type} [LinearOrder K]

theorem byScore_total (a b : Hit K) : byScore a b = true ∨ byScore b a = true := by
  simp only [byScore, decide_eq_true_eq]; exact le_total _ _

theorem byScore_trans (a b c : Hit K) : byScore a b = true → byScore b c = true → byScore a c = true := by
  simp only [byScore, decide_eq_true_eq]; exact fun h1 h2 => h2.trans h1

theorem inOrder_iff (a b : Hit K) : inOrder a b = true ↔ b.score < a.score ∨ (b.score = a.score ∧
    (a.unit.file < b.unit.file ∨ (a.unit.file = b.unit.file ∧ (a.unit.line < b.unit.line ∨ (a.unit.line = b.unit.line ∧
      a.unit.endLine ≤ b.unit.endLine))))) := by
  simp [inOrder]

theorem inOrder_total (a b : Hit K) : inOrder a b = true ∨ inOrder b a = true := by
  rw [inOrder_iff, inOrder_iff]
  rcases lt_trichotomy a.score b.score with h | h | h
  · exact .inr (.inl h)
  · rcases lt_trichotomy a.unit.file b.unit.file with h2 | h2 | h2
    · exact .inl (.inr ⟨h.symm, .inl h2⟩)
    · rcases lt_trichotomy a.unit.line b.unit.line with h3 | h3 | h3
      · exact .inl (.inr ⟨h.symm, .inr ⟨h2, .inl h3⟩⟩)
      · rcases le_total a.unit.endLine b.unit.endLine with h4 | h4
        · exact .inl (.inr ⟨h.symm, .inr ⟨h2, .inr ⟨h3, h4⟩⟩⟩)
        · exact .inr (.inr ⟨h, .inr ⟨h2.symm, .inr ⟨h3.symm, h4⟩⟩⟩)
      · exact .inr (.inr ⟨h, .inr ⟨h2.symm, .inl h3⟩⟩)
    · exact .inr (.inr ⟨h, .inl h2⟩)
  · exact .inl (.inl h)

theorem inOrder_trans (a b c : Hit K) : inOrder a b = true → inOrder b c = true → inOrder a c = true := by
  rw [inOrder_iff, inOrder_iff, inOrder_iff]
  rintro (h | ⟨h, h1⟩) (h' | ⟨h', h1'⟩)
  · exact .inl (h'.trans h)
  · exact .inl (h' ▸ h)
  · exact .inl (h ▸ h')
  · refine .inr ⟨h'.trans h, ?_⟩
    rcases h1 with h1 | ⟨h1, h2⟩ <;> rcases h1' with h1' | ⟨h1', h2'⟩
    · exact .inl (h1.trans h1')
    · exact .inl (h1' ▸ h1)
    · exact .inl (h1 ▸ h1')
    · refine .inr ⟨h1.trans h1', ?_⟩
      omega

theorem inOrder_score {a b : Hit K} (h : inOrder a b = true) : b.score ≤ a.score := by
  rw [inOrder_iff] at h
  rcases h with h | h
  · exact h.le
  · exact h.1.le

theorem inOrder_file {a b : Hit K} (h : inOrder a b = true) (h' : inOrder b a = true) : a.unit.file = b.unit.file := by
  rw [inOrder_iff] at h h'
  rcases h with h | ⟨h, h1⟩ <;> rcases h' with h' | ⟨h', h1'⟩
  · exact absurd h (lt_asymm h')
  · exact absurd h (by rw [h']; exact lt_irrefl _)
  · exact absurd h' (by rw [h]; exact lt_irrefl _)
  · rcases h1 with h1 | ⟨h1, _⟩
    · rcases h1' with h1' | ⟨h1', _⟩
      · exact absurd h1 (lt_asymm h1')
      · exact h1'.symm
    · exact h1

/-! ### Collapse -/

theorem collapse_append (k : Nat) (l : List (Hit K)) (h : Hit K) : collapse k (l ++ [h]) = collapseOne k (collapse k l) h := by
  simp [collapse]

theorem _root_.NextPlaid.Spec.SameUnit.rfl' (a : CodeUnit) : SameUnit a a := ⟨rfl, rfl, rfl, rfl, rfl⟩

theorem widen_files (out : List (Hit K)) (h : Hit K) :
    (out.map fun l => if l.unit.file = h.unit.file then widen l h else l).map (·.unit.file) = out.map (·.unit.file) := by
  rw [List.map_map]
  refine List.map_congr_left fun l _ => ?_
  simp only [Function.comp]
  split <;> rfl

theorem _root_.NextPlaid.Spec.StandsFor.more {pool : List (Hit K)} {l h : Hit K} (hl : StandsFor pool l) (hne : h.unit.file ≠ l.unit.file) :
    StandsFor (pool ++ [h]) l := by
  have key : ∀ v ∈ pool ++ [h], v.unit.file = l.unit.file → v ∈ pool := by
    intro v hv hf
    rcases List.mem_append.mp hv with hv | hv
    · exact hv
    · rw [List.mem_singleton] at hv; subst hv; exact absurd hf hne
  obtain ⟨⟨u, h1, h2⟩, h3, h4, ⟨v, h5, h6⟩, ⟨w, h7, h8⟩⟩ := hl
  exact ⟨⟨u, by simp [h1], h2⟩, fun v hv hf => h3 v (key v hv hf) hf, fun v hv hf => h4 v (key v hv hf) hf, ⟨v, by simp [h5], h6⟩, ⟨w, by simp [h7], h8⟩⟩

theorem _root_.NextPlaid.Spec.StandsFor.widen {pool : List (Hit K)} {l h : Hit K} (hl : StandsFor pool l) (he : l.unit.file = h.unit.file) (hs : h.score ≤ l.score) :
    StandsFor (pool ++ [h]) (widen l h) := by
  obtain ⟨⟨u, h1, h2⟩, h3, h4, ⟨v, h5, h6⟩, ⟨w, h7, h8⟩⟩ := hl
  refine ⟨⟨u, by simp [h1], h2⟩, ?_, ?_, ?_, ?_⟩
  · intro x hx hf
    rcases List.mem_append.mp hx with hx | hx
    · exact h3 x hx hf
    · rw [List.mem_singleton] at hx; subst hx; exact hs
  · intro x hx hf
    simp only [Rank.widen]
    rcases List.mem_append.mp hx with hx | hx
    · have := h4 x hx hf
      omega
    · rw [List.mem_singleton] at hx; subst hx; omega
  · simp only [Rank.widen]
    by_cases hc : l.unit.line ≤ h.unit.line
    · exact ⟨v, by simp [h5], h6.1, by rw [h6.2]; omega⟩
    · exact ⟨h, by simp, he.symm, by omega⟩
  · simp only [Rank.widen]
    by_cases hc : h.unit.endLine ≤ l.unit.endLine
    · exact ⟨w, by simp [h7], h8.1, by rw [h8.2]; omega⟩
    · exact ⟨h, by simp, he.symm, by omega⟩

/-- The best files of a sorted list of candidates. -/
theorem collapse_best (k : Nat) (pool : List (Hit K)) : pool.Pairwise (fun a b => b.score ≤ a.score) → BestFiles k pool (collapse k pool) := by
  induction pool using List.reverseRecOn with
  | nil => intro _; exact ⟨by simp [collapse], by simp [collapse], by simp [collapse], by simp [collapse], by simp⟩
  | append_singleton pool h ih =>
    intro hsorted
    rw [List.pairwise_append] at hsorted
    obtain ⟨hs1, _, hs2⟩ := hsorted
    have hlow : ∀ v ∈ pool, h.score ≤ v.score := fun v hv => hs2 v hv h (by simp)
    obtain ⟨hd, hord, hk, heach, hrest⟩ := ih hs1
    rw [collapse_append]
    generalize collapse k pool = out at *
    have houtlow : ∀ l ∈ out, h.score ≤ l.score := by
      intro l hl
      obtain ⟨u, hu, _, he⟩ := (heach l hl).leader
      rw [he]; exact hlow u hu
    unfold collapseOne
    split
    · next hany =>
      simp only [List.any_eq_true, decide_eq_true_eq] at hany
      have hin : h.unit.file ∈ out.map (·.unit.file) := by
        obtain ⟨l, hl, hf⟩ := hany
        exact List.mem_map.mpr ⟨l, hl, hf⟩
      refine ⟨by rw [widen_files]; exact hd, ?_, by simpa using hk, ?_, ?_⟩
      · rw [List.pairwise_map]
        refine hord.imp ?_
        intro a b hab
        split <;> split <;> exact hab
      · intro l' hl'
        obtain ⟨l, hl, rfl⟩ := List.mem_map.mp hl'
        split
        · next he => exact (heach l hl).widen he (houtlow l hl)
        · next hne => exact (heach l hl).more (Ne.symm hne)
      · intro v hv hf
        rw [widen_files] at hf
        rcases List.mem_append.mp hv with hv | hv
        · obtain ⟨h1, h2⟩ := hrest v hv hf
          refine ⟨by simpa using h1, ?_⟩
          intro l' hl'
          obtain ⟨l, hl, rfl⟩ := List.mem_map.mp hl'
          split <;> exact h2 l hl
        · rw [List.mem_singleton] at hv; subst hv; exact absurd hin hf
    · next hany =>
      simp only [List.any_eq_true, decide_eq_true_eq, not_exists, not_and] at hany
      have hnew : ∀ l ∈ out, h.unit.file ≠ l.unit.file := fun l hl he => hany l hl he.symm
      split
      · next hfull =>
        refine ⟨hd, hord, hk, fun l hl => (heach l hl).more (hnew l hl), ?_⟩
        intro v hv hf
        rcases List.mem_append.mp hv with hv | hv
        · exact hrest v hv hf
        · rw [List.mem_singleton] at hv; subst hv; exact ⟨by omega, houtlow⟩
      · next hroom =>
        have hfresh : ∀ v ∈ pool, v.unit.file ≠ h.unit.file := by
          intro v hv he
          have hnot : v.unit.file ∉ out.map (·.unit.file) := by
            rw [he]; intro hm
            obtain ⟨l, hl, hf⟩ := List.mem_map.mp hm
            exact hany l hl hf
          have := (hrest v hv hnot).1
          omega
        refine ⟨?_, ?_, by simp; omega, ?_, ?_⟩
        · rw [List.map_append, List.nodup_append]
          refine ⟨hd, by simp, ?_⟩
          intro a ha b hb
          obtain ⟨l, hl, rfl⟩ := List.mem_map.mp ha
          simp only [List.map_cons, List.map_nil, List.mem_singleton] at hb
          subst hb
          exact fun he => hany l hl he
        · rw [List.pairwise_append]
          refine ⟨hord, by simp, ?_⟩
          intro a ha b hb
          rw [List.mem_singleton] at hb; subst hb
          exact houtlow a ha
        · intro l hl
          rcases List.mem_append.mp hl with hl | hl
          · exact (heach l hl).more (hnew l hl)
          · rw [List.mem_singleton] at hl; subst hl
            have key : ∀ v ∈ pool ++ [l], v.unit.file = l.unit.file → v = l := by
              intro v hv hf
              rcases List.mem_append.mp hv with hv | hv
              · exact absurd hf (hfresh v hv)
              · exact List.mem_singleton.mp hv
            exact ⟨⟨l, by simp, .rfl' _, rfl⟩, fun v hv hf => by rw [key v hv hf], fun v hv hf => by rw [key v hv hf]; exact ⟨le_refl _, le_refl _⟩,
              ⟨l, by simp, rfl, rfl⟩, ⟨l, by simp, rfl, rfl⟩⟩
        · intro v hv hf
          rw [List.map_append, List.mem_append, not_or] at hf
          rcases List.mem_append.mp hv with hv | hv
          · have := (hrest v hv hf.1).1
            omega
          · rw [List.mem_singleton] at hv; subst hv; exact absurd (by simp) hf.2

/-! ### Merge -/

/-- What the merge makes of its entries: as `StandsFor`, one per file. -/
structure Merged (all out : List (Hit K)) : Prop where
  distinct : (out.map (·.unit.file)).Nodup
  each : ∀ h ∈ out, StandsFor all h
  complete : ∀ v ∈ all, v.unit.file ∈ out.map (·.unit.file)

theorem merge_files (m : List (Hit K)) (h : Hit K) :
    (m.map fun l => if l.unit.file = h.unit.file then (if l.score < h.score then widen h l else widen l h) else l).map (·.unit.file) =
      m.map (·.unit.file) := by
  rw [List.map_map]
  refine List.map_congr_left fun l _ => ?_
  simp only [Function.comp]
  split
  · next he => split <;> simp [widen, he]
  · rfl

theorem _root_.NextPlaid.Spec.StandsFor.replace {pool : List (Hit K)} {l h : Hit K} (hl : StandsFor pool l) (he : l.unit.file = h.unit.file) (hs : l.score < h.score) :
    StandsFor (pool ++ [h]) (Rank.widen h l) := by
  obtain ⟨⟨u, h1, h2⟩, h3, h4, ⟨v, h5, h6⟩, ⟨w, h7, h8⟩⟩ := hl
  refine ⟨⟨h, by simp, .rfl' _, rfl⟩, ?_, ?_, ?_, ?_⟩
  · intro x hx hf
    simp only [Rank.widen] at hf
    rcases List.mem_append.mp hx with hx | hx
    · exact (h3 x hx (hf.trans he.symm)).trans hs.le
    · rw [List.mem_singleton] at hx; subst hx; exact le_refl _
  · intro x hx hf
    simp only [Rank.widen] at hf ⊢
    rcases List.mem_append.mp hx with hx | hx
    · have := h4 x hx (hf.trans he.symm)
      omega
    · rw [List.mem_singleton] at hx; subst hx; omega
  · simp only [Rank.widen]
    by_cases hc : l.unit.line ≤ h.unit.line
    · exact ⟨v, by simp [h5], h6.1.trans he, by rw [h6.2]; omega⟩
    · exact ⟨h, by simp, rfl, by omega⟩
  · simp only [Rank.widen]
    by_cases hc : h.unit.endLine ≤ l.unit.endLine
    · exact ⟨w, by simp [h7], h8.1.trans he, by rw [h8.2]; omega⟩
    · exact ⟨h, by simp, rfl, by omega⟩

theorem merged_fold (all : List (Hit K)) : Merged all (all.foldl mergeOne []) := by
  induction all using List.reverseRecOn with
  | nil => exact ⟨by simp, by simp, by simp⟩
  | append_singleton all h ih =>
    rw [List.foldl_append, List.foldl_cons, List.foldl_nil]
    obtain ⟨hd, heach, hcomp⟩ := ih
    generalize all.foldl mergeOne [] = out at *
    unfold mergeOne
    split
    · next hany =>
      simp only [List.any_eq_true, decide_eq_true_eq] at hany
      refine ⟨by rw [merge_files]; exact hd, ?_, ?_⟩
      · intro l' hl'
        obtain ⟨l, hl, rfl⟩ := List.mem_map.mp hl'
        split
        · next he =>
          split
          · next hs => exact (heach l hl).replace he hs
          · next hs => exact (heach l hl).widen he (not_lt.mp hs)
        · next hne => exact (heach l hl).more (Ne.symm hne)
      · intro v hv
        rw [merge_files]
        rcases List.mem_append.mp hv with hv | hv
        · exact hcomp v hv
        · rw [List.mem_singleton] at hv; subst hv
          obtain ⟨l, hl, hf⟩ := hany
          exact List.mem_map.mpr ⟨l, hl, hf⟩
    · next hany =>
      simp only [List.any_eq_true, decide_eq_true_eq, not_exists, not_and] at hany
      have hfresh : ∀ v ∈ all, v.unit.file ≠ h.unit.file := by
        intro v hv he
        obtain ⟨l, hl, hf⟩ := List.mem_map.mp (hcomp v hv)
        exact hany l hl (hf.trans he)
      refine ⟨?_, ?_, ?_⟩
      · rw [List.map_append, List.nodup_append]
        refine ⟨hd, by simp, ?_⟩
        intro a ha b hb
        obtain ⟨l, hl, rfl⟩ := List.mem_map.mp ha
        simp only [List.map_cons, List.map_nil, List.mem_singleton] at hb
        subst hb
        exact fun he => hany l hl he
      · intro l hl
        rcases List.mem_append.mp hl with hl | hl
        · exact (heach l hl).more fun he => hany l hl he.symm
        · rw [List.mem_singleton] at hl; subst hl
          have key : ∀ v ∈ all ++ [l], v.unit.file = l.unit.file → v = l := by
            intro v hv hf
            rcases List.mem_append.mp hv with hv | hv
            · exact absurd hf (hfresh v hv)
            · exact List.mem_singleton.mp hv
          exact ⟨⟨l, by simp, .rfl' _, rfl⟩, fun v hv hf => by rw [key v hv hf], fun v hv hf => by rw [key v hv hf]; exact ⟨le_refl _, le_refl _⟩,
            ⟨l, by simp, rfl, rfl⟩, ⟨l, by simp, rfl, rfl⟩⟩
      · intro v hv
        rw [List.map_append, List.mem_append]
        rcases List.mem_append.mp hv with hv | hv
        · exact .inl (hcomp v hv)
        · rw [List.mem_singleton] at hv; subst hv; exact .inr (by simp)

theorem merge_merged (a b : List (Hit K)) : Merged (a ++ b) (merge a b) := merged_fold _

end

end NextPlaid.Rank
