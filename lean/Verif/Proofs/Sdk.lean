import Verif.Spec.Sdk
import Mathlib.Data.List.Perm.Basic

/-! Lemmas for C89. -/

namespace NextPlaid.Sdk
open NextPlaid.Scan

theorem insertByLine_perm (u : CodeUnit) : ∀ l, (insertByLine u l).Perm (u :: l)
  | [] => .refl _
  | v :: l => by
    rw [insertByLine]
    split
    · exact .refl _
    · exact ((insertByLine_perm u l).cons v).trans (.swap _ _ _)

theorem sortByLine_perm : ∀ l, (sortByLine l).Perm l
  | [] => .refl _
  | u :: l => (insertByLine_perm u _).trans ((sortByLine_perm l).cons u)

theorem insertByLine_sorted (u : CodeUnit) : ∀ l, l.Pairwise (fun u v => u.line ≤ v.line) →
    (insertByLine u l).Pairwise (fun u v => u.line ≤ v.line)
  | [], _ => by simp [insertByLine]
  | v :: l, h => by
    rw [insertByLine]
    rw [List.pairwise_cons] at h
    split
    · next hle =>
      rw [List.pairwise_cons, List.pairwise_cons]
      refine ⟨?_, h⟩
      intro w hw
      rcases List.mem_cons.1 hw with rfl | hw
      · exact hle
      · exact Nat.le_trans hle (h.1 w hw)
    · next hle =>
      rw [List.pairwise_cons]
      refine ⟨?_, insertByLine_sorted u l h.2⟩
      intro w hw
      rcases List.mem_cons.1 ((insertByLine_perm u l).mem_iff.1 hw) with rfl | hw
      · omega
      · exact h.1 w hw

theorem sortByLine_sorted : ∀ l, (sortByLine l).Pairwise (fun u v => u.line ≤ v.line)
  | [] => .nil
  | u :: l => insertByLine_sorted u _ (sortByLine_sorted l)

theorem insertByLine_filter (u : CodeUnit) (n : Nat) : ∀ l, (insertByLine u l).filter (fun u => u.line == n) =
    (u :: l).filter fun u => u.line == n
  | [] => rfl
  | v :: l => by
    rw [insertByLine]
    split
    · rfl
    · next hle =>
      rw [List.filter_cons, insertByLine_filter u n l, List.filter_cons, List.filter_cons, List.filter_cons]
      by_cases h1 : u.line = n
      · have : v.line ≠ n := by omega
        simp [h1, this]
      · simp [h1]

theorem sortByLine_filter (n : Nat) : ∀ l, (sortByLine l).filter (fun u => u.line == n) = l.filter fun u => u.line == n
  | [] => rfl
  | u :: l => by
    rw [sortByLine, insertByLine_filter, List.filter_cons, List.filter_cons, sortByLine_filter n l]

theorem sortByLine_order (l : List CodeUnit) : InLineOrder l (sortByLine l) :=
  ⟨sortByLine_perm l, sortByLine_sorted l, fun n => sortByLine_filter n l⟩

theorem mem_dedup : ∀ (l seen : List Text) (x : Text), x ∈ dedupOrdered seen l ↔ x ∈ l ∧ x ∉ seen
  | [], seen, x => by simp [dedupOrdered]
  | y :: l, seen, x => by
    rw [dedupOrdered]
    split
    · next h =>
      rw [mem_dedup l seen x]
      have hy : y ∈ seen := List.contains_iff_mem.1 h
      constructor
      · exact fun ⟨h1, h2⟩ => ⟨List.mem_cons_of_mem _ h1, h2⟩
      · rintro ⟨h1, h2⟩
        rcases List.mem_cons.1 h1 with rfl | h1
        · exact absurd hy h2
        · exact ⟨h1, h2⟩
    · next h =>
      have hy : y ∉ seen := fun hm => h (List.contains_iff_mem.2 hm)
      rw [List.mem_cons, mem_dedup l (y :: seen) x]
      constructor
      · rintro (rfl | ⟨h1, h2⟩)
        · exact ⟨List.mem_cons_self, hy⟩
        · exact ⟨List.mem_cons_of_mem _ h1, fun hm => h2 (List.mem_cons_of_mem _ hm)⟩
      · rintro ⟨h1, h2⟩
        by_cases hxy : x = y
        · exact .inl hxy
        · refine .inr ⟨(List.mem_cons.1 h1).resolve_left hxy, ?_⟩
          intro hm
          rcases List.mem_cons.1 hm with h | h
          · exact hxy h
          · exact h2 h

theorem dedup_nodup : ∀ (l seen : List Text), (dedupOrdered seen l).Nodup
  | [], _ => List.nodup_nil
  | y :: l, seen => by
    rw [dedupOrdered]
    split
    · exact dedup_nodup l seen
    · rw [List.nodup_cons]
      refine ⟨?_, dedup_nodup l _⟩
      rw [mem_dedup]
      exact fun h => h.2 List.mem_cons_self

theorem dedup_order : ∀ (l seen : List Text) (x y : Text), [x, y].Sublist (dedupOrdered seen l) →
    ∀ k : Nat, l[k]? = some y → ∃ j < k, l[j]? = some x
  | [], _, x, y, h, k, hk => by simp at hk
  | z :: l, seen, x, y, h, k, hk => by
    rw [dedupOrdered] at h
    split at h
    · next hz =>
      have hy : y ∈ dedupOrdered seen l := h.subset (by simp)
      rw [mem_dedup] at hy
      cases k with
      | zero =>
        rw [List.getElem?_cons_zero] at hk
        cases hk
        exact absurd (List.contains_iff_mem.1 hz) hy.2
      | succ k =>
        obtain ⟨j, hj, he⟩ := dedup_order l seen x y h k (by simpa using hk)
        exact ⟨j + 1, by omega, by simpa using he⟩
    · next hz =>
      have key : y ∈ dedupOrdered (z :: seen) l → z ≠ y := by
        intro hm e
        rw [mem_dedup] at hm
        exact hm.2 (by rw [e]; exact List.mem_cons_self)
      cases h with
      | cons _ h =>
        cases k with
        | zero =>
          rw [List.getElem?_cons_zero] at hk
          exact absurd (Option.some.inj hk) (key (h.subset (by simp)))
        | succ k =>
          obtain ⟨j, hj, he⟩ := dedup_order l (z :: seen) x y h k (by simpa using hk)
          exact ⟨j + 1, by omega, by simpa using he⟩
      | cons_cons _ h =>
        cases k with
        | zero =>
          rw [List.getElem?_cons_zero] at hk
          exact absurd (Option.some.inj hk) (key (h.subset (by simp)))
        | succ k => exact ⟨0, by omega, rfl⟩

theorem dedup_once (l : List Text) : OnceInOrder l (dedupOrdered [] l) :=
  ⟨dedup_nodup l [], fun x => by rw [mem_dedup]; simp, dedup_order l []⟩

theorem join_joined : ∀ l : List Text, Joined l (join l)
  | [] => .inl ⟨rfl, rfl⟩
  | [x] => .inr ⟨x, [], rfl, by simp [join]⟩
  | x :: y :: l => by
    refine .inr ⟨x, y :: l, rfl, ?_⟩
    rcases join_joined (y :: l) with ⟨h, _⟩ | ⟨p, ps, h, he⟩
    · cases h
    · cases h
      rw [join, he]
      simp

theorem foldl_or {f : CodeUnit → Bool} : ∀ (l : List CodeUnit) (b : Bool), l.foldl (fun b u => b || f u) b = (b || l.any f)
  | [], b => by simp
  | u :: l, b => by rw [List.foldl_cons, foldl_or l, List.any_cons, Bool.or_assoc]

theorem foldl_sum {f : CodeUnit → Nat} : ∀ (l : List CodeUnit) (n : Nat), l.foldl (fun n u => n + f u) n = n + (l.map f).sum
  | [], n => by simp
  | u :: l, n => by rw [List.foldl_cons, foldl_sum l, List.map_cons, List.sum_cons, Nat.add_assoc]

end NextPlaid.Sdk
