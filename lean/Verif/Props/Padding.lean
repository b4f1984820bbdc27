import Verif.Proofs.Padding

/-!
C100: sequences padded to one length can be taken apart again with the mask made of their lengths, and rows are normalised to length one.
-/

namespace NextPlaid.Props

open NextPlaid.Padding

variable {α : Type}

/-- The sequences of the examples. -/
def Toy.padSeqs : List (Arr Nat) := [⟨2, [[1, 2], [3, 4]], by decide⟩, ⟨2, [], by decide⟩, ⟨3, [[5, 6, 7], [8, 9, 10], [11, 12, 13]], by decide⟩]

/-- **C100, padding.**  The padded array has, for each sequence, as many rows as the longest of them has; the `j`-th of these is the `j`-th row of the
sequence, cut to the width of the first sequence, and rows of the padding value after its end.  The lengths are the numbers of rows. -/
theorem C100_pad (first : Arr α) (rest : List (Arr α)) (pad : α) (h : ∀ s ∈ first :: rest, s.rows = [] ∨ first.cols ≤ s.cols) :
    ∃ P L m, padSequences (first :: rest) pad = some (P, L) ∧ (∀ s ∈ first :: rest, s.rows.length ≤ m) ∧ (∃ s ∈ first :: rest, s.rows.length = m) ∧
      P.length = (first :: rest).length * m ∧ L = (first :: rest).map (fun s => (s.rows.length : Int)) ∧ (∀ r ∈ P, r.length = first.cols) ∧
      ∀ i s, (first :: rest)[i]? = some s → ∀ j < m,
        P[i * m + j]? = some (((s.rows[j]?).map (List.take first.cols)).getD (List.replicate first.cols pad)) := by
  have hle := le_longest (first :: rest)
  refine ⟨_, _, longest (first :: rest), padSequences_eq first rest pad h, hle, ?_, flatMap_len _ _ _ fun s hs => block_length (hle s hs), rfl, ?_, ?_⟩
  · rcases longest_attained (first :: rest) with h0 | h1
    · exact ⟨first, by simp, by have := hle first (by simp); omega⟩
    · exact h1
  · intro r hr
    obtain ⟨s, hs, hr⟩ := List.mem_flatMap.1 hr
    rcases List.mem_append.1 hr with hr | hr
    · obtain ⟨q, hq, rfl⟩ := List.mem_map.1 hr
      rcases h s hs with h | h
      · rw [h] at hq; cases hq
      · rw [List.length_take, s.shape q hq]; omega
    · rw [(List.mem_replicate.1 hr).2]; simp
  · intro i s hs j hj
    have hmem : s ∈ first :: rest := List.mem_of_getElem? hs
    rw [flatMap_get _ _ _ _ _ _ (fun s hs => block_length (hle s hs)) hs hj]
    unfold block
    by_cases hjl : j < s.rows.length
    · rw [List.getElem?_append_left (by simpa using hjl), List.getElem?_map, List.getElem?_eq_getElem hjl]; rfl
    · rw [List.getElem?_append_right (by simpa using hjl), List.getElem?_replicate, List.getElem?_eq_none (by omega)]
      rw [if_pos (by simp; omega)]; rfl

example : padSequences Toy.padSeqs 0 = some ([[1, 2], [3, 4], [0, 0], [0, 0], [0, 0], [0, 0], [5, 6], [8, 9], [11, 12]], [2, 0, 3]) := by decide +kernel
example : ∀ s ∈ Toy.padSeqs, s.rows = [] ∨ 2 ≤ s.cols := by decide +kernel

/-- **C100, nothing to pad.** -/
theorem C100_none (pad : α) : padSequences ([] : List (Arr α)) pad = some ([], []) := rfl

/-- **C100, the mask.**  A length that is not negative marks that many places from the left, at most all of them. -/
theorem C100_mask (lengths : List Int) (m : Nat) (h : ∀ n ∈ lengths, 0 ≤ n ∧ n < 2 ^ 63) :
    (createMask lengths m).length = lengths.length ∧ (∀ row ∈ createMask lengths m, row.length = m) ∧
      ∀ (i : Nat) (n : Int), lengths[i]? = some n → ∀ j < m, ((createMask lengths m)[i]?.bind fun row : List Bool => row[j]?) = some (decide ((j : Int) < n)) := by
  rw [createMask_eq]
  refine ⟨by simp, fun row hr => ?_, fun i n hn j hj => ?_⟩
  · obtain ⟨n, _, rfl⟩ := List.mem_map.1 hr
    simp
  · obtain ⟨h0, h1⟩ := h n (List.mem_of_getElem? hn)
    obtain ⟨k, rfl⟩ := Int.eq_ofNat_of_zero_le h0
    have hk : asUsize (k : Int) = k := asUsize_nat (by omega)
    simp only [List.getElem?_map, hn, Option.map_some, Option.bind_some, hk]
    by_cases hjk : j < k
    · rw [List.getElem?_append_left (by simp; omega), List.getElem?_replicate, if_pos (by omega)]; simp [hjk]
    · rw [List.getElem?_append_right (by simp; omega), List.getElem?_replicate, if_pos (by simp; omega)]; simp [hjk]

example : createMask [2, 0, 7] 3 = [[true, true, false], [false, false, false], [true, true, true]] := by decide +kernel

/-- **C100, taken apart again.**  If all sequences have one width, the rows of the padded array that the mask of the returned lengths marks are the rows of
all sequences, in order. -/
theorem C100_round_trip (seqs : List (Arr α)) (d : Nat) (pad : α) (h : ∀ s ∈ seqs, s.cols = d) (hsize : ∀ s ∈ seqs, s.rows.length < 2 ^ 63) :
    ∃ P L m, padSequences seqs pad = some (P, L) ∧ (∀ s ∈ seqs, s.rows.length ≤ m) ∧ P.length = ((createMask L m).flatten).length ∧
      (P.zip (createMask L m).flatten).filterMap (fun p => if p.2 then some p.1 else none) = seqs.flatMap (fun s => s.rows) := by
  cases seqs with
  | nil => exact ⟨[], [], 0, rfl, by simp, rfl, rfl⟩
  | cons first rest =>
    have hle := le_longest (first :: rest)
    have hm : longest (first :: rest) < 2 ^ 64 := by
      rcases longest_attained (first :: rest) with h0 | ⟨s, hs, h1⟩
      · omega
      · have := hsize s hs; omega
    refine ⟨_, _, longest (first :: rest), padSequences_eq first rest pad fun s hs => .inr (by rw [h s hs, h first (by simp)]), hle, ?_, ?_⟩
    · rw [flatMap_len _ _ _ fun s hs => block_length (hle s hs), createMask_eq]
      have := flatMap_len (fun n : Int => List.replicate (min (asUsize n) (longest (first :: rest))) true
        ++ List.replicate (longest (first :: rest) - min (asUsize n) (longest (first :: rest))) false) (longest (first :: rest))
        ((first :: rest).map fun s => (s.rows.length : Int)) (fun n _ => by simp)
      rw [← List.flatMap_def, this, List.length_map]
    · have := pick_blocks first.cols (longest (first :: rest)) pad hm (first :: rest) hle
      unfold pick at this
      rw [this]
      have hid : ∀ s ∈ first :: rest, s.rows.map (List.take first.cols) = s.rows := fun s hs => by
        have : ∀ r ∈ s.rows, List.take first.cols r = id r := fun r hr =>
          List.take_of_length_le (by rw [s.shape r hr, h s hs, h first (by simp)])
        rw [List.map_congr_left this, List.map_id]
      rw [List.flatMap_def, List.map_congr_left hid, ← List.flatMap_def]

example : ∀ s ∈ [(⟨2, [[1, 2], [3, 4]], by decide⟩ : Arr Nat), ⟨2, [[5, 6]], by decide⟩], s.cols = 2 ∧ s.rows.length < 2 ^ 63 := by decide +kernel

/-- **C100, a negative length** marks the whole row instead of none of it. -/
theorem C100_negative (n : Int) (m : Nat) (h0 : n < 0) (h1 : -2 ^ 63 ≤ n) (hm : m ≤ 2 ^ 63) : createMask [n] m = [List.replicate m true] := by
  have : m ≤ asUsize n := by unfold asUsize; omega
  rw [createMask_eq]; simp [Nat.min_eq_right this]

example : createMask [-1] 3 = [[true, true, true]] := by decide +kernel

/-- **C100, sequences of other widths.**  The call panics exactly if a sequence that has a row is narrower than the first one. -/
theorem C100_narrow (first : Arr α) (rest : List (Arr α)) (pad : α) :
    padSequences (first :: rest) pad = none ↔ ∃ s ∈ first :: rest, s.rows ≠ [] ∧ s.cols < first.cols :=
  padSequences_none first rest pad

/-- **C100, wider sequences** lose their last columns without a word: `padSequences` gives the same array for sequences that differ there. -/
theorem C100_wide : ∃ a b : List (Arr Nat), (a.map Arr.rows) ≠ (b.map Arr.rows) ∧ padSequences a 0 = padSequences b 0 ∧ (padSequences a 0).isSome = true :=
  ⟨[⟨1, [[1]], by decide⟩, ⟨2, [[2, 3]], by decide⟩], [⟨1, [[1]], by decide⟩, ⟨2, [[2, 4]], by decide⟩], by decide +kernel, by decide +kernel, by decide +kernel⟩

/-- **C100, rows of length one.**  Normalising divides every row by one positive number, so that its direction is kept, and makes the length of every row that
is at least `1e-12` long exactly one; shorter rows, the zero row among them, stay shorter than one and nothing is divided by zero. -/
theorem C100_normalize (rows : List (List ℝ)) : (normalizeRows rows).length = rows.length ∧
    ∀ (i : Nat) (r : List ℝ), rows[i]? = some r → ∃ c > 0, (normalizeRows rows)[i]? = some (r.map fun x => x / c) ∧
      ∀ n : ℝ, (rowNorms rows)[i]? = some n →
        (1 / 10 ^ 12 ≤ n → (rowNorms (normalizeRows rows))[i]? = some 1) ∧
        (n < 1 / 10 ^ 12 → ∃ n' : ℝ, (rowNorms (normalizeRows rows))[i]? = some n' ∧ n' = n * 10 ^ 12 ∧ 0 ≤ n' ∧ n' < 1) := by
  refine ⟨by simp [normalizeRows], fun i r hr => ?_⟩
  have hc : (0 : ℝ) < max (norm2 r) (1 / 10 ^ 12) := lt_max_of_lt_right (by positivity)
  have hn : (normalizeRows rows)[i]? = some (r.map fun x => x / max (norm2 r) (1 / 10 ^ 12)) := by
    simp only [normalizeRows, List.getElem?_map, hr, Option.map_some]; rfl
  have hr' : (rowNorms (normalizeRows rows))[i]? = some (norm2 r / max (norm2 r) (1 / 10 ^ 12)) := by
    rw [← norm2_div hc]
    simp only [rowNorms, List.getElem?_map, hn, Option.map_some]; rfl
  refine ⟨_, hc, hn, fun n hnn => ?_⟩
  have hnv : n = norm2 r := by
    simp only [rowNorms, List.getElem?_map, hr, Option.map_some, Option.some.injEq] at hnn
    exact hnn.symm
  subst hnv
  rw [hr']
  refine ⟨fun h => ?_, fun h => ⟨_, rfl, ?_, ?_, ?_⟩⟩
  · have : norm2 r ≠ 0 := by
      have : (0 : ℝ) < 1 / 10 ^ 12 := by positivity
      linarith
    rw [max_eq_left h, div_self this]
  · rw [max_eq_right h.le]; field_simp
  · exact div_nonneg (Real.sqrt_nonneg _) hc.le
  · rw [max_eq_right h.le, div_lt_one (by positivity)]; exact h

example : rowNorms [[3, 4]] = [5] := by
  have : (3 * 3 + 4 * 4 : ℝ) = 5 * 5 := by norm_num
  simp [rowNorms, this]

end NextPlaid.Props
