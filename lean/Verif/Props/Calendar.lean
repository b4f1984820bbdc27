import Verif.Proofs.Calendar

/-!
C37: timestamps.
-/

namespace NextPlaid.Props
open NextPlaid.Spec NextPlaid.Calendar

/-- C37: day 0 is 1970-01-01. -/
theorem C37_epoch : civilFromDays 0 = (1970, 1, 1) := by decide

/-- C37: for every day number, before or after the epoch, the printed date is a calendar date and the next
day number gives the calendar successor. -/
theorem C37_successor (n : Int) :
    ValidDate (civilFromDays n).1 (civilFromDays n).2.1 (civilFromDays n).2.2 ∧
    civilFromDays (n + 1) = nextDay (civilFromDays n).1 (civilFromDays n).2.1 (civilFromDays n).2.2 := by
  obtain ⟨y, m, d, hv, hn⟩ := exists_date n
  have h1 := civil_dayNumber y m d hv
  have h2 := civil_dayNumber _ _ _ (nextDay_valid hv)
  rw [dayNumber_next hv, hn] at h2
  rw [hn] at h1
  rw [h1, h2]
  exact ⟨hv, rfl⟩

/-- C37: two different days never print the same date, and every calendar date is printed for some day. -/
theorem C37_one_to_one :
    (∀ a b : Int, civilFromDays a = civilFromDays b → a = b) ∧
    ∀ y m d, ValidDate y m d → ∃ n, civilFromDays n = (y, m, d) := by
  constructor
  · intro a b h
    obtain ⟨y, m, d, hv, rfl⟩ := exists_date a
    obtain ⟨y', m', d', hv', rfl⟩ := exists_date b
    rw [civil_dayNumber _ _ _ hv, civil_dayNumber _ _ _ hv'] at h
    cases h
    rfl
  · intro y m d hv
    exact ⟨_, civil_dayNumber y m d hv⟩

theorem year_nonneg (n : Int) (h : 0 ≤ n) : 1970 ≤ (civilFromDays n).1 := by
  obtain ⟨k, rfl⟩ := Int.eq_ofNat_of_zero_le h
  induction k with
  | zero => decide
  | succ k ih =>
    have hs := (C37_successor (k : Int)).2
    have ih' := ih (by omega)
    have : ((k + 1 : Nat) : Int) = (k : Int) + 1 := by omega
    rw [this, hs]
    unfold nextDay
    (repeat' split) <;> simp only <;> omega

/-- C37: the text printed for a time after the epoch is `year-month-dayThour:minute:secondZ`, each field a
decimal numeral of the stated width (more digits after the year 9999), the date being that of the day the
time falls in and the clock time the rest. -/
theorem C37_text (t : Int) (ht : 0 ≤ t) :
    ∃ Y M D h m s : List Char,
      rfc3339 t = Y ++ ['-'] ++ M ++ ['-'] ++ D ++ ['T'] ++ h ++ [':'] ++ m ++ [':'] ++ s ++ ['Z'] ∧
      (∀ c ∈ Y ++ M ++ D ++ h ++ m ++ s, c.isDigit = true) ∧
      M.length = 2 ∧ D.length = 2 ∧ h.length = 2 ∧ m.length = 2 ∧ s.length = 2 ∧
      ((readDec Y : Int), (readDec M : Int), (readDec D : Int)) = civilFromDays (t / 86400) ∧
      (civilFromDays (t / 86400)).1 = readDec Y ∧ ((readDec Y < 10000) → Y.length = 4) ∧
      readDec h < 24 ∧ readDec m < 60 ∧ readDec s < 60 ∧
      t = 86400 * (t / 86400) + 3600 * readDec h + 60 * readDec m + readDec s := by
  have hv := (C37_successor (t / 86400)).1
  have hy := year_nonneg (t / 86400) (by omega)
  have hml := monthLength_pos (civilFromDays (t / 86400)).1 (civilFromDays (t / 86400)).2.1
  obtain ⟨hm1, hm2, hd1, hd2⟩ := hv
  rcases hc : civilFromDays (t / 86400) with ⟨Y, M, D⟩
  rw [hc] at hm1 hm2 hd1 hd2 hy hml
  simp only at hm1 hm2 hd1 hd2 hy hml
  have hs0 : 0 ≤ t % 86400 := by omega
  have e1 : (t % 86400).tdiv 3600 = t % 86400 / 3600 := Int.tdiv_eq_ediv_of_nonneg hs0
  have e2 : (t % 86400).tmod 3600 = t % 86400 % 3600 := Int.tmod_eq_emod_of_nonneg hs0
  have e3 : (t % 86400 % 3600).tdiv 60 = t % 86400 % 3600 / 60 := Int.tdiv_eq_ediv_of_nonneg (by omega)
  have e4 : (t % 86400).tmod 60 = t % 86400 % 60 := Int.tmod_eq_emod_of_nonneg hs0
  refine ⟨padded 4 Y, padded 2 M, padded 2 D, padded 2 (t % 86400 / 3600), padded 2 (t % 86400 % 3600 / 60),
    padded 2 (t % 86400 % 60), ?_, ?_, ?_, ?_, ?_, ?_, ?_, ?_, ?_, ?_, ?_, ?_, ?_, ?_⟩
  · unfold rfc3339
    rw [if_neg (by omega)]
    simp only [hc, e1, e2, e3, e4]
  · intro c hcm
    simp only [List.mem_append] at hcm
    rcases hcm with ((((h | h) | h) | h) | h) | h <;> exact padded_digits _ _ _ h
  all_goals try exact padded_length _ _ (by decide) (by omega)
  · rw [padded_read _ _ (by omega), padded_read _ _ (by omega), padded_read _ _ (by omega)]
  · rw [padded_read _ _ (by omega)]
  · intro h
    apply padded_length _ _ (by decide)
    have := padded_read 4 Y (by omega)
    omega
  · have := padded_read 2 (t % 86400 / 3600) (by omega); omega
  · have := padded_read 2 (t % 86400 % 3600 / 60) (by omega); omega
  · have := padded_read 2 (t % 86400 % 60) (by omega); omega
  · have a1 := padded_read 2 (t % 86400 / 3600) (by omega)
    have a2 := padded_read 2 (t % 86400 % 3600 / 60) (by omega)
    have a3 := padded_read 2 (t % 86400 % 60) (by omega)
    rw [a1, a2, a3]
    omega

/-- 2024-02-29T23:59:59Z, a leap day. -/
example : rfc3339 1709251199 = ['2', '0', '2', '4', '-', '0', '2', '-', '2', '9', 'T', '2', '3', ':', '5', '9', ':',
    '5', '9', 'Z'] := by decide +kernel

/-- A clock before 1970 prints the epoch. -/
theorem C37_before_epoch (t : Int) (h : t < 0) : rfc3339 t = rfc3339 0 := by
  unfold rfc3339
  rw [if_pos h, if_neg (by omega)]

end NextPlaid.Props
