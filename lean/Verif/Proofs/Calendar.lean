import Verif.Model.Calendar
import Verif.Spec.Calendar
import Mathlib.Tactic.ByContra

namespace NextPlaid.Calendar
open NextPlaid.Spec

/-- The year inside a 400-year era from the day inside it. -/
theorem year_of_era (c q r doy : Int) (hc : 0 ≤ c ∧ c < 4) (hq : 0 ≤ q ∧ q < 25) (hr : 0 ≤ r ∧ r < 4)
    (hd : 0 ≤ doy)
    (h1 : doy < 365 + (if r = 3 then (if q = 24 then (if c = 3 then 1 else 0) else 1) else 0)) (doe yoe : Int)
    (hdoe : doe = 36524 * c + 1461 * q + 365 * r + doy)
    (hy : yoe = (doe - doe / 1460 + doe / 36524 - doe / 146096) / 365) :
    yoe = 100 * c + 4 * q + r := by
  have hlast : doy ≤ 365 := by (repeat' split at h1) <;> omega
  have hl2 : doy = 365 → r = 3 := by intro h; by_contra hh; rw [if_neg hh] at h1; omega
  by_cases hE : doe = 146096
  · subst hE
    have : r = 3 := by omega
    omega
  · have hb : doe < 146096 := by (repeat' split at h1) <;> omega
    have e1 : doe / 146096 = 0 := by omega
    have e2 : doe / 36524 = c := by (repeat' split at h1) <;> omega
    have hd' : doe = 1460 * (25 * c + q) + (24 * c + q + 365 * r + doy) := by omega
    have e3 : doe / 1460 = 25 * c + q + (24 * c + q + 365 * r + doy) / 1460 := by omega
    rw [e1, e2, e3] at hy
    by_cases hx : 24 * c + q + 365 * r + doy < 1460
    · have : (24 * c + q + 365 * r + doy) / 1460 = 0 := by omega
      rw [this] at hy
      omega
    · have : (24 * c + q + 365 * r + doy) / 1460 = 1 := by omega
      rw [this] at hy
      omega

/-- Month (0 = March) and day from the day of a year that starts in March. -/
def monthOf (doy : Int) : Int := (5 * doy + 2) / 153

/-- Days before month `mp` in a year that starts in March. -/
def before (mp : Int) : Int := (153 * mp + 2) / 5

/-- Day number of a date, for a year that starts in March. -/
def dayNumber (y m d : Int) : Int :=
  let y' := if m ≤ 2 then y - 1 else y
  let mp := if m ≤ 2 then m + 9 else m - 3
  365 * y' + y' / 4 - y' / 100 + y' / 400 + before mp + d - 1 - 719468

theorem era_div (z : Int) : (if z ≥ 0 then z else z - 146096).tdiv 146097 = z / 146097 := by
  split
  · rw [Int.tdiv_eq_ediv_of_nonneg (by assumption)]
  · have hs : Int.sign 146097 = 1 := rfl
    rw [Int.tdiv_eq_ediv, hs]
    split <;> omega

/-- The code with its divisions written as floor divisions, given the era's part of the day. -/
theorem civil_eq (era doe yoe doy : Int) (h0 : 0 ≤ doe) (h1 : doe < 146097)
    (hy : yoe = (doe - doe / 1460 + doe / 36524 - doe / 146096) / 365) (hy0 : 0 ≤ yoe)
    (hdoy : doy = doe - (365 * yoe + yoe / 4 - yoe / 100)) (hd0 : 0 ≤ doy) :
    civilFromDays (era * 146097 + doe - 719468) =
      (yoe + era * 400 + (if (monthOf doy + if monthOf doy < 10 then 3 else -9) ≤ 2 then 1 else 0),
        monthOf doy + (if monthOf doy < 10 then 3 else -9), doy - before (monthOf doy) + 1) := by
  have hz : era * 146097 + doe - 719468 + 719468 = era * 146097 + doe := by omega
  have he : (era * 146097 + doe) / 146097 = era := by omega
  have hm0 : 0 ≤ monthOf doy := by unfold monthOf; omega
  unfold civilFromDays
  simp only [era_div]
  rw [hz, he]
  have hdd : era * 146097 + doe - era * 146097 = doe := by omega
  rw [hdd]
  rw [Int.tdiv_eq_ediv_of_nonneg (a := doe) h0, Int.tdiv_eq_ediv_of_nonneg (a := doe) h0,
    Int.tdiv_eq_ediv_of_nonneg (a := doe) h0]
  rw [Int.tdiv_eq_ediv_of_nonneg (a := doe - doe / 1460 + doe / 36524 - doe / 146096) (by omega)]
  rw [← hy, Int.tdiv_eq_ediv_of_nonneg hy0, Int.tdiv_eq_ediv_of_nonneg hy0, ← hdoy]
  rw [Int.tdiv_eq_ediv_of_nonneg (a := 5 * doy + 2) (by omega)]
  change (_, _, doy - (153 * monthOf doy + 2).tdiv 5 + 1) = _
  rw [Int.tdiv_eq_ediv_of_nonneg (a := 153 * monthOf doy + 2) (by omega)]
  rfl

/-- Reading off the year of a March-based date. -/
theorem civil_of_march (y' doy : Int) (hd : 0 ≤ doy)
    (h1 : doy < 365 + (if leapYear (y' + 1) then 1 else 0)) :
    civilFromDays (365 * y' + y' / 4 - y' / 100 + y' / 400 + doy - 719468) =
      (y' + (if (monthOf doy + if monthOf doy < 10 then 3 else -9) ≤ 2 then 1 else 0),
        monthOf doy + (if monthOf doy < 10 then 3 else -9), doy - before (monthOf doy) + 1) := by
  obtain ⟨era, c, q, r, hy, hc, hq, hr⟩ : ∃ era c q r : Int, y' = 400 * era + 100 * c + 4 * q + r ∧
      (0 ≤ c ∧ c < 4) ∧ (0 ≤ q ∧ q < 25) ∧ (0 ≤ r ∧ r < 4) :=
    ⟨y' / 400, y' % 400 / 100, y' % 100 / 4, y' % 4, by omega, by omega, by omega, by omega⟩
  have hleap : leapYear (y' + 1) = true ↔ r = 3 ∧ (q = 24 → c = 3) := by
    unfold leapYear
    simp only [Bool.and_eq_true, Bool.or_eq_true, beq_iff_eq, bne_iff_ne]
    have e1 : (y' + 1) % 4 = 0 ↔ r = 3 := by omega
    have e2 : (y' + 1) % 100 = 0 ↔ (r = 3 ∧ q = 24) := by omega
    have e3 : (y' + 1) % 400 = 0 ↔ (r = 3 ∧ q = 24 ∧ c = 3) := by omega
    rw [e1, Ne, e2, e3]
    by_cases h1 : r = 3 <;> by_cases h2 : q = 24 <;> by_cases h3 : c = 3 <;> simp [h1, h2, h3]
  have h1' : doy < 365 + (if r = 3 then (if q = 24 then (if c = 3 then 1 else 0) else 1) else 0) := by
    by_cases hl : leapYear (y' + 1) = true
    · rw [if_pos hl] at h1
      obtain ⟨hr3, hq3⟩ := hleap.1 hl
      rw [if_pos hr3]
      split
      · rw [if_pos (hq3 (by assumption))]; exact h1
      · exact h1
    · rw [if_neg hl] at h1
      have : (0 : Int) ≤ (if r = 3 then (if q = 24 then (if c = 3 then 1 else 0) else 1) else 0) := by
        repeat' split
        all_goals omega
      omega
  obtain ⟨doe, hdoe⟩ : ∃ doe, doe = 36524 * c + 1461 * q + 365 * r + doy := ⟨_, rfl⟩
  obtain ⟨yoe, hyoe0⟩ : ∃ yoe, yoe = (doe - doe / 1460 + doe / 36524 - doe / 146096) / 365 := ⟨_, rfl⟩
  have hy1 : 365 * y' + y' / 4 - y' / 100 + y' / 400 + doy =
      era * 146097 + doe := by
    have e1 : y' / 4 = 100 * era + 25 * c + q := by omega
    have e2 : y' / 100 = 4 * era + c := by omega
    have e3 : y' / 400 = era := by omega
    rw [e1, e2, e3]
    omega
  have hyoe := year_of_era c q r doy hc hq hr hd h1' doe yoe hdoe hyoe0
  have hlast : doy ≤ 365 ∧ (doy = 365 → r = 3 ∧ (q = 24 → c = 3)) := by
    by_cases hl : leapYear (y' + 1) = true
    · rw [if_pos hl] at h1
      exact ⟨by omega, fun _ => hleap.1 hl⟩
    · rw [if_neg hl] at h1
      exact ⟨by omega, fun h => by omega⟩
  have hbound : doe < 146097 := by
    by_cases hh : doy = 365
    · omega
    · omega
  rw [hy1]
  have hdoy : doy = doe - (365 * yoe + yoe / 4 - yoe / 100) := by
    clear hyoe0 hy1 hy h1 h1' hleap hlast hbound
    have e1 : yoe / 4 = 25 * c + q := by omega
    have e2 : yoe / 100 = c := by omega
    rw [e1, e2, hyoe, hdoe]
    omega
  rw [civil_eq era doe yoe doy (by clear hyoe0; omega) hbound hyoe0 (by clear hyoe0; omega) hdoy hd]
  have : yoe + era * 400 = y' := by clear hyoe0 hy1; omega
  rw [this]

/-- The printed date inverts the day number. -/
theorem civil_dayNumber (y m d : Int) (h : ValidDate y m d) : civilFromDays (dayNumber y m d) = (y, m, d) := by
  obtain ⟨hm1, hm2, hd1, hd2⟩ := h
  have key : ∀ (y' mp doy : Int), doy = before mp + d - 1 → 0 ≤ doy →
      doy < 365 + (if leapYear (y' + 1) then 1 else 0) → monthOf doy = mp →
      dayNumber y m d = 365 * y' + y' / 4 - y' / 100 + y' / 400 + doy - 719468 →
      mp + (if mp < 10 then 3 else -9) = m → y' + (if m ≤ 2 then 1 else 0) = y →
      civilFromDays (dayNumber y m d) = (y, m, d) := by
    intro y' mp doy h1 h2 h3 h4 h5 h6 h7
    rw [h5, civil_of_march y' doy h2 h3, h4, h6, h7]
    congr 2
    omega
  have hm : m = 1 ∨ m = 2 ∨ m = 3 ∨ m = 4 ∨ m = 5 ∨ m = 6 ∨ m = 7 ∨ m = 8 ∨ m = 9 ∨ m = 10 ∨ m = 11 ∨ m = 12 := by
    omega
  have hml : ∀ n, monthLength y m = n → d ≤ n := fun n hn => hn ▸ hd2
  have hnn : ∀ b : Bool, (0 : Int) ≤ (if b then 1 else 0) := by intro b; cases b <;> simp
  rcases hm with rfl | rfl | rfl | rfl | rfl | rfl | rfl | rfl | rfl | rfl | rfl | rfl
  · have hd := hml 31 rfl
    have := hnn (leapYear (y - 1 + 1))
    exact key (y - 1) 10 (306 + d - 1) (by rfl) (by omega) (by omega) (by unfold monthOf; omega)
      (by simp [dayNumber, before]; omega) (by rfl) (by simp)
  · have hy : y - 1 + 1 = y := by omega
    refine key (y - 1) 11 (337 + d - 1) (by rfl) (by omega) ?_ ?_
      (by simp [dayNumber, before]; omega) (by rfl) (by simp)
    · rw [hy]
      by_cases hl : leapYear y = true
      · have hd := hml 29 (by simp [monthLength, hl])
        rw [if_pos hl]; omega
      · have hd := hml 28 (by simp [monthLength, hl])
        rw [if_neg hl]; omega
    · have hd : d ≤ 29 := by
        by_cases hl : leapYear y = true
        · exact hml 29 (by simp [monthLength, hl])
        · have := hml 28 (by simp [monthLength, hl]); omega
      unfold monthOf; omega
  · have hd := hml 31 rfl
    have := hnn (leapYear (y + 1))
    exact key y 0 (0 + d - 1) (by rfl) (by omega) (by omega) (by unfold monthOf; omega)
      (by simp [dayNumber, before]; omega) (by rfl) (by simp)
  · have hd := hml 30 rfl
    have := hnn (leapYear (y + 1))
    exact key y 1 (31 + d - 1) (by rfl) (by omega) (by omega) (by unfold monthOf; omega)
      (by simp [dayNumber, before]; omega) (by rfl) (by simp)
  · have hd := hml 31 rfl
    have := hnn (leapYear (y + 1))
    exact key y 2 (61 + d - 1) (by rfl) (by omega) (by omega) (by unfold monthOf; omega)
      (by simp [dayNumber, before]; omega) (by rfl) (by simp)
  · have hd := hml 30 rfl
    have := hnn (leapYear (y + 1))
    exact key y 3 (92 + d - 1) (by rfl) (by omega) (by omega) (by unfold monthOf; omega)
      (by simp [dayNumber, before]; omega) (by rfl) (by simp)
  · have hd := hml 31 rfl
    have := hnn (leapYear (y + 1))
    exact key y 4 (122 + d - 1) (by rfl) (by omega) (by omega) (by unfold monthOf; omega)
      (by simp [dayNumber, before]; omega) (by rfl) (by simp)
  · have hd := hml 31 rfl
    have := hnn (leapYear (y + 1))
    exact key y 5 (153 + d - 1) (by rfl) (by omega) (by omega) (by unfold monthOf; omega)
      (by simp [dayNumber, before]; omega) (by rfl) (by simp)
  · have hd := hml 30 rfl
    have := hnn (leapYear (y + 1))
    exact key y 6 (184 + d - 1) (by rfl) (by omega) (by omega) (by unfold monthOf; omega)
      (by simp [dayNumber, before]; omega) (by rfl) (by simp)
  · have hd := hml 31 rfl
    have := hnn (leapYear (y + 1))
    exact key y 7 (214 + d - 1) (by rfl) (by omega) (by omega) (by unfold monthOf; omega)
      (by simp [dayNumber, before]; omega) (by rfl) (by simp)
  · have hd := hml 30 rfl
    have := hnn (leapYear (y + 1))
    exact key y 8 (245 + d - 1) (by rfl) (by omega) (by omega) (by unfold monthOf; omega)
      (by simp [dayNumber, before]; omega) (by rfl) (by simp)
  · have hd := hml 31 rfl
    have := hnn (leapYear (y + 1))
    exact key y 9 (275 + d - 1) (by rfl) (by omega) (by omega) (by unfold monthOf; omega)
      (by simp [dayNumber, before]; omega) (by rfl) (by simp)

theorem monthLength_pos (y m : Int) : 28 ≤ monthLength y m ∧ monthLength y m ≤ 31 := by
  unfold monthLength
  (repeat' split) <;> omega

theorem nextDay_valid {y m d : Int} (h : ValidDate y m d) :
    ValidDate (nextDay y m d).1 (nextDay y m d).2.1 (nextDay y m d).2.2 := by
  obtain ⟨h1, h2, h3, h4⟩ := h
  have p1 := monthLength_pos y (m + 1)
  have p2 := monthLength_pos (y + 1) 1
  unfold nextDay ValidDate
  split
  · exact ⟨h1, h2, by simp only; omega, by simp only; omega⟩
  · split
    · exact ⟨by simp only; omega, by simp only; omega, by simp only; omega, by simp only; omega⟩
    · exact ⟨by simp only; omega, by simp only; omega, by simp only; omega, by simp only; omega⟩

theorem dayNumber_next {y m d : Int} (h : ValidDate y m d) :
    dayNumber (nextDay y m d).1 (nextDay y m d).2.1 (nextDay y m d).2.2 = dayNumber y m d + 1 := by
  obtain ⟨hm1, hm2, hd1, hd2⟩ := h
  have hm : m = 1 ∨ m = 2 ∨ m = 3 ∨ m = 4 ∨ m = 5 ∨ m = 6 ∨ m = 7 ∨ m = 8 ∨ m = 9 ∨ m = 10 ∨ m = 11 ∨ m = 12 := by
    omega
  unfold nextDay
  split
  · unfold dayNumber
    simp only
    omega
  · rename_i hlt
    have hd : d = monthLength y m := by omega
    subst hd
    rcases hm with rfl | rfl | rfl | rfl | rfl | rfl | rfl | rfl | rfl | rfl | rfl | rfl
    · simp [dayNumber, before, monthLength]; omega
    · simp only [dayNumber, before, monthLength, leapYear]
      simp
      by_cases h1 : y % 4 = 0 <;> by_cases h2 : y % 100 = 0 <;> by_cases h3 : y % 400 = 0 <;> simp [h1, h2, h3] <;> omega
    all_goals (simp [dayNumber, before, monthLength]; try omega)

theorem dayNumber_shift (y m d k : Int) : dayNumber (y + 400 * k) m d = dayNumber y m d + 146097 * k := by
  unfold dayNumber
  simp only
  split <;> omega

theorem leapYear_shift (y k : Int) : leapYear (y + 400 * k) = leapYear y := by
  unfold leapYear
  have h1 : (y + 400 * k) % 4 = y % 4 := by omega
  have h2 : (y + 400 * k) % 100 = y % 100 := by omega
  have h3 : (y + 400 * k) % 400 = y % 400 := by omega
  rw [h1, h2, h3]

theorem valid_shift {y m d : Int} (k : Int) (h : ValidDate y m d) : ValidDate (y + 400 * k) m d := by
  unfold ValidDate monthLength at *
  rw [leapYear_shift]
  exact h

/-- Every day number belongs to a date. -/
theorem exists_date (n : Int) : ∃ y m d, ValidDate y m d ∧ dayNumber y m d = n := by
  have hnat : ∀ k : Nat, ∃ y m d, ValidDate y m d ∧ dayNumber y m d = (k : Int) := by
    intro k
    induction k with
    | zero => exact ⟨1970, 1, 1, by unfold ValidDate; decide, by decide⟩
    | succ k ih =>
      obtain ⟨y, m, d, hv, hn⟩ := ih
      refine ⟨_, _, _, nextDay_valid hv, ?_⟩
      rw [dayNumber_next hv, hn]
      omega
  obtain ⟨y, m, d, hv, hn⟩ := hnat (n + 146097 * (n.natAbs : Int)).toNat
  refine ⟨y + 400 * (-(n.natAbs : Int)), m, d, valid_shift _ hv, ?_⟩
  rw [dayNumber_shift, hn]
  omega

/-! ### Decimal numerals -/

theorem digitChar_val : ∀ d : Nat, d < 10 → (Nat.digitChar d).toNat - '0'.toNat = d := by decide

theorem readDec_append (a : List Char) (c : Char) : readDec (a ++ [c]) = 10 * readDec a + (c.toNat - '0'.toNat) := by
  unfold readDec
  rw [List.foldl_append]
  rfl

theorem readDec_toDigits (n : Nat) : readDec (Nat.toDigits 10 n) = n := by
  induction n using Nat.strongRecOn with
  | ind n ih =>
    rw [Nat.toDigits_eq_if (by decide)]
    split
    · rename_i h
      unfold readDec
      simp only [List.foldl_cons, List.foldl_nil]
      rw [digitChar_val n h]
      omega
    · rename_i h
      rw [readDec_append, ih (n / 10) (by omega), digitChar_val _ (by omega)]
      omega

theorem readDec_zeros (k : Nat) (s : List Char) : readDec (List.replicate k '0' ++ s) = readDec s := by
  induction k with
  | zero => rfl
  | succ k ih =>
    rw [List.replicate_succ, List.cons_append]
    unfold readDec at ih ⊢
    rw [List.foldl_cons]
    exact ih

theorem toDigits_length (n k : Nat) (hk : 0 < k) (h : n < 10 ^ k) : (Nat.toDigits 10 n).length ≤ k := by
  induction k generalizing n with
  | zero => omega
  | succ k ih =>
    rw [Nat.toDigits_eq_if (by decide)]
    split
    · simp
    · rename_i hn
      rw [List.length_append, List.length_singleton]
      rcases k with _ | k
      · simp at h; omega
      · have := ih (n / 10) (by omega) (by rw [Nat.pow_succ] at h; omega)
        omega

theorem padded_read (w : Nat) (x : Int) (hx : 0 ≤ x) : (readDec (padded w x) : Int) = x := by
  unfold padded
  rw [readDec_zeros, readDec_toDigits]
  omega

theorem padded_length (w : Nat) (x : Int) (hw : 0 < w) (h : x.toNat < 10 ^ w) : (padded w x).length = w := by
  unfold padded
  have := toDigits_length x.toNat w hw h
  rw [List.length_append, List.length_replicate]
  omega

theorem padded_digits (w : Nat) (x : Int) (c : Char) (hc : c ∈ padded w x) : c.isDigit = true := by
  unfold padded at hc
  rcases List.mem_append.1 hc with h | h
  · rw [List.eq_of_mem_replicate h]; rfl
  · exact Nat.isDigit_of_mem_toDigits (by decide) (by decide) h

end NextPlaid.Calendar
