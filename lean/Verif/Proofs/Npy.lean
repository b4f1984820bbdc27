import Verif.Model.Npy
import Verif.Proofs.Calendar
import Mathlib.Data.List.Basic

namespace NextPlaid.Npy
open NextPlaid.Spec NextPlaid.Calendar

theorem leBytes_length (n v : Nat) : (leBytes n v).length = n := by
  induction n generalizing v with
  | zero => rfl
  | succ n ih => simp [leBytes, ih]

theorem leVal_leBytes (n v : Nat) : leVal (leBytes n v) = v % 256 ^ n := by
  induction n generalizing v with
  | zero => simp [leBytes, leVal]; omega
  | succ n ih =>
    unfold leBytes leVal
    rw [ih, Nat.pow_succ, Nat.mul_comm (256 ^ n) 256, Nat.mod_mul]

theorem leBytes_lt (n v : Nat) : ∀ b ∈ leBytes n v, b < 256 := by
  induction n generalizing v with
  | zero => simp [leBytes]
  | succ n ih =>
    intro b hb
    unfold leBytes at hb
    rcases List.mem_cons.1 hb with rfl | hb
    · omega
    · exact ih _ b hb

theorem i64_round (v : Int) (h1 : -2 ^ 63 ≤ v) (h2 : v < 2 ^ 63) : i64Val (i64Bytes v) = v := by
  unfold i64Val i64Bytes
  rw [leVal_leBytes]
  have : (256 : Nat) ^ 8 = 2 ^ 64 := by decide
  rw [this]
  have h3 : (v % 2 ^ 64).toNat < 2 ^ 64 := by omega
  rw [Nat.mod_eq_of_lt h3]
  split <;> omega

theorem i64Bytes_length (v : Int) : (i64Bytes v).length = 8 := leBytes_length _ _

/-- The padded header text. -/
def padText (dict : List Char) : List Char := dict ++ List.replicate (headerLayout dict).1 ' ' ++ ['\n']

theorem padText_length (dict : List Char) : 10 + (padText dict).length = (headerLayout dict).2 := by
  unfold padText headerLayout
  simp
  omega

theorem writeHeader_length (dict : List Char) : (writeHeader dict).length = (headerLayout dict).2 := by
  rw [← padText_length]
  unfold writeHeader
  simp [magic, leBytes_length, padText]
  omega

theorem writeHeader_eq (dict : List Char) : writeHeader dict =
    [0x93, 78, 85, 77, 80, 89, 1, 0] ++ leBytes 2 ((padText dict).length % 2 ^ 16) ++ (padText dict).map Char.toNat := by
  unfold writeHeader padText
  rfl

theorem headerText_write (dict : List Char) (hascii : ∀ c ∈ dict, c.toNat < 128) (hlen : dict.length < 60000)
    (data : List Nat) :
    headerText (writeHeader dict ++ data) = .ok (padText dict, (headerLayout dict).2) := by
  have hpl : (padText dict).length < 2 ^ 16 := by
    unfold padText headerLayout
    simp
    omega
  obtain ⟨b0, b1, hb⟩ : ∃ b0 b1, leBytes 2 ((padText dict).length % 2 ^ 16) = [b0, b1] := ⟨_, _, rfl⟩
  have hv : leVal [b0, b1] = (padText dict).length := by
    rw [← hb, leVal_leBytes]
    omega
  have hfile : writeHeader dict ++ data =
      [0x93, 78, 85, 77, 80, 89, 1, 0, b0, b1] ++ ((padText dict).map Char.toNat ++ data) := by
    rw [writeHeader_eq, hb]
    simp
  have hL := padText_length dict
  unfold headerText
  rw [hfile]
  have h1 : ¬ ([0x93, 78, 85, 77, 80, 89, 1, 0, b0, b1] ++ ((padText dict).map Char.toNat ++ data)).length < 10 := by
    simp
  rw [if_neg h1, if_neg (by simp [magic]), if_pos (by rfl)]
  have h2 : leVal ((([0x93, 78, 85, 77, 80, 89, 1, 0, b0, b1] ++ ((padText dict).map Char.toNat ++ data)).drop 8).take 2) =
      (padText dict).length := by
    rw [← hv]; rfl
  simp only [h2]
  rw [if_neg (by simp; omega)]
  have h3 : ((([0x93, 78, 85, 77, 80, 89, 1, 0, b0, b1] ++ ((padText dict).map Char.toNat ++ data)).take
      (10 + (padText dict).length)).drop 10) = (padText dict).map Char.toNat := by
    rw [← List.append_assoc, List.take_left' (by simp; omega), List.drop_left' (by simp)]
  rw [h3]
  have h4 : fromUtf8 ((padText dict).map Char.toNat) = .ok (padText dict) := by
    unfold fromUtf8
    rw [if_pos]
    · rw [List.map_map]
      congr 1
      conv => rhs; rw [← List.map_id (padText dict)]
      apply List.map_congr_left
      intro c _
      simp [Char.ofNat_toNat]
    · rw [List.all_eq_true]
      intro b hb
      obtain ⟨c, hc, rfl⟩ := List.mem_map.1 hb
      unfold padText at hc
      simp only [List.mem_append, List.mem_singleton] at hc
      rcases hc with (hc | hc) | rfl
      · simpa using hascii c hc
      · rw [List.eq_of_mem_replicate hc]; decide
      · decide
  rw [h4, hL]
  rfl

/-! ### Parsing the shape -/

theorem digit_facts : ∀ c : Char, c.isDigit = true → isSpace c = false ∧ c ≠ ',' ∧ c ≠ '(' ∧ c ≠ ')' ∧ c ≠ '+' ∧ c ≠ '\'' ∧ c.toNat < 128 := by
  intro c h
  have hb : 48 ≤ c.toNat ∧ c.toNat ≤ 57 := by
    simp only [Char.isDigit, Bool.and_eq_true, decide_eq_true_eq] at h
    exact ⟨h.1, h.2⟩
  refine ⟨?_, ?_, ?_, ?_, ?_, ?_, by omega⟩
  · unfold isSpace
    simp only [Bool.or_eq_false_iff, Bool.and_eq_false_iff, decide_eq_false_iff_not, beq_eq_false_iff_ne]
    omega
  all_goals (rintro rfl; revert hb; decide)

theorem toDigits_digit {n : Nat} {c : Char} (h : c ∈ Nat.toDigits 10 n) : c.isDigit = true :=
  Nat.isDigit_of_mem_toDigits (by decide) (by decide) h

theorem toDigits_ne_nil (n : Nat) : Nat.toDigits 10 n ≠ [] := by
  rw [Nat.toDigits_eq_if (by decide)]
  split <;> simp

theorem decVal_toDigits (n : Nat) : decVal (Nat.toDigits 10 n) = n := readDec_toDigits n

theorem parseUsize_toDigits (n : Nat) (h : n < 2 ^ 64) : parseUsize (Nat.toDigits 10 n) = some n := by
  unfold parseUsize
  have hplus : ¬ (Nat.toDigits 10 n).head? = some '+' := by
    intro hh
    have := (digit_facts '+' (toDigits_digit (n := n) (List.mem_of_head? hh))).2.2.2.2.1
    exact this rfl
  simp only [if_neg hplus]
  rw [if_neg (toDigits_ne_nil n), decVal_toDigits, if_pos]
  rw [Bool.and_eq_true]
  refine ⟨List.all_eq_true.2 (fun c hc => toDigits_digit hc), by simpa using h⟩

theorem dropWhile_of_head {p : Char → Bool} {l : List Char} (h : ∀ c, l.head? = some c → p c = false) :
    l.dropWhile p = l := by
  cases l with
  | nil => rfl
  | cons a l => rw [List.dropWhile_cons_of_neg]; simpa using h a rfl

/-- Trimming leaves digits surrounded by spaces. -/
theorem trim_digits (n : Nat) : trim (Nat.toDigits 10 n) = Nat.toDigits 10 n ∧
    trim (' ' :: Nat.toDigits 10 n) = Nat.toDigits 10 n := by
  have h1 : (Nat.toDigits 10 n).dropWhile isSpace = Nat.toDigits 10 n :=
    dropWhile_of_head (fun c hc => (digit_facts c (toDigits_digit (n := n) (List.mem_of_head? hc))).1)
  have h2 : (Nat.toDigits 10 n).reverse.dropWhile isSpace = (Nat.toDigits 10 n).reverse :=
    dropWhile_of_head (fun c hc => (digit_facts c (toDigits_digit (n := n)
      (List.mem_reverse.1 (List.mem_of_head? hc)))).1)
  have h3 : (' ' :: Nat.toDigits 10 n).dropWhile isSpace = Nat.toDigits 10 n := by
    rw [List.dropWhile_cons_of_pos (by decide), h1]
  constructor
  · unfold trim; rw [h1, h2, List.reverse_reverse]
  · unfold trim; rw [h3, h2, List.reverse_reverse]

theorem splitComma_none (s : List Char) (h : ',' ∉ s) : splitComma s = [s] := by
  induction s with
  | nil => rfl
  | cons c s ih =>
    rw [List.mem_cons, not_or] at h
    unfold splitComma
    rw [ih h.2]
    simp only
    rw [if_neg (fun hc => h.1 hc.symm)]

theorem splitComma_append (s t : List Char) (h : ',' ∉ s) : splitComma (s ++ ',' :: t) = s :: splitComma t := by
  have hne : ∀ t, splitComma t ≠ [] := by
    intro t
    induction t with
    | nil => simp [splitComma]
    | cons c t ih =>
      unfold splitComma
      split
      · contradiction
      · split <;> simp
  induction s with
  | nil =>
    rw [List.nil_append]
    conv => lhs; unfold splitComma
    rcases hs : splitComma t with _ | ⟨w, ws⟩
    · exact absurd hs (hne t)
    · simp
  | cons c s ih =>
    rw [List.mem_cons, not_or] at h
    rw [List.cons_append]
    conv => lhs; unfold splitComma
    rw [ih h.2]
    simp only
    rw [if_neg (fun hc => h.1 hc.symm)]

theorem comma_not_digit (n : Nat) : ',' ∉ Nat.toDigits 10 n := by
  intro h
  exact (digit_facts _ (toDigits_digit h)).2.1 rfl

theorem parseDims_1d (n : Nat) (h : n < 2 ^ 64) : parseDims (splitComma (Nat.toDigits 10 n ++ [','])) = .ok [n] := by
  rw [splitComma_append _ _ (comma_not_digit n)]
  unfold parseDims
  rw [(trim_digits n).1, if_neg (toDigits_ne_nil n), parseUsize_toDigits n h]
  rfl

theorem parseDims_2d (r c : Nat) (hr : r < 2 ^ 64) (hc : c < 2 ^ 64) :
    parseDims (splitComma (Nat.toDigits 10 r ++ ',' :: ' ' :: Nat.toDigits 10 c)) = .ok [r, c] := by
  rw [splitComma_append _ _ (comma_not_digit r), splitComma_none _ (by simp [comma_not_digit c])]
  unfold parseDims
  rw [(trim_digits r).1, if_neg (toDigits_ne_nil r), parseUsize_toDigits r hr]
  unfold parseDims
  rw [(trim_digits c).2, if_neg (toDigits_ne_nil c), parseUsize_toDigits c hc]
  rfl

/-- The dtypes the library writes. -/
def dtypes : List (List Char) := [['<', 'i', '8'], ['|', 'u', '1'], ['<', 'f', '4'], ['<', 'i', '4']]

/-- The header text up to and including the opening parenthesis is followed by `inner`, then `)`. -/
theorem parseShape_of (dtype inner tail : List Char) (hd : dtype ∈ dtypes) (h1 : '(' ∉ inner) (h2 : ')' ∉ inner) :
    parseShape (descrPrefix ++ dtype ++ shapePrefix ++ inner ++ (')' :: tail)) = parseDims (splitComma inner) := by
  have key : ∀ X, afterSub ['\'', 's', 'h', 'a', 'p', 'e', '\'', ':'] (descrPrefix ++ dtype ++ shapePrefix ++ X) =
      some (' ' :: '(' :: X) := by
    intro X
    simp only [dtypes, List.mem_cons, List.not_mem_nil, or_false] at hd
    rcases hd with rfl | rfl | rfl | rfl <;> rfl
  unfold parseShape
  rw [List.append_assoc (bs := inner), key]
  simp only
  have hi1 : (' ' :: '(' :: (inner ++ ')' :: tail)).idxOf '(' = 1 := by rfl
  have hi2 : (' ' :: '(' :: (inner ++ ')' :: tail)).idxOf ')' = inner.length + 2 := by
    rw [List.idxOf_cons_ne _ (by decide), List.idxOf_cons_ne _ (by decide), List.idxOf_append_of_notMem h2,
      List.idxOf_cons_self]
  rw [if_neg (by simp), hi1, hi2, if_neg (by omega)]
  congr 2
  rw [show inner.length + 2 = (inner.length + 1) + 1 from rfl, List.take_succ_cons, List.take_succ_cons,
    List.take_left' rfl]
  rfl

theorem afterSub_none {pat s : List Char} {q : Char} (hp : pat.head? = some q) (hs : q ∉ s) : afterSub pat s = none := by
  induction s with
  | nil =>
    unfold afterSub
    rw [if_neg]
    rintro rfl
    simp at hp
  | cons c s ih =>
    rw [List.mem_cons, not_or] at hs
    unfold afterSub
    rw [if_neg]
    · exact ih hs.2
    · obtain ⟨p, ps, rfl⟩ : ∃ p ps, pat = p :: ps := by
        cases pat with
        | nil => simp at hp
        | cons p ps => exact ⟨p, ps, rfl⟩
      simp only [List.head?_cons, Option.some.injEq] at hp
      subst hp
      simp [hs.1]

theorem fortran_false (dtype X : List Char) (hd : dtype ∈ dtypes) (hX : '\'' ∉ X) :
    afterSub ['\'', 'f', 'o', 'r', 't', 'r', 'a', 'n', '_', 'o', 'r', 'd', 'e', 'r', '\'', ':', ' ', 'T', 'r', 'u', 'e']
      (descrPrefix ++ dtype ++ shapePrefix ++ X) = none := by
  have key : afterSub ['\'', 'f', 'o', 'r', 't', 'r', 'a', 'n', '_', 'o', 'r', 'd', 'e', 'r', '\'', ':', ' ', 'T', 'r', 'u', 'e']
      (descrPrefix ++ dtype ++ shapePrefix ++ X) = afterSub ['\'', 'f', 'o', 'r', 't', 'r', 'a', 'n', '_', 'o', 'r', 'd', 'e', 'r', '\'', ':', ' ', 'T', 'r', 'u', 'e'] X := by
    simp only [dtypes, List.mem_cons, List.not_mem_nil, or_false] at hd
    rcases hd with rfl | rfl | rfl | rfl <;> rfl
  rw [key]
  exact afterSub_none (q := '\'') rfl hX

theorem dtype_of (dtype X : List Char) (hd : dtype ∈ dtypes) :
    parseDtype (descrPrefix ++ dtype ++ shapePrefix ++ X) = .ok dtype := by
  simp only [dtypes, List.mem_cons, List.not_mem_nil, or_false] at hd
  rcases hd with rfl | rfl | rfl | rfl <;>
  · unfold parseDtype
    rw [show afterSub _ _ = some _ from rfl]
    simp only
    rw [show afterSub ['\''] _ = some _ from rfl]
    simp only
    rw [if_neg (by simp [shapePrefix])]
    rfl

theorem dict1d_facts (len : Nat) (dtype : List Char) (hd : dtype ∈ dtypes) (h : len < 2 ^ 64) :
    (∀ c ∈ dict1d len dtype, c.toNat < 128) ∧ (dict1d len dtype).length < 60000 := by
  have hl : (Nat.toDigits 10 len).length ≤ 20 := toDigits_length len 20 (by decide) (by omega)
  constructor
  · intro c hc
    unfold dict1d at hc
    simp only [List.mem_append] at hc
    rcases hc with (((hc | hc) | hc) | hc) | hc
    · revert c; decide
    · simp only [dtypes, List.mem_cons, List.not_mem_nil, or_false] at hd
      rcases hd with rfl | rfl | rfl | rfl <;> (revert c; decide)
    · revert c; decide
    · exact (digit_facts c (toDigits_digit hc)).2.2.2.2.2.2
    · revert c; decide
  · unfold dict1d
    have : dtype.length = 3 := by
      simp only [dtypes, List.mem_cons, List.not_mem_nil, or_false] at hd
      rcases hd with rfl | rfl | rfl | rfl <;> rfl
    simp only [List.length_append, this, descrPrefix, shapePrefix, List.length_cons, List.length_nil]
    omega

theorem dict2d_facts (r c : Nat) (dtype : List Char) (hd : dtype ∈ dtypes) (hr : r < 2 ^ 64) (hc : c < 2 ^ 64) :
    (∀ x ∈ dict2d r c dtype, x.toNat < 128) ∧ (dict2d r c dtype).length < 60000 := by
  have hl : (Nat.toDigits 10 r).length ≤ 20 := toDigits_length r 20 (by decide) (by omega)
  have hl2 : (Nat.toDigits 10 c).length ≤ 20 := toDigits_length c 20 (by decide) (by omega)
  constructor
  · intro x hx
    unfold dict2d at hx
    simp only [List.mem_append] at hx
    rcases hx with (((((hx | hx) | hx) | hx) | hx) | hx) | hx
    · revert x; decide
    · simp only [dtypes, List.mem_cons, List.not_mem_nil, or_false] at hd
      rcases hd with rfl | rfl | rfl | rfl <;> (revert x; decide)
    · revert x; decide
    · exact (digit_facts x (toDigits_digit hx)).2.2.2.2.2.2
    · revert x; decide
    · exact (digit_facts x (toDigits_digit hx)).2.2.2.2.2.2
    · revert x; decide
  · unfold dict2d
    have : dtype.length = 3 := by
      simp only [dtypes, List.mem_cons, List.not_mem_nil, or_false] at hd
      rcases hd with rfl | rfl | rfl | rfl <;> rfl
    simp only [List.length_append, this, descrPrefix, shapePrefix, List.length_cons, List.length_nil]
    omega

theorem pad_noquote (dict : List Char) : '\'' ∉ List.replicate (headerLayout dict).1 ' ' ++ ['\n'] := by
  intro h
  rcases List.mem_append.1 h with h | h
  · exact absurd (List.eq_of_mem_replicate h) (by decide)
  · exact absurd (List.mem_singleton.1 h) (by decide)

theorem parse_1d (len : Nat) (dtype : List Char) (hd : dtype ∈ dtypes) (h : len < 2 ^ 64) (data : List Nat) :
    parseHeader (writeHeader (dict1d len dtype) ++ data) = .ok ([len], headerSize1d len dtype, false) := by
  obtain ⟨f1, f2⟩ := dict1d_facts len dtype hd h
  have hpad : padText (dict1d len dtype) = descrPrefix ++ dtype ++ shapePrefix ++ (Nat.toDigits 10 len ++ [',']) ++
      (')' :: ([',', ' ', '}'] ++ (List.replicate (headerLayout (dict1d len dtype)).1 ' ' ++ ['\n']))) := by
    unfold padText
    conv => lhs; rw [show dict1d len dtype = descrPrefix ++ dtype ++ shapePrefix ++ Nat.toDigits 10 len ++ [',', ')', ',', ' ', '}'] from rfl]
    simp [dict1d]
  unfold parseHeader
  rw [headerText_write _ f1 f2]
  simp only
  have hs : parseShape (padText (dict1d len dtype)) = .ok [len] := by
    rw [hpad, parseShape_of dtype _ _ hd, parseDims_1d len h]
    · simp only [List.mem_append, List.mem_singleton, not_or]
      exact ⟨fun hh => (digit_facts _ (toDigits_digit hh)).2.2.1 rfl, by decide⟩
    · simp only [List.mem_append, List.mem_singleton, not_or]
      exact ⟨fun hh => (digit_facts _ (toDigits_digit hh)).2.2.2.1 rfl, by decide⟩
  rw [hs]
  simp only
  rw [hpad, List.append_assoc (bs := (Nat.toDigits 10 len ++ [','])), fortran_false dtype _ hd]
  · rfl
  · simp only [List.mem_append, List.mem_cons, not_or]
    have := pad_noquote (dict1d len dtype)
    simp only [List.mem_append, not_or] at this
    refine ⟨⟨fun hh => (digit_facts _ (toDigits_digit hh)).2.2.2.2.2.1 rfl, by decide, by simp⟩, by decide,
      ⟨by decide, by decide, by decide, by simp⟩, this.1, by decide, by simp⟩

theorem parse_2d (r c : Nat) (dtype : List Char) (hd : dtype ∈ dtypes) (hr : r < 2 ^ 64) (hc : c < 2 ^ 64) (data : List Nat) :
    parseHeader (writeHeader (dict2d r c dtype) ++ data) = .ok ([r, c], headerSize2d r c dtype, false) := by
  obtain ⟨f1, f2⟩ := dict2d_facts r c dtype hd hr hc
  have hpad : padText (dict2d r c dtype) = descrPrefix ++ dtype ++ shapePrefix ++
      (Nat.toDigits 10 r ++ ',' :: ' ' :: Nat.toDigits 10 c) ++
      (')' :: ([',', ' ', '}'] ++ (List.replicate (headerLayout (dict2d r c dtype)).1 ' ' ++ ['\n']))) := by
    unfold padText
    conv => lhs; rw [show dict2d r c dtype = descrPrefix ++ dtype ++ shapePrefix ++ Nat.toDigits 10 r ++ [',', ' '] ++ Nat.toDigits 10 c ++ [')', ',', ' ', '}'] from rfl]
    simp [dict2d]
  unfold parseHeader
  rw [headerText_write _ f1 f2]
  simp only
  have hs : parseShape (padText (dict2d r c dtype)) = .ok [r, c] := by
    rw [hpad, parseShape_of dtype _ _ hd, parseDims_2d r c hr hc]
    · simp only [List.mem_append, List.mem_cons, not_or]
      exact ⟨fun hh => (digit_facts _ (toDigits_digit hh)).2.2.1 rfl, by decide, by decide,
        fun hh => (digit_facts _ (toDigits_digit hh)).2.2.1 rfl⟩
    · simp only [List.mem_append, List.mem_cons, not_or]
      exact ⟨fun hh => (digit_facts _ (toDigits_digit hh)).2.2.2.1 rfl, by decide, by decide,
        fun hh => (digit_facts _ (toDigits_digit hh)).2.2.2.1 rfl⟩
  rw [hs]
  simp only
  rw [hpad, List.append_assoc (bs := (Nat.toDigits 10 r ++ ',' :: ' ' :: Nat.toDigits 10 c)), fortran_false dtype _ hd]
  · rfl
  · simp only [List.mem_append, List.mem_cons, not_or]
    have := pad_noquote (dict2d r c dtype)
    simp only [List.mem_append, not_or] at this
    refine ⟨⟨fun hh => (digit_facts _ (toDigits_digit hh)).2.2.2.2.2.1 rfl, by decide, by decide,
      fun hh => (digit_facts _ (toDigits_digit hh)).2.2.2.2.2.1 rfl⟩, by decide,
      ⟨by decide, by decide, by decide, by simp⟩, this.1, by decide, by simp⟩

theorem detect_1d (len : Nat) (dtype : List Char) (hd : dtype ∈ dtypes) (h : len < 2 ^ 64) (data : List Nat) :
    detectDtype (writeHeader (dict1d len dtype) ++ data) = .ok dtype := by
  obtain ⟨f1, f2⟩ := dict1d_facts len dtype hd h
  unfold detectDtype
  rw [headerText_write _ f1 f2]
  simp only
  unfold padText
  have : dict1d len dtype ++ List.replicate (headerLayout (dict1d len dtype)).1 ' ' ++ ['\n'] =
      descrPrefix ++ dtype ++ shapePrefix ++ (Nat.toDigits 10 len ++ [',', ')', ',', ' ', '}'] ++
        List.replicate (headerLayout (dict1d len dtype)).1 ' ' ++ ['\n']) := by
    conv => lhs; rw [show dict1d len dtype = descrPrefix ++ dtype ++ shapePrefix ++ Nat.toDigits 10 len ++ [',', ')', ',', ' ', '}'] from rfl]
    simp [dict1d]
  rw [this, dtype_of dtype _ hd]

theorem detect_2d (r c : Nat) (dtype : List Char) (hd : dtype ∈ dtypes) (hr : r < 2 ^ 64) (hc : c < 2 ^ 64) (data : List Nat) :
    detectDtype (writeHeader (dict2d r c dtype) ++ data) = .ok dtype := by
  obtain ⟨f1, f2⟩ := dict2d_facts r c dtype hd hr hc
  unfold detectDtype
  rw [headerText_write _ f1 f2]
  simp only
  unfold padText
  have : dict2d r c dtype ++ List.replicate (headerLayout (dict2d r c dtype)).1 ' ' ++ ['\n'] =
      descrPrefix ++ dtype ++ shapePrefix ++ (Nat.toDigits 10 r ++ [',', ' '] ++ Nat.toDigits 10 c ++ [')', ',', ' ', '}'] ++
        List.replicate (headerLayout (dict2d r c dtype)).1 ' ' ++ ['\n']) := by
    conv => lhs; rw [show dict2d r c dtype = descrPrefix ++ dtype ++ shapePrefix ++ Nat.toDigits 10 r ++ [',', ' '] ++ Nat.toDigits 10 c ++ [')', ',', ' ', '}'] from rfl]
    simp [dict2d]
  rw [this, dtype_of dtype _ hd]

end NextPlaid.Npy
