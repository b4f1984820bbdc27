import Verif.Proofs.JsonText
import Mathlib.Data.List.TakeWhile

/-!
Proofs about JSON text: what is written is read back.
-/

namespace NextPlaid.JsonText
open NextPlaid.Spec

variable {R : Type} {F : Reals R}

/-! ### Strings -/

theorem char_of_toNat {c : Char} {n : Nat} (h : c.toNat = n) : c = Char.ofNat n := by
  rw [← h]; exact (Char.ofNat_toNat c).symm

theorem hex_control : ∀ n : Nat, n < 32 → hex4 '0' '0' (hexDigit (n / 16)) (hexDigit (n % 16)) = some n := by decide

theorem string_short {e x : Char} (t : List Char) (he : e ≠ 'u') (hx : unescape e = some x) :
    string none ('\\' :: e :: t) = (string none t).map fun p => (x :: p.1, p.2) := by
  conv_lhs => rw [string.eq_def]
  dsimp only
  rw [if_neg (by decide), if_pos rfl, if_neg he, if_neg (by decide), hx]

theorem string_escape (c : Char) (t : List Char) : string none (escape c ++ t) = (string none t).map fun p => (c :: p.1, p.2) := by
  unfold escape
  split
  · rename_i h; subst h
    exact string_short t (by decide) rfl
  split
  · rename_i h; subst h
    exact string_short t (by decide) rfl
  split
  · rename_i h; rw [char_of_toNat h]
    exact string_short t (by decide) rfl
  split
  · rename_i h; rw [char_of_toNat h]
    exact string_short t (by decide) rfl
  split
  · rename_i h; rw [char_of_toNat h]
    exact string_short t (by decide) rfl
  split
  · rename_i h; rw [char_of_toNat h]
    exact string_short t (by decide) rfl
  split
  · rename_i h; rw [char_of_toNat h]
    exact string_short t (by decide) rfl
  split
  · rename_i h
    simp only [List.cons_append, List.nil_append]
    conv_lhs => rw [string.eq_def]
    dsimp only
    rw [if_neg (by decide), if_pos rfl, if_pos rfl, hex_control _ h]
    dsimp only
    rw [if_neg (by omega), if_neg (by omega), Char.ofNat_toNat]
  · rename_i h1 h2 h3 h4 h5 h6 h7 h8
    simp only [List.cons_append, List.nil_append]
    conv_lhs => rw [string.eq_def]
    dsimp only
    rw [if_neg h1, if_neg h2, if_neg (by simpa using h8)]

theorem string_flatMap (rest : List Char) : ∀ s : List Char, string none (s.flatMap escape ++ '"' :: rest) = some (s, rest)
  | [] => by rw [List.flatMap_nil, List.nil_append, string.eq_def]; rfl
  | c :: s => by
    rw [List.flatMap_cons, List.append_assoc, string_escape, string_flatMap rest s]
    rfl

/-! ### Numbers -/

/-- A text that does not go on with a number. -/
def Free (rest : List Char) : Prop := ∀ c ∈ rest.head?, c.isDigit = false ∧ c ≠ '.' ∧ c ≠ 'e' ∧ c ≠ 'E'

theorem takeWhile_all {α : Type} {p : α → Bool} {rest : List α} (hr : ∀ c ∈ rest.head?, p c = false) :
    ∀ ds : List α, (∀ c ∈ ds, p c = true) → (ds ++ rest).takeWhile p = ds ∧ (ds ++ rest).dropWhile p = rest
  | [], _ => by
    cases rest with
    | nil => exact ⟨rfl, rfl⟩
    | cons c r =>
      have := hr c rfl
      rw [List.nil_append, List.takeWhile_cons, List.dropWhile_cons]
      simp [this]
  | c :: ds, h => by
    obtain ⟨h1, h2⟩ := takeWhile_all hr ds (fun x hx => h x (List.mem_cons_of_mem _ hx))
    have := h c (List.mem_cons_self ..)
    rw [List.cons_append, List.takeWhile_cons, List.dropWhile_cons, if_pos this, if_pos this, h1, h2]
    exact ⟨rfl, rfl⟩

theorem digits_no_zero (n : Nat) : (Nat.toDigits 10 n).head? = some '0' → (Nat.toDigits 10 n).length ≤ 1 := by
  suffices h : ∀ n, 0 < n → (Nat.toDigits 10 n).head? ≠ some '0' by
    intro hh
    rcases Nat.eq_zero_or_pos n with rfl | hn
    · decide
    · exact absurd hh (h n hn)
  intro n
  induction n using Nat.strongRecOn with
  | ind n ih =>
    intro hn
    rw [Nat.toDigits_eq_if (by decide)]
    split
    · rename_i h
      have : ∀ k, k < 10 → 0 < k → [Nat.digitChar k].head? ≠ some '0' := by decide
      exact this n h hn
    · rename_i h
      have := ih (n / 10) (by omega) (by omega)
      obtain ⟨c, l, hc⟩ := List.exists_cons_of_ne_nil (NextPlaid.Npy.toDigits_ne_nil (n / 10))
      rw [hc] at this ⊢
      simpa using this

theorem decimal_digits (n : Nat) : decimal (Nat.toDigits 10 n) = n := NextPlaid.Npy.decVal_toDigits n

theorem fraction_free {rest : List Char} (h : ∀ c ∈ rest.head?, c ≠ '.') : fraction rest = some ([], rest) := by
  cases rest with
  | nil => rfl
  | cons c r =>
    unfold fraction
    dsimp only
    rw [if_neg (h c rfl)]

theorem exponent_free {rest : List Char} (h : ∀ c ∈ rest.head?, c ≠ 'e' ∧ c ≠ 'E') : exponent rest = some ([], rest) := by
  cases rest with
  | nil => rfl
  | cons c r =>
    unfold exponent
    dsimp only
    rw [if_neg (by have := h c rfl; tauto)]

theorem fraction_digits {f rest : List Char} (hf : Digits f) (h : ∀ c ∈ rest.head?, c.isDigit = false) :
    fraction ('.' :: f ++ rest) = some ('.' :: f, rest) := by
  obtain ⟨h1, h2⟩ := takeWhile_all h f hf.2
  unfold fraction
  simp only [List.cons_append]
  rw [if_pos trivial, h1, h2, if_neg hf.1]

theorem exponent_digits {s e rest : List Char} (hs : s = [] ∨ s = ['-'] ∨ s = ['+']) (he : Digits e)
    (h : ∀ c ∈ rest.head?, c.isDigit = false) : exponent ('e' :: (s ++ e) ++ rest) = some ('e' :: (s ++ e), rest) := by
  obtain ⟨h1, h2⟩ := takeWhile_all h e he.2
  have hsign : expSign (s ++ e ++ rest) = (s, e ++ rest) := by
    rcases hs with rfl | rfl | rfl
    · obtain ⟨c, l, rfl⟩ := List.exists_cons_of_ne_nil he.1
      have hc := he.2 c (List.mem_cons_self ..)
      have h1 : c ≠ '+' := by rintro rfl; exact absurd hc (by decide)
      have h2 : c ≠ '-' := by rintro rfl; exact absurd hc (by decide)
      simp [expSign, h1, h2]
    · rfl
    · rfl
  unfold exponent
  simp only [List.cons_append]
  rw [if_pos (Or.inl trivial), hsign]
  dsimp only
  rw [h1, h2, if_neg he.1]

theorem unsigned_of {neg : Bool} {ds fs es rest : List Char} {v : J R} (hd : Digits ds) (hz : ¬ (ds.head? = some '0' ∧ 1 < ds.length))
    (hr : Free rest) (hfs : fs = [] ∨ ∃ f, fs = '.' :: f ∧ Digits f)
    (hes : es = [] ∨ ∃ s e, es = 'e' :: (s ++ e) ∧ (s = [] ∨ s = ['-'] ∨ s = ['+']) ∧ Digits e)
    (hv : numeral F neg ds fs es = some v) : unsigned F neg (ds ++ (fs ++ (es ++ rest))) = some (v, rest) := by
  have hE : ∀ c ∈ (es ++ rest).head?, c.isDigit = false ∧ c ≠ '.' := by
    rcases hes with rfl | ⟨s, e, rfl, _, _⟩
    · intro c hc; exact ⟨(hr c hc).1, (hr c hc).2.1⟩
    · intro c hc
      simp at hc
      subst hc
      decide
  have hF : ∀ c ∈ (fs ++ (es ++ rest)).head?, c.isDigit = false := by
    rcases hfs with rfl | ⟨f, rfl, _⟩
    · intro c hc; exact (hE c hc).1
    · intro c hc
      simp at hc
      subst hc
      decide
  obtain ⟨h1, h2⟩ := takeWhile_all hF ds hd.2
  unfold unsigned
  dsimp only
  rw [h1, h2, if_neg (by rintro (h | h); exacts [hd.1 h, hz h])]
  have hf : fraction (fs ++ (es ++ rest)) = some (fs, es ++ rest) := by
    rcases hfs with rfl | ⟨f, rfl, hf⟩
    · exact fraction_free (fun c hc => (hE c hc).2)
    · exact fraction_digits hf (fun c hc => (hE c hc).1)
  have he : exponent (es ++ rest) = some (es, rest) := by
    rcases hes with rfl | ⟨s, e, rfl, hs, he⟩
    · exact exponent_free (fun c hc => (hr c hc).2.2)
    · exact exponent_digits hs he (fun c hc => (hr c hc).1)
  rw [hf, Option.bind_some]
  dsimp only
  rw [he, Option.bind_some]
  dsimp only
  rw [hv]
  rfl

theorem digits_toDigits (n : Nat) : Digits (Nat.toDigits 10 n) :=
  ⟨NextPlaid.Npy.toDigits_ne_nil n, fun _ h => NextPlaid.Npy.toDigits_digit h⟩

theorem not_minus {c : Char} (h : c.isDigit = true) : c ≠ '-' := by rintro rfl; exact absurd h (by decide)

theorem number_int {i : Int} (hi : -2 ^ 63 ≤ i ∧ i < 2 ^ 64) {rest : List Char} (hr : Free rest) :
    number F (showInt i ++ rest) = some (.int i, rest) := by
  have hz : ¬ ((Nat.toDigits 10 i.natAbs).head? = some '0' ∧ 1 < (Nat.toDigits 10 i.natAbs).length) := by
    rintro ⟨h1, h2⟩
    have := digits_no_zero _ h1
    omega
  unfold showInt
  split
  · rename_i h
    have hu := unsigned_of (F := F) (neg := true) (digits_toDigits i.natAbs) hz hr (.inl rfl) (.inl rfl) (v := .int i) (by
      unfold numeral integer
      rw [if_pos ⟨rfl, rfl⟩, if_pos rfl, decimal_digits, if_pos (by omega)]
      congr 2
      omega)
    unfold number
    simp only [List.cons_append]
    rw [if_pos trivial]
    exact hu
  · rename_i h
    have hu := unsigned_of (F := F) (neg := false) (digits_toDigits i.natAbs) hz hr (.inl rfl) (.inl rfl) (v := .int i) (by
      unfold numeral integer
      rw [if_pos ⟨rfl, rfl⟩, if_neg (by decide), decimal_digits, if_pos (by omega)]
      congr 2
      omega)
    obtain ⟨c, l, hc⟩ := List.exists_cons_of_ne_nil (NextPlaid.Npy.toDigits_ne_nil i.natAbs)
    have hm : c ≠ '-' := not_minus ((digits_toDigits i.natAbs).2 c (by rw [hc]; exact List.mem_cons_self ..))
    rw [hc] at hu ⊢
    unfold number
    simp only [List.cons_append]
    rw [if_neg hm]
    exact hu

theorem number_real (hF : LawfulReals F) {r : R} {t : List Char} (ht : F.shows r = some t) {rest : List Char} (hr : Free rest) :
    number F (t ++ rest) = some (.real r, rest) := by
  obtain ⟨sign, ds, fs, es, rfl, hs, hd, hz, hfs, hes, hne⟩ := hF.shape r t ht
  have hsame := hF.same r _ ht
  have hz' : ¬ (ds.head? = some '0' ∧ 1 < ds.length) := by
    rintro ⟨h1, h2⟩
    rcases hz with rfl | hz
    · simp at h2
    · exact hz h1
  have hne' : ¬ (fs = [] ∧ es = []) := by rintro ⟨rfl, rfl⟩; rcases hne with h | h <;> exact h rfl
  rcases hs with rfl | rfl
  · have hu := unsigned_of (F := F) (neg := false) hd hz' hr hfs hes (v := .real r) (by
      unfold numeral
      rw [if_neg hne', if_neg (by decide), hsame]; rfl)
    obtain ⟨c, l, rfl⟩ := List.exists_cons_of_ne_nil hd.1
    have hm : c ≠ '-' := not_minus (hd.2 c (List.mem_cons_self ..))
    unfold number
    simp only [List.nil_append, List.cons_append, List.append_assoc] at hu ⊢
    rw [if_neg hm]
    exact hu
  · have hu := unsigned_of (F := F) (neg := true) hd hz' hr hfs hes (v := .real r) (by
      unfold numeral
      rw [if_neg hne', if_pos rfl, hsame]; rfl)
    unfold number
    simp only [List.nil_append, List.cons_append, List.append_assoc] at hu ⊢
    rw [if_pos trivial]
    exact hu

/-! ### White space -/

theorem skip_gap (y : Layout) (t : List Char) : skip (gap y ++ t) = skip t := by
  cases y with
  | none => rfl
  | some k =>
    unfold gap skip
    rw [List.cons_append, List.dropWhile_cons, if_pos (by decide)]
    generalize 2 * (k + 1) = n
    induction n with
    | zero => rfl
    | succ n ih => rw [List.replicate_succ, List.cons_append, List.dropWhile_cons, if_pos (by decide)]; exact ih

theorem skip_endGap (y : Layout) (t : List Char) : skip (endGap y ++ t) = skip t := by
  cases y with
  | none => rfl
  | some k =>
    unfold endGap skip
    rw [List.cons_append, List.dropWhile_cons, if_pos (by decide)]
    generalize 2 * k = n
    induction n with
    | zero => rfl
    | succ n ih => rw [List.replicate_succ, List.cons_append, List.dropWhile_cons, if_pos (by decide)]; exact ih

theorem skip_cons {c : Char} (h : isWs c = false) (t : List Char) : skip (c :: t) = c :: t := by
  unfold skip
  rw [List.dropWhile_cons, if_neg (by simp [h])]

/-- The first character of a number. -/
def NumStart (c : Char) : Prop := c = '-' ∨ c.isDigit = true

theorem numStart_facts {c : Char} (h : NumStart c) : isWs c = false ∧ c ≠ 'n' ∧ c ≠ 't' ∧ c ≠ 'f' ∧ c ≠ '"' ∧ c ≠ '[' ∧ c ≠ '{' ∧ c ≠ ']' ∧ c ≠ '}' := by
  rcases h with rfl | h
  · decide
  · refine ⟨?_, ?_, ?_, ?_, ?_, ?_, ?_, ?_, ?_⟩
    · by_contra hw
      rw [Bool.not_eq_false] at hw
      unfold isWs at hw
      simp only [Bool.or_eq_true, beq_iff_eq] at hw
      rcases hw with ((rfl | rfl) | rfl) | rfl <;> exact absurd h (by decide)
    all_goals rintro rfl; exact absurd h (by decide)

theorem showInt_start (i : Int) : ∃ c l, showInt i = c :: l ∧ NumStart c := by
  unfold showInt
  split
  · exact ⟨_, _, rfl, .inl rfl⟩
  · obtain ⟨c, l, hc⟩ := List.exists_cons_of_ne_nil (NextPlaid.Npy.toDigits_ne_nil i.natAbs)
    exact ⟨c, l, hc, .inr ((digits_toDigits i.natAbs).2 c (by rw [hc]; exact List.mem_cons_self ..))⟩

theorem fractional_start {t : List Char} (h : Fractional t) : ∃ c l, t = c :: l ∧ NumStart c := by
  obtain ⟨sign, ds, fs, es, rfl, hs, hd, _⟩ := h
  rcases hs with rfl | rfl
  · obtain ⟨c, l, rfl⟩ := List.exists_cons_of_ne_nil hd.1
    exact ⟨c, _, rfl, .inr (hd.2 c (List.mem_cons_self ..))⟩
  · exact ⟨'-', _, rfl, .inl rfl⟩

/-- The first character of a value. -/
theorem render_start (hF : LawfulReals F) (y : Layout) (v : J R) : ∃ c l, render F y v = c :: l ∧ isWs c = false ∧ c ≠ ']' ∧ c ≠ '}' := by
  match v with
  | .null => exact ⟨_, _, rfl, by decide⟩
  | .bool true => exact ⟨_, _, rfl, by decide⟩
  | .bool false => exact ⟨_, _, rfl, by decide⟩
  | .int i =>
    obtain ⟨c, l, h, hs⟩ := showInt_start i
    have := numStart_facts hs
    exact ⟨c, l, by unfold render; exact h, this.1, this.2.2.2.2.2.2.2⟩
  | .real r =>
    unfold render
    cases h : F.shows r with
    | none => exact ⟨_, _, rfl, by decide⟩
    | some t =>
      obtain ⟨c, l, ht, hs⟩ := fractional_start (hF.shape r t h)
      have := numStart_facts hs
      exact ⟨c, l, ht, this.1, this.2.2.2.2.2.2.2⟩
  | .str s => exact ⟨_, _, by unfold render quote; rfl, by decide⟩
  | .arr [] => exact ⟨_, _, by unfold render; rfl, by decide⟩
  | .arr (v :: l) => exact ⟨_, _, by unfold render; rfl, by decide⟩
  | .obj [] => exact ⟨_, _, by unfold render; rfl, by decide⟩
  | .obj (e :: l) => exact ⟨_, _, by unfold render; rfl, by decide⟩

theorem value_gap (n d : Nat) (y : Layout) (t : List Char) : value F n d (gap y ++ t) = value F n d t := by
  cases n with
  | zero => rfl
  | succ n => unfold value; rw [skip_gap]

theorem value_space (n d : Nat) (t : List Char) : value F n d (' ' :: t) = value F n d t := by
  cases n with
  | zero => rfl
  | succ n => unfold value skip; rw [List.dropWhile_cons, if_pos (by decide)]

theorem value_colon (n d : Nat) (y : Layout) (t u : List Char) (h : colon y ++ t = ':' :: u) : value F n d u = value F n d t := by
  cases y with
  | none =>
    simp [colon] at h
    rw [h]
  | some k =>
    simp [colon] at h
    rw [← h, value_space]

theorem value_number {n d : Nat} {c : Char} {t : List Char} (h : NumStart c) : value F (n + 1) d (c :: t) = number F (c :: t) := by
  obtain ⟨h0, h1, h2, h3, h4, h5, h6, _⟩ := numStart_facts h
  unfold value
  rw [skip_cons h0]
  dsimp only
  rw [if_neg h1, if_neg h2, if_neg h3, if_neg h4, if_neg h5, if_neg h6]

theorem value_quote {n d : Nat} (s rest : List Char) : value F (n + 1) d (quote s ++ rest) = some (.str s, rest) := by
  unfold quote value
  rw [List.cons_append, skip_cons (by decide)]
  dsimp only
  rw [if_neg (by decide), if_neg (by decide), if_neg (by decide), if_pos rfl, List.append_assoc, List.cons_append, List.nil_append, string_flatMap]
  rfl

theorem free_items (y : Layout) (l : List (J R)) (rest : List Char) : Free (renderItems F y l ++ rest) := by
  cases l with
  | nil =>
    unfold renderItems
    cases y with
    | none => intro c hc; simp [endGap] at hc; subst hc; decide
    | some k => intro c hc; simp [endGap] at hc; subst hc; decide
  | cons v l => unfold renderItems; intro c hc; simp at hc; subst hc; decide

theorem free_members (y : Layout) (l : List (List Char × J R)) (rest : List Char) : Free (renderMembers F y l ++ rest) := by
  cases l with
  | nil =>
    unfold renderMembers
    cases y with
    | none => intro c hc; simp [endGap] at hc; subst hc; decide
    | some k => intro c hc; simp [endGap] at hc; subst hc; decide
  | cons v l => unfold renderMembers; intro c hc; simp at hc; subst hc; decide

theorem skip_start {c : Char} {l : List Char} (h : isWs c = false) (y : Layout) (t : List Char) : skip (gap y ++ (c :: l ++ t)) = c :: (l ++ t) := by
  rw [skip_gap, List.cons_append, skip_cons h]

mutual

theorem value_render (hF : LawfulReals F) : ∀ (v : J R) (n d : Nat) (y : Layout) (rest : List Char), Writable F v → depth v < d →
    2 * (render F y v).length ≤ n → Free rest → value F n d (render F y v ++ rest) = some (v, rest)
  | .null, 0, _, y, _, _, _, hn, _ => by simp [render] at hn
  | .null, n + 1, d, y, rest, _, _, _, _ => by simp [render, value, skip_cons (show isWs 'n' = false by decide), word]
  | .bool true, 0, _, y, _, _, _, hn, _ => by simp [render] at hn
  | .bool true, n + 1, d, y, rest, _, _, _, _ => by simp [render, value, skip_cons (show isWs 't' = false by decide), word]
  | .bool false, 0, _, y, _, _, _, hn, _ => by simp [render] at hn
  | .bool false, n + 1, d, y, rest, _, _, _, _ => by simp [render, value, skip_cons (show isWs 'f' = false by decide), word]
  | .int i, n, d, y, rest, hw, _, hn, hr => by
    unfold render at hn ⊢
    obtain ⟨c, l, hc, hs⟩ := showInt_start i
    obtain ⟨n, rfl⟩ : ∃ m, n = m + 1 := ⟨n - 1, by rw [hc] at hn; simp at hn; omega⟩
    rw [hc, List.cons_append, value_number hs, ← List.cons_append, ← hc]
    exact number_int hw hr
  | .real r, n, d, y, rest, hw, _, hn, hr => by
    unfold render at hn ⊢
    unfold Writable at hw
    obtain ⟨t, ht⟩ := Option.isSome_iff_exists.1 hw
    rw [ht] at hn ⊢
    simp only [Option.getD_some] at hn ⊢
    obtain ⟨c, l, hc, hs⟩ := fractional_start (hF.shape r t ht)
    obtain ⟨n, rfl⟩ : ∃ m, n = m + 1 := ⟨n - 1, by rw [hc] at hn; simp at hn; omega⟩
    have := number_real hF ht hr
    rw [hc] at this ⊢
    rw [List.cons_append, value_number hs, ← List.cons_append]
    exact this
  | .str s, n, d, y, rest, _, _, hn, _ => by
    unfold render at hn ⊢
    obtain ⟨n, rfl⟩ : ∃ m, n = m + 1 := ⟨n - 1, by simp [quote] at hn; omega⟩
    exact value_quote s rest
  | .arr [], 0, _, y, _, _, _, hn, _ => by simp [render] at hn
  | .arr [], n + 1, d, y, rest, _, hd, _, _ => by
    simp only [depth, depthItems] at hd
    unfold render value
    simp only [List.cons_append, List.nil_append]
    rw [skip_cons (by decide)]
    dsimp only
    rw [if_neg (by decide), if_neg (by decide), if_neg (by decide), if_neg (by decide), if_pos rfl, if_neg (by omega), skip_cons (by decide),
      if_pos (by rfl)]
    rfl
  | .arr (v :: l), n, d, y, rest, hw, hd, hn, hr => by
    unfold render at hn ⊢
    simp only [depth] at hd
    obtain ⟨n, rfl⟩ : ∃ m, n = m + 1 := ⟨n - 1, by simp at hn; omega⟩
    have hi := items_render hF v l n (d - 1) y rest hw (by omega) (by
      rw [List.length_cons] at hn
      omega)
    unfold value
    rw [List.cons_append, skip_cons (by decide)]
    dsimp only
    rw [if_neg (by decide), if_neg (by decide), if_neg (by decide), if_neg (by decide), if_pos rfl, if_neg (by omega)]
    obtain ⟨c, t, hc, hws, hne, _⟩ := render_start hF (deeper y) v
    rw [if_neg (by
      rw [hc, List.append_assoc, List.append_assoc, skip_start hws]
      simpa using hne), hi]
    rfl
  | .obj [], 0, _, y, _, _, _, hn, _ => by simp [render] at hn
  | .obj [], n + 1, d, y, rest, _, hd, _, _ => by
    simp only [depth, depthMembers] at hd
    unfold render value
    simp only [List.cons_append, List.nil_append]
    rw [skip_cons (by decide)]
    dsimp only
    rw [if_neg (by decide), if_neg (by decide), if_neg (by decide), if_neg (by decide), if_neg (by decide), if_pos rfl, if_neg (by omega),
      skip_cons (by decide), if_pos (by rfl)]
    rfl
  | .obj ((k, v) :: l), n, d, y, rest, hw, hd, hn, hr => by
    unfold render at hn ⊢
    simp only [depth] at hd
    obtain ⟨n, rfl⟩ : ∃ m, n = m + 1 := ⟨n - 1, by simp at hn; omega⟩
    have hi := members_render hF k v l n (d - 1) y rest hw (by omega) (by
      rw [List.length_cons] at hn
      omega)
    unfold value
    rw [List.cons_append, skip_cons (by decide)]
    dsimp only
    rw [if_neg (by decide), if_neg (by decide), if_neg (by decide), if_neg (by decide), if_neg (by decide), if_pos rfl, if_neg (by omega)]
    rw [if_neg (by
      unfold renderEntry quote
      simp only [List.cons_append, List.append_assoc]
      rw [skip_gap, skip_cons (by decide)]
      simp), hi]
    rfl

  termination_by v => sizeOf v

theorem items_render (hF : LawfulReals F) : ∀ (v : J R) (l : List (J R)) (n d : Nat) (y : Layout) (rest : List Char), WritableItems F (v :: l) →
    depthItems (v :: l) < d → 2 * (gap y ++ render F (deeper y) v ++ renderItems F y l).length ≤ n →
    items F n d (gap y ++ render F (deeper y) v ++ renderItems F y l ++ rest) = some (v :: l, rest)
  | v, [], n, d, y, rest, hw, hd, hn => by
    unfold WritableItems at hw
    unfold depthItems at hd
    obtain ⟨c0, t0, hc0, _⟩ := render_start hF (deeper y) v
    have hpos : 0 < (render F (deeper y) v).length := by rw [hc0]; simp
    have hlen : 0 < (renderItems F y ([] : List (J R))).length := by simp [renderItems]
    rw [List.length_append, List.length_append] at hn
    obtain ⟨n, rfl⟩ : ∃ m, n = m + 1 := ⟨n - 1, by omega⟩
    unfold items
    rw [List.append_assoc, List.append_assoc, value_gap,
      value_render hF v n d (deeper y) _ hw.1 (by omega) (by omega) (free_items y [] rest), Option.bind_some]
    unfold renderItems
    dsimp only
    rw [List.append_assoc, skip_endGap, List.cons_append, skip_cons (by decide)]
    dsimp only
    rw [if_neg (by decide), if_pos rfl]
    rfl
  | v, w :: l, n, d, y, rest, hw, hd, hn => by
    unfold WritableItems at hw
    unfold depthItems at hd
    obtain ⟨c0, t0, hc0, _⟩ := render_start hF (deeper y) v
    have hpos : 0 < (render F (deeper y) v).length := by rw [hc0]; simp
    have hlen : 0 < (renderItems F y (w :: l)).length := by simp [renderItems]
    rw [List.length_append, List.length_append] at hn
    obtain ⟨n, rfl⟩ : ∃ m, n = m + 1 := ⟨n - 1, by omega⟩
    unfold items
    rw [List.append_assoc, List.append_assoc, value_gap,
      value_render hF v n d (deeper y) _ hw.1 (by omega) (by omega) (free_items y (w :: l) rest), Option.bind_some]
    unfold renderItems
    dsimp only
    rw [List.cons_append, skip_cons (by decide)]
    dsimp only
    unfold renderItems at hn
    rw [if_pos rfl, items_render hF w l n d y rest hw.2 (by omega) (by
      rw [List.length_cons] at hn
      omega)]
    rfl

  termination_by v l => sizeOf (v :: l)

theorem members_render (hF : LawfulReals F) : ∀ (k : List Char) (v : J R) (l : List (List Char × J R)) (n d : Nat) (y : Layout) (rest : List Char),
    WritableMembers F ((k, v) :: l) → depthMembers ((k, v) :: l) < d →
    2 * (gap y ++ renderEntry F y (k, v) ++ renderMembers F y l).length ≤ n →
    members F n d (gap y ++ renderEntry F y (k, v) ++ renderMembers F y l ++ rest) = some ((k, v) :: l, rest)
  | k, v, [], n, d, y, rest, hw, hd, hn => by
    unfold WritableMembers at hw
    unfold depthMembers at hd
    obtain ⟨c0, t0, hc0, _⟩ := render_start hF (deeper y) v
    have hpos : 0 < (render F (deeper y) v).length := by rw [hc0]; simp
    have hlen : 0 < (renderMembers F y ([] : List (List Char × J R))).length := by simp [renderMembers]
    have hcol : 0 < (colon y).length := by cases y <;> simp [colon]
    have hq : 0 < (quote k).length := by simp [quote]
    unfold renderEntry at hn ⊢
    simp only [List.length_append] at hn
    obtain ⟨n, rfl⟩ : ∃ m, n = m + 1 := ⟨n - 1, by omega⟩
    unfold members quote
    simp only [List.append_assoc, List.cons_append]
    rw [skip_gap, skip_cons (by decide)]
    dsimp only
    rw [if_pos rfl, List.nil_append, string_flatMap, Option.bind_some]
    dsimp only
    have hskip : ∃ u, colon y ++ (render F (deeper y) v ++ (renderMembers F y ([] : List (List Char × J R)) ++ rest)) = ':' :: u ∧
        value F n d u = value F n d (render F (deeper y) v ++ (renderMembers F y ([] : List (List Char × J R)) ++ rest)) := by
      cases y with
      | none => exact ⟨_, rfl, rfl⟩
      | some j => exact ⟨' ' :: (render F (deeper (some j)) v ++ (renderMembers F (some j) ([] : List (List Char × J R)) ++ rest)), rfl, value_space ..⟩
    obtain ⟨u, hu, hval⟩ := hskip
    rw [hu, skip_cons (by decide)]
    dsimp only
    rw [if_pos rfl, hval, value_render hF v n d (deeper y) _ hw.1 (by omega) (by omega) (free_members y ([] : List (List Char × J R)) rest), Option.bind_some]
    unfold renderMembers
    dsimp only
    rw [List.append_assoc, skip_endGap, List.cons_append, skip_cons (by decide)]
    dsimp only
    rw [if_neg (by decide), if_pos rfl]
    rfl
  | k, v, (k', w) :: l, n, d, y, rest, hw, hd, hn => by
    unfold WritableMembers at hw
    unfold depthMembers at hd
    obtain ⟨c0, t0, hc0, _⟩ := render_start hF (deeper y) v
    have hpos : 0 < (render F (deeper y) v).length := by rw [hc0]; simp
    have hlen : 0 < (renderMembers F y ((k', w) :: l)).length := by simp [renderMembers]
    have hcol : 0 < (colon y).length := by cases y <;> simp [colon]
    have hq : 0 < (quote k).length := by simp [quote]
    unfold renderEntry at hn ⊢
    simp only [List.length_append] at hn
    obtain ⟨n, rfl⟩ : ∃ m, n = m + 1 := ⟨n - 1, by omega⟩
    unfold members quote
    simp only [List.append_assoc, List.cons_append]
    rw [skip_gap, skip_cons (by decide)]
    dsimp only
    rw [if_pos rfl, List.nil_append, string_flatMap, Option.bind_some]
    dsimp only
    have hskip : ∃ u, colon y ++ (render F (deeper y) v ++ (renderMembers F y ((k', w) :: l) ++ rest)) = ':' :: u ∧
        value F n d u = value F n d (render F (deeper y) v ++ (renderMembers F y ((k', w) :: l) ++ rest)) := by
      cases y with
      | none => exact ⟨_, rfl, rfl⟩
      | some j => exact ⟨' ' :: (render F (deeper (some j)) v ++ (renderMembers F (some j) ((k', w) :: l) ++ rest)), rfl, value_space ..⟩
    obtain ⟨u, hu, hval⟩ := hskip
    rw [hu, skip_cons (by decide)]
    dsimp only
    rw [if_pos rfl, hval, value_render hF v n d (deeper y) _ hw.1 (by omega) (by omega) (free_members y ((k', w) :: l) rest), Option.bind_some]
    unfold renderMembers
    dsimp only
    rw [List.cons_append, skip_cons (by decide)]
    dsimp only
    unfold renderMembers at hn
    rw [if_pos rfl, members_render hF k' w l n d y rest hw.2 (by omega) (by
      rw [List.length_cons] at hn
      omega)]
    rfl

  termination_by k v l => sizeOf ((k, v) :: l)

end

/-! ### Whole files -/

theorem parse_render (hF : LawfulReals F) (y : Layout) (v : J R) (hw : Writable F v) (hd : depth v < 128) :
    parse F (render F y v) = some v := by
  unfold parse
  have := value_render hF v (2 * (render F y v).length + 2) 128 y [] hw hd (by omega) (by intro c hc; simp at hc)
  rw [List.append_nil] at this
  rw [this]
  rfl

theorem skip_suffix : ∀ s : List Char, ∃ w, s = w ++ skip s
  | [] => ⟨[], rfl⟩
  | c :: s => by
    unfold skip
    rw [List.dropWhile_cons]
    split
    · obtain ⟨w, hw⟩ := skip_suffix s
      refine ⟨c :: w, ?_⟩
      rw [List.cons_append]
      exact congrArg _ hw
    · exact ⟨[], rfl⟩

/-- White space around a value. -/
theorem parse_padded (hF : LawfulReals F) (y : Layout) (v : J R) (hw : Writable F v) (hd : depth v < 128) {pad : List Char}
    (hp : ∀ c ∈ pad, isWs c = true) : parse F (render F y v ++ pad) = some v := by
  unfold parse
  have hfree : Free pad := by
    intro c hc
    have := hp c (List.mem_of_head? hc)
    simp [isWs] at this
    rcases this with ((rfl | rfl) | rfl) | rfl <;> decide
  rw [value_render hF v _ 128 y pad hw hd (by rw [List.length_append]; omega) hfree]
  dsimp only
  rw [if_pos]
  unfold skip
  exact List.dropWhile_eq_nil_iff.2 hp

theorem container_start (y : Layout) {v : J R} (hv : Container v ∨ ∃ s, v = .str s) : ∃ c l, render F y v = c :: l ∧ (c = '[' ∨ c = '{' ∨ c = '"') := by
  match v, hv with
  | .arr [], _ => exact ⟨_, _, by unfold render; rfl, .inl rfl⟩
  | .arr (_ :: _), _ => exact ⟨_, _, by unfold render; rfl, .inl rfl⟩
  | .obj [], _ => exact ⟨_, _, by unfold render; rfl, .inr (.inl rfl)⟩
  | .obj (_ :: _), _ => exact ⟨_, _, by unfold render; rfl, .inr (.inl rfl)⟩
  | .str s, _ => exact ⟨_, _, by unfold render quote; rfl, .inr (.inr rfl)⟩
  | .null, .inr h | .bool _, .inr h | .int _, .inr h | .real _, .inr h => obtain ⟨s, hs⟩ := h; cases hs

theorem value_start {n d : Nat} {c : Char} {t r : List Char} {v : J R} (hc : c = '[' ∨ c = '{' ∨ c = '"') (h : value F n d (c :: t) = some (v, r)) :
    isNum v = false := by
  cases n with
  | zero => simp [value] at h
  | succ n =>
    unfold value at h
    rw [skip_cons (by rcases hc with rfl | rfl | rfl <;> decide)] at h
    dsimp only at h
    rcases hc with rfl | rfl | rfl
    · rw [if_neg (by decide), if_neg (by decide), if_neg (by decide), if_neg (by decide), if_pos rfl] at h
      split at h
      · cases h
      · split at h
        · cases h; rfl
        · obtain ⟨p, _, hp⟩ := Option.map_eq_some_iff.1 h
          cases hp; rfl
    · rw [if_neg (by decide), if_neg (by decide), if_neg (by decide), if_neg (by decide), if_neg (by decide), if_pos rfl] at h
      split at h
      · cases h
      · split at h
        · cases h; rfl
        · obtain ⟨p, _, hp⟩ := Option.map_eq_some_iff.1 h
          cases hp; rfl
    · rw [if_neg (by decide), if_neg (by decide), if_neg (by decide), if_pos rfl] at h
      obtain ⟨p, _, hp⟩ := Option.map_eq_some_iff.1 h
      cases hp; rfl

/-- Part of the text of a container is not read as anything. -/
theorem parse_torn (hF : LawfulReals F) (y : Layout) {v : J R} (hv : Container v ∨ ∃ s, v = .str s) (hw : Writable F v) (hd : depth v < 128)
    {torn : List Char} (ht : Torn (render F y v) torn) : parse F torn = none := by
  obtain ⟨lost, hl, htext⟩ := ht
  unfold parse
  cases hval : value F (2 * torn.length + 2) 128 torn with
  | none => rfl
  | some p =>
    exfalso
    obtain ⟨w, r⟩ := p
    obtain ⟨c, l, hc, hstart⟩ := container_start (F := F) y hv
    cases torn with
    | nil => unfold value at hval; simp [skip] at hval
    | cons a torn =>
      have ha : a = c := by
        rw [htext] at hc
        exact (List.cons.inj hc).1
      subst ha
      have hnum := value_start hstart hval
      have happ := value_append _ _ _ _ _ hval (.inr hnum) lost
      have hmore := value_more _ (2 * (render F y v).length + 2) _ _ _ happ (by rw [htext, List.length_append]; omega)
      have hfull := value_render hF v (2 * (render F y v).length + 2) 128 y [] hw hd (by omega) (by intro c hc; simp at hc)
      rw [List.append_nil, htext, ← htext] at hfull
      rw [← htext, hfull] at hmore
      have := (Prod.mk.inj (Option.some.inj hmore)).2
      have := congrArg List.length this
      rw [List.length_append] at this
      exact hl (List.length_eq_zero_iff.1 (by simp at this; omega))

end NextPlaid.JsonText
