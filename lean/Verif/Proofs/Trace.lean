import Verif.Spec.Trace
import Verif.Proofs.JsonText2

/-!
Proofs about the trace of a search.
-/

namespace NextPlaid.Trace
open NextPlaid.Spec NextPlaid.JsonText

/-! ### Strings -/

theorem string_escapeChar (c : Char) (t : List Char) :
    string none (escapeChar c ++ t) = (string none t).map fun p => (c :: p.1, p.2) := by
  unfold escapeChar
  split
  · rename_i h; subst h
    exact string_short t (by decide) rfl
  split
  · rename_i h; subst h
    exact string_short t (by decide) rfl
  split
  · rename_i h; subst h
    exact string_short t (by decide) rfl
  split
  · rename_i h; subst h
    exact string_short t (by decide) rfl
  split
  · rename_i h; subst h
    exact string_short t (by decide) rfl
  split
  · rename_i h
    simp only [List.cons_append, List.nil_append]
    conv_lhs => rw [string.eq_def]
    dsimp only
    have hx : hex4 '0' '0' (Nat.digitChar (c.toNat / 16)) (Nat.digitChar (c.toNat % 16)) = some c.toNat := hex_control _ h
    rw [if_neg (by decide), if_pos rfl, if_pos rfl, hx]
    dsimp only
    rw [if_neg (by omega), if_neg (by omega), Char.ofNat_toNat]
  · rename_i h1 h2 _ _ _ h8
    simp only [List.cons_append, List.nil_append]
    conv_lhs => rw [string.eq_def]
    dsimp only
    rw [if_neg h1, if_neg h2, if_neg (by simpa using h8)]

theorem string_escaped (rest : List Char) : ∀ s : List Char, string none (s.flatMap escapeChar ++ '"' :: rest) = some (s, rest)
  | [] => by rw [List.flatMap_nil, List.nil_append, string.eq_def]; rfl
  | c :: s => by
    rw [List.flatMap_cons, List.append_assoc, string_escapeChar, string_escaped rest s]
    rfl

theorem plain_escaped {s : List Char} (h : PlainName s) : s.flatMap escapeChar = s := by
  induction s with
  | nil => rfl
  | cons c s ih =>
    rw [List.flatMap_cons, ih (fun x hx => h x (List.mem_cons_of_mem _ hx))]
    obtain ⟨h1, h2, h3⟩ := h c (List.mem_cons_self ..)
    have h4 : c ≠ '\n' := by rintro rfl; exact absurd h3 (by decide)
    have h5 : c ≠ '\r' := by rintro rfl; exact absurd h3 (by decide)
    have h6 : c ≠ '\t' := by rintro rfl; exact absurd h3 (by decide)
    have : escapeChar c = [c] := by
      unfold escapeChar
      rw [if_neg h1, if_neg h2, if_neg h4, if_neg h5, if_neg h6, if_neg (by omega)]
    rw [this]; rfl

/-! ### Numbers -/

theorem digit_facts : ∀ k, k < 10 → (Nat.digitChar k).isDigit = true ∧ (Nat.digitChar k).toNat - 48 = k := by decide

theorem six_digits (m : Nat) : Digits (six m) := by
  refine ⟨by simp [six], ?_⟩
  intro c hc
  simp only [six, List.mem_cons, List.not_mem_nil, or_false] at hc
  rcases hc with rfl | rfl | rfl | rfl | rfl | rfl <;> exact (digit_facts _ (Nat.mod_lt _ (by decide))).1

theorem decimal_six {m : Nat} (h : m < 1000000) : decimal (six m) = m := by
  simp only [decimal, six, List.foldl_cons, List.foldl_nil]
  rw [(digit_facts (m / 100000 % 10) (by omega)).2, (digit_facts (m / 10000 % 10) (by omega)).2, (digit_facts (m / 1000 % 10) (by omega)).2,
    (digit_facts (m / 100 % 10) (by omega)).2, (digit_facts (m / 10 % 10) (by omega)).2, (digit_facts (m % 10) (by omega)).2]
  omega

theorem millionths_text (neg : Bool) (m : Nat) : millionths (Shown.text (.finite neg m)) = some (neg, m) := by
  have hd := digits_toDigits (m / 1000000)
  obtain ⟨h1, h2⟩ := takeWhile_all (p := Char.isDigit) (rest := '.' :: six (m % 1000000)) (by intro c hc; simp at hc; subst hc; decide)
    (Nat.toDigits 10 (m / 1000000)) hd.2
  have hall : (six (m % 1000000)).length = 6 ∧ (six (m % 1000000)).all Char.isDigit = true :=
    ⟨rfl, List.all_eq_true.2 (six_digits _).2⟩
  have hval : m / 1000000 * 1000000 + m % 1000000 = m := by omega
  cases neg with
  | true =>
    unfold millionths Shown.text
    simp only [if_pos, List.cons_append, List.nil_append, List.head?_cons, beq_self_eq_true, List.tail_cons]
    rw [h1, h2]
    dsimp only
    rw [if_pos ⟨rfl, hall⟩, decimal_digits, decimal_six (Nat.mod_lt _ (by decide)), hval]
  | false =>
    obtain ⟨c, l, hc⟩ := List.exists_cons_of_ne_nil hd.1
    have hm : c ≠ '-' := not_minus (hd.2 c (by rw [hc]; exact List.mem_cons_self ..))
    have hb : ((Nat.toDigits 10 (m / 1000000) ++ '.' :: six (m % 1000000)).head? == some '-') = false := by
      rw [hc]; simpa using hm
    unfold millionths Shown.text
    simp only [Bool.false_eq_true, if_false, List.nil_append, hb]
    rw [h1, h2]
    dsimp only
    rw [if_pos ⟨rfl, hall⟩, decimal_digits, decimal_six (Nat.mod_lt _ (by decide)), hval]

theorem sixPlaces_lawful : LawfulReals sixPlaces where
  shape := by
    rintro ⟨neg, m⟩ t h
    cases h
    refine ⟨if neg then ['-'] else [], Nat.toDigits 10 (m / 1000000), '.' :: six (m % 1000000), [], by simp [Shown.text], ?_, digits_toDigits _, ?_,
      Or.inr ⟨_, rfl, six_digits _⟩, Or.inl rfl, Or.inl (by simp)⟩
    · cases neg <;> simp
    · rcases Nat.eq_zero_or_pos (m / 1000000) with h | h
      · left; rw [h]; rfl
      · right
        intro hh
        have hl := digits_no_zero _ hh
        obtain ⟨c, l, hc⟩ := List.exists_cons_of_ne_nil (digits_toDigits (m / 1000000)).1
        rw [hc] at hh hl
        simp at hh hl
        subst hh; subst hl
        have := decimal_digits (m / 1000000)
        rw [hc] at this
        have h0 : decimal ['0'] = 0 := by decide
        omega
  same := by
    rintro ⟨neg, m⟩ t h
    cases h
    exact millionths_text neg m

/-! ### Reading a value put together by hand -/

/-- The text is read as the value, whatever follows. -/
def Reads (d : Nat) (t : List Char) (v : J (Bool × Nat)) : Prop :=
  (∃ c l, t = c :: l ∧ isWs c = false ∧ c ≠ ']') ∧
    ∀ n rest, 2 * t.length ≤ n → Free rest → value sixPlaces n d (t ++ rest) = some (v, rest)

theorem reads_render (d : Nat) (v : J (Bool × Nat)) (hw : Writable sixPlaces v) (hd : depth v < d) : Reads d (render sixPlaces none v) v := by
  obtain ⟨c, l, h, h1, h2, _⟩ := render_start sixPlaces_lawful none v
  exact ⟨⟨c, l, h, h1, h2⟩, fun n rest hn hr => value_render sixPlaces_lawful v n d none rest hw hd hn hr⟩

theorem reads_int {d : Nat} (hd : 0 < d) {i : Int} (hi : -2 ^ 63 ≤ i ∧ i < 2 ^ 63) : Reads d (showInt i) (.int i) := by
  have := reads_render d (.int i) (by unfold Writable; omega) (by simpa [depth] using hd)
  unfold render at this
  exact this

theorem reads_score {d : Nat} (hd : 0 < d) {s : Shown} (hs : IsNumber s) : Reads d s.text (numberOf s) := by
  obtain ⟨neg, m, rfl⟩ := hs
  have := reads_render d (.real (neg, m)) (by unfold Writable; rfl) (by simpa [depth] using hd)
  unfold render at this
  exact this

theorem reads_str (d : Nat) (s : List Char) : Reads d (jsonEscape s) (.str s) := by
  refine ⟨⟨_, _, rfl, by decide, by decide⟩, ?_⟩
  intro n rest hn _
  obtain ⟨n, rfl⟩ : ∃ m, n = m + 1 := ⟨n - 1, by simp [jsonEscape] at hn; omega⟩
  unfold jsonEscape value
  rw [List.cons_append, skip_cons (by decide)]
  dsimp only
  rw [if_neg (by decide), if_neg (by decide), if_neg (by decide), if_pos rfl, List.append_assoc, List.cons_append, List.nil_append, string_escaped]
  rfl

theorem listed_succ (i : Nat) : ∀ l, listed (i + 1) l = (if l = [] then [] else ',' :: listed 0 l)
  | [] => rfl
  | t :: l => by
    have : ∀ i l, listed (i + 1) l = listed 1 l := by
      intro i l
      induction l generalizing i with
      | nil => rfl
      | cons t l ih => simp only [listed]; rw [ih (i + 1), ih 1]; simp
    simp only [listed]
    rw [this (i + 1)]
    simp

theorem free_comma (t : List Char) : Free (',' :: t) := by intro c hc; simp at hc; subst hc; decide
theorem free_bracket (t : List Char) : Free (']' :: t) := by intro c hc; simp at hc; subst hc; decide
theorem free_brace (t : List Char) : Free ('}' :: t) := by intro c hc; simp at hc; subst hc; decide

theorem items_listed {α : Type} {d : Nat} (text : α → List Char) (val : α → J (Bool × Nat)) : ∀ (a : α) (l : List α),
    (∀ x ∈ a :: l, Reads d (text x) (val x)) → ∀ n rest, 2 * ((listed 0 ((a :: l).map text)).length + 1) ≤ n →
    items sixPlaces n d (listed 0 ((a :: l).map text) ++ ']' :: rest) = some ((a :: l).map val, rest)
  | a, [], h, n, rest, hn => by
    simp only [List.map_cons, List.map_nil, listed, List.append_nil, gt_iff_lt, Nat.lt_irrefl, if_false, List.nil_append] at hn ⊢
    obtain ⟨n, rfl⟩ : ∃ m, n = m + 1 := ⟨n - 1, by omega⟩
    unfold items
    rw [(h a (by simp)).2 n _ (by omega) (free_bracket _), Option.bind_some]
    dsimp only
    rw [skip_cons (by decide)]
    dsimp only
    rw [if_neg (by decide), if_pos rfl]
  | a, b :: l, h, n, rest, hn => by
    have ih := items_listed text val b l (fun x hx => h x (List.mem_cons_of_mem _ hx))
    have hsplit : listed 0 ((a :: b :: l).map text) = text a ++ ',' :: listed 0 ((b :: l).map text) := by
      rw [List.map_cons, listed, listed_succ, if_neg (by simp)]
      simp
    rw [hsplit] at hn ⊢
    rw [List.length_append, List.length_cons] at hn
    obtain ⟨n, rfl⟩ : ∃ m, n = m + 1 := ⟨n - 1, by omega⟩
    unfold items
    rw [List.append_assoc, List.cons_append, (h a (by simp)).2 n _ (by omega) (free_comma _), Option.bind_some]
    dsimp only
    rw [skip_cons (by decide)]
    dsimp only
    rw [if_pos rfl, ih n rest (by omega)]
    rfl

theorem reads_arr {α : Type} {d : Nat} (text : α → List Char) (val : α → J (Bool × Nat)) (l : List α)
    (h : ∀ x ∈ l, Reads (d + 1) (text x) (val x)) : Reads (d + 2) ('[' :: (listed 0 (l.map text) ++ [']'])) (.arr (l.map val)) := by
  refine ⟨⟨_, _, rfl, by decide, by decide⟩, ?_⟩
  intro n rest hn _
  obtain ⟨n, rfl⟩ : ∃ m, n = m + 1 := ⟨n - 1, by simp at hn; omega⟩
  unfold value
  rw [List.cons_append, skip_cons (by decide)]
  dsimp only
  rw [if_neg (by decide), if_neg (by decide), if_neg (by decide), if_neg (by decide), if_pos rfl, if_neg (by omega)]
  cases l with
  | nil =>
    simp only [List.map_nil, listed, List.nil_append, List.cons_append]
    rw [skip_cons (by decide), if_pos (by rfl)]
    rfl
  | cons a l =>
    obtain ⟨c, t, hc, hws, hne⟩ := (h a (List.mem_cons_self ..)).1
    rw [List.append_assoc, List.cons_append, List.nil_append]
    rw [if_neg (by
      simp only [List.map_cons, listed, hc, gt_iff_lt, Nat.lt_irrefl, if_false, List.nil_append, List.cons_append]
      rw [skip_cons hws]
      simpa using hne)]
    rw [show d + 2 - 1 = d + 1 from rfl, items_listed text val a l h n rest (by
      simp only [List.length_cons, List.length_append, List.length_nil] at hn ⊢
      omega)]
    rfl

/-- The entries of an object put together by hand. -/
def entries : List (List Char × List Char) → List Char
  | [] => []
  | [(k, t)] => jsonEscape k ++ ':' :: t
  | (k, t) :: e :: l => jsonEscape k ++ ':' :: (t ++ ',' :: entries (e :: l))

theorem members_entries {d : Nat} : ∀ (l : List (List Char × List Char × J (Bool × Nat))), l ≠ [] → (∀ e ∈ l, Reads d e.2.1 e.2.2) →
    ∀ n rest, 2 * ((entries (l.map fun e => (e.1, e.2.1))).length + 1) ≤ n →
    members sixPlaces n d (entries (l.map fun e => (e.1, e.2.1)) ++ '}' :: rest) = some (l.map fun e => (e.1, e.2.2), rest)
  | [], h, _, _, _, _ => absurd rfl h
  | [(k, t, v)], _, h, n, rest, hn => by
    simp only [List.map_cons, List.map_nil, entries] at hn ⊢
    rw [List.length_append, List.length_cons] at hn
    obtain ⟨n, rfl⟩ : ∃ m, n = m + 1 := ⟨n - 1, by omega⟩
    unfold members jsonEscape
    simp only [List.cons_append, List.append_assoc]
    rw [skip_cons (by decide)]
    dsimp only
    rw [if_pos rfl, List.nil_append, string_escaped, Option.bind_some]
    dsimp only
    rw [skip_cons (by decide)]
    dsimp only
    have := (h (k, t, v) (by simp)).2
    dsimp only at this
    rw [if_pos rfl, this n _ (by omega) (free_brace _), Option.bind_some]
    dsimp only
    rw [skip_cons (by decide)]
    dsimp only
    rw [if_neg (by decide), if_pos rfl]
  | (k, t, v) :: e :: l, _, h, n, rest, hn => by
    have ih := members_entries (e :: l) (by simp) (fun x hx => h x (List.mem_cons_of_mem _ hx))
    have hsplit : entries (((k, t, v) :: e :: l).map fun e => (e.1, e.2.1)) =
        jsonEscape k ++ ':' :: (t ++ ',' :: entries ((e :: l).map fun e => (e.1, e.2.1))) := by
      simp only [List.map_cons, entries]
    rw [hsplit] at hn ⊢
    rw [List.length_append, List.length_cons, List.length_append, List.length_cons] at hn
    obtain ⟨n, rfl⟩ : ∃ m, n = m + 1 := ⟨n - 1, by omega⟩
    unfold members jsonEscape
    simp only [List.cons_append, List.append_assoc]
    rw [skip_cons (by decide)]
    dsimp only
    rw [if_pos rfl, List.nil_append, string_escaped, Option.bind_some]
    dsimp only
    rw [skip_cons (by decide)]
    dsimp only
    have := (h (k, t, v) (by simp)).2
    dsimp only at this
    rw [if_pos rfl, this n _ (by omega) (free_comma _), Option.bind_some]
    dsimp only
    rw [skip_cons (by decide)]
    dsimp only
    rw [if_pos rfl, ih n rest (by omega)]
    rfl

theorem reads_obj {d : Nat} (l : List (List Char × List Char × J (Bool × Nat))) (hl : l ≠ []) (h : ∀ e ∈ l, Reads (d + 1) e.2.1 e.2.2) :
    Reads (d + 2) ('{' :: (entries (l.map fun e => (e.1, e.2.1)) ++ ['}'])) (.obj (l.map fun e => (e.1, e.2.2))) := by
  refine ⟨⟨_, _, rfl, by decide, by decide⟩, ?_⟩
  intro n rest hn _
  obtain ⟨n, rfl⟩ : ∃ m, n = m + 1 := ⟨n - 1, by simp at hn; omega⟩
  unfold value
  rw [List.cons_append, skip_cons (by decide)]
  dsimp only
  rw [if_neg (by decide), if_neg (by decide), if_neg (by decide), if_neg (by decide), if_neg (by decide), if_pos rfl, if_neg (by omega)]
  rw [List.append_assoc, List.cons_append, List.nil_append]
  have hs : ∃ u, entries (l.map fun e => (e.1, e.2.1)) = '"' :: u := by
    match l, hl with
    | [(k, t, v)], _ => exact ⟨_, by simp only [List.map_cons, List.map_nil, entries, jsonEscape, List.cons_append]; rfl⟩
    | (k, t, v) :: e :: l, _ => exact ⟨_, by simp only [List.map_cons, entries, jsonEscape, List.cons_append]; rfl⟩
  obtain ⟨u, hu⟩ := hs
  rw [if_neg (by rw [hu, List.cons_append, skip_cons (by decide)]; simp)]
  rw [show d + 2 - 1 = d + 1 from rfl, members_entries l hl h n rest (by
    simp only [List.length_cons, List.length_append, List.length_nil] at hn
    omega)]
  rfl

theorem parse_reads {t : List Char} {v : J (Bool × Nat)} (h : Reads 128 t v) : parse sixPlaces t = some v := by
  unfold parse
  have := h.2 (2 * t.length + 2) [] (by omega) (by intro c hc; simp at hc)
  rw [List.append_nil] at this
  rw [this]
  rfl

/-! ### The two texts -/

theorem take_zip {α β : Type} (l : List α) (m : List β) (k : Nat) :
    l.take (min (min l.length m.length) k) = ((l.zip m).take k).map Prod.fst ∧
    m.take (min (min l.length m.length) k) = ((l.zip m).take k).map Prod.snd := by
  induction l generalizing m k with
  | nil => simp
  | cons a l ih =>
    cases m with
    | nil => simp
    | cons b m =>
      cases k with
      | zero => simp
      | succ k =>
        have hm : min (min (a :: l).length (b :: m).length) (k + 1) = min (min l.length m.length) k + 1 := by
          simp only [List.length_cons]; omega
        rw [hm]
        simp only [List.take_succ_cons, List.zip_cons_cons, List.map_cons]
        exact ⟨congrArg _ (ih m k).1, congrArg _ (ih m k).2⟩

theorem take_min {α : Type} (l : List α) (k : Nat) : l.take (min l.length k) = l.take k := by
  rcases Nat.le_total l.length k with h | h
  · rw [Nat.min_eq_left h, List.take_of_length_le h, List.take_of_length_le (Nat.le_refl _)]
  · rw [Nat.min_eq_right h]

theorem idsText_eq (q s : List Char) (hs : PlainName s) (l : List Int) (sc : List Shown) (limit : Nat) :
    idsText q s l sc limit = '{' :: (entries [("stage".toList, jsonEscape s), ("query".toList, jsonEscape q),
      ("ids".toList, '[' :: (listed 0 (((l.zip sc).take limit).map fun p => showInt p.1) ++ [']'])),
      ("scores".toList, '[' :: (listed 0 (((l.zip sc).take limit).map fun p => p.2.text) ++ [']']))] ++ ['}']) := by
  unfold idsText
  dsimp only
  rw [(take_zip l sc limit).1, (take_zip l sc limit).2, List.map_map, List.map_map]
  have h1 : jsonEscape s = '"' :: (s ++ ['"']) := by unfold jsonEscape; rw [plain_escaped hs]
  have k1 : jsonEscape "stage".toList = "\"stage\"".toList := by decide
  have k2 : jsonEscape "query".toList = "\"query\"".toList := by decide
  have k3 : jsonEscape "ids".toList = "\"ids\"".toList := by decide
  have k4 : jsonEscape "scores".toList = "\"scores\"".toList := by decide
  simp only [entries, h1, k1, k2, k3, k4]
  simp [Function.comp_def]

theorem resultText_eq (r : List Char × Shown) :
    resultText r = '{' :: (entries [("file".toList, jsonEscape r.1), ("score".toList, r.2.text)] ++ ['}']) := by
  unfold resultText
  have k1 : jsonEscape "file".toList = "\"file\"".toList := by decide
  have k2 : jsonEscape "score".toList = "\"score\"".toList := by decide
  simp only [entries, k1, k2]
  simp

theorem resultsText_eq (q s : List Char) (hs : PlainName s) (l : List (List Char × Shown)) (limit : Nat) :
    resultsText q s l limit = '{' :: (entries [("stage".toList, jsonEscape s), ("query".toList, jsonEscape q),
      ("results".toList, '[' :: (listed 0 ((l.take limit).map resultText) ++ [']']))] ++ ['}']) := by
  unfold resultsText
  dsimp only
  rw [take_min]
  have h1 : jsonEscape s = '"' :: (s ++ ['"']) := by unfold jsonEscape; rw [plain_escaped hs]
  have k1 : jsonEscape "stage".toList = "\"stage\"".toList := by decide
  have k2 : jsonEscape "query".toList = "\"query\"".toList := by decide
  have k3 : jsonEscape "results".toList = "\"results\"".toList := by decide
  simp only [entries, h1, k1, k2, k3]
  simp

theorem parse_text (c : Call) (hs : PlainName (stageOf c)) (h : Sayable c) : parse sixPlaces c.text = some (meaning c) := by
  cases c with
  | ids q s l sc limit =>
    refine parse_reads ?_
    unfold Call.text
    dsimp only
    rw [idsText_eq q s hs]
    refine reads_obj (d := 126) [("stage".toList, jsonEscape s, .str s), ("query".toList, jsonEscape q, .str q), ("ids".toList, _, .arr (((l.zip sc).take limit).map fun p => .int p.1)),
      ("scores".toList, _, .arr (((l.zip sc).take limit).map fun p => numberOf p.2))] (by simp) ?_
    intro e he
    simp only [List.mem_cons, List.not_mem_nil, or_false] at he
    rcases he with rfl | rfl | rfl | rfl
    · exact reads_str _ _
    · exact reads_str _ _
    · exact reads_arr (d := 125) _ _ _ (fun p hp => reads_int (by decide) (h p hp).1)
    · exact reads_arr (d := 125) _ _ _ (fun p hp => reads_score (by decide) (h p hp).2)
  | results q s l limit =>
    refine parse_reads ?_
    unfold Call.text
    dsimp only
    rw [resultsText_eq q s hs]
    refine reads_obj (d := 126) [("stage".toList, jsonEscape s, .str s), ("query".toList, jsonEscape q, .str q), ("results".toList, _, .arr ((l.take limit).map fun r => .obj [("file".toList, .str r.1), ("score".toList, numberOf r.2)]))] (by simp) ?_
    intro e he
    simp only [List.mem_cons, List.not_mem_nil, or_false] at he
    rcases he with rfl | rfl | rfl
    · exact reads_str _ _
    · exact reads_str _ _
    · refine reads_arr (d := 125) _ _ _ (fun r hr => ?_)
      rw [resultText_eq]
      refine reads_obj (d := 124) [("file".toList, jsonEscape r.1, .str r.1), ("score".toList, r.2.text, numberOf r.2)] (by simp) ?_
      intro e he
      simp only [List.mem_cons, List.not_mem_nil, or_false] at he
      rcases he with rfl | rfl
      · exact reads_str _ _
      · exact reads_score (by decide) (h r hr)

/-! ### Lines -/

/-- No control characters. -/
def Printable (t : List Char) : Prop := ∀ c ∈ t, 32 ≤ c.toNat

theorem printable_append {a b : List Char} (ha : Printable a) (hb : Printable b) : Printable (a ++ b) := by
  intro c hc
  rcases List.mem_append.1 hc with h | h
  exacts [ha c h, hb c h]

theorem printable_digits {t : List Char} (h : ∀ c ∈ t, c.isDigit = true) : Printable t := by
  intro c hc
  have := h c hc
  unfold Char.isDigit at this
  simp at this
  have h1 : ('0' : Char).toNat ≤ c.toNat := this.1
  have : ('0' : Char).toNat = 48 := by decide
  omega

theorem hex_printable : ∀ k, k < 16 → 32 ≤ (Nat.digitChar k).toNat := by decide

theorem printable_escape (s : List Char) : Printable (jsonEscape s) := by
  intro c hc
  unfold jsonEscape at hc
  simp only [List.mem_cons, List.mem_append, List.mem_flatMap, List.not_mem_nil, or_false] at hc
  rcases hc with rfl | ⟨x, _, hx⟩ | rfl
  · decide
  · unfold escapeChar at hx
    split at hx
    · simp at hx; rcases hx with rfl | rfl <;> decide
    split at hx
    · simp at hx; subst hx; decide
    split at hx
    · simp at hx; rcases hx with rfl | rfl <;> decide
    split at hx
    · simp at hx; rcases hx with rfl | rfl <;> decide
    split at hx
    · simp at hx; rcases hx with rfl | rfl <;> decide
    split at hx
    · rename_i h
      simp only [List.mem_cons, List.not_mem_nil, or_false] at hx
      rcases hx with rfl | rfl | rfl | rfl | rfl | rfl
      · decide
      · decide
      · decide
      · decide
      · exact hex_printable _ (by omega)
      · exact hex_printable _ (by omega)
    · rename_i h
      simp at hx; subst hx; omega
  · decide

theorem printable_score (s : Shown) : Printable s.text := by
  cases s with
  | finite neg m =>
    unfold Shown.text
    refine printable_append (printable_append ?_ (printable_digits (digits_toDigits _).2)) ?_
    · cases neg
      · intro c hc; simp at hc
      · intro c hc; simp at hc; subst hc; decide
    · intro c hc
      rcases List.mem_cons.1 hc with rfl | hc
      · decide
      · exact printable_digits (six_digits _).2 c hc
  | inf neg => cases neg <;> (unfold Shown.text Printable; decide)
  | nan => unfold Shown.text Printable; decide

theorem printable_int (i : Int) : Printable (showInt i) := by
  unfold showInt
  split
  · intro c hc
    rcases List.mem_cons.1 hc with rfl | hc
    · decide
    · exact printable_digits (digits_toDigits _).2 c hc
  · exact printable_digits (digits_toDigits _).2

theorem printable_listed : ∀ (i : Nat) (l : List (List Char)), (∀ t ∈ l, Printable t) → Printable (listed i l)
  | _, [], _ => by intro c hc; simp [listed] at hc
  | i, t :: l, h => by
    unfold listed
    refine printable_append (printable_append ?_ (h t (List.mem_cons_self ..))) (printable_listed (i + 1) l fun u hu => h u (List.mem_cons_of_mem _ hu))
    split
    · intro c hc; simp at hc; subst hc; decide
    · intro c hc; simp at hc

theorem printable_result (r : List Char × Shown) : Printable (resultText r) := by
  unfold resultText
  refine printable_append (printable_append (printable_append (printable_append ?_ (printable_escape _)) ?_) (printable_score _)) ?_ <;>
    (unfold Printable; decide)

theorem printable_text (c : Call) (hs : PlainName (stageOf c)) : Printable c.text := by
  have hp : Printable (stageOf c) := fun x hx => (hs x hx).2.2
  cases c with
  | ids q s l sc limit =>
    unfold Call.text idsText
    dsimp only
    refine printable_append (printable_append (printable_append (printable_append (printable_append (printable_append
      (printable_append (printable_append ?_ hp) ?_) (printable_escape _)) ?_) (printable_listed 0 _ ?_)) ?_) (printable_listed 0 _ ?_)) ?_
    · unfold Printable; decide
    · unfold Printable; decide
    · unfold Printable; decide
    · intro t ht; obtain ⟨i, _, rfl⟩ := List.mem_map.1 ht; exact printable_int i
    · unfold Printable; decide
    · intro t ht; obtain ⟨i, _, rfl⟩ := List.mem_map.1 ht; exact printable_score i
    · unfold Printable; decide
  | results q s l limit =>
    unfold Call.text resultsText
    dsimp only
    refine printable_append (printable_append (printable_append (printable_append (printable_append (printable_append ?_ hp) ?_) (printable_escape _)) ?_)
      (printable_listed 0 _ ?_)) ?_
    · unfold Printable; decide
    · unfold Printable; decide
    · unfold Printable; decide
    · intro t ht; obtain ⟨i, _, rfl⟩ := List.mem_map.1 ht; exact printable_result i
    · unfold Printable; decide

theorem linesOf_line (rest : List Char) : ∀ (t acc : List Char), Printable t → linesOf acc (t ++ '\n' :: rest) = (acc ++ t) :: linesOf [] rest
  | [], acc, _ => by simp [linesOf]
  | c :: t, acc, h => by
    have hc : c ≠ '\n' := by rintro rfl; exact absurd (h _ (List.mem_cons_self ..)) (by decide)
    rw [List.cons_append, linesOf, if_neg hc, linesOf_line rest t _ fun x hx => h x (List.mem_cons_of_mem _ hx)]
    simp

theorem records_emit (rest : List Char) (c : Call) (hs : PlainName (stageOf c)) :
    records (line c.text ++ rest) = c.text :: records rest := by
  unfold records line
  rw [List.append_assoc, List.cons_append, List.nil_append,
    linesOf_line rest _ [] (printable_append (by unfold Printable; decide) (printable_text c hs)), List.filterMap_cons, List.nil_append]
  have h1 : ("__COLGREP_TRACE__ ".toList ++ c.text).take 18 = "__COLGREP_TRACE__ ".toList := List.take_left' (by decide)
  have h2 : ("__COLGREP_TRACE__ ".toList ++ c.text).drop 18 = c.text := List.drop_left' (by decide)
  rw [h1, h2, if_pos rfl]

theorem records_calls (var : Option String) (hv : enabled var = true) : ∀ calls : List Call, (∀ c ∈ calls, PlainName (stageOf c)) →
    records (calls.flatMap (emit var)) = calls.map Call.text
  | [], _ => rfl
  | c :: l, h => by
    rw [List.flatMap_cons, emit, if_pos hv, records_emit _ c (h c (List.mem_cons_self ..)),
      records_calls var hv l fun x hx => h x (List.mem_cons_of_mem _ hx), List.map_cons]

end NextPlaid.Trace
