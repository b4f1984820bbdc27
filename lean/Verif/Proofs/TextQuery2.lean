import Verif.Proofs.TextQuery

/-! Lemmas about the identifier tokenizer. -/

namespace NextPlaid.Text
open NextPlaid.Spec

/-! ### Character classes -/

theorem upper_iff (c : Char) : c.isUpper = true ↔ 65 ≤ c.toNat ∧ c.toNat ≤ 90 := by
  unfold Char.isUpper
  rw [decide_eq_true_eq, ge_iff_le, UInt32.le_iff_toNat_le, UInt32.le_iff_toNat_le]
  exact Iff.rfl

theorem lower_iff (c : Char) : c.isLower = true ↔ 97 ≤ c.toNat ∧ c.toNat ≤ 122 := by
  unfold Char.isLower
  rw [Bool.and_eq_true, decide_eq_true_eq, decide_eq_true_eq, ge_iff_le, UInt32.le_iff_toNat_le,
    UInt32.le_iff_toNat_le]
  exact Iff.rfl

theorem digit_iff (c : Char) : c.isDigit = true ↔ 48 ≤ c.toNat ∧ c.toNat ≤ 57 := by
  unfold Char.isDigit
  rw [Bool.and_eq_true, decide_eq_true_eq, decide_eq_true_eq, ge_iff_le, UInt32.le_iff_toNat_le,
    UInt32.le_iff_toNat_le]
  exact Iff.rfl

theorem toLower_nat (c : Char) : c.toLower.toNat = if c.isUpper then c.toNat + 32 else c.toNat := by
  by_cases h : c.isUpper = true
  · rw [if_pos h]
    have h' := (upper_iff c).1 h
    unfold Char.isUpper at h
    rw [decide_eq_true_eq] at h
    unfold Char.toLower
    rw [dif_pos h]
    show (c.val + ('a'.val - 'A'.val)).toNat = c.val.toNat + 32
    rw [UInt32.toNat_add]
    have e : ('a'.val - 'A'.val).toNat = 32 := rfl
    rw [e]
    have : c.val.toNat ≤ 90 := h'.2
    omega
  · rw [if_neg h]
    unfold Char.isUpper at h
    rw [decide_eq_true_eq] at h
    unfold Char.toLower
    rw [dif_neg h]

theorem toLower_of_not_upper (c : Char) (h : c.isUpper = false) : c.toLower = c := by
  unfold Char.isUpper at h
  rw [decide_eq_false_iff_not] at h
  unfold Char.toLower
  rw [dif_neg h]

theorem toLower_underscore (c : Char) : c.toLower = '_' ↔ c = '_' := by
  constructor
  · intro h
    have h1 := congrArg Char.toNat h
    rw [toLower_nat] at h1
    have e : ('_' : Char).toNat = 95 := rfl
    rw [e] at h1
    by_cases hu : c.isUpper = true
    · rw [if_pos hu] at h1
      have := (upper_iff c).1 hu
      omega
    · rw [toLower_of_not_upper c (by simpa using hu)] at h
      exact h
  · rintro rfl; rfl

theorem alpha_iff (c : Char) : isAlphaA c = true ↔ c.isUpper = true ∨ c.isLower = true := by
  unfold isAlphaA Char.isAlpha
  rw [Bool.or_eq_true]

theorem head_not_digit (c : Char) (h : identHead c = true) : isDigitA c = false := by
  unfold identHead at h
  rw [Bool.or_eq_true] at h
  by_contra hd
  have hd : c.isDigit = true := by simpa [isDigitA] using hd
  have hd := (digit_iff c).1 hd
  rcases h with h | h
  · rcases (alpha_iff c).1 h with h | h
    · have := (upper_iff c).1 h; omega
    · have := (lower_iff c).1 h; omega
  · have : c = '_' := by simpa using h
    subst this
    have e : ('_' : Char).toNat = 95 := rfl
    omega

theorem tail_cases (c : Char) (h : identTail c = true) : identHead c = true ∨ isDigitA c = true := by
  unfold identTail at h
  unfold identHead
  simp only [Bool.or_eq_true] at h ⊢
  tauto

theorem head_tail (c : Char) (h : identHead c = true) : identTail c = true := by
  unfold identHead at h
  unfold identTail
  simp only [Bool.or_eq_true] at h ⊢
  tauto

/-! ### Finding identifiers -/

theorem dropWhile_all {α : Type} (p : α → Bool) : ∀ (l m : List α), l.dropWhile p = [] →
    (l ++ m).dropWhile p = m.dropWhile p
  | [], m, _ => rfl
  | a :: l, m, h => by
    rw [List.dropWhile_cons] at h
    split at h
    · next ha => rw [List.cons_append, List.dropWhile_cons, if_pos ha, dropWhile_all p l m h]
    · cases h

theorem dropWhile_some {α : Type} (p : α → Bool) : ∀ (l m : List α), l.dropWhile p ≠ [] →
    (l ++ m).dropWhile p = l.dropWhile p ++ m
  | [], m, h => absurd rfl h
  | a :: l, m, h => by
    rw [List.dropWhile_cons] at h ⊢
    split at h
    · next ha => rw [List.cons_append, List.dropWhile_cons, if_pos ha, if_pos ha, dropWhile_some p l m h]
    · next ha => rw [List.cons_append, List.dropWhile_cons, if_neg ha, if_neg ha]; rfl

theorem dropWhile_nil_iff {α : Type} (p : α → Bool) : ∀ (l : List α), l.dropWhile p = [] ↔ ∀ x ∈ l, p x = true
  | [] => by simp
  | a :: l => by
    rw [List.dropWhile_cons]
    by_cases h : p a = true
    · rw [if_pos h, dropWhile_nil_iff p l]; simp [h]
    · rw [if_neg h]; simp [h]

theorem identLoop_runs : ∀ (text cur : List Char),
    identLoop (cur.dropWhile isDigitA) text =
      ((splitWhite (fun c => !identTail c) cur text).map (·.dropWhile isDigitA)).filter (fun w => decide (w ≠ []))
  | [], cur => by
    rw [identLoop, splitWhite]
    by_cases h : cur = []
    · subst h; simp
    · rw [if_neg h]
      by_cases h' : cur.dropWhile isDigitA = []
      · simp [h']
      · simp only [h', if_false, List.map_cons, List.map_nil]
        rw [List.filter_cons_of_pos (by simpa using h')]
        rfl
  | c :: cs, cur => by
    rw [identLoop, splitWhite]
    by_cases ht : identTail c = true
    · simp only [ht, Bool.not_true, Bool.false_eq_true, if_false, if_true]
      rw [← identLoop_runs cs (cur ++ [c])]
      by_cases h : cur.dropWhile isDigitA = []
      · rw [if_pos h, dropWhile_all _ _ _ h]
        by_cases hh : identHead c = true
        · rw [if_pos hh, List.dropWhile_cons, if_neg (by rw [head_not_digit c hh]; simp)]
        · rw [if_neg hh, List.dropWhile_cons, if_pos]
          · rfl
          · rcases tail_cases c ht with h | h
            · exact absurd h hh
            · exact h
      · rw [if_neg h, dropWhile_some _ _ _ h]
    · have hh : identHead c = false := by
        by_contra hn
        exact ht (head_tail c (by simpa using hn))
      have ht : identTail c = false := by simpa using ht
      simp only [ht, hh, Bool.not_false, if_true, Bool.false_eq_true, if_false]
      have ih := identLoop_runs cs []
      rw [List.dropWhile_nil] at ih
      by_cases h : cur = []
      · subst h
        simp only [List.dropWhile_nil, if_true]
        exact ih
      · rw [if_neg h]
        by_cases h' : cur.dropWhile isDigitA = []
        · rw [if_pos h', List.map_cons, List.filter_cons_of_neg (by simpa using h')]
          exact ih
        · rw [if_neg h', List.map_cons, List.filter_cons_of_pos (by simpa using h'), ih]

theorem mem_idents (text w : List Char) : w ∈ identLoop [] text ↔
    ∃ run, IsWord (fun c => !identTail c) text run ∧ w = run.dropWhile isDigitA ∧ w ≠ [] := by
  have := identLoop_runs text []
  rw [List.dropWhile_nil] at this
  rw [this, List.mem_filter, List.mem_map, decide_eq_true_eq]
  constructor
  · rintro ⟨⟨run, hr, rfl⟩, hne⟩
    exact ⟨run, (mem_words _ _ _).1 hr, rfl, hne⟩
  · rintro ⟨run, hr, rfl, hne⟩
    exact ⟨⟨run, (mem_words _ _ _).2 hr, rfl⟩, hne⟩

/-- An identifier: it starts with a letter or underscore and has only letters, digits, underscores. -/
def IsIdent (w : List Char) : Prop := w ≠ [] ∧ ∀ c ∈ w, identTail c = true

theorem idents_isIdent {text w : List Char} (h : w ∈ identLoop [] text) : IsIdent w := by
  obtain ⟨run, ⟨_, hr, _⟩, rfl, hne⟩ := (mem_idents text w).1 h
  refine ⟨hne, ?_⟩
  intro c hc
  have := hr c ((List.dropWhile_suffix _).subset hc)
  simpa using this

/-! ### Splitting -/

theorem lowerA_append (a b : List Char) : lowerA (a ++ b) = lowerA a ++ lowerA b := List.map_append

def keepA (c : Char) : Bool := isAlphaA c || isDigitA c

theorem lowerA_digits (l : List Char) (h : ∀ c ∈ l, isDigitA c = true) : lowerA l = l := by
  unfold lowerA
  conv => rhs; rw [← List.map_id l]
  apply List.map_congr_left
  intro c hc
  apply toLower_of_not_upper
  by_contra hu
  have hu := (upper_iff c).1 (by simpa using hu)
  have := (digit_iff c).1 (h c hc)
  omega

theorem filter_takeWhile {α : Type} (p q : α → Bool) (h : ∀ c, p c = true → q c = true) (l : List α) :
    l.filter q = l.takeWhile p ++ (l.dropWhile p).filter q := by
  conv => lhs; rw [← List.takeWhile_append_dropWhile (p := p) (l := l)]
  rw [List.filter_append]
  congr 1
  apply List.filter_eq_self.2
  intro c hc
  exact h c (takeWhile_all p l c hc)

theorem acronym_spec (run rest : List Char) (hne : run ≠ []) (hrun : ∀ c ∈ run, isUpperA c = true) :
    (acronym run rest).1 ≠ [] ∧ (acronym run rest).2.length < (run ++ rest).length ∧
    (acronym run rest).1 ++ lowerA ((acronym run rest).2.filter keepA) = lowerA ((run ++ rest).filter keepA) := by
  have hk : ∀ c ∈ run, keepA c = true := by
    intro c hc
    have := hrun c hc
    unfold keepA
    rw [(alpha_iff c).2 (.inl this)]
    rfl
  have hlk : ∀ c, isLowerA c = true → keepA c = true := by
    intro c hc
    unfold keepA
    rw [(alpha_iff c).2 (.inr hc)]
    rfl
  unfold acronym
  split
  · next h =>
    rw [Bool.and_eq_true, decide_eq_true_eq] at h
    have hlen := h.2
    refine ⟨?_, ?_, ?_⟩
    · intro he
      have := congrArg List.length he
      simp [lowerA] at this
      omega
    · simp only [List.length_append, List.length_drop]
      omega
    · have e : run = run.dropLast ++ run.drop (run.length - 1) := by
        rw [List.dropLast_eq_take, List.take_append_drop]
      have h1 : (run.drop (run.length - 1) ++ rest).filter keepA = run.drop (run.length - 1) ++ rest.filter keepA := by
        rw [List.filter_append]
        congr 1
        exact List.filter_eq_self.2 fun c hc => hk c ((List.drop_suffix _ _).subset hc)
      have h2 : (run ++ rest).filter keepA = run ++ rest.filter keepA := by
        rw [List.filter_append]
        congr 1
        exact List.filter_eq_self.2 hk
      simp only
      rw [h1, h2, ← lowerA_append, ← List.append_assoc, ← e]
  · refine ⟨?_, ?_, ?_⟩
    · intro he
      have := congrArg List.length he
      simp [lowerA] at this
      exact hne this.1
    · have := (List.dropWhile_suffix isLowerA (l := rest)).length_le
      have : 0 < run.length := List.length_pos_iff.2 hne
      simp only [List.length_append]
      omega
    · have h2 : (run ++ rest).filter keepA = run ++ rest.filter keepA := by
        rw [List.filter_append]
        congr 1
        exact List.filter_eq_self.2 hk
      simp only
      rw [h2, filter_takeWhile isLowerA keepA hlk rest, ← lowerA_append, List.append_assoc]

theorem camelLoop_spec : ∀ (fuel : Nat) (w : List Char), w.length ≤ fuel →
    (camelLoop fuel w).flatten = lowerA (w.filter keepA) ∧ ∀ p ∈ camelLoop fuel w, p ≠ []
  | 0, w, h => by
    have : w = [] := by simpa using h
    subst this
    exact ⟨rfl, by simp [camelLoop]⟩
  | fuel + 1, [], h => ⟨rfl, by simp [camelLoop]⟩
  | fuel + 1, c :: cs, h => by
    have hdrop : ∀ (p : Char → Bool), p c = true → ((c :: cs).dropWhile p).length ≤ fuel := by
      intro p hp
      rw [List.dropWhile_cons, if_pos hp]
      have := (List.dropWhile_suffix p (l := cs)).length_le
      simp only [List.length_cons] at h
      omega
    have htake : ∀ (p : Char → Bool), p c = true → (c :: cs).takeWhile p ≠ [] := by
      intro p hp
      rw [List.takeWhile_cons, if_pos hp]
      simp
    rw [camelLoop]
    split
    · next hd =>
      obtain ⟨ih1, ih2⟩ := camelLoop_spec fuel _ (hdrop isDigitA hd)
      refine ⟨?_, ?_⟩
      · rw [List.flatten_cons, ih1]
        conv => lhs; lhs; rw [← lowerA_digits _ (takeWhile_all isDigitA (c :: cs))]
        rw [← lowerA_append, ← filter_takeWhile isDigitA keepA]
        intro x hx
        unfold keepA
        rw [hx, Bool.or_true]
      · intro p hp
        rcases List.mem_cons.1 hp with rfl | hp
        · exact htake _ hd
        · exact ih2 p hp
    · next hd =>
      split
      · next ha =>
        obtain ⟨ih1, ih2⟩ := camelLoop_spec fuel cs (by simpa using h)
        refine ⟨?_, ih2⟩
        rw [ih1, List.filter_cons_of_neg]
        unfold keepA
        simp only [Bool.not_eq_true'] at ha
        rw [ha]
        simpa using hd
      · next ha =>
        split
        · next hu =>
          have hrun := takeWhile_all isUpperA (c :: cs)
          obtain ⟨h1, h2, h3⟩ := acronym_spec _ ((c :: cs).dropWhile isUpperA) (htake isUpperA hu) hrun
          rw [List.takeWhile_append_dropWhile] at h2 h3
          obtain ⟨ih1, ih2⟩ := camelLoop_spec fuel
            (acronym ((c :: cs).takeWhile isUpperA) ((c :: cs).dropWhile isUpperA)).2 (by
              simp only [List.length_cons] at h h2
              omega)
          refine ⟨?_, ?_⟩
          · rw [List.flatten_cons, ih1, h3]
          · intro p hp
            rcases List.mem_cons.1 hp with rfl | hp
            · exact h1
            · exact ih2 p hp
        · next hu =>
          have hl : isLowerA c = true := by
            have ha : isAlphaA c = true := by simpa using ha
            rcases (alpha_iff c).1 ha with h | h
            · exact absurd h hu
            · exact h
          obtain ⟨ih1, ih2⟩ := camelLoop_spec fuel _ (hdrop isLowerA hl)
          refine ⟨?_, ?_⟩
          · rw [List.flatten_cons, ih1, ← lowerA_append, ← filter_takeWhile isLowerA keepA]
            intro x hx
            unfold keepA
            rw [(alpha_iff x).2 (.inr hx)]
            rfl
          · intro p hp
            rcases List.mem_cons.1 hp with rfl | hp
            · intro he
              apply htake _ hl
              simpa [lowerA] using he
            · exact ih2 p hp

theorem splitUnderscore_flatten : ∀ (l cur : List Char), (splitUnderscore cur l).flatten = cur ++ l.filter (· ≠ '_')
  | [], cur => by simp [splitUnderscore]
  | c :: l, cur => by
    rw [splitUnderscore]
    split
    · next h => rw [List.flatten_cons, splitUnderscore_flatten l, List.filter_cons_of_neg (by simpa using h)]; rfl
    · next h => rw [splitUnderscore_flatten l, List.filter_cons_of_pos (by simpa using h)]; simp

theorem flatten_filter_ne (l : List (List Char)) : (l.filter (fun p => p != [])).flatten = l.flatten := by
  induction l with
  | nil => rfl
  | cons a l ih =>
    by_cases h : a = []
    · subst h; rw [List.filter_cons_of_neg (by simp), ih]; rfl
    · rw [List.filter_cons_of_pos (by simpa using h), List.flatten_cons, ih, List.flatten_cons]

theorem splitUnderscore_none : ∀ (l cur : List Char), '_' ∉ cur → ∀ p ∈ splitUnderscore cur l, '_' ∉ p
  | [], cur, hc, p, hp => by
    simp only [splitUnderscore, List.mem_singleton] at hp
    rw [hp]; exact hc
  | c :: l, cur, hc, p, hp => by
    rw [splitUnderscore] at hp
    split at hp
    · rcases List.mem_cons.1 hp with rfl | hp
      · exact hc
      · exact splitUnderscore_none l [] (by simp) p hp
    · next h =>
      refine splitUnderscore_none l (cur ++ [c]) ?_ p hp
      intro hm
      rcases List.mem_append.1 hm with hm | hm
      · exact hc hm
      · simp only [List.mem_singleton] at hm
        exact h hm.symm

theorem splitUnderscore_self : ∀ (l cur : List Char), '_' ∉ l → splitUnderscore cur l = [cur ++ l]
  | [], cur, _ => by simp [splitUnderscore]
  | c :: l, cur, h => by
    simp only [List.mem_cons, not_or] at h
    rw [splitUnderscore, if_neg (fun e => h.1 e.symm), splitUnderscore_self l _ h.2]
    simp

theorem lowerA_filter (w : List Char) : (lowerA w).filter (· ≠ '_') = lowerA (w.filter (· ≠ '_')) := by
  unfold lowerA
  rw [List.filter_map]
  congr 1
  apply List.filter_congr
  intro c _
  simp only [Function.comp, ne_eq, toLower_underscore]

theorem mem_lowerA_underscore (w : List Char) : '_' ∈ lowerA w ↔ '_' ∈ w := by
  unfold lowerA
  rw [List.mem_map]
  constructor
  · rintro ⟨c, hc, he⟩
    rw [toLower_underscore] at he
    rwa [he] at hc
  · intro h
    exact ⟨'_', h, rfl⟩

theorem identParts_spec {w : List Char} (h : IsIdent w) :
    (identParts w).flatten = lowerA (w.filter (· ≠ '_')) ∧ (∀ p ∈ identParts w, p ≠ [] ∧ '_' ∉ p) := by
  unfold identParts
  split
  · next hc =>
    refine ⟨?_, ?_⟩
    · rw [flatten_filter_ne, splitUnderscore_flatten, List.nil_append, lowerA_filter]
    · intro p hp
      rw [List.mem_filter] at hp
      exact ⟨by simpa using hp.2, splitUnderscore_none _ [] (by simp) p hp.1⟩
  · next hc =>
    have hc : '_' ∉ w := by simpa using hc
    obtain ⟨h1, h2⟩ := camelLoop_spec w.length w (Nat.le_refl _)
    have e1 : w.filter keepA = w := by
      apply List.filter_eq_self.2
      intro c hcm
      have := h.2 c hcm
      unfold identTail at this
      unfold keepA
      rw [Bool.or_eq_true] at this
      rcases this with h | h
      · exact h
      · exfalso
        have : c = '_' := by simpa using h
        subst this
        exact hc hcm
    have e2 : w.filter (· ≠ '_') = w := by
      apply List.filter_eq_self.2
      intro c hcm
      simp only [ne_eq, decide_not, Bool.not_eq_true', decide_eq_false_iff_not]
      rintro rfl
      exact hc hcm
    rw [e2]
    rw [e1] at h1
    refine ⟨h1, ?_⟩
    intro p hp
    refine ⟨h2 p hp, ?_⟩
    intro hu
    have : '_' ∈ lowerA w := by
      rw [← h1]
      exact List.mem_flatten.2 ⟨p, hp, hu⟩
    exact hc ((mem_lowerA_underscore w).1 this)

theorem mem_splitUnderscore_of_part {w : List Char} (h : IsIdent w) (p : List Char) (hp : p ∈ identParts w) :
    ∃ t ∈ splitIdentifier w, p ∈ splitUnderscore [] t := by
  obtain ⟨h1, h2⟩ := identParts_spec h
  have hpu := (h2 p hp).2
  unfold splitIdentifier
  split
  · refine ⟨p, by simp [hp], ?_⟩
    rw [splitUnderscore_self _ _ hpu]
    simp
  · next hlen =>
    refine ⟨lowerA w, by simp, ?_⟩
    have hone : identParts w = [p] := by
      cases hi : identParts w with
      | nil => rw [hi] at hp; simp at hp
      | cons a l =>
        rw [hi] at hlen hp
        cases l with
        | nil => simp at hp; rw [hp]
        | cons b l => simp at hlen
    unfold identParts at hone hp
    split at hone
    · next hc =>
      rw [if_pos hc] at hp
      exact (List.mem_filter.1 hp).1
    · next hc =>
      have hc : '_' ∉ w := by simpa using hc
      have e2 : w.filter (· ≠ '_') = w := by
        apply List.filter_eq_self.2
        intro c hcm
        simp only [ne_eq, decide_not, Bool.not_eq_true', decide_eq_false_iff_not]
        rintro rfl
        exact hc hcm
      have hpw : p = lowerA w := by
        have : identParts w = [p] := by unfold identParts; rw [if_neg (by simpa using hc)]; exact hone
        rw [this, e2] at h1
        simpa using h1
      rw [splitUnderscore_self _ _ (fun h => hc ((mem_lowerA_underscore w).1 h)), hpw]
      simp

/-! ### Tokens are plain -/

theorem toLower_tail (c : Char) (h : identTail c = true) : identTail c.toLower = true ∧ c.toLower.toNat ≠ 0 := by
  by_cases hu : c.isUpper = true
  · have h1 := toLower_nat c
    rw [if_pos hu] at h1
    have h2 := (upper_iff c).1 hu
    refine ⟨?_, by omega⟩
    have : c.toLower.isLower = true := (lower_iff _).2 ⟨by omega, by omega⟩
    unfold identTail
    rw [(alpha_iff _).2 (.inr this)]
    rfl
  · rw [toLower_of_not_upper c (by simpa using hu)]
    refine ⟨h, ?_⟩
    intro h0
    unfold identTail at h
    simp only [Bool.or_eq_true] at h
    rcases h with (h | h) | h
    · rcases (alpha_iff c).1 h with h | h
      · have := (upper_iff c).1 h; omega
      · have := (lower_iff c).1 h; omega
    · have := (digit_iff c).1 h; omega
    · have : c = '_' := by simpa using h
      subst this
      exact absurd h0 (by decide)

theorem bigrams_chars : ∀ (l : List (List Char)) (t : List Char), t ∈ bigrams l → ∀ c ∈ t, c = '_' ∨ c ∈ l.flatten
  | [], t, h => by simp [bigrams] at h
  | [a], t, h => by simp [bigrams] at h
  | a :: b :: l, t, h => by
    rw [bigrams] at h
    intro c hc
    rcases List.mem_cons.1 h with rfl | h
    · simp only [List.mem_append, List.mem_cons] at hc
      rcases hc with hc | hc | hc
      · right; simp [hc]
      · left; exact hc
      · right; simp [hc]
    · rcases bigrams_chars (b :: l) t h c hc with h | h
      · exact .inl h
      · right; rw [List.flatten_cons]; exact List.mem_append_right _ h

/-- Every character of a token is a lower-cased identifier character. -/
theorem splitIdentifier_chars {w : List Char} (h : IsIdent w) (t : List Char) (ht : t ∈ splitIdentifier w) :
    ∀ c ∈ t, identTail c = true ∧ c.toNat ≠ 0 := by
  have hlow : ∀ c ∈ lowerA w, identTail c = true ∧ c.toNat ≠ 0 := by
    intro c hc
    obtain ⟨d, hd, rfl⟩ := List.mem_map.1 hc
    exact toLower_tail d (h.2 d hd)
  have hflat : ∀ c ∈ (identParts w).flatten, identTail c = true ∧ c.toNat ≠ 0 := by
    intro c hc
    rw [(identParts_spec h).1] at hc
    obtain ⟨d, hd, rfl⟩ := List.mem_map.1 hc
    exact toLower_tail d (h.2 d (List.mem_filter.1 hd).1)
  unfold splitIdentifier at ht
  split at ht
  · simp only [List.cons_append, List.mem_cons, List.mem_append] at ht
    rcases ht with rfl | ht | ht
    · exact hlow
    · intro c hc
      exact hflat c (List.mem_flatten.2 ⟨t, ht, hc⟩)
    · intro c hc
      rcases bigrams_chars _ t ht c hc with rfl | hc
      · exact ⟨rfl, by decide⟩
      · exact hflat c hc
  · simp only [List.mem_singleton] at ht
    rw [ht]; exact hlow

theorem tokenize_chars (text t : List Char) (ht : t ∈ tokenizeIdentifiers text) :
    ∀ c ∈ t, identTail c = true ∧ c.toNat ≠ 0 := by
  unfold tokenizeIdentifiers at ht
  obtain ⟨w, hw, ht⟩ := List.mem_flatMap.1 ht
  exact splitIdentifier_chars (idents_isIdent hw) t ht

theorem mem_firstSeen : ∀ (ts seen : List (List Char)) (t : List Char),
    t ∈ firstSeen seen ts ↔ t ∈ ts ∧ t ≠ [] ∧ t ∉ seen
  | [], seen, t => by simp [firstSeen]
  | x :: ts, seen, t => by
    rw [firstSeen]
    split
    · next h =>
      rw [mem_firstSeen ts seen t]
      constructor
      · rintro ⟨h1, h2⟩; exact ⟨List.mem_cons_of_mem _ h1, h2⟩
      · rintro ⟨h1, h2, h3⟩
        rcases List.mem_cons.1 h1 with rfl | h1
        · rcases h with h | h
          · exact absurd h h2
          · exact absurd h h3
        · exact ⟨h1, h2, h3⟩
    · next h =>
      rw [not_or] at h
      rw [List.mem_cons, mem_firstSeen ts (x :: seen) t]
      constructor
      · rintro (rfl | ⟨h1, h2, h3⟩)
        · exact ⟨by simp, h.1, h.2⟩
        · exact ⟨List.mem_cons_of_mem _ h1, h2, fun hm => h3 (List.mem_cons_of_mem _ hm)⟩
      · rintro ⟨h1, h2, h3⟩
        by_cases he : t = x
        · exact .inl he
        · right
          rcases List.mem_cons.1 h1 with h1 | h1
          · exact absurd h1 he
          · refine ⟨h1, h2, ?_⟩
            intro hm
            rcases List.mem_cons.1 hm with hm | hm
            · exact he hm
            · exact h3 hm

theorem firstSeen_nodup : ∀ (ts seen : List (List Char)), (firstSeen seen ts).Nodup
  | [], seen => List.nodup_nil
  | x :: ts, seen => by
    rw [firstSeen]
    split
    · exact firstSeen_nodup ts seen
    · rw [List.nodup_cons]
      refine ⟨?_, firstSeen_nodup ts _⟩
      intro hm
      exact ((mem_firstSeen ts (x :: seen) x).1 hm).2.2 (by simp)

end NextPlaid.Text
