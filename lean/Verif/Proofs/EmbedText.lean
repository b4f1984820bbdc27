import Verif.Spec.EmbedText

/-! Lemmas about the text that is embedded for a code unit. -/

namespace NextPlaid.EmbedText
open NextPlaid.Spec

variable {A : Alphabet}

/-! ### Words of a path -/

def flush (cur : List Char) : List (List Char) := if cur.isEmpty then [] else [cur]

def isGap (A : Alphabet) (c : Char) : Bool :=
  isSlash c || (c == '_' || c == '-' || c == '.') || A.white c

theorem isGap_iff (c : Char) : isGap A c = true ↔ Gap A c := by
  unfold isGap Gap isSlash
  simp only [Bool.or_eq_true, beq_iff_eq, List.mem_cons, List.not_mem_nil, or_false]
  constructor
  · rintro (((h | h) | (h | h) | h) | h)
    · exact .inl (.inl h)
    · exact .inl (.inr (.inl h))
    · exact .inl (.inr (.inr (.inl h)))
    · exact .inl (.inr (.inr (.inr (.inl h))))
    · exact .inl (.inr (.inr (.inr (.inr h))))
    · exact .inr h
  · rintro ((h | h | h | h | h) | h)
    · exact .inl (.inl (.inl h))
    · exact .inl (.inl (.inr h))
    · exact .inl (.inr (.inl (.inl h)))
    · exact .inl (.inr (.inl (.inr h)))
    · exact .inl (.inr (.inr h))
    · exact .inr h

/-- The words of a path, cut directly. -/
def cutFrom (A : Alphabet) (cur : List Char) (prev : Option Char) : List Char → List (List Char)
  | [] => flush cur
  | c :: cs =>
    if isGap A c then flush cur ++ cutFrom A [] (some c) cs
    else if A.upper c && prev.any A.lower then flush cur ++ cutFrom A [c] (some c) cs
    else cutFrom A (cur ++ [c]) (some c) cs

theorem wordsFrom_black (c : Char) (h : A.white c = false) (cur t : List Char) :
    wordsFrom A.white cur (c :: t) = wordsFrom A.white (cur ++ [c]) t := by
  rw [wordsFrom, h]; rfl

theorem wordsFrom_white (c : Char) (h : A.white c = true) (cur t : List Char) :
    wordsFrom A.white cur (c :: t) = flush cur ++ wordsFrom A.white [] t := by
  rw [wordsFrom, if_pos h]; rfl

theorem flush_nil : flush [] = [] := rfl

/-- What has been put out, read as words. -/
structure Reads (A : Alphabet) (res : List Char) (D : List (List Char)) (cur : List Char) : Prop where
  eq : ∀ t, wordsFrom A.white [] (res ++ t) = D ++ wordsFrom A.white cur t
  fresh : res = [] ∨ res.getLast? = some ' ' → cur = []

theorem Reads.blank (hA : Alphabet.Lawful A) {res D cur} (h : Reads A res D cur) :
    Reads A (res ++ [' ']) (D ++ flush cur) [] := by
  refine ⟨?_, fun _ => rfl⟩
  intro t
  rw [List.append_assoc, h.eq, List.singleton_append, wordsFrom_white ' ' hA.blank, List.append_assoc]

theorem Reads.push {res D cur} (h : Reads A res D cur) (c : Char) (hc : A.white c = false) (hb : c ≠ ' ') :
    Reads A (res ++ [c]) D (cur ++ [c]) := by
  refine ⟨?_, ?_⟩
  · intro t
    rw [List.append_assoc, h.eq, List.singleton_append, wordsFrom_black c hc]
  · rintro (h | h)
    · simp at h
    · rw [List.getLast?_concat] at h
      cases h
      exact absurd rfl hb

theorem Reads.pushWhite {res D cur} (h : Reads A res D cur) (c : Char) (hc : A.white c = true) :
    Reads A (res ++ [c]) (D ++ flush cur) [] := by
  refine ⟨?_, fun _ => rfl⟩
  intro t
  rw [List.append_assoc, h.eq, List.singleton_append, wordsFrom_white c hc, List.append_assoc]

theorem slash_not_upper (hA : Alphabet.Lawful A) (c : Char) (h : A.upper c = true) :
    isGap A c = false := by
  rw [Bool.eq_false_iff]
  intro hg
  rcases (isGap_iff c).1 hg with h1 | h1
  · exact hA.letter c (.inl h) h1
  · rw [hA.black c (.inl h)] at h1; cases h1

theorem words_eq (hA : Alphabet.Lawful A) : ∀ (cs res : List Char) (prev : Option Char) (D : List (List Char)) (cur : List Char),
    Reads A res D cur → wordsFrom A.white [] (pathLoop A res prev cs) = D ++ cutFrom A cur prev cs
  | [], res, prev, D, cur, h => by
    rw [pathLoop, cutFrom]
    have := h.eq []
    rw [List.append_nil] at this
    rw [this]
    rfl
  | c :: cs, res, prev, D, cur, h => by
    rw [pathLoop, cutFrom]
    by_cases hg : isGap A c
    · rw [if_pos hg, ← List.append_assoc]
      apply words_eq hA cs _ (some c)
      unfold pathStep
      split
      · split
        · exact h.blank hA
        · next hr =>
          have : res = [] ∨ res.getLast? = some ' ' := by
            by_cases he : res = []
            · exact .inl he
            · right
              simpa [he] using hr
          rw [h.fresh this, flush_nil, List.append_nil]
          exact ⟨by have := h.fresh this; subst this; exact h.eq, fun _ => rfl⟩
      · split
        · split
          · exact h.blank hA
          · next hr =>
            have : res = [] ∨ res.getLast? = some ' ' := .inr (by simpa using hr)
            rw [h.fresh this, flush_nil, List.append_nil]
            exact ⟨by have := h.fresh this; subst this; exact h.eq, fun _ => rfl⟩
        · next h1 h2 =>
          have hw : A.white c = true := by
            unfold isGap at hg
            rw [Bool.or_eq_true, Bool.or_eq_true] at hg
            rcases hg with (hg | hg) | hg
            · exact absurd hg h1
            · exact absurd hg h2
            · exact hg
          rw [if_neg]
          · exact h.pushWhite c hw
          · intro hu
            rw [slash_not_upper hA c hu] at hg
            cases hg
    · rw [if_neg hg]
      have hg' : isGap A c = false := by simpa using hg
      have hw : A.white c = false ∧ c ≠ ' ' := by
        have hw : A.white c = false := by
          unfold isGap at hg'
          rw [Bool.or_eq_false_iff] at hg'
          exact hg'.2
        refine ⟨hw, ?_⟩
        intro hb
        subst hb
        rw [hA.blank] at hw
        cases hw
      have hs : isSlash c = false := by
        unfold isGap at hg'
        rw [Bool.or_eq_false_iff, Bool.or_eq_false_iff] at hg'
        exact hg'.1.1
      have hd : (c == '_' || c == '-' || c == '.') = false := by
        unfold isGap at hg'
        rw [Bool.or_eq_false_iff, Bool.or_eq_false_iff] at hg'
        exact hg'.1.2
      unfold pathStep
      rw [hs, hd]
      simp only [Bool.false_eq_true, if_false]
      by_cases hu : A.upper c = true
      · rw [if_pos hu, hu, Bool.true_and]
        by_cases hp : prev.any A.lower = true
        · rw [if_pos hp, if_pos hp, ← List.append_assoc]
          apply words_eq hA cs _ (some c)
          have := (h.blank hA).push c hw.1 hw.2
          simpa using this
        · rw [if_neg hp, if_neg hp]
          exact words_eq hA cs _ (some c) _ _ (h.push c hw.1 hw.2)
      · rw [if_neg hu, if_neg]
        · exact words_eq hA cs _ (some c) _ _ (h.push c hw.1 hw.2)
        · rw [Bool.and_eq_true]
          exact fun h => hu h.1

/-! ### The words make up the text -/

theorem madeOf_gap {c : Char} (hc : Gap A c) {t ws} (h : MadeOf A t ws) : MadeOf A (c :: t) ws := by
  cases h with
  | none gap hg =>
    exact .none (c :: t) (by
      intro x hx
      rcases List.mem_cons.1 hx with rfl | hx
      · exact hc
      · exact hg x hx)
  | last gap w gap' hg hw hg' =>
    exact .last (c :: gap) w gap' (by
      intro x hx
      rcases List.mem_cons.1 hx with rfl | hx
      · exact hc
      · exact hg x hx) hw hg'
  | more gap w between w' rest ws hg hw hb hm hr =>
    exact .more (c :: gap) w between w' rest ws (by
      intro x hx
      rcases List.mem_cons.1 hx with rfl | hx
      · exact hc
      · exact hg x hx) hw hb hm hr

/-- The first word of a text, with what comes before it. -/
theorem madeOf_split {t w ws} (h : MadeOf A t (w :: ws)) :
    ∃ gap rest, t = gap ++ (w ++ rest) ∧ (∀ c ∈ gap, Gap A c) ∧ PathWord A w ∧ MadeOf A (w ++ rest) (w :: ws) := by
  cases h with
  | last gap w gap' hg hw hg' =>
    exact ⟨gap, gap', by rw [List.append_assoc], hg, hw, .last [] w gap' (by simp) hw hg'⟩
  | more gap w between w' rest ws hg hw hb hm hr =>
    refine ⟨gap, between ++ w' ++ rest, by simp [List.append_assoc], hg, hw, ?_⟩
    have := MadeOf.more [] w between w' rest ws (by simp) hw hb hm hr
    simpa [List.append_assoc] using this

theorem madeOf_word {w between t : List Char} {ws} (hw : PathWord A w) (hb : ∀ c ∈ between, Gap A c)
    (hm : ∀ w' ws', ws = w' :: ws' → ∀ gap rest, t = gap ++ (w' ++ rest) → (∀ c ∈ gap, Gap A c) → PathWord A w' → Meets A w (between ++ gap) w')
    (h : MadeOf A t ws) : MadeOf A (w ++ (between ++ t)) (w :: ws) := by
  cases ws with
  | nil =>
    cases h with
    | none gap hg =>
      have := MadeOf.last [] w (between ++ t) (by simp) hw (by
        intro c hc
        rcases List.mem_append.1 hc with hc | hc
        · exact hb c hc
        · exact hg c hc)
      simpa using this
  | cons w' ws =>
    obtain ⟨gap, rest, rfl, hg, hw', hr⟩ := madeOf_split h
    have := MadeOf.more [] w (between ++ gap) w' rest ws (by simp) hw (by
        intro c hc
        rcases List.mem_append.1 hc with hc | hc
        · exact hb c hc
        · exact hg c hc) (hm w' ws rfl gap rest rfl hg hw') hr
    simpa [List.append_assoc] using this

theorem pathWord_snoc {w : List Char} {c : Char} (hw : w = [] ∨ PathWord A w) (hc : ¬ Gap A c)
    (hn : ∀ x, w.getLast? = some x → ¬ (A.lower x = true ∧ A.upper c = true)) : PathWord A (w ++ [c]) := by
  refine ⟨by simp, ?_, ?_⟩
  · intro x hx
    rcases List.mem_append.1 hx with hx | hx
    · rcases hw with rfl | hw
      · simp at hx
      · exact hw.2.1 x hx
    · rw [List.mem_singleton] at hx; subst hx; exact hc
  · intro a b x y he
    rcases List.eq_nil_or_concat b with rfl | ⟨b', z, rfl⟩
    · have : w ++ [c] = (a ++ [x]) ++ [y] := by simpa using he
      obtain ⟨h1, h2⟩ := List.append_inj' this rfl
      cases h2
      exact hn x (by rw [h1, List.getLast?_concat])
    · have : w ++ [c] = (a ++ x :: y :: b') ++ [z] := by simpa using he
      obtain ⟨h1, h2⟩ := List.append_inj' this rfl
      rcases hw with rfl | hw
      · simp at h1
      · exact hw.2.2 a b' x y h1

theorem cut_madeOf (hA : Alphabet.Lawful A) : ∀ (cs cur : List Char) (prev : Option Char),
    (cur ≠ [] → PathWord A cur ∧ prev = cur.getLast?) → (cur = [] → prev.any A.lower = false) →
    MadeOf A (cur ++ cs) (cutFrom A cur prev cs)
  | [], cur, prev, h, _ => by
    rw [cutFrom, flush, List.append_nil]
    cases cur with
    | nil => exact .none [] (by simp)
    | cons a l =>
      have := MadeOf.last [] (a :: l) [] (by simp) (h (by simp)).1 (by simp)
      simpa using this
  | c :: cs, cur, prev, h, h0 => by
    rw [cutFrom]
    have hgap : ∀ d, isGap A d = true → (some d).any A.lower = false := by
      intro d hd
      rw [Option.any_some, Bool.eq_false_iff]
      intro hl
      rcases (isGap_iff d).1 hd with h1 | h1
      · exact hA.letter d (.inr hl) h1
      · rw [hA.black d (.inr hl)] at h1; cases h1
    by_cases hg : isGap A c = true
    · rw [if_pos hg]
      have hG := (isGap_iff c).1 hg
      have ih := cut_madeOf hA cs [] (some c) (by simp) (fun _ => hgap c hg)
      rw [List.nil_append] at ih
      cases hc : cur with
      | nil => rw [flush_nil, List.nil_append, List.nil_append]; exact madeOf_gap hG ih
      | cons a l =>
        have hw := (h (by rw [hc]; simp)).1
        rw [hc] at hw
        have := madeOf_word (between := [c]) hw (by simpa using hG) (by
          intro w' ws' _ gap rest _ _ _
          exact .inl (by simp)) ih
        simpa [flush] using this
    · rw [if_neg hg]
      have hG : ¬ Gap A c := fun h => hg ((isGap_iff c).2 h)
      by_cases hu : (A.upper c && prev.any A.lower) = true
      · rw [if_pos hu]
        rw [Bool.and_eq_true] at hu
        have hne : cur ≠ [] := by
          intro he
          rw [h0 he] at hu
          cases hu.2
        obtain ⟨hw, hp⟩ := h hne
        have h1 : PathWord A ([] ++ [c]) := pathWord_snoc (.inl rfl) hG (by simp)
        have ih := cut_madeOf hA cs [c] (some c) (fun _ => ⟨h1, rfl⟩) (by simp)
        have := madeOf_word (between := []) hw (by simp) (by
          intro w' ws' hws gap rest ht hgs hw'
          refine .inr ?_
          cases gap with
          | cons d gap =>
            rw [List.singleton_append, List.cons_append, List.cons.injEq] at ht
            exact absurd (hgs d (by simp)) (ht.1 ▸ hG)
          | nil =>
            rw [hp] at hu
            cases hl : cur.getLast? with
            | none => rw [hl] at hu; cases hu.2
            | some x =>
              rw [hl] at hu
              obtain ⟨a, ha⟩ := List.getLast?_eq_some_iff.1 hl
              cases w' with
              | nil => exact absurd rfl hw'.1
              | cons y b =>
                rw [List.singleton_append, List.nil_append, List.cons_append, List.cons.injEq] at ht
                exact ⟨a, x, y, b, ha, rfl, by simpa using hu.2, ht.1 ▸ hu.1⟩) ih
        simpa [flush, hne] using this
      · rw [if_neg hu]
        have hw : PathWord A (cur ++ [c]) := by
          apply pathWord_snoc
          · by_cases he : cur = []
            · exact .inl he
            · exact .inr (h he).1
          · exact hG
          · intro x hx hlu
            apply hu
            have hne : cur ≠ [] := by intro he; rw [he] at hx; simp at hx
            rw [(h hne).2, hx, Bool.and_eq_true]
            exact ⟨hlu.2, by simpa using hlu.1⟩
        have := cut_madeOf hA cs (cur ++ [c]) (some c) (fun _ => ⟨hw, by rw [List.getLast?_concat]⟩) (by simp)
        simpa using this

/-- The words that the code finds. -/
theorem path_words (hA : Alphabet.Lawful A) (s : List Char) :
    MadeOf A s (wordsFrom A.white [] (pathLoop A [] none s)) := by
  rw [words_eq hA s [] none [] [] ⟨fun t => rfl, fun _ => rfl⟩, List.nil_append]
  exact cut_madeOf hA s [] none (by simp) (fun _ => rfl)

theorem dropWhile_all (p : Char → Bool) : ∀ (l : List Char), (∀ x ∈ l, p x = true) → l.dropWhile p = []
  | [], _ => rfl
  | a :: l, h => by
    rw [List.dropWhile_cons, if_pos (h a (by simp))]
    exact dropWhile_all p l fun x hx => h x (by simp [hx])

theorem dropWhile_append_all (p : Char → Bool) : ∀ (l r : List Char), (∀ x ∈ l, p x = true) → (l ++ r).dropWhile p = r.dropWhile p
  | [], _, _ => rfl
  | a :: l, r, h => by
    rw [List.cons_append, List.dropWhile_cons, if_pos (h a (by simp))]
    exact dropWhile_append_all p l r fun x hx => h x (by simp [hx])

theorem mem_takeWhile' (p : Char → Bool) : ∀ (l : List Char), ∀ x ∈ l.takeWhile p, p x = true
  | [], x, h => by simp at h
  | a :: l, x, h => by
    rw [List.takeWhile_cons] at h
    split at h
    · next ha =>
      rcases List.mem_cons.1 h with rfl | h
      · exact ha
      · exact mem_takeWhile' p l x h
    · simp at h

theorem head_dropWhile' (p : Char → Bool) : ∀ (l : List Char) (x : Char), (l.dropWhile p).head? = some x → p x = false
  | [], x, h => by simp at h
  | a :: l, x, h => by
    rw [List.dropWhile_cons] at h
    split at h
    · exact head_dropWhile' p l x h
    · next ha =>
      rw [List.head?_cons, Option.some.injEq] at h
      subst h
      simpa using ha

theorem stem_no_dot (p : List Char) (h : '.' ∉ p) : stem p = p := by
  unfold stem
  rw [dropWhile_all]
  intro x hx
  rw [List.mem_reverse] at hx
  have : x ≠ '.' := fun he => h (he ▸ hx)
  simpa using this

theorem stem_dot (s e : List Char) (h : '.' ∉ e) : stem (s ++ '.' :: e) = s := by
  unfold stem
  have : (s ++ '.' :: e).reverse = e.reverse ++ ('.' :: s.reverse) := by simp
  rw [this, dropWhile_append_all]
  · simp
  · intro x hx
    rw [List.mem_reverse] at hx
    have : x ≠ '.' := fun he => h (he ▸ hx)
    simpa using this

theorem fileName_last (p : List Char) : LastName p (fileName p) := by
  refine ⟨(p.reverse.dropWhile fun c => !isSlash c).reverse, ?_, ?_, ?_⟩
  · unfold fileName
    rw [← List.reverse_append, List.takeWhile_append_dropWhile, List.reverse_reverse]
  · intro c hc
    unfold fileName at hc
    rw [List.mem_reverse] at hc
    have := mem_takeWhile' _ _ c hc
    unfold isSlash at this
    simpa using this
  · intro c hc
    rw [List.getLast?_reverse] at hc
    have := head_dropWhile' _ _ c hc
    unfold isSlash at this
    by_cases h : c = '/'
    · exact .inl h
    · right
      simpa [h] using this

theorem shorten_eq (l : List (List Char)) : shortenPath l = lastFour l := by
  unfold shortenPath lastFour
  rw [List.take_reverse, List.reverse_reverse]

/-! ### Truncation -/

theorem marker_length : marker.length = 19 := by decide

theorem trim_spec (white : Char → Bool) (s : List Char) :
    trimEnd white s ++ (s.reverse.takeWhile white).reverse = s ∧ (∀ c ∈ (s.reverse.takeWhile white).reverse, white c = true) ∧
      (∀ c, (trimEnd white s).getLast? = some c → white c = false) := by
  refine ⟨?_, ?_, ?_⟩
  · unfold trimEnd
    rw [← List.reverse_append, List.takeWhile_append_dropWhile, List.reverse_reverse]
  · intro c hc
    rw [List.mem_reverse] at hc
    exact mem_takeWhile' _ _ c hc
  · intro c hc
    unfold trimEnd at hc
    rw [List.getLast?_reverse] at hc
    exact head_dropWhile' _ _ c hc

theorem truncate_eq (full : List Char) :
    truncate A full maxChars = if full.length ≤ 8192 then full else trimEnd A.white (full.take 8173) ++ marker := by
  unfold truncate
  rw [marker_length]
  rfl

theorem truncate_cut (full : List Char) : CutTo A 8192 cutMark full (truncate A full maxChars) := by
  rw [truncate_eq]
  refine ⟨fun h => if_pos h, fun h => ?_⟩
  rw [if_neg (by omega)]
  obtain ⟨h1, h2, h3⟩ := trim_spec A.white (full.take 8173)
  exact ⟨_, _, rfl, h1, h2, h3⟩

theorem truncate_length (full : List Char) : (truncate A full maxChars).length ≤ 8192 := by
  rw [truncate_eq]
  split
  · assumption
  · obtain ⟨h1, _⟩ := trim_spec A.white (full.take 8173)
    have := congrArg List.length h1
    rw [List.length_append, List.length_take] at this
    rw [List.length_append, marker_length]
    omega

theorem dropWhile_prefix (p : Char → Bool) : ∀ (l r : List Char), (∀ x, r.head? = some x → p x = false) → r ≠ [] →
    ∃ l', (l ++ r).dropWhile p = l' ++ r
  | [], [], _, hr => absurd rfl hr
  | [], b :: r, h, _ => ⟨[], by rw [List.nil_append, List.dropWhile_cons, h b rfl]; rfl⟩
  | a :: l, r, h, hr => by
    rw [List.cons_append, List.dropWhile_cons]
    split
    · exact dropWhile_prefix p l r h hr
    · exact ⟨a :: l, rfl⟩

/-- A beginning that fits, and does not end in white space, is kept. -/
theorem truncate_keeps (a b : List Char) (hl : a.length ≤ 8173) (hw : ∀ c, a.getLast? = some c → A.white c = false) :
    a <+: truncate A (a ++ b) maxChars := by
  rw [truncate_eq]
  split
  · exact List.prefix_append a b
  · by_cases ha : a = []
    · rw [ha]; exact List.nil_prefix
    · have ht : (a ++ b).take 8173 = a ++ b.take (8173 - a.length) := by
        rw [List.take_append, List.take_of_length_le hl]
      rw [ht]
      unfold trimEnd
      rw [List.reverse_append]
      obtain ⟨l', hl'⟩ := dropWhile_prefix A.white (b.take (8173 - a.length)).reverse a.reverse
        (by intro x hx; rw [List.head?_reverse] at hx; exact hw x hx) (by simpa using ha)
      rw [hl', List.reverse_append, List.reverse_reverse, List.append_assoc]
      exact List.prefix_append _ _

/-- Texts with the same long beginning are cut to the same text. -/
theorem truncate_same (a b b' : List Char) (hl : 8192 < a.length) :
    truncate A (a ++ b) maxChars = truncate A (a ++ b') maxChars := by
  rw [truncate_eq, truncate_eq, if_neg (by rw [List.length_append]; omega), if_neg (by rw [List.length_append]; omega)]
  rw [List.take_append_of_le_length (by omega), List.take_append_of_le_length (by omega)]

/-! ### The lines -/

def lines (l : List (List Char)) : List Char := l.flatMap fun x => '\n' :: x

theorem intercalate_lines : ∀ (l : List (List Char)) (x : List Char), List.intercalate ['\n'] (x :: l) = x ++ lines l
  | [], x => by simp [List.intercalate, lines]
  | y :: l, x => by
    have ih := intercalate_lines l y
    have : List.intercalate ['\n'] (x :: y :: l) = x ++ '\n' :: List.intercalate ['\n'] (y :: l) := by
      simp [List.intercalate, List.intersperse]
    rw [this, ih]
    simp [lines]

theorem lines_append (a b : List (List Char)) : lines (a ++ b) = lines a ++ lines b := by
  simp [lines]

/-- A line with its break, or nothing. -/
def lineOf (l : String × List Char) : List Char := if l.2.isEmpty then [] else '\n' :: l.1.toList ++ l.2

theorem lines_part (label : String) (v : List Char) : lines (part label v) = lineOf (label, v) := by
  unfold part lineOf
  split <;> simp [lines]

theorem intercalate_empty (l : List (List Char)) (h : ∀ n ∈ l, n ≠ []) :
    (List.intercalate [',', ' '] l).isEmpty = l.isEmpty := by
  cases l with
  | nil => rfl
  | cons x l =>
    have hx := h x (by simp)
    cases x with
    | nil => exact absurd rfl hx
    | cons c x =>
      cases l with
      | nil => simp [List.intercalate]
      | cons y l => simp [List.intercalate, List.intersperse]

theorem lines_partList (label : String) (l : List (List Char)) (h : ∀ n ∈ l, n ≠ []) :
    lines (partList label l) = lineOf (label, List.intercalate [',', ' '] l) := by
  unfold partList lineOf
  simp only [intercalate_empty l h]
  split <;> simp [lines]

theorem filter_lines : ∀ (l : List (String × List Char)),
    ((l.filter fun l => !l.2.isEmpty).flatMap fun l => '\n' :: l.1.toList ++ l.2) = l.flatMap lineOf
  | [] => rfl
  | x :: l => by
    have ih := filter_lines l
    rw [List.filter_cons, List.flatMap_cons, lineOf]
    cases hx : x.2.isEmpty
    · simp only [Bool.not_false, if_true, List.flatMap_cons, Bool.false_eq_true, if_false, ih]
    · simp only [Bool.not_true, if_true, Bool.false_eq_true, if_false, ih, List.nil_append]

/-- The text of a unit before it is cut. -/
def fullText (A : Alphabet) (u : CodeUnit) : List Char := List.intercalate ['\n'] (headParts A u ++ part "Code:\n" u.code)

theorem fullText_eq (u : CodeUnit) (hn : NamesGiven u) :
    fullText A u = wholeText u (kindName u.kind) (normalizePath A (lastFour u.file)) := by
  unfold fullText headParts wholeText preamble described
  have h1 : ∀ n ∈ u.parameters, n ≠ [] := fun n h => hn n (by simp [h])
  have h2 : ∀ n ∈ u.calls, n ≠ [] := fun n h => hn n (by simp [h])
  have h3 : ∀ n ∈ u.calledBy, n ≠ [] := fun n h => hn n (by simp [h])
  have h4 : ∀ n ∈ u.variables, n ≠ [] := fun n h => hn n (by simp [h])
  have h5 : ∀ n ∈ u.imports, n ≠ [] := fun n h => hn n (by simp [h])
  rw [filter_lines]
  simp only [List.cons_append, List.nil_append, List.append_assoc]
  rw [intercalate_lines]
  simp only [lines_append, lines_part, lines_partList _ _ h1, lines_partList _ _ h2, lines_partList _ _ h3,
    lines_partList _ _ h4, lines_partList _ _ h5, List.flatMap_cons, List.flatMap_nil, List.append_nil, shorten_eq]
  have hc : lines (part "Code:\n" u.code) = if u.code.isEmpty then [] else "\nCode:\n".toList ++ u.code := by
    rw [lines_part, lineOf]
    have : "\nCode:\n".toList = '\n' :: "Code:\n".toList := by decide
    rw [this]
  have hf : ∀ q : List Char, lines (("File: ".toList ++ q) :: part "Code:\n" u.code) = "\nFile: ".toList ++ q ++
      (if u.code.isEmpty then [] else "\nCode:\n".toList ++ u.code) := by
    intro q
    rw [← hc]
    have : "\nFile: ".toList = '\n' :: "File: ".toList := by decide
    rw [this]
    simp only [lines, List.flatMap_cons, List.cons_append, List.append_assoc]
  have hk : ": ".toList = [':', ' '] := by decide
  rw [hf, hk]
  simp only [List.append_assoc]
  rfl

/-- The beginning of the text does not depend on the file or the code. -/
theorem fullText_common (u : CodeUnit) (file : List (List Char)) (code d : List Char) (hd : u.docstring = some d)
    (hl : 8192 ≤ d.length) :
    ∃ a b b', 8192 < a.length ∧ fullText A u = a ++ b ∧ fullText A { u with file := file, code := code } = a ++ b' := by
  have key : ∀ v : CodeUnit, ∃ b, fullText A v = (kindName v.kind ++ [':', ' '] ++ v.name ++
      (lines (part "Signature: " v.signature) ++ (lines (part "Extends: " (v.extends_.getD [])) ++
      (lines (part "Class: " (v.parentClass.getD [])) ++ lines (part "Description: " (v.docstring.getD [])))))) ++ b := by
    intro v
    unfold fullText headParts
    simp only [List.singleton_append, List.append_assoc, List.cons_append]
    rw [intercalate_lines]
    simp only [lines_append, List.append_assoc]
    exact ⟨_, rfl⟩
  obtain ⟨b, hb⟩ := key u
  obtain ⟨b', hb'⟩ := key { u with file := file, code := code }
  refine ⟨_, b, b', ?_, hb, hb'⟩
  rw [hd, lines_part "Description: ", lineOf]
  have : d.isEmpty = false := by
    cases d with
    | nil => simp at hl
    | cons => rfl
  simp only [Option.getD_some, this, Bool.false_eq_true, if_false, List.length_append, List.length_cons]
  omega

theorem buildText_full (u : CodeUnit) (w : String) (hk : kindWord u.kind = some w) :
    buildText A u = truncate A (fullText A u) maxChars ∧ kindName u.kind = w.toList := by
  have h : ¬ (u.kind = .rawCode ∨ u.kind = .constant) := by
    rintro (h | h) <;> rw [h] at hk <;> cases hk
  refine ⟨?_, ?_⟩
  · unfold buildText
    rw [if_neg h]
    rfl
  · generalize u.kind = k at hk
    cases k <;> cases hk <;> rfl

theorem buildText_code (u : CodeUnit) (hk : kindWord u.kind = none) : buildText A u = truncate A u.code maxChars := by
  unfold buildText
  rw [if_pos]
  cases hu : u.kind <;> rw [hu] at hk <;> simp [kindWord] at hk ⊢

theorem stem_spec (p : List Char) : WithoutExtension p (stem p) := by
  by_cases h : '.' ∈ p
  · obtain ⟨s, e, hp, he⟩ : ∃ s e, p = s ++ '.' :: e ∧ '.' ∉ e := by
      have hr : '.' ∈ p.reverse := List.mem_reverse.2 h
      obtain ⟨a, b, hab, ha⟩ := List.eq_append_cons_of_mem hr
      refine ⟨b.reverse, a.reverse, ?_, by simpa using ha⟩
      have := congrArg List.reverse hab
      simpa using this
    rw [hp, stem_dot s e he]
    exact .inr ⟨e, he, rfl⟩
  · exact .inl ⟨h, stem_no_dot p h⟩

theorem path_spec (hA : Alphabet.Lawful A) (p : List Char) : PathText A p (normalizePath A p) :=
  ⟨stem p, _, fileName p, stem_spec p, path_words hA _, fileName_last p, rfl⟩

theorem takeWhile_append_stop (p : Char → Bool) : ∀ (l r : List Char) (c : Char), (∀ x ∈ l, p x = true) → p c = false →
    (l ++ c :: r).takeWhile p = l
  | [], r, c, _, hc => by simp [hc]
  | a :: l, r, c, h, hc => by
    rw [List.cons_append, List.takeWhile_cons, if_pos (h a (by simp)),
      takeWhile_append_stop p l r c (fun x hx => h x (by simp [hx])) hc]

theorem fileName_slash (d name : List Char) (h : ∀ c ∈ name, isSlash c = false) : fileName (d ++ '/' :: name) = name := by
  unfold fileName
  have : (d ++ '/' :: name).reverse = name.reverse ++ '/' :: d.reverse := by simp
  rw [this, takeWhile_append_stop, List.reverse_reverse]
  · intro x hx
    rw [List.mem_reverse] at hx
    rw [h x hx]
    rfl
  · rfl

/-- After a dot in a directory name only the name of the file counts. -/
theorem normalize_dotted (x r name : List Char) (hr : '.' ∉ r) (hn : '.' ∉ name) (hs : ∀ c ∈ name, isSlash c = false) :
    normalizePath A (x ++ '.' :: (r ++ '/' :: name)) =
      A.low (List.intercalate [' '] (wordsFrom A.white [] (pathLoop A [] none x))) ++ ' ' :: name := by
  have h1 : stem (x ++ '.' :: (r ++ '/' :: name)) = x := by
    apply stem_dot
    intro h
    rcases List.mem_append.1 h with h | h
    · exact hr h
    · rcases List.mem_cons.1 h with h | h
      · cases h
      · exact hn h
  have h2 : fileName (x ++ '.' :: (r ++ '/' :: name)) = name := by
    have : x ++ '.' :: (r ++ '/' :: name) = (x ++ '.' :: r) ++ '/' :: name := by simp
    rw [this, fileName_slash _ _ hs]
  unfold normalizePath
  rw [h1, h2]

end NextPlaid.EmbedText
