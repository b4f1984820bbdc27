import Verif.Spec.Enhance

/-! The query of `colgrep -e`. -/

namespace NextPlaid.Enhance
open NextPlaid.Text NextPlaid.Spec

variable {white : Char → Bool}

theorem splitWhite_gap (h : ∀ c ∈ gap, white c = true) (t : List Char) : splitWhite white [] (gap ++ t) = splitWhite white [] t := by
  induction gap with
  | nil => rfl
  | cons c gap ih =>
    rw [List.cons_append, splitWhite, if_pos (h c (by simp)), if_pos rfl]
    exact ih (fun d hd => h d (by simp [hd]))

theorem splitWhite_run : ∀ (w cur t : List Char), (∀ c ∈ w, white c = false) → splitWhite white cur (w ++ t) = splitWhite white (cur ++ w) t
  | [], cur, t, _ => by simp
  | c :: w, cur, t, h => by
    rw [List.cons_append, splitWhite, if_neg (by simp [h c (by simp)]), splitWhite_run w (cur ++ [c]) t (fun d hd => h d (by simp [hd]))]
    simp

theorem laid_split {ws : List (List Char)} {t : List Char} (h : Laid white ws t) : splitWhite white [] t = ws := by
  induction h with
  | none gap hg => have := splitWhite_gap hg []; rw [List.append_nil] at this; rw [this]; rfl
  | word gap w rest ws hg hw hc hr h ih =>
    rw [List.append_assoc, splitWhite_gap hg, splitWhite_run w [] rest hc, List.nil_append]
    rcases hr with rfl | ⟨c, t, rfl, hcw⟩
    · rw [splitWhite, if_neg hw]
      rw [splitWhite, if_pos rfl] at ih
      rw [← ih]
    · rw [splitWhite, if_pos hcw, if_neg hw]
      rw [splitWhite, if_pos hcw, if_pos rfl] at ih
      rw [ih]

theorem split_laid_aux : ∀ (t cur : List Char), (∀ c ∈ cur, white c = false) → Laid white (splitWhite white cur t) (cur ++ t)
  | [], cur, hc => by
    rw [splitWhite]
    by_cases h : cur = []
    · rw [if_pos h, h]; exact .none [] (by simp)
    · rw [if_neg h]; exact .word [] cur [] [] (by simp) h hc (Or.inl rfl) (.none [] (by simp))
  | c :: t, cur, hc => by
    rw [splitWhite]
    by_cases hw : white c = true
    · rw [if_pos hw]
      have ih := split_laid_aux t [] (by simp)
      have hgap : Laid white (splitWhite white [] t) (c :: t) := by
        rw [List.nil_append] at ih
        generalize splitWhite white [] t = ws at ih
        cases ih with
        | none _ hg =>
          refine .none (c :: t) ?_
          intro d hd
          simp only [List.mem_cons] at hd
          rcases hd with rfl | hd
          · exact hw
          · exact hg d hd
        | word gap w rest ws hg hw' hc' hr h =>
          refine .word (c :: gap) w rest ws ?_ hw' hc' hr h
          intro d hd
          simp only [List.mem_cons] at hd
          rcases hd with rfl | hd
          · exact hw
          · exact hg d hd
      by_cases h : cur = []
      · rw [if_pos h, h]; exact hgap
      · rw [if_neg h]; exact .word [] cur (c :: t) _ (by simp) h hc (Or.inr ⟨c, t, rfl, hw⟩) hgap
    · rw [if_neg hw]
      have := split_laid_aux t (cur ++ [c]) (by
        intro d hd
        simp only [List.mem_append, List.mem_singleton] at hd
        rcases hd with hd | rfl
        · exact hc d hd
        · simpa using hw)
      simpa using this

theorem split_laid (t : List Char) : Laid white (splitWhite white [] t) t := split_laid_aux t [] (by simp)

theorem laid_words {ws : List (List Char)} {t : List Char} (h : Laid white ws t) : ∀ w ∈ ws, w ≠ [] ∧ ∀ c ∈ w, white c = false := by
  induction h with
  | none => simp
  | word gap w rest ws hg hw hc hr h ih =>
    intro v hv
    simp only [List.mem_cons] at hv
    rcases hv with rfl | hv
    · exact ⟨hw, hc⟩
    · exact ih v hv

/-- More words after a text. -/
theorem laid_append {ws vs : List (List Char)} {t u : List Char} (h : Laid white ws t) (hu : Laid white vs u) {c : Char} (hc : white c = true) :
    Laid white (ws ++ vs) (t ++ c :: u) := by
  induction h with
  | none gap hg =>
    rw [List.nil_append]
    have : ∀ d ∈ gap ++ [c], white d = true := by
      intro d hd
      simp only [List.mem_append, List.mem_singleton] at hd
      rcases hd with hd | rfl
      · exact hg d hd
      · exact hc
    cases hu with
    | none gap' hg' =>
      refine .none _ ?_
      intro d hd
      simp only [List.mem_append, List.mem_cons] at hd
      rcases hd with hd | rfl | hd
      · exact hg d hd
      · exact hc
      · exact hg' d hd
    | word gap' w rest ws hg' hw hcw hr h =>
      have := Laid.word (white := white) (gap ++ c :: gap') w rest ws (by
        intro d hd
        simp only [List.mem_append, List.mem_cons] at hd
        rcases hd with hd | rfl | hd
        · exact hg d hd
        · exact hc
        · exact hg' d hd) hw hcw hr h
      simpa using this
  | word gap w rest ws hg hw hcw hr h ih =>
    have := Laid.word (white := white) gap w (rest ++ c :: u) (ws ++ vs) hg hw hcw (by
      rcases hr with rfl | ⟨d, t, rfl, hd⟩
      · exact Or.inr ⟨c, u, rfl, hc⟩
      · exact Or.inr ⟨d, t ++ c :: u, rfl, hd⟩) ih
    simpa using this

theorem join_eq (ws : List (List Char)) : joinWith [' '] ws = List.intercalate [' '] ws := by
  induction ws with
  | nil => rfl
  | cons w ws ih =>
    cases ws with
    | nil => simp [joinWith]
    | cons v ws => rw [joinWith, ih]; simp

theorem laid_join (hb : white ' ' = true) : ∀ ws : List (List Char), (∀ w ∈ ws, w ≠ [] ∧ ∀ c ∈ w, white c = false) → Laid white ws (joinWith [' '] ws)
  | [], _ => .none [] (by simp)
  | [w], h => by
    have := Laid.word (white := white) [] w [] [] (by simp) (h w (by simp)).1 (h w (by simp)).2 (Or.inl rfl) (.none [] (by simp))
    simpa [joinWith] using this
  | w :: v :: ws, h => by
    have ih := laid_join hb (v :: ws) (fun x hx => h x (by simp [hx]))
    have h1 := Laid.word (white := white) [] w [] [] (by simp) (h w (by simp)).1 (h w (by simp)).2 (Or.inl rfl) (.none [] (by simp))
    have := laid_append h1 ih hb
    simpa [joinWith] using this

/-! ### Patterns -/

theorem split_blank (hb : white ' ' = true) (r t : List Char) : splitWhite white [] (blank r ++ t) = splitWhite white [] (r ++ ' ' :: t) := by
  unfold blank
  by_cases h : r.getLast? = some ' ' ∨ r = []
  · rw [if_pos h]
    rcases h with h | rfl
    · obtain ⟨s, rfl⟩ : ∃ s, r = s ++ [' '] := by
        rw [List.getLast?_eq_some_iff] at h
        exact h
      have h1 := laid_split (laid_append (split_laid (white := white) s) (split_laid t) hb)
      have h2 : Laid white (splitWhite white [] t) (' ' :: t) := by
        have := laid_append (Laid.none (white := white) [] (by simp)) (split_laid t) hb
        exact this
      have h3 := laid_split (laid_append (split_laid (white := white) s) h2 hb)
      simp only [List.append_assoc, List.cons_append, List.nil_append] at *
      rw [h1, h3]
    · rw [List.nil_append, List.nil_append, splitWhite, if_pos hb, if_pos rfl]
  · rw [if_neg h]; simp

theorem split_more {a b : List Char} (h : ∀ t, splitWhite white [] (a ++ t) = splitWhite white [] (b ++ t)) (s t : List Char) :
    splitWhite white [] (a ++ s ++ t) = splitWhite white [] (b ++ s ++ t) := by
  rw [List.append_assoc, h, List.append_assoc]

theorem fold_set (d : Nat) (r : List Char) : ∀ cs : List Char, (∀ c ∈ cs, c ≠ '[' ∧ c ≠ ']' ∧ c ≠ '\\') →
    cs.foldl stripStep (.set d, r) = (.set d, r)
  | [], _ => rfl
  | c :: cs, h => by
    have h1 := h c (by simp)
    rw [List.foldl_cons]
    have : stripStep (.set d, r) c = (.set d, r) := by simp [stripStep, h1]
    rw [this]
    exact fold_set d r cs (fun x hx => h x (by simp [hx]))

theorem fold_brace (r : List Char) : ∀ cs : List Char, (∀ c ∈ cs, c ≠ '}') → cs.foldl stripStep (.brace, r) = (.brace, r)
  | [], _ => rfl
  | c :: cs, h => by
    rw [List.foldl_cons]
    have : stripStep (.brace, r) c = (.brace, r) := by simp [stripStep, h c (by simp)]
    rw [this]
    exact fold_brace r cs (fun x hx => h x (by simp [hx]))

theorem special_keep : ∀ c ∈ special, c ∉ classes := by decide

theorem plain_keep (r : List Char) (c : Char) (h : c ∉ special) : stripStep (.normal, r) c = (.normal, r ++ [c]) := by
  simp only [special, List.mem_cons, List.not_mem_nil, or_false, not_or] at h
  obtain ⟨h1, h2, h3, h4, h5, h6, h7, h8, h9, h10, h11, h12, h13, h14⟩ := h
  simp [stripStep, h1, h2, h3, h4, h5, h6, h7, h8, h10, h12, h13, h14]

theorem fold_spell (hb : white ' ' = true) : ∀ (p : Rx), p.Plain → ∀ r : List Char, ∃ r', p.spell.foldl stripStep (.normal, r) = (.normal, r') ∧
    ∀ t, splitWhite white [] (r' ++ t) = splitWhite white [] (r ++ p.text ++ t)
  | .empty, _, r => ⟨r, rfl, by simp [Rx.text]⟩
  | .any, _, r => ⟨r, rfl, by simp [Rx.text]⟩
  | .bol, _, r => ⟨r, rfl, by simp [Rx.text]⟩
  | .eol, _, r => ⟨r, rfl, by simp [Rx.text]⟩
  | .lit c, _, r => by
    refine ⟨r ++ [c], ?_, by simp [Rx.text]⟩
    unfold Rx.spell
    by_cases h : c ∈ special
    · rw [if_pos h]
      show stripStep (stripStep (.normal, r) '\\') c = _
      have : stripStep (.normal, r) '\\' = (.esc, r) := by simp [stripStep]
      rw [this]
      simp [stripStep, special_keep c h]
    · rw [if_neg h]
      exact plain_keep r c h
  | .cls c, h, r => by
    refine ⟨blank r, ?_, fun t => ?_⟩
    · show stripStep (stripStep (.normal, r) '\\') c = _
      have : stripStep (.normal, r) '\\' = (.esc, r) := by simp [stripStep]
      rw [this]
      unfold Rx.Plain at h
      simp only [stripStep]
      exact if_pos h
    · rw [split_blank hb]
      simp [Rx.text]
  | .set cs, h, r => by
    refine ⟨r, ?_, by simp [Rx.text]⟩
    unfold Rx.spell
    unfold Rx.Plain at h
    rw [List.foldl_cons, List.foldl_append]
    have : stripStep (.normal, r) '[' = (.set 1, r) := by simp [stripStep]
    rw [this, fold_set 1 r cs h]
    simp [stripStep]
  | .cat a b, h, r => by
    obtain ⟨ra, ha, ta⟩ := fold_spell hb a h.1 r
    obtain ⟨rb, hb', tb⟩ := fold_spell hb b h.2 ra
    refine ⟨rb, ?_, fun t => ?_⟩
    · unfold Rx.spell
      rw [List.foldl_append, ha, hb']
    · rw [tb, List.append_assoc, ta]
      simp [Rx.text]
  | .alt a b, h, r => by
    obtain ⟨ra, ha, ta⟩ := fold_spell hb a h.1 r
    obtain ⟨rb, hb', tb⟩ := fold_spell hb b h.2 (blank ra)
    refine ⟨rb, ?_, fun t => ?_⟩
    · unfold Rx.spell
      rw [List.foldl_append, ha, List.foldl_cons]
      have : stripStep (.normal, ra) '|' = (.normal, blank ra) := by simp [stripStep]
      rw [this, hb']
    · rw [tb, List.append_assoc, split_blank hb, ta]
      simp [Rx.text]
  | .group a, h, r => by
    obtain ⟨ra, ha, ta⟩ := fold_spell hb a h r
    refine ⟨ra, ?_, fun t => by rw [ta]; simp [Rx.text]⟩
    unfold Rx.spell
    rw [List.foldl_cons, List.foldl_append]
    have : stripStep (.normal, r) '(' = (.normal, r) := by simp [stripStep]
    rw [this, ha]
    simp [stripStep]
  | .star a, h, r => by
    obtain ⟨ra, ha, ta⟩ := fold_spell hb a h r
    refine ⟨ra, ?_, fun t => by rw [ta]; simp [Rx.text]⟩
    unfold Rx.spell
    rw [List.foldl_append, ha]
    simp [stripStep]
  | .plus a, h, r => by
    obtain ⟨ra, ha, ta⟩ := fold_spell hb a h r
    refine ⟨ra, ?_, fun t => by rw [ta]; simp [Rx.text]⟩
    unfold Rx.spell
    rw [List.foldl_append, ha]
    simp [stripStep]
  | .opt a, h, r => by
    obtain ⟨ra, ha, ta⟩ := fold_spell hb a h r
    refine ⟨ra, ?_, fun t => by rw [ta]; simp [Rx.text]⟩
    unfold Rx.spell
    rw [List.foldl_append, ha]
    simp [stripStep]
  | .count a n, h, r => by
    obtain ⟨ra, ha, ta⟩ := fold_spell hb a h.1 r
    refine ⟨ra, ?_, fun t => by rw [ta]; simp [Rx.text]⟩
    unfold Rx.spell
    rw [List.foldl_append, ha, List.foldl_cons, List.foldl_append]
    have : stripStep (.normal, ra) '{' = (.brace, ra) := by simp [stripStep]
    rw [this, fold_brace ra n h.2]
    simp [stripStep]

theorem strip_spell (hb : white ' ' = true) (p : Rx) (hp : p.Plain) : strip white p.spell = joinWith [' '] (splitWhite white [] p.text) := by
  obtain ⟨r, hr, ht⟩ := fold_spell hb p hp []
  unfold strip
  rw [hr]
  have := ht []
  simp only [List.append_nil, List.nil_append] at this
  rw [this]

/-! ### Merging -/

/-- The words that are new. -/
theorem new_eq {lower : List Char → List Char} {q s : List Char} {qs ss : List (List Char)} (hq : Laid white qs q) (hs : Laid white ss s) :
    newTokens white lower q s = ss.filter fun w => !(qs.map lower).contains (lower w) := by
  unfold newTokens
  rw [laid_split hq, laid_split hs]

theorem merge_laid {lower : List Char → List Char} (hb : white ' ' = true) {q s : List Char} {qs ss : List (List Char)} (hq : Laid white qs q) (hs : Laid white ss s) :
    Laid white (qs ++ ss.filter fun w => !(qs.map lower).contains (lower w)) (merge white lower q s) := by
  have hnew := new_eq (lower := lower) hq hs
  unfold merge
  by_cases h0 : s = []
  · subst h0
    have : ss = [] := by rw [← laid_split hs]; rfl
    simpa [this] using hq
  · rw [if_neg h0, hnew]
    by_cases h1 : (ss.filter fun w => !(qs.map lower).contains (lower w)) = []
    · rw [if_pos h1, h1, List.append_nil]; exact hq
    · rw [if_neg h1]
      have hw : Laid white _ _ := laid_join hb (ss.filter fun w => !(qs.map lower).contains (lower w)) (fun w hw => laid_words hs w (List.mem_filter.mp hw).1)
      have := laid_append hq hw hb
      simpa using this

theorem merge_again {lower : List Char → List Char} (hb : white ' ' = true) (q s : List Char) :
    merge white lower (merge white lower q s) s = merge white lower q s := by
  have hl := merge_laid (lower := lower) hb (split_laid (white := white) q) (split_laid s)
  have hn := new_eq (lower := lower) hl (split_laid s)
  generalize merge white lower q s = m at hl hn
  unfold merge
  by_cases h0 : s = []
  · rw [if_pos h0]
  · rw [if_neg h0, if_pos]
    rw [hn, List.filter_eq_nil_iff]
    intro w hw
    suffices h : (List.map lower (splitWhite white [] q ++ List.filter (fun w => !(List.map lower (splitWhite white [] q)).contains (lower w))
        (splitWhite white [] s))).contains (lower w) = true by rw [h]; decide
    rw [List.contains_iff_mem, List.mem_map]
    by_cases hin : ((splitWhite white [] q).map lower).contains (lower w) = true
    · rw [List.contains_iff_mem, List.mem_map] at hin
      obtain ⟨v, hv, he⟩ := hin
      exact ⟨v, List.mem_append_left _ hv, he⟩
    · exact ⟨w, List.mem_append_right _ (List.mem_filter.mpr ⟨hw, by rw [Bool.not_eq_true] at hin; rw [hin]; rfl⟩), rfl⟩

end NextPlaid.Enhance
