import Verif.Proofs.Display2
import Verif.Proofs.Ranking2
import Mathlib.Tactic.Ring

/-! The lines shown for a result. -/

namespace NextPlaid.Display

open NextPlaid.Spec
open NextPlaid.Units (Text lines trim slice)
open NextPlaid.Rank NextPlaid.Fusion

/-! ### Which lines match -/

theorem holds_iff {e : Engine} {cs : Bool} {p l : Text} :
    holds e cs (if cs then p else e.lower p) l = true ↔ InLine e cs p l := by
  unfold holds InLine
  cases cs <;> simp [containsText_iff]

theorem hits_iff {e : Engine} {f : TextFlags} {p l : Text} : (newMatcher e f p).hits e l = true ↔ LineMatches e f p l := by
  unfold LineMatches Matcher.hits newMatcher
  cases hs : source f p with
  | none => simp only [Option.bind_none]; exact holds_iff
  | some src =>
    simp only [Option.bind_some]
    cases hc : e.compile src with
    | none => simp only; exact holds_iff
    | some hit => simp

theorem scan_mem {test : Text → Bool} {ls : List Text} {i : Nat} {l : Text} :
    (i, l) ∈ scan test ls ↔ ls[i]? = some l ∧ test l = true := by
  unfold scan
  simp only [List.mem_map, List.mem_filter, Prod.mk.injEq, Prod.exists]
  constructor
  · rintro ⟨l', i', ⟨h1, h2⟩, rfl, rfl⟩
    exact ⟨List.mk_mem_zipIdx_iff_getElem?.1 h1, h2⟩
  · rintro ⟨h1, h2⟩
    exact ⟨l, i, ⟨List.mk_mem_zipIdx_iff_getElem?.2 h1, h2⟩, rfl, rfl⟩

theorem zipIdx_ascending {A : Type} : ∀ (ls : List A) (k : Nat), (ls.zipIdx k).Pairwise fun p q => p.2 < q.2
  | [], k => by simp
  | a :: ls, k => by
    rw [List.zipIdx_cons, List.pairwise_cons]
    refine ⟨?_, zipIdx_ascending ls (k + 1)⟩
    rintro ⟨x, i⟩ hx
    have := List.mem_zipIdx hx
    simp only; omega

theorem scan_ascending (test : Text → Bool) (ls : List Text) : (scan test ls).Pairwise fun p q => p.1 < q.1 := by
  unfold scan
  rw [List.pairwise_map]
  exact ((zipIdx_ascending ls 0).filter _)

theorem find_mem {e : Engine} {f : TextFlags} {p : Text} {ls : List Text} {i : Nat} {l : Text} :
    (i, l) ∈ (newMatcher e f p).find e ls ↔ ls[i]? = some l ∧ Marked e f p ls l := by
  have hempty : scan ((newMatcher e f p).hits e) ls = [] ↔ ∀ l' ∈ ls, ¬ LineMatches e f p l' := by
    rw [List.eq_nil_iff_forall_not_mem]
    constructor
    · intro h l' hl'
      obtain ⟨j, hj⟩ := List.getElem?_of_mem hl'
      rw [← hits_iff]
      intro hh
      exact h (j, l') (scan_mem.2 ⟨hj, hh⟩)
    · rintro h ⟨j, l'⟩ hm
      obtain ⟨h1, h2⟩ := scan_mem.1 hm
      exact h l' (List.mem_of_getElem? h1) (hits_iff.1 h2)
  have hplain : (i, l) ∈ scan ((newMatcher e f p).hits e) ls ↔ ls[i]? = some l ∧ LineMatches e f p l := by
    rw [scan_mem, hits_iff]
  have hcs : (newMatcher e f p).caseSensitive = f.caseSensitive := rfl
  unfold Marked
  cases hk : (newMatcher e f p).kind with
  | literal n =>
    have hno : ¬ ∃ src hit, source f p = some src ∧ e.compile src = some hit ∧ InLine e f.caseSensitive src l := by
      rintro ⟨src, hit, h1, h2, _⟩
      simp [newMatcher, h1, h2] at hk
    simp only [Matcher.find, hk]
    rw [hplain]
    constructor
    · exact fun h => ⟨h.1, .inl h.2⟩
    · rintro ⟨h1, h2 | h2⟩
      · exact ⟨h1, h2⟩
      · exact absurd h2.2 hno
  | regex src hit =>
    have hsrc : source f p = some src ∧ e.compile src = some hit := by
      unfold newMatcher at hk
      cases hs : source f p with
      | none => rw [hs] at hk; simp at hk
      | some s' =>
        rw [hs] at hk
        simp only at hk
        cases hc : e.compile s' with
        | none => rw [hc] at hk; simp at hk
        | some h' =>
          rw [hc] at hk
          simp only [Kind.regex.injEq] at hk
          obtain ⟨rfl, rfl⟩ := hk
          exact ⟨rfl, hc⟩
    simp only [Matcher.find, hk]
    split
    · rename_i he
      rw [scan_mem, hcs, holds_iff]
      constructor
      · rintro ⟨h1, h2⟩
        exact ⟨h1, .inr ⟨hempty.1 he, src, hit, hsrc.1, hsrc.2, h2⟩⟩
      · rintro ⟨h1, h2 | ⟨_, s', hit', h3, _, h5⟩⟩
        · exact absurd h2 (hempty.1 he l (List.mem_of_getElem? h1))
        · rw [hsrc.1] at h3
          obtain rfl := Option.some.inj h3
          exact ⟨h1, h5⟩
    · rename_i he
      rw [hplain]
      constructor
      · exact fun h => ⟨h.1, .inl h.2⟩
      · rintro ⟨h1, h2 | h2⟩
        · exact ⟨h1, h2⟩
        · exact absurd (hempty.2 h2.1) he

theorem find_ascending (e : Engine) (m : Matcher) (ls : List Text) : (m.find e ls).Pairwise fun p q => p.1 < q.1 := by
  unfold Matcher.find
  split
  · exact scan_ascending _ _
  · split <;> exact scan_ascending _ _

theorem marked_query {e : Engine} {cs : Bool} {p : Text} {ls : List Text} {l : Text} :
    Marked e ⟨false, true, false, cs⟩ p ls l ↔ InLine e cs p l := by
  have hs : source ⟨false, true, false, cs⟩ p = none := by simp [source]
  unfold Marked LineMatches
  rw [hs]
  simp

theorem matchedLines_mem {e : Engine} {w : World} {f : TextFlags} {p : Text} {u : CodeUnit} {n : Nat} :
    n ∈ matchedLines e w (newMatcher e f p) u ↔
      ∃ i l, n = u.line + i ∧ (lines (w.text u.id))[i]? = some l ∧ Marked e f p (lines (w.text u.id)) l := by
  unfold matchedLines
  simp only [List.mem_map, Prod.exists]
  constructor
  · rintro ⟨i, l, h, rfl⟩
    obtain ⟨h1, h2⟩ := find_mem.1 h
    exact ⟨i, l, rfl, h1, h2⟩
  · rintro ⟨i, l, rfl, h1, h2⟩
    exact ⟨i, l, find_mem.2 ⟨h1, h2⟩, rfl⟩

/-- The lines of a unit whose file is as it was. -/
theorem current_line {w : World} {u : CodeUnit} {file : List Text} (h : Current w u file) {i : Nat} {l : Text} :
    (lines (w.text u.id))[i]? = some l ↔ u.line + i ≤ u.endLine ∧ file[u.line + i - 1]? = some l := by
  obtain ⟨_, h1, h2, h3, h4⟩ := h
  rw [h4]
  by_cases hi : i < u.endLine + 1 - u.line
  · rw [List.getElem?_take_of_lt hi, List.getElem?_drop, show u.line - 1 + i = u.line + i - 1 by omega]
    constructor
    · exact fun h => ⟨by omega, h⟩
    · exact fun h => h.2
  · rw [List.getElem?_eq_none (by rw [List.length_take]; omega)]
    constructor
    · simp
    · rintro ⟨h, _⟩; omega

theorem current_matched {e : Engine} {w : World} {f : TextFlags} {p : Text} {u : CodeUnit} {file : List Text} (h : Current w u file)
    {n : Nat} : n ∈ matchedLines e w (newMatcher e f p) u ↔
      u.line ≤ n ∧ n ≤ u.endLine ∧ ∃ l, file[n - 1]? = some l ∧ Marked e f p (lines (w.text u.id)) l := by
  rw [matchedLines_mem]
  constructor
  · rintro ⟨i, l, rfl, h1, h2⟩
    obtain ⟨h3, h4⟩ := (current_line h).1 h1
    exact ⟨by omega, h3, l, h4, h2⟩
  · rintro ⟨h1, h2, l, h3, h4⟩
    exact ⟨n - u.line, l, by omega, (current_line h).2 ⟨by omega, by rw [show u.line + (n - u.line) - 1 = n - 1 by omega]; exact h3⟩, h4⟩

/-! ### Excerpts -/

theorem excerpt_nil (paint : Option (List Text → List Text)) (file : List Text) (a z : Nat) : Excerpt paint file a z [] :=
  ⟨by simp, by simp [numbers], by simp, by simp [numbers], by simp, by simp, by simp⟩

/-- Printing ranges gives an excerpt. -/
theorem printRanges_excerpt {paint : Option (List Text → List Text)} (hf : Faithful paint) {file : List Text} {a z : Nat}
    (ha : 1 ≤ a) (hz : z ≤ file.length) {rs : List (Nat × Nat)} (ho : Orderly (a - 1) z rs)
    (hs : ∀ r ∈ rs.head?, r.1 = a - 1 ∧ (r.1 < r.2 ∨ rs.tail = [])) (ht : ∀ r ∈ rs.tail, r.1 < r.2)
    (hg : rs.IsChain fun r s => r.2 < s.1 ∨ r.2 ≤ a + 1) :
    ∃ out, printRanges paint file z rs = .ok out ∧ Excerpt paint file a z out ∧ ∀ k, k ∈ numbers out ↔ Within rs k := by
  obtain ⟨out, h1, h2, h3, h4, h5, h6, h7⟩ := printRanges_spec hf hz rs (a - 1) ho
  obtain ⟨d1, d2⟩ := printRanges_dots hf hz rs (a - 1) ho ht out h1
  refine ⟨out, h1, ⟨?_, h3, h4, ?_, h5, ?_, ?_⟩, h6⟩
  · intro x hx
    rcases h2 x hx with h | ⟨n, l, t, b1, b2, b3⟩
    · exact .inl h
    · exact .inr ⟨n, l, t, b1, by omega, b3⟩
  · rw [h7]
    cases rs with
    | nil => simp
    | cons r rest =>
      obtain ⟨h8, h9⟩ := hs r (by simp)
      rcases h9 with h9 | h9
      · obtain ⟨k, hk⟩ : ∃ k, r.2 - r.1 = k + 1 := ⟨r.2 - r.1 - 1, by omega⟩
        rw [List.flatMap_cons, hk, List.range'_succ]
        simp; omega
      · simp only [List.tail_cons] at h9
        subst h9
        simp only [List.flatMap_cons, List.flatMap_nil, List.append_nil]
        cases hk : r.2 - r.1 with
        | zero => simp
        | succ k => rw [List.range'_succ]; simp; omega
  · rintro n t n' t' ⟨p, q, rfl⟩
    obtain ⟨r, s, ⟨x, y, rfl⟩, rfl, rfl⟩ := d1 p.length n t n' t' (by simp) (by simp) (by simp)
    rw [List.append_assoc, List.isChain_append] at hg
    have := hg.2.1
    rw [List.cons_append, List.cons_append, List.isChain_cons_cons] at this
    rcases this.1 with h | h
    · exact .inl (by omega)
    · exact .inr h
  · rintro n t ⟨p, rfl⟩
    exact d2 p.length n t (by simp) (by simp) (by simp)

/-- Around matches. -/
theorem show_matches {paint : Option (List Text → List Text)} (hf : Faithful paint) {file : List Text} {ms : List Nat}
    {a z half mx : Nat} (ha : 1 ≤ a) (hz : z ≤ file.length) (hm : ∃ n ∈ ms, a ≤ n ∧ n ≤ z) :
    ∃ out, printRanges paint file z (calcRanges ms a z half mx) = .ok out ∧ Excerpt paint file a z out ∧ a ∈ numbers out ∧
      (∀ k, a ≤ k → k ≤ z → (∃ n ∈ ms, a ≤ n ∧ n ≤ z ∧ Near half n k) → k ∈ numbers out) ∧
      ∀ k ∈ numbers out, k = a ∨ k = a + 1 ∨ ∃ n ∈ ms, a ≤ n ∧ n ≤ z ∧ Near half n k := by
  obtain ⟨c0, c1, c2, c3, c4, c5, c6⟩ := calcRanges_matches (half := half) (mx := mx) ha hm
  obtain ⟨out, h1, h2, h3⟩ := printRanges_excerpt hf ha hz c1 (fun r hr => ⟨c2 r hr, .inl (c3 r (List.mem_of_head? hr))⟩)
    (fun r hr => c3 r (List.mem_of_mem_tail hr)) c0
  refine ⟨out, h1, h2, ?_, fun k hk1 hk2 hk3 => (h3 k).2 (c5 k hk1 hk2 hk3), fun k hk => c6 k ((h3 k).1 hk)⟩
  rw [h3]
  cases hrs : calcRanges ms a z half mx with
  | nil => exact absurd hrs c4
  | cons r rest =>
    have h4 := c2 r (by rw [hrs]; rfl)
    have h5 := c3 r (by rw [hrs]; simp)
    exact ⟨r, by simp, by omega, by omega⟩

/-- From the start, when the limit does not overflow. -/
theorem show_start {paint : Option (List Text → List Text)} (hf : Faithful paint) {file : List Text} {a z mx : Nat}
    (ha : 1 ≤ a) (hz : z ≤ file.length) (haz : a ≤ z) (hmx : a - 1 + mx < usize) :
    ∃ out, printRanges paint file z (fromStart a z mx) = .ok out ∧ Excerpt paint file a z out ∧
      ∀ k, k ∈ numbers out ↔ a ≤ k ∧ k ≤ z ∧ k < a + mx := by
  have ho : Orderly (a - 1) z (fromStart a z mx) := by
    unfold fromStart
    rw [Nat.mod_eq_of_lt hmx]
    constructor
    · simp; omega
    · simp
  obtain ⟨out, h1, h2, h3⟩ := printRanges_excerpt hf ha hz ho (by simp [fromStart]) (by simp [fromStart]) (by simp [fromStart])
  refine ⟨out, h1, h2, fun k => ?_⟩
  rw [h3]
  unfold Within fromStart
  rw [Nat.mod_eq_of_lt hmx]
  simp only [List.mem_singleton, exists_eq_left]
  omega

/-- Nothing is shown of a unit that begins behind the end of the file. -/
theorem show_beyond {paint : Option (List Text → List Text)} {file : List Text} {ms : List Nat} {a z half mx : Nat}
    (hz : z ≤ file.length) (ha : file.length < a) : printRanges paint file z (calcRanges ms a z half mx) = .ok [] := by
  rw [calcRanges_none (by rintro ⟨n, _, h1, h2⟩; omega)]
  unfold fromStart
  rw [printRanges, if_pos (by simp only; omega), printRanges]

/-- The limit overflows: the program ends. -/
theorem show_overflow {paint : Option (List Text → List Text)} {file : List Text} {ms : List Nat} {a z half : Nat}
    (ha : 2 ≤ a) (hl : a ≤ file.length) (hu : file.length < usize) (hm : ¬ ∃ n ∈ ms, a ≤ n ∧ n ≤ z) :
    printRanges paint file z (calcRanges ms a z half (usize - 1)) = .error .panic := by
  rw [calcRanges_none hm]
  unfold fromStart
  have hmod : (a - 1 + (usize - 1)) % usize = a - 2 := by
    rw [show a - 1 + (usize - 1) = a - 2 + usize by unfold usize; omega, Nat.add_mod_right, Nat.mod_eq_of_lt (by omega)]
  rw [hmod, printRanges, if_neg (by simp only; omega)]
  unfold slice
  rw [if_neg (by simp only; omega)]
  rfl

theorem printContent_spec {paint : Option (List Text → List Text)} (hf : Faithful paint) {file : List Text} {a z mx : Nat}
    (ha : 1 ≤ a) (hz : z ≤ file.length) (haz : a ≤ z) (hu : file.length < usize) :
    ∃ out, printContent paint file (a - 1) mx z = .ok out ∧ Excerpt paint file a z out ∧
      ∀ k, k ∈ numbers out ↔ a ≤ k ∧ k ≤ z ∧ k < a + mx := by
  have he : min z (min (a - 1 + mx) (usize - 1)) = min z (a - 1 + mx) := by omega
  unfold printContent
  rw [he, slice_ok (by omega) (by omega)]
  obtain ⟨b1, b2, b3, b4⟩ := printLines_block hf (file := file) (a := a - 1) (b := min z (a - 1 + mx)) (by omega) (by omega)
  have hd : (if min z (a - 1 + mx) < z then [Out.dots] else []) = [] ∨
      (if min z (a - 1 + mx) < z then [Out.dots] else []) = [.dots] := by split <;> simp
  have hnum : numbers (printLines paint (a - 1) ((file.drop (a - 1)).take (min z (a - 1 + mx) - (a - 1))) ++
      (if min z (a - 1 + mx) < z then [Out.dots] else [])) = List.range' (a - 1 + 1) (min z (a - 1 + mx) - (a - 1)) := by
    rw [numbers_append, b2]
    rcases hd with h | h <;> rw [h] <;> simp [numbers]
  have hnd : ∀ i : Nat, (printLines paint (a - 1) ((file.drop (a - 1)).take (min z (a - 1 + mx) - (a - 1))))[i]? ≠ some .dots := by
    intro i h
    obtain ⟨n, l, t, hc, _⟩ := b1 _ (List.mem_of_getElem? h)
    simp at hc
  refine ⟨_, rfl, ⟨?_, ?_, ?_, ?_, ?_, ?_, ?_⟩, ?_⟩
  · intro x hx
    rcases List.mem_append.1 hx with hx | hx
    · obtain ⟨n, l, t, a1, a2, a3, a4⟩ := b1 x hx
      exact .inr ⟨n, l, t, a1, by omega, by omega, a4⟩
    · left
      split at hx <;> simp at hx
      exact hx
  · rw [hnum]; exact List.pairwise_lt_range'
  · rcases hd with h | h <;> rw [h]
    · simpa using b3
    · rw [List.isChain_append]
      exact ⟨b3, by simp, by simp⟩
  · rw [hnum]
    cases hk : min z (a - 1 + mx) - (a - 1) with
    | zero => simp
    | succ k => rw [List.range'_succ]; simp; omega
  · split
    · simp
    · rename_i h
      intro x hx n t hxn
      rw [List.append_nil] at hx
      have := b4 x hx n t hxn
      omega
  · rintro n t n' t' ⟨p, q, h⟩
    exfalso
    generalize printLines paint (a - 1) ((file.drop (a - 1)).take (min z (a - 1 + mx) - (a - 1))) = B at h hnd
    have h1 : (p ++ [.code n t, .dots, .code n' t'] ++ q)[p.length + 1]? = some .dots := by simp
    have h2 := congrArg List.length h
    rw [h] at h1
    rcases hd with h' | h' <;> rw [h'] at h1 h2
    · rw [List.append_nil] at h1; exact hnd _ h1
    · rw [List.getElem?_append_left (by simp at h2; omega)] at h1; exact hnd _ h1
  · rintro n t ⟨p, h⟩
    split at h
    · rw [show p ++ [Out.code n t, .dots] = (p ++ [Out.code n t]) ++ [.dots] by simp] at h
      have h1 := (List.append_inj' h rfl).1
      have := b4 (.code n t) (by rw [← h1]; simp) n t rfl
      omega
    · rw [List.append_nil] at h
      exact absurd (by rw [← h]; simp) (hnd (p.length + 1))
  · intro k
    rw [hnum, List.mem_range'_1]
    omega

/-! ### Representative lines -/

section
variable {K : Type} [Field K] [LinearOrder K] {s : Scoring K} {ls : List Text} {start : Nat}

/-- Distinct lines of the unit. -/
def Centres (ls : List Text) (start : Nat) (c : List Nat) : Prop := c.Nodup ∧ ∀ n ∈ c, start ≤ n ∧ n < start + ls.length

theorem bestOne_centres {size i : Nat} {st : K × List Nat} (hi : i + size / 2 < ls.length) (h : Centres ls start st.2) :
    Centres ls start (bestOne s ls size start st i).2 := by
  unfold bestOne
  split
  · exact ⟨by simp, by simp; omega⟩
  · split
    · simp only
      split
      · exact h
      · rename_i hn
        refine ⟨?_, ?_⟩
        · rw [List.nodup_append]
          refine ⟨h.1, by simp, ?_⟩
          rintro x hx y hy rfl
          simp only [List.mem_singleton] at hy
          exact hn (hy ▸ hx)
        · intro n hn
          rcases List.mem_append.1 hn with hn | hn
          · exact h.2 n hn
          · simp only [List.mem_singleton] at hn; omega
    · exact h

theorem bestWindows_centres (hne : ls ≠ []) : Centres ls start (bestWindows s ls start).2 := by
  unfold bestWindows
  have hpos : 0 < ls.length := List.length_pos_iff.2 hne
  have : ∀ (is : List Nat) (st : K × List Nat), (∀ i ∈ is, i + min 3 ls.length / 2 < ls.length) → Centres ls start st.2 →
      Centres ls start (is.foldl (bestOne s ls (min 3 ls.length) start) st).2 := by
    intro is
    induction is with
    | nil => intro st _ h; exact h
    | cons i is ih =>
      intro st hi h
      exact ih _ (fun j hj => hi j (by simp [hj])) (bestOne_centres (hi i (by simp)) h)
  refine this _ _ ?_ ⟨by simp, by simp⟩
  intro i hi
  rw [List.mem_range] at hi
  omega

theorem bestLine_in {b : Nat × K} (h : bestLine s ls start = some b) : start ≤ b.1 ∧ b.1 < start + ls.length := by
  unfold bestLine at h
  have hm := List.mem_of_head? h
  rw [(sortBy_perm _).mem_iff, List.mem_filter] at hm
  obtain ⟨⟨l, i⟩, hi, rfl⟩ := List.mem_map.1 hm.1
  have := List.mem_zipIdx hi
  simp only; omega

theorem representative_centres (s : Scoring K) (ls : List Text) (start : Nat) :
    Centres ls start (representative s ls start) ∧ (representative s ls start).length ≤ 3 := by
  unfold representative
  split
  · exact ⟨⟨by simp, by simp⟩, by simp⟩
  · rename_i h
    split
    · exact ⟨⟨by simp, by simp⟩, by simp⟩
    · obtain ⟨h1, h2⟩ := bestWindows_centres (s := s) (start := start) (fun hl => h (.inr hl))
      have hp : Centres ls start (preferLine s (bestLine s ls start) (bestWindows s ls start).1 (bestWindows s ls start).2) := by
        cases hb : bestLine s ls start with
        | none => exact ⟨h1, h2⟩
        | some b =>
          simp only [preferLine]
          split
          · rename_i hc
            refine ⟨List.nodup_cons.2 ⟨hc.2, h1⟩, ?_⟩
            intro n hn
            rcases List.mem_cons.1 hn with rfl | hn
            · exact bestLine_in hb
            · exact h2 n hn
          · exact ⟨h1, h2⟩
      exact ⟨⟨hp.1.sublist (List.take_sublist _ _), fun n hn => hp.2 n (List.mem_of_mem_take hn)⟩, by simp⟩

end

end NextPlaid.Display
