import Verif.Proofs.TextFilter4
import Verif.Spec.Display

/-! Which rows are selected. -/

namespace NextPlaid.Ere

open NextPlaid.Spec
open NextPlaid.Regex
open NextPlaid.Display (TextFlags wordy Engine casePrefix source)
open NextPlaid.Globs (Stands Stands.append addAll pieces pieces_cons matches_finish stands_nil stands_escape seq_reverse)

theorem parse_stands {t : List Char} {rs : List Rx} (h : Stands t rs) : ∃ r, parse t = some r ∧
    ∀ (f : Flags) (a b : Place), Matches f r a b ↔ Matches f (pieces rs) a b := by
  refine ⟨(addAll {} rs).finish, ?_, fun f a b => ?_⟩
  · unfold parse
    rw [show ({} : PState) = { mode := .normal, top := {}, outer := [] } from rfl, h]
    rfl
  · simp only [Frame.finish, addAll, List.append_nil, seq_reverse, List.foldl_nil]
    rfl

/-- Characters one after the other. -/
theorem matches_chars {f : Flags} : ∀ (t : List Char) (a b : Place),
    Matches f (pieces (t.map .chr)) a b ↔ ∃ s, s.map f.fold = t.map f.fold ∧ a.2 = s ++ b.2 ∧ b = placeAfter a.1 s b.2
  | [], a, b => by
    constructor
    · intro h
      obtain rfl : a = b := h
      exact ⟨[], rfl, rfl, by simp [placeAfter]⟩
    · rintro ⟨s, h1, h2, h3⟩
      obtain rfl : s = [] := by simpa using h1
      show a = b
      rw [h3]
      simp only [List.nil_append] at h2
      simp [placeAfter, ← h2]
  | c :: t, a, b => by
    rw [List.map_cons, pieces_cons]
    constructor
    · rintro ⟨m, ⟨d, ds, h1, h2, rfl⟩, h3⟩
      obtain ⟨s, h4, h5, h6⟩ := (matches_chars t _ _).1 h3
      refine ⟨d :: s, by simp [h4, h2], by rw [h1]; simpa using h5, ?_⟩
      rw [h6]
      cases hs : s.getLast? <;> simp [placeAfter, List.getLast?_cons, hs]
    · rintro ⟨s, h1, h2, h3⟩
      cases s with
      | nil => simp at h1
      | cons d s =>
        simp only [List.map_cons, List.cons.injEq] at h1
        refine ⟨(some d, s ++ b.2), ⟨d, _, by simpa using h2, h1.1.symm, rfl⟩, (matches_chars t _ _).2 ⟨s, h1.2, rfl, ?_⟩⟩
        rw [h3]
        cases hs : s.getLast? <;> simp [placeAfter, List.getLast?_cons, hs]

/-- The text occurs, letters equal as asked. -/
theorem found_chars {f : Flags} (t code : List Char) :
    Found f (pieces (t.map .chr)) code ↔ ∃ u s v, code = u ++ s ++ v ∧ s.map f.fold = t.map f.fold := by
  unfold Found
  simp only [matches_chars]
  constructor
  · rintro ⟨u, v, q, rfl, s, h1, h2, h3⟩
    refine ⟨u, s, q.2, ?_, h1⟩
    rw [List.append_assoc, ← h2]
    rfl
  · rintro ⟨u, s, v, rfl, h⟩
    exact ⟨u, s ++ v, placeAfter (placeAfter none u (s ++ v)).1 s v, by simp, s, h, rfl, rfl⟩

theorem stands_word : Stands ['\\', 'b'] [.word] := fun _ _ => rfl

/-- The text occurs between edges of words. -/
theorem found_word {f : Flags} (hf : f.fold = id) (t code : List Char) :
    Found f (pieces (.word :: (t.map .chr ++ [.word]))) code ↔
      ∃ u v, code = u ++ t ++ v ∧ (f.wordy u.getLast? ≠ f.wordy (t ++ v).head?) ∧ f.wordy (u ++ t).getLast? ≠ f.wordy v.head? := by
  unfold Found
  simp only [pieces_cons, pieces_append, matches_chars]
  constructor
  · rintro ⟨u, v, q, rfl, m, ⟨rfl, h1⟩, m', ⟨s, h2, h3, h4⟩, m'', ⟨rfl, h5⟩, _⟩
    simp only [hf, List.map_id] at h2
    subst h2
    have hv : v = s ++ m'.2 := h3
    subst hv
    refine ⟨u, m'.2, by simp, by simpa [placeAfter] using h1, ?_⟩
    rw [h4] at h5
    simpa [placeAfter, List.getLast?_append] using h5
  · rintro ⟨u, v, rfl, h1, h2⟩
    have hx : Matches f .word (placeAfter (placeAfter none u (t ++ v)).1 t v) (placeAfter (placeAfter none u (t ++ v)).1 t v) :=
      ⟨rfl, by simpa [placeAfter, List.getLast?_append] using h2⟩
    exact ⟨u, t ++ v, _, by simp, _, ⟨rfl, by simpa [placeAfter] using h1⟩, _, ⟨t, rfl, rfl, rfl⟩, _, hx, rfl⟩

/-- The flags without a prefix. -/
def bare (ch : Chars) : Flags := ⟨false, id, ch.isWord⟩

/-- No flags in front. -/
def Bare (t : List Char) : Prop := ∀ u, t ≠ '(' :: '?' :: u

theorem inline_bare {ch : Chars} {t : List Char} (h : Bare t) : inline ch t = (bare ch, t) := by
  unfold inline
  split
  · exact absurd rfl (h _)
  · exact absurd rfl (h _)
  · exact absurd rfl (h _)
  · rfl

theorem inline_lines (ch : Chars) (cs : Bool) (t : List Char) : inline ch (lineFlags cs ++ t) = (searchFlags ch cs true, t) := by
  cases cs <;> rfl

theorem escape_head (t u : List Char) : Globs.escape t ≠ '(' :: u := by
  cases t with
  | nil => simp [Globs.escape]
  | cons c t =>
    simp only [Globs.escape, List.flatMap_cons]
    by_cases h : c ∈ metas
    · simp [h]
    · rw [if_neg h]
      intro e
      simp only [List.cons_append, List.cons.injEq] at e
      exact h (e.1 ▸ by decide)

theorem fixed_head (f : TextFlags) (t u : List Char) : fixedSource f t ≠ '(' :: u := by
  unfold fixedSource
  split
  · simp [wordy]
  · exact escape_head t u

theorem sources_differ (f : TextFlags) (t : List Char) : filterSource f t ≠ fixedSource f t := by
  intro h
  have : ∃ u, filterSource f t = '(' :: u := by
    unfold filterSource lineFlags
    cases f.caseSensitive <;> simp
  obtain ⟨u, hu⟩ := this
  exact fixed_head f t u (by rw [← h, hu])

/-- The search for the text itself. -/
theorem compile_fixed (ch : Chars) (f : TextFlags) (t : List Char) : ∃ hit, compile ch (fixedSource f t) = some hit ∧
    ∀ code, hit code = true ↔ Verbatim ch f.word t code := by
  unfold compile
  rw [inline_bare (fun u => fixed_head f t _)]
  unfold fixedSource Verbatim
  cases f.word with
  | true =>
    simp only [if_true, wordy]
    obtain ⟨r, h1, h2⟩ := parse_stands ((stands_word.append (stands_escape t)).append stands_word)
    refine ⟨_, by rw [h1]; rfl, fun code => ?_⟩
    rw [isMatch_iff, ← show Found (bare ch) (pieces (.word :: (t.map .chr ++ [.word]))) code ↔ Found (bare ch) r code by
      unfold Found; simp only [h2]; rfl]
    exact found_word rfl t code
  | false =>
    simp only [Bool.false_eq_true, if_false]
    obtain ⟨r, h1, h2⟩ := parse_stands (stands_escape t)
    refine ⟨_, by rw [h1]; rfl, fun code => ?_⟩
    rw [isMatch_iff, ← show Found (bare ch) (pieces (t.map .chr)) code ↔ Found (bare ch) r code by unfold Found; simp only [h2]]
    rw [found_chars]
    simp only [bare, List.map_id]
    constructor
    · rintro ⟨u, s, v, rfl, rfl⟩; exact ⟨u, v, by simp⟩
    · rintro ⟨u, v, rfl⟩; exact ⟨u, t, v, rfl, rfl⟩

theorem matching_some {ch : Chars} {rows : List Row} {src : List Char} {hit : List Char → Bool} (h : compile ch src = some hit) :
    matching ch rows src = some ((rows.filter fun r => hit r.code).map (·.id)) := by
  unfold matching
  rw [h]
  rfl

theorem mem_hits {rows : List Row} {hit : List Char → Bool} {i : Int} :
    i ∈ (rows.filter fun r => hit r.code).map (·.id) ↔ ∃ r ∈ rows, r.id = i ∧ hit r.code = true := by
  simp only [List.mem_map, List.mem_filter]
  constructor
  · rintro ⟨r, ⟨h1, h2⟩, rfl⟩; exact ⟨r, h1, rfl, h2⟩
  · rintro ⟨r, h1, rfl, h2⟩; exact ⟨r, ⟨h1, h2⟩, rfl⟩

/-- `-F`. -/
theorem filter_fixed {ch : Chars} {order : List Int → List Int} {rows : List Row} {f : TextFlags} {t : List Char} (h0 : t ≠ [])
    (hf : f.fixed = true) : ∃ ids, textFilter ch order rows f t = some ids ∧ ids.Sublist (rows.map (·.id)) ∧
      ∀ i, i ∈ ids ↔ ∃ r ∈ rows, r.id = i ∧ Verbatim ch f.word t r.code := by
  obtain ⟨hit, h1, h2⟩ := compile_fixed ch f t
  refine ⟨(rows.filter fun r => hit r.code).map (·.id), ?_, List.Sublist.map _ List.filter_sublist, fun i => ?_⟩
  · unfold textFilter
    rw [if_neg h0, if_pos hf, matching_some h1]
  · rw [mem_hits]; simp only [h2]

/-- Without `-F`. -/
theorem filter_some {ch : Chars} {order : List Int → List Int} {rows : List Row} {f : TextFlags} {t : List Char} (h0 : t ≠ [])
    (ho : ∀ l, (order l).Perm l) (hf : f.fixed = false) {hit : List Char → Bool} (hc : compile ch (filterSource f t) = some hit) :
    ∃ ids, textFilter ch order rows f t = some ids ∧ ((rows.map (·.id)).Nodup → ids.Nodup) ∧
      ∀ i, i ∈ ids ↔ ∃ r ∈ rows, r.id = i ∧ (hit r.code = true ∨ Verbatim ch f.word t r.code) := by
  obtain ⟨hit', h1, h2⟩ := compile_fixed ch f t
  refine ⟨order ((rows.filter fun r => hit r.code).map (·.id) ++ ((rows.filter fun r => hit' r.code).map (·.id)).filter
    (· ∉ (rows.filter fun r => hit r.code).map (·.id))), ?_, ?_, fun i => ?_⟩
  · unfold textFilter
    rw [if_neg h0, if_neg (by simp [hf]), if_neg (sources_differ f t), matching_some hc, matching_some h1]
    rfl
  · intro hn
    rw [(ho _).nodup_iff]
    rw [List.nodup_append]
    refine ⟨hn.sublist (List.Sublist.map _ List.filter_sublist), (hn.sublist (List.Sublist.map _ List.filter_sublist)).filter _, ?_⟩
    intro a ha b hb e
    subst e
    have := (List.mem_filter.1 hb).2
    simp only [decide_eq_true_eq] at this
    exact this ha
  · rw [(ho _).mem_iff]
    rw [List.mem_append, List.mem_filter, decide_eq_true_eq, mem_hits, mem_hits]
    constructor
    · rintro (⟨r, h3, h4, h5⟩ | ⟨⟨r, h3, h4, h5⟩, _⟩)
      · exact ⟨r, h3, h4, .inl h5⟩
      · exact ⟨r, h3, h4, .inr ((h2 _).1 h5)⟩
    · rintro ⟨r, h3, h4, h5⟩
      by_cases hh : ∃ r ∈ rows, r.id = i ∧ hit r.code = true
      · exact .inl hh
      · rcases h5 with h5 | h5
        · exact .inl ⟨r, h3, h4, h5⟩
        · exact .inr ⟨⟨r, h3, h4, (h2 _).2 h5⟩, hh⟩

theorem filter_none {ch : Chars} {order : List Int → List Int} {rows : List Row} {f : TextFlags} {t : List Char} (h0 : t ≠ [])
    (hf : f.fixed = false) (hc : compile ch (filterSource f t) = none) :
    ∃ ids, textFilter ch order rows f t = some ids ∧ ((rows.map (·.id)).Nodup → ids.Nodup) ∧
      ∀ i, i ∈ ids ↔ ∃ r ∈ rows, r.id = i ∧ Verbatim ch f.word t r.code := by
  obtain ⟨hit', h1, h2⟩ := compile_fixed ch f t
  refine ⟨(rows.filter fun r => hit' r.code).map (·.id), ?_, fun hn => hn.sublist (List.Sublist.map _ List.filter_sublist), fun i => ?_⟩
  · unfold textFilter
    rw [if_neg h0, if_neg (by simp [hf]), if_neg (sources_differ f t), matching_some h1]
    have : matching ch rows (filterSource f t) = none := by unfold matching; rw [hc]; rfl
    rw [this]
    rfl
  · rw [mem_hits]; simp only [h2]

theorem compile_lines {ch : Chars} {cs : Bool} {p : Pat} (h : p.Legal) : ∃ hit, compile ch (lineFlags cs ++ final p) = some hit ∧
    ∀ code, hit code = true ↔ Occurs (searchFlags ch cs true) p code := by
  unfold compile
  rw [inline_lines]
  obtain ⟨r, h1, h2⟩ := parse_final h
  exact ⟨_, by rw [h1]; rfl, fun code => h2 _ code⟩

theorem word_legal {p : Pat} (h : p.Legal) (ha : p.isAlt = false) : (Pat.cat .edge (.cat p .edge)).Legal := by
  refine ⟨trivial, ⟨h, trivial, ha, rfl, ?_, ?_⟩, rfl, rfl, ?_, ?_⟩
  · intro _ c hc
    simp [Pat.spell] at hc
    subst hc; decide
  · intro _; simp [Pat.spell]
  · intro hl; simp [Pat.spell] at hl
  · intro hl; simp [Pat.spell] at hl

theorem wordy_final (p : Pat) : wordy (final p) = final (.cat .edge (.cat p .edge)) := by simp [wordy, final]

theorem filter_pattern {ch : Chars} {order : List Int → List Int} {rows : List Row} {f : TextFlags} {p : Pat} (h : p.Legal)
    (hs : p.OneSense) (h0 : p.write ≠ []) (ho : ∀ l, (order l).Perm l) (hf : f.fixed = false) (hx : f.extended = true)
    (hw : f.word = false) :
    ∃ ids, textFilter ch order rows f p.write = some ids ∧ ((rows.map (·.id)).Nodup → ids.Nodup) ∧
      ∀ i, i ∈ ids ↔ ∃ r ∈ rows, r.id = i ∧
        (Occurs (searchFlags ch f.caseSensitive true) p r.code ∨ Verbatim ch false p.write r.code) := by
  obtain ⟨hit, h1, h2⟩ := compile_lines (ch := ch) (cs := f.caseSensitive) h
  have hc : compile ch (filterSource f p.write) = some hit := by
    unfold filterSource
    rw [hw, hx, if_neg (by simp), if_pos rfl, toEre_write h hs, h1]
  obtain ⟨ids, h3, h4, h5⟩ := filter_some (rows := rows) h0 ho hf hc
  refine ⟨ids, h3, h4, fun i => ?_⟩
  rw [h5, hw]
  simp only [h2]

theorem filter_word {ch : Chars} {order : List Int → List Int} {rows : List Row} {f : TextFlags} {p : Pat} (h : p.Legal)
    (hs : p.OneSense) (ha : p.isAlt = false) (h0 : p.write ≠ []) (ho : ∀ l, (order l).Perm l) (hf : f.fixed = false)
    (hw : f.word = true) :
    ∃ ids, textFilter ch order rows f p.write = some ids ∧ ((rows.map (·.id)).Nodup → ids.Nodup) ∧
      ∀ i, i ∈ ids ↔ ∃ r ∈ rows, r.id = i ∧
        (OccursWord (searchFlags ch f.caseSensitive true) p r.code ∨ Verbatim ch true p.write r.code) := by
  obtain ⟨hit, h1, h2⟩ := compile_lines (ch := ch) (cs := f.caseSensitive) (word_legal h ha)
  have hc : compile ch (filterSource f p.write) = some hit := by
    unfold filterSource
    rw [hw, if_pos rfl, toEre_write h hs, wordy_final, h1]
  obtain ⟨ids, h3, h4, h5⟩ := filter_some (rows := rows) h0 ho hf hc
  refine ⟨ids, h3, h4, fun i => ?_⟩
  rw [h5, hw]
  simp only [h2, OccursWord]

theorem filter_literal {ch : Chars} {order : List Int → List Int} {rows : List Row} {f : TextFlags} {t : List Char}
    (h0 : t ≠ []) (ho : ∀ l, (order l).Perm l) (hf : f.fixed = false) (hx : f.extended = false) (hw : f.word = false) :
    ∃ ids, textFilter ch order rows f t = some ids ∧ ((rows.map (·.id)).Nodup → ids.Nodup) ∧
      ∀ i, i ∈ ids ↔ ∃ r ∈ rows, r.id = i ∧ ∃ u s v, r.code = u ++ s ++ v ∧
        s.map (searchFlags ch f.caseSensitive true).fold = t.map (searchFlags ch f.caseSensitive true).fold := by
  obtain ⟨r, h1, h2⟩ := parse_stands (stands_escape t)
  have hc : compile ch (filterSource f t) = some fun code => isMatch (searchFlags ch f.caseSensitive true) r code := by
    unfold filterSource
    rw [hw, hx, if_neg (by simp), if_neg (by simp)]
    unfold compile
    rw [inline_lines, h1]
    rfl
  obtain ⟨ids, h3, h4, h5⟩ := filter_some (rows := rows) h0 ho hf hc
  refine ⟨ids, h3, h4, fun i => ?_⟩
  rw [h5, hw]
  have hh : ∀ code, isMatch (searchFlags ch f.caseSensitive true) r code = true ↔ ∃ u s v, code = u ++ s ++ v ∧
      s.map (searchFlags ch f.caseSensitive true).fold = t.map (searchFlags ch f.caseSensitive true).fold := by
    intro code
    rw [isMatch_iff, ← found_chars]
    unfold Found; simp only [h2]
  simp only [hh]
  constructor
  · rintro ⟨r, h6, h7, h8 | ⟨u, v, h8⟩⟩
    · exact ⟨r, h6, h7, h8⟩
    · exact ⟨r, h6, h7, u, t, v, h8.symm, rfl⟩
  · rintro ⟨r, h6, h7, h8⟩; exact ⟨r, h6, h7, .inl h8⟩

/-! Lines. -/

theorem final_bare : ∀ {p : Pat}, p.Legal → final p ≠ ['('] ∧ Bare (final p)
  | .empty, _ => by simp [final, Bare]
  | .lit c, _ => by
    simp only [final]
    split
    · simp [Bare]
    · split
      · simp [Bare]
      · rename_i h
        refine ⟨fun e => ?_, fun u => by simp⟩
        simp only [List.cons.injEq, and_true] at e
        subst e
        exact h (by decide)
  | .any, _ => by simp [final, Bare]
  | .bol, _ => by simp [final, Bare]
  | .eol, _ => by simp [final, Bare]
  | .edge, _ => by simp [final, Bare]
  | .set neg cs, _ => by cases neg <;> simp [final, Pat.spell, Bare]
  | .cat a b, h => by
    obtain ⟨h1, h2⟩ := final_bare h.1
    have h3 := final_bare h.2.1
    simp only [final]
    match hx : final a with
    | [] => simpa using h3
    | [x] =>
      rw [hx] at h1
      have h1' : x ≠ '(' := by simpa using h1
      simp [Bare, h1']
    | x :: y :: xs =>
      refine ⟨by simp, fun u e => ?_⟩
      rw [hx] at h2
      simp only [List.cons_append, List.cons.injEq] at e
      exact h2 xs (by rw [e.1, e.2.1])
  | .alt _ a b, h => by
    obtain ⟨h1, h2⟩ := final_bare h.1
    simp only [final]
    match hx : final a with
    | [] => simp [Bare]
    | [x] => simp [Bare]
    | x :: y :: xs =>
      refine ⟨by simp, fun u e => ?_⟩
      rw [hx] at h2
      simp only [List.cons_append, List.cons.injEq] at e
      exact h2 xs (by rw [e.1, e.2.1])
  | .group _ a, h => by
    have h1 := final_head (p := a) h
    simp only [final]
    match hx : final a with
    | [] => simp [Bare]
    | x :: xs =>
      rw [hx] at h1
      have h1' : x ≠ '?' := by simpa using h1
      simp [Bare, h1']
  | .many q a, h => by
    obtain ⟨h1, h2⟩ := final_bare h.2.1
    simp only [final]
    match hx : final a with
    | [] => exact absurd hx (final_single h.2.2)
    | [x] =>
      rw [hx] at h1
      have h1' : x ≠ '(' := by simpa using h1
      simp [Bare, h1']
    | x :: y :: xs =>
      refine ⟨by simp, fun u e => ?_⟩
      rw [hx] at h2
      simp only [List.cons_append, List.cons.injEq] at e
      exact h2 xs (by rw [e.1, e.2.1])

theorem compile_case {ch : Chars} {cs : Bool} {p : Pat} (h : p.Legal) : ∃ hit, compile ch (casePrefix cs ++ final p) = some hit ∧
    ∀ line, hit line = true ↔ Occurs (searchFlags ch cs false) p line := by
  have hi : inline ch (casePrefix cs ++ final p) = (searchFlags ch cs false, final p) := by
    cases cs with
    | true => exact inline_bare (final_bare h).2
    | false => rfl
  unfold compile
  rw [hi]
  obtain ⟨r, h1, h2⟩ := parse_final h
  exact ⟨_, by rw [h1]; rfl, fun code => h2 _ code⟩

/-- The lines that the display marks are those in which the pattern occurs. -/
theorem lineMatches_iff {ch : Chars} {lower : List Char → List Char} {f : TextFlags} {p : Pat} (h : p.Legal) (hs : p.OneSense)
    (hf : f.fixed = false) (hx : f.extended = true) (hw : f.word = false) (line : List Char) :
    LineMatches (engine ch lower) f p.write line ↔ Occurs (searchFlags ch f.caseSensitive false) p line := by
  obtain ⟨hit, h1, h2⟩ := compile_case (ch := ch) (cs := f.caseSensitive) h
  have : (source f p.write).bind (engine ch lower).compile = some hit := by
    simp only [source, hf, hx, hw, Bool.not_false, Bool.and_true, Bool.and_self, if_true, Bool.false_eq_true, if_false]
    simp [engine, toEre_write h hs, h1]
  unfold LineMatches
  rw [this]
  exact h2 line

/-- With `-w`. -/
theorem lineMatches_word {ch : Chars} {lower : List Char → List Char} {f : TextFlags} {p : Pat} (h : p.Legal) (hs : p.OneSense)
    (ha : p.isAlt = false) (hf : f.fixed = false) (hx : f.extended = true) (hw : f.word = true) (line : List Char) :
    LineMatches (engine ch lower) f p.write line ↔ OccursWord (searchFlags ch f.caseSensitive false) p line := by
  obtain ⟨hit, h1, h2⟩ := compile_case (ch := ch) (cs := f.caseSensitive) (word_legal h ha)
  have : (source f p.write).bind (engine ch lower).compile = some hit := by
    simp only [source, hf, hx, hw, Bool.not_false, Bool.and_true, Bool.and_self, if_true, Bool.false_eq_true, if_false]
    simp only [not_false_eq_true, and_self, if_true, toEre_write h hs, wordy_final, Option.bind_some, engine, h1]
  unfold LineMatches
  rw [this]
  exact h2 line

/-- The text occurs between edges of words, letters equal as asked. -/
theorem found_word_fold {f : Flags} (t code : List Char) :
    Found f (pieces (.word :: (t.map .chr ++ [.word]))) code ↔
      ∃ u s v, code = u ++ s ++ v ∧ s.map f.fold = t.map f.fold ∧ (f.wordy u.getLast? ≠ f.wordy (s ++ v).head?) ∧
        f.wordy (u ++ s).getLast? ≠ f.wordy v.head? := by
  unfold Found
  simp only [pieces_cons, pieces_append, matches_chars]
  constructor
  · rintro ⟨u, v, q, rfl, m, ⟨rfl, h1⟩, m', ⟨s, h2, h3, h4⟩, m'', ⟨rfl, h5⟩, _⟩
    have hv : v = s ++ m'.2 := h3
    subst hv
    refine ⟨u, s, m'.2, by simp, h2, by simpa [placeAfter] using h1, ?_⟩
    rw [h4] at h5
    simpa [placeAfter, List.getLast?_append] using h5
  · rintro ⟨u, s, v, rfl, hm, h1, h2⟩
    have hx : Matches f .word (placeAfter (placeAfter none u (s ++ v)).1 s v) (placeAfter (placeAfter none u (s ++ v)).1 s v) :=
      ⟨rfl, by simpa [placeAfter, List.getLast?_append] using h2⟩
    exact ⟨u, s ++ v, _, by simp, _, ⟨rfl, by simpa [placeAfter] using h1⟩, _, ⟨s, hm, rfl, rfl⟩, _, hx, rfl⟩

/-- With `-F -w`. -/
theorem lineMatches_fixed_word {ch : Chars} {lower : List Char → List Char} {f : TextFlags} {t : List Char} (hx : f.extended = false ∨ f.fixed = true)
    (hw : f.word = true) (line : List Char) : LineMatches (engine ch lower) f t line ↔
      ∃ u s v, line = u ++ s ++ v ∧ s.map (searchFlags ch f.caseSensitive false).fold = t.map (searchFlags ch f.caseSensitive false).fold ∧
        (u.getLast?.any ch.isWord ≠ (s ++ v).head?.any ch.isWord) ∧ ((u ++ s).getLast?.any ch.isWord ≠ v.head?.any ch.isWord) := by
  have hsrc : source f t = some (casePrefix f.caseSensitive ++ wordy (Globs.escape t)) := by
    unfold source
    rw [if_neg (by rcases hx with h | h <;> simp [h]), if_pos hw]
  have hi : inline ch (casePrefix f.caseSensitive ++ wordy (Globs.escape t)) = (searchFlags ch f.caseSensitive false, wordy (Globs.escape t)) := by
    cases f.caseSensitive with
    | true => exact inline_bare (by intro u; simp [casePrefix, wordy])
    | false => rfl
  obtain ⟨r, h1, h2⟩ := parse_stands ((stands_word.append (stands_escape t)).append stands_word)
  have hc : (source f t).bind (engine ch lower).compile = some fun l => isMatch (searchFlags ch f.caseSensitive false) r l := by
    rw [hsrc]
    simp only [Option.bind_some, engine, compile, hi]
    unfold wordy
    rw [h1]
    rfl
  unfold LineMatches
  rw [hc]
  dsimp only
  rw [isMatch_iff, ← show Found (searchFlags ch f.caseSensitive false) (pieces (.word :: (t.map .chr ++ [.word]))) line ↔
      Found (searchFlags ch f.caseSensitive false) r line by unfold Found; simp only [h2]; rfl]
  exact found_word_fold t line

/-- A line in its surroundings. -/
def put (pre : Option Char) (post : List Char) (p : Place) : Place := (p.1.or pre, p.2 ++ post)

theorem power_put {R S : Place → Place → Prop} {g : Place → Place} (h : ∀ p q, R p q → S (g p) (g q)) :
    ∀ (n : Nat) (p q : Place), Power R n p q → Power S n (g p) (g q)
  | 0, p, q, e => by rw [show p = q from e]; rfl
  | n + 1, p, q, ⟨m, h1, h2⟩ => ⟨g m, h _ _ h1, power_put h n m q h2⟩

theorem means_put {ch : Chars} {cs : Bool} {pre : Option Char} {post : List Char} (hn : ch.isWord '\n' = false)
    (h1 : pre = none ∨ pre = some '\n') (h2 : post = [] ∨ post.head? = some '\n') :
    ∀ {p : Pat} {a b : Place}, p.Means (searchFlags ch cs false) a b → p.Means (searchFlags ch cs true) (put pre post a) (put pre post b) := by
  intro p
  induction p with
  | empty => rintro a b h; exact congrArg _ h
  | lit c => rintro a b ⟨d, ds, e, h, rfl⟩; exact ⟨d, ds ++ post, by simp [put, e], h, rfl⟩
  | any => rintro a b ⟨d, ds, e, h, rfl⟩; exact ⟨d, ds ++ post, by simp [put, e], h, rfl⟩
  | bol =>
    rintro a b ⟨rfl, h⟩
    refine ⟨rfl, ?_⟩
    have : a.1 = none := by simpa [searchFlags] using h
    simp only [put, this, Option.none_or]
    rcases h1 with h1 | h1
    · exact .inl h1
    · exact .inr ⟨rfl, h1⟩
  | eol =>
    rintro a b ⟨rfl, h⟩
    refine ⟨rfl, ?_⟩
    have : a.2 = [] := by simpa [searchFlags] using h
    simp only [put, this, List.nil_append]
    rcases h2 with h2 | h2
    · exact .inl h2
    · exact .inr ⟨rfl, h2⟩
  | edge =>
    rintro a b ⟨rfl, h⟩
    refine ⟨rfl, ?_⟩
    have e1 : (searchFlags ch cs true).wordy (put pre post a).1 = (searchFlags ch cs false).wordy a.1 := by
      cases ha : a.1 with
      | none => rcases h1 with h1 | h1 <;> simp [put, ha, h1, Flags.wordy, searchFlags, hn]
      | some x => simp [put, ha, Flags.wordy, searchFlags]
    have e2 : (searchFlags ch cs true).wordy (put pre post a).2.head? = (searchFlags ch cs false).wordy a.2.head? := by
      cases ha : a.2 with
      | nil => rcases h2 with h2 | h2 <;> simp [put, ha, h2, Flags.wordy, searchFlags, hn]
      | cons x xs => simp [put, ha, Flags.wordy, searchFlags]
    rw [e1, e2]
    exact h
  | set neg cs' => rintro a b ⟨d, ds, e, h, rfl⟩; exact ⟨d, ds ++ post, by simp [put, e], h, rfl⟩
  | cat x y ihx ihy => rintro a b ⟨m, h3, h4⟩; exact ⟨_, ihx h3, ihy h4⟩
  | alt _ x y ihx ihy =>
    rintro a b (h | h)
    · exact .inl (ihx h)
    · exact .inr (ihy h)
  | group _ x ih => rintro a b h; exact ih (a := a) (b := b) h
  | many q x ih =>
    rintro a b h
    have hp := fun n => power_put (g := put pre post) (fun _ _ h => ih h) n a b
    cases q with
    | star => obtain ⟨n, h⟩ := h; exact ⟨n, hp n h⟩
    | plus => obtain ⟨n, h3, h⟩ := h; exact ⟨n, h3, hp n h⟩
    | opt => obtain ⟨n, h3, h⟩ := h; exact ⟨n, h3, hp n h⟩
    | count bre lo => exact hp _ h
    | range bre lo hi => obtain ⟨n, h3, h4, h⟩ := h; exact ⟨n, h3, h4, hp n h⟩

/-- A pattern that occurs in a line occurs in the text. -/
theorem occurs_line {ch : Chars} {cs : Bool} {u l v : List Char} {p : Pat} (hn : ch.isWord '\n' = false)
    (h1 : u = [] ∨ u.getLast? = some '\n') (h2 : v = [] ∨ v.head? = some '\n') (h : Occurs (searchFlags ch cs false) p l) :
    Occurs (searchFlags ch cs true) p (u ++ l ++ v) := by
  obtain ⟨x, y, q, rfl, h⟩ := h
  refine ⟨u ++ x, y ++ v, put u.getLast? v q, by simp, ?_⟩
  have := means_put (pre := u.getLast?) (post := v) hn (h1.imp (fun h => by simp [h]) id) h2 h
  have e : put u.getLast? v (placeAfter none x y) = placeAfter none (u ++ x) (y ++ v) := by
    simp [put, placeAfter, List.getLast?_append]
  rwa [e] at this

end NextPlaid.Ere
