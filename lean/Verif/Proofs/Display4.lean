import Verif.Proofs.Display3

/-! The output for a result and for all results. -/

namespace NextPlaid.Display

open NextPlaid.Spec
open NextPlaid.Units (Text lines trim slice)
open NextPlaid.Rank NextPlaid.Fusion

section
variable {K : Type} [Field K] [LinearOrder K] {e : Engine} {w : World} {o : Options} {s : Scoring K} {u : CodeUnit}

theorem maxLines_cases (o : Options) (u : CodeUnit) :
    (o.showContent = true ∧ u.isText = false ∧ maxLines o u = usize - 1) ∨
    ((o.showContent = false ∨ u.isText = true) ∧ maxLines o u ≤ o.contextLines + 250) := by
  unfold maxLines
  cases o.showContent <;> cases u.isText <;> simp <;> omega

theorem maxLines_first {a z k n : Nat} (ha : 1 ≤ a) (hz : z ≤ n) (hn : n < usize) :
    (a ≤ k ∧ k ≤ z ∧ k < a + maxLines o u) ↔ (a ≤ k ∧ k ≤ z ∧
      (o.showContent = false → k < a + o.contextLines) ∧ (o.showContent = true → u.isText = true → k < a + 250)) := by
  unfold maxLines
  cases o.showContent <;> cases u.isText <;> simp <;> omega

/-- What `calc_display_ranges` and the printing do together. -/
theorem show_any {file : List Text} {ms : List Nat} {half : Nat} (hf : Faithful o.paint) (h1 : 1 ≤ u.line) (h2 : u.line ≤ u.endLine)
    (hm : Moderate o file) :
    (∃ out, printRanges o.paint file (min u.endLine file.length)
        (calcRanges ms u.line (min u.endLine file.length) half (maxLines o u)) = .ok out ∧
      Excerpt o.paint file u.line (min u.endLine file.length) out) ∨
    (printRanges o.paint file (min u.endLine file.length)
        (calcRanges ms u.line (min u.endLine file.length) half (maxLines o u)) = .error .panic ∧
      o.showContent = true ∧ u.isText = false ∧ 2 ≤ u.line ∧ ¬ ∃ n ∈ ms, u.line ≤ n ∧ n ≤ min u.endLine file.length) := by
  unfold Moderate at hm
  by_cases hlen : file.length < u.line
  · exact .inl ⟨[], show_beyond (by omega) hlen, excerpt_nil _ _ _ _⟩
  · by_cases hx : ∃ n ∈ ms, u.line ≤ n ∧ n ≤ min u.endLine file.length
    · obtain ⟨out, h3, h4, _⟩ := show_matches (file := file) (half := half) (mx := maxLines o u) hf h1 (by omega) hx
      exact .inl ⟨out, h3, h4⟩
    · by_cases hov : u.line - 1 + maxLines o u < usize
      · obtain ⟨out, h3, h4, _⟩ := show_start hf (file := file) (a := u.line) (z := min u.endLine file.length) (mx := maxLines o u)
          h1 (by omega) (by omega) hov
        rw [calcRanges_none hx]
        exact .inl ⟨out, h3, h4⟩
      · rcases maxLines_cases o u with ⟨c1, c2, c3⟩ | ⟨_, c2⟩
        · rw [c3] at hov ⊢
          have h5 : 2 ≤ u.line := by unfold usize at hov; omega
          exact .inr ⟨show_overflow h5 (by omega) (by unfold usize; omega) hx, c1, c2, h5, hx⟩
        · exact absurd (by unfold usize; omega) hov

/-- Every result is shown as an excerpt, or the program ends because the limit overflows. -/
theorem showUnit_cases {content : Text} (hr : w.read u.file = some content) (hf : Faithful o.paint) (h1 : 1 ≤ u.line)
    (h2 : u.line ≤ u.endLine) (hm : Moderate o (lines content)) :
    (∃ out, showUnit e w o s u = .ok out ∧ Excerpt o.paint (lines content) u.line (min u.endLine (lines content).length) out) ∨
    (showUnit e w o s u = .error .panic ∧ o.showContent = true ∧ u.isText = false ∧ 2 ≤ u.line ∧
      ((∃ p, o.pattern = some p ∧
        ¬ ∃ n ∈ matchedLines e w (newMatcher e o.flags p) u, u.line ≤ n ∧ n ≤ min u.endLine (lines content).length) ∨
      (o.pattern = none ∧ matchedLines e w (queryMatcher e o) u ≠ [] ∧
        ¬ ∃ n ∈ matchedLines e w (queryMatcher e o) u, u.line ≤ n ∧ n ≤ min u.endLine (lines content).length) ∨
      (o.pattern = none ∧ representative s (lines (w.text u.id)) u.line ≠ [] ∧
        ¬ ∃ n ∈ representative s (lines (w.text u.id)) u.line, u.line ≤ n ∧ n ≤ min u.endLine (lines content).length))) := by
  simp only [showUnit, hr]
  cases hp : o.pattern with
  | some p =>
    simp only
    rcases show_any (ms := matchedLines e w (newMatcher e o.flags p) u) (half := o.contextLines / 2) hf h1 h2 hm with
      h | ⟨h3, h4, h5, h6, h7⟩
    · exact .inl h
    · exact .inr ⟨h3, h4, h5, h6, .inl ⟨p, rfl, h7⟩⟩
  | none =>
    simp only
    split
    · rename_i hne
      rcases show_any (ms := matchedLines e w (queryMatcher e o) u) (half := o.contextLines / 2) hf h1 h2 hm with
        h | ⟨h3, h4, h5, h6, h7⟩
      · exact .inl h
      · exact .inr ⟨h3, h4, h5, h6, .inr (.inl ⟨trivial, hne, h7⟩)⟩
    · split
      · rename_i hne
        rcases show_any (ms := representative s (lines (w.text u.id)) u.line) (half := o.contextLines / 2) hf h1 h2 hm with
          h | ⟨h3, h4, h5, h6, h7⟩
        · exact .inl h
        · exact .inr ⟨h3, h4, h5, h6, .inr (.inr ⟨trivial, hne, h7⟩)⟩
      · split
        · rename_i hl
          unfold Moderate at hm
          obtain ⟨out, h3, h4, _⟩ := printContent_spec hf (file := lines content) (a := u.line)
            (z := min u.endLine (lines content).length) (mx := maxLines o u) h1 (by omega) (by omega) (by unfold usize; omega)
          exact .inl ⟨out, h3, h4⟩
        · exact .inl ⟨[], rfl, excerpt_nil _ _ _ _⟩

theorem showAround_of {out : List Out} {ms : List Nat} {a z half : Nat} {P : Nat → Prop}
    (hP : ∀ n, P n ↔ n ∈ ms ∧ a ≤ n ∧ n ≤ z) (h1 : a ∈ numbers out)
    (h2 : ∀ k, a ≤ k → k ≤ z → (∃ n ∈ ms, a ≤ n ∧ n ≤ z ∧ Near half n k) → k ∈ numbers out)
    (h3 : ∀ k ∈ numbers out, k = a ∨ k = a + 1 ∨ ∃ n ∈ ms, a ≤ n ∧ n ≤ z ∧ Near half n k) : ShowsAround half a z P out := by
  refine ⟨h1, ?_, ?_⟩
  · rintro k k1 k2 ⟨n, hn, hk⟩
    obtain ⟨b1, b2, b3⟩ := (hP n).1 hn
    exact h2 k k1 k2 ⟨n, b1, b2, b3, hk⟩
  · intro k hk
    rcases h3 k hk with h | h | ⟨n, b1, b2, b3, b4⟩
    · exact .inl h
    · exact .inr (.inl h)
    · exact .inr (.inr ⟨n, (hP n).2 ⟨b1, b2, b3⟩, b4⟩)

/-- With a pattern that matches lines of the unit. -/
theorem showUnit_pattern {file : List Text} {p : Text} (hc : Current w u file) (hf : Faithful o.paint)
    (hp : o.pattern = some p) (hx : ∃ n, UnitMatch e w o.flags p u file n) :
    ∃ out, showUnit e w o s u = .ok out ∧ Excerpt o.paint file u.line u.endLine out ∧
      ShowsAround (o.contextLines / 2) u.line u.endLine (UnitMatch e w o.flags p u file) out := by
  obtain ⟨⟨content, hr, rfl⟩, c1, c2, c3, _⟩ := id hc
  obtain ⟨n0, hn0⟩ := hx
  have hmin : min u.endLine (lines content).length = u.endLine := by omega
  have hP : ∀ n, UnitMatch e w o.flags p u (lines content) n ↔
      n ∈ matchedLines e w (newMatcher e o.flags p) u ∧ u.line ≤ n ∧ n ≤ u.endLine := by
    intro n
    rw [current_matched hc]
    unfold UnitMatch
    constructor
    · exact fun h => ⟨h, h.1, h.2.1⟩
    · exact fun h => h.1
  obtain ⟨h1, h2, h3⟩ := (hP n0).1 hn0
  obtain ⟨out, r1, r2, r3, r4, r5⟩ := show_matches (file := lines content) (half := o.contextLines / 2) (mx := maxLines o u) hf c1 c3
    ⟨n0, h1, h2, h3⟩
  refine ⟨out, ?_, r2, showAround_of hP r3 r4 r5⟩
  simp only [showUnit, hr, hp, hmin]
  exact r1

/-- With a pattern that matches no line of the unit. -/
theorem showUnit_pattern_none {file : List Text} {p : Text} (hc : Current w u file) (hf : Faithful o.paint) (hm : Moderate o file)
    (hp : o.pattern = some p) (hx : ¬ ∃ n, UnitMatch e w o.flags p u file n)
    (hno : o.showContent = false ∨ u.isText = true ∨ u.line = 1) :
    ∃ out, showUnit e w o s u = .ok out ∧ Excerpt o.paint file u.line u.endLine out ∧ ShowsFirst o u u.line u.endLine out := by
  obtain ⟨⟨content, hr, rfl⟩, c1, c2, c3, _⟩ := id hc
  unfold Moderate at hm
  have hmin : min u.endLine (lines content).length = u.endLine := by omega
  have hnone : ¬ ∃ n ∈ matchedLines e w (newMatcher e o.flags p) u, u.line ≤ n ∧ n ≤ u.endLine := by
    rintro ⟨n, h1, _⟩
    exact hx ⟨n, (current_matched hc).1 h1⟩
  have hov : u.line - 1 + maxLines o u < usize := by
    rcases maxLines_cases o u with ⟨d1, d2, d3⟩ | ⟨_, d2⟩
    · rcases hno with h | h | h
      · rw [h] at d1; simp at d1
      · rw [h] at d2; simp at d2
      · rw [d3, h]; unfold usize; omega
    · unfold usize; omega
  obtain ⟨out, r1, r2, r3⟩ := show_start hf (file := lines content) (a := u.line) (z := u.endLine) (mx := maxLines o u) c1 c3 c2 hov
  refine ⟨out, ?_, r2, fun k => ?_⟩
  · simp only [showUnit, hr, hp, hmin]
    rw [calcRanges_none hnone]
    exact r1
  · rw [r3, maxLines_first c1 c3 (by unfold usize; omega)]

/-- Without `-e`: lines with the query in them. -/
theorem showUnit_query {file : List Text} (hc : Current w u file) (hf : Faithful o.paint)
    (hp : o.pattern = none) (hx : ∃ n, UnitQuery e o u file n) :
    ∃ out, showUnit e w o s u = .ok out ∧ Excerpt o.paint file u.line u.endLine out ∧
      ShowsAround (o.contextLines / 2) u.line u.endLine (UnitQuery e o u file) out := by
  obtain ⟨⟨content, hr, rfl⟩, c1, c2, c3, _⟩ := id hc
  obtain ⟨n0, hn0⟩ := hx
  have hmin : min u.endLine (lines content).length = u.endLine := by omega
  have hP : ∀ n, UnitQuery e o u (lines content) n ↔
      n ∈ matchedLines e w (queryMatcher e o) u ∧ u.line ≤ n ∧ n ≤ u.endLine := by
    intro n
    unfold queryMatcher
    rw [current_matched hc]
    simp only [marked_query]
    unfold UnitQuery
    constructor
    · exact fun h => ⟨h, h.1, h.2.1⟩
    · exact fun h => h.1
  obtain ⟨h1, h2, h3⟩ := (hP n0).1 hn0
  obtain ⟨out, r1, r2, r3, r4, r5⟩ := show_matches (file := lines content) (half := o.contextLines / 2) (mx := maxLines o u) hf c1 c3
    ⟨n0, h1, h2, h3⟩
  refine ⟨out, ?_, r2, showAround_of hP r3 r4 r5⟩
  simp only [showUnit, hr, hp, hmin]
  rw [if_pos (by intro h; rw [h] at h1; simp at h1)]
  exact r1

/-- Without `-e` and no line with the query in it: around at most three lines of the unit, or the first lines. -/
theorem showUnit_query_none {file : List Text} (hc : Current w u file) (hf : Faithful o.paint) (hm : Moderate o file)
    (hp : o.pattern = none) (hx : ¬ ∃ n, UnitQuery e o u file n) :
    ∃ out, showUnit e w o s u = .ok out ∧ Excerpt o.paint file u.line u.endLine out ∧
      (ShowsFirst o u u.line u.endLine out ∨ ∃ c : List Nat, c ≠ [] ∧ c.length ≤ 3 ∧ c.Nodup ∧
        (∀ n ∈ c, u.line ≤ n ∧ n ≤ u.endLine) ∧ ShowsAround (o.contextLines / 2) u.line u.endLine (· ∈ c) out) := by
  obtain ⟨⟨content, hr, rfl⟩, c1, c2, c3, c4⟩ := id hc
  have hmin : min u.endLine (lines content).length = u.endLine := by omega
  have hnone : matchedLines e w (queryMatcher e o) u = [] := by
    rw [List.eq_nil_iff_forall_not_mem]
    intro n hn
    unfold queryMatcher at hn
    rw [current_matched hc] at hn
    simp only [marked_query] at hn
    exact hx ⟨n, hn⟩
  obtain ⟨⟨d1, d2⟩, d3⟩ := representative_centres s (lines (w.text u.id)) u.line
  have hlen : (lines (w.text u.id)).length = u.endLine + 1 - u.line := by
    rw [c4, List.length_take, List.length_drop]; omega
  by_cases hrep : representative s (lines (w.text u.id)) u.line = []
  · unfold Moderate at hm
    obtain ⟨out, r1, r2, r3⟩ := printContent_spec hf (file := lines content) (a := u.line) (z := u.endLine) (mx := maxLines o u)
      c1 c3 c2 (by unfold usize; omega)
    refine ⟨out, ?_, r2, .inl fun k => ?_⟩
    · simp only [showUnit, hr, hp, hmin]
      rw [if_neg (by simp [hnone]), if_neg (by simp [hrep]), if_pos (by omega)]
      exact r1
    · rw [r3, maxLines_first c1 c3 (by unfold usize; omega)]
  · have hin : ∀ n ∈ representative s (lines (w.text u.id)) u.line, u.line ≤ n ∧ n ≤ u.endLine := by
      intro n hn
      have := d2 n hn
      omega
    obtain ⟨n0, hn0⟩ := List.exists_mem_of_ne_nil _ hrep
    obtain ⟨out, r1, r2, r3, r4, r5⟩ := show_matches (file := lines content) (half := o.contextLines / 2) (mx := maxLines o u) hf c1 c3
      ⟨n0, hn0, hin n0 hn0⟩
    refine ⟨out, ?_, r2, .inr ⟨_, hrep, d3, d1, hin, showAround_of ?_ r3 r4 r5⟩⟩
    · simp only [showUnit, hr, hp, hmin]
      rw [if_neg (by simp [hnone]), if_pos hrep]
      exact r1
    · exact fun n => ⟨fun h => ⟨h, hin n h⟩, fun h => h.1⟩

end

/-! ### All results -/

theorem firsts_mem (x : Text) : ∀ l : List Text, x ∈ firsts l ↔ x ∈ l
  | [] => by simp [firsts]
  | a :: l => by
    simp only [firsts, List.mem_cons, List.mem_filter, firsts_mem x l]
    by_cases h : x = a <;> simp [h]

theorem firsts_order : ∀ l : List Text, (firsts l).Pairwise fun x y => l.idxOf x < l.idxOf y
  | [] => by simp [firsts]
  | a :: l => by
    simp only [firsts, List.pairwise_cons]
    constructor
    · intro y hy
      simp only [List.mem_filter, decide_eq_true_eq] at hy
      rw [List.idxOf_cons_self, List.idxOf_cons_ne _ (fun h => hy.2 h.symm)]
      omega
    · refine List.Pairwise.imp_of_mem ?_ ((firsts_order l).filter _)
      intro x y hx hy h
      simp only [List.mem_filter, decide_eq_true_eq] at hx hy
      rw [List.idxOf_cons_ne _ (fun h => hx.2 h.symm), List.idxOf_cons_ne _ (fun h => hy.2 h.symm)]
      omega

theorem firsts_only (l : List Text) : FirstOnly l (firsts l) := ⟨fun x => firsts_mem x l, firsts_order l⟩

theorem groupByFile_spec (us : List CodeUnit) : ByFile us (groupByFile us) := by
  refine ⟨?_, ?_⟩
  · have : (groupByFile us).map (·.1) = firsts (us.map (·.file)) := by simp [groupByFile, Function.comp_def]
    rw [this]
    exact firsts_only _
  · intro g hg
    obtain ⟨f, _, rfl⟩ := List.mem_map.1 hg
    refine ⟨sortBy_perm _, ?_⟩
    refine (sortBy_sorted (le := fun a b : CodeUnit => decide (a.line ≤ b.line)) ?_ ?_ _).imp ?_
    · intro a b; simp only [decide_eq_true_eq]; omega
    · intro a b c; simp only [decide_eq_true_eq]; omega
    · intro a b h; simpa using h

theorem compactText_short (l : Text) : Short l (compactText l) := by
  unfold Short compactText
  split
  · exact .inr ⟨by assumption, rfl⟩
  · refine .inl ⟨by omega, ?_⟩
    rw [List.append_nil, List.take_of_length_le (by omega)]

theorem compactFile_hits {e : Engine} {w : World} {f : TextFlags} {p path content : Text} (hr : w.read path = some content) :
    HitLines (w.display path) (lines content) (Marked e f p (lines content)) (compactFile e w (newMatcher e f p) path) := by
  simp only [compactFile, hr]
  refine ⟨?_, ?_, ?_⟩
  · intro x hx
    obtain ⟨⟨i, l⟩, hil, rfl⟩ := List.mem_map.1 hx
    obtain ⟨h1, h2⟩ := find_mem.1 hil
    exact ⟨i + 1, l, _, rfl, by omega, by simpa using h1, h2, compactText_short l⟩
  · intro n l h1 h2 h3
    refine ⟨compactText l, List.mem_map.2 ⟨(n - 1, l), find_mem.2 ⟨h2, h3⟩, ?_⟩⟩
    rw [show n - 1 + 1 = n by omega]
  · rw [List.pairwise_map]
    refine (find_ascending e _ _).imp ?_
    intro a b hab p n t p' n' t' h h'
    simp only [Out.hitLine.injEq] at h h'
    omega

theorem concat_ok : ∀ {parts : List (Res (List Out))} {out : List Out}, concat parts = .ok out →
    ∃ xs : List (List Out), parts = xs.map .ok ∧ out = xs.flatten
  | [], out, h => by
    simp only [concat, Except.ok.injEq] at h
    exact ⟨[], rfl, by simp [← h]⟩
  | a :: parts, out, h => by
    cases a with
    | error f => simp [concat, Except.bind] at h
    | ok x =>
      simp only [concat, Except.bind] at h
      cases hc : concat parts with
      | error f => rw [hc] at h; simp at h
      | ok y =>
        rw [hc] at h
        simp only [Except.ok.injEq] at h
        obtain ⟨xs, rfl, rfl⟩ := concat_ok hc
        exact ⟨x :: xs, rfl, by simp [← h]⟩

theorem concat_all (xs : List (List Out)) : concat (xs.map .ok) = .ok xs.flatten := by
  induction xs with
  | nil => rfl
  | cons x xs ih => simp [concat, ih, Except.bind]

section
variable {K : Type} [Field K] [LinearOrder K] (e : Engine) (w : World) (o : Options) (s : Scoring K)

/-- The lines printed for a result. -/
def shownOf (u : CodeUnit) : List Out := match showUnit e w o s u with
  | .ok out => out
  | .error _ => []

variable {e w o s}

theorem showFile_ok {g : Text × List CodeUnit} {out : List Out} (h : showFile e w o s g = .ok out) :
    (∀ u ∈ g.2, showUnit e w o s u = .ok (shownOf e w o s u)) ∧
    out = .file (w.display g.1) :: g.2.flatMap (shownOf e w o s) ++ [.blank] := by
  unfold showFile at h
  cases hc : concat (g.2.map (showUnit e w o s)) with
  | error f => rw [hc] at h; simp [Except.bind] at h
  | ok x =>
    rw [hc] at h
    simp only [Except.bind, Except.ok.injEq] at h
    obtain ⟨xs, h1, h2⟩ := concat_ok hc
    have hu : ∀ u ∈ g.2, showUnit e w o s u = .ok (shownOf e w o s u) := by
      intro u hu
      have hm : showUnit e w o s u ∈ xs.map .ok := by rw [← h1]; exact List.mem_map.2 ⟨u, hu, rfl⟩
      obtain ⟨y, _, hy⟩ := List.mem_map.1 hm
      unfold shownOf
      rw [← hy]
    refine ⟨hu, ?_⟩
    have hx : g.2.map (showUnit e w o s) = (g.2.map (shownOf e w o s)).map .ok := by
      rw [List.map_map]
      exact List.map_congr_left hu
    rw [hx, concat_all] at hc
    rw [← h, ← Except.ok.inj hc, List.flatMap_def]

theorem verboseOut_ok {us : List CodeUnit} {out : List Out} (h : verboseOut e w o s us = .ok out) :
    (∀ u ∈ us, showUnit e w o s u = .ok (shownOf e w o s u)) ∧
    out = (groupByFile (us.filter fun u => !u.isText) ++ groupByFile (us.filter fun u => u.isText)).flatMap
      fun g => .file (w.display g.1) :: g.2.flatMap (shownOf e w o s) ++ [.blank] := by
  unfold verboseOut at h
  obtain ⟨xs, h1, h2⟩ := concat_ok h
  have hg : ∀ g ∈ groupByFile (us.filter fun u => !u.isText) ++ groupByFile (us.filter fun u => u.isText),
      showFile e w o s g = .ok (.file (w.display g.1) :: g.2.flatMap (shownOf e w o s) ++ [.blank]) ∧
      ∀ u ∈ g.2, showUnit e w o s u = .ok (shownOf e w o s u) := by
    intro g hg
    have hm : showFile e w o s g ∈ xs.map .ok := by rw [← h1]; exact List.mem_map.2 ⟨g, hg, rfl⟩
    obtain ⟨y, _, hy⟩ := List.mem_map.1 hm
    obtain ⟨h3, h4⟩ := showFile_ok hy.symm
    exact ⟨by rw [← hy, h4], h3⟩
  refine ⟨?_, ?_⟩
  · intro u hu
    have key : ∀ vs : List CodeUnit, u ∈ vs → ∃ g ∈ groupByFile vs, u ∈ g.2 := by
      intro vs hv
      refine ⟨_, List.mem_map.2 ⟨u.file, (firsts_mem _ _).2 (List.mem_map.2 ⟨u, hv, rfl⟩), rfl⟩, ?_⟩
      rw [(sortBy_perm _).mem_iff, List.mem_filter]
      simp [hv]
    cases ht : u.isText with
    | false =>
      obtain ⟨g, h3, h4⟩ := key (us.filter fun u => !u.isText) (List.mem_filter.2 ⟨hu, by simp [ht]⟩)
      exact (hg g (List.mem_append_left _ h3)).2 u h4
    | true =>
      obtain ⟨g, h3, h4⟩ := key (us.filter fun u => u.isText) (List.mem_filter.2 ⟨hu, by simp [ht]⟩)
      exact (hg g (List.mem_append_right _ h3)).2 u h4
  · have hx : ∀ gs : List (Text × List CodeUnit), (∀ g ∈ gs, showFile e w o s g =
        .ok (.file (w.display g.1) :: g.2.flatMap (shownOf e w o s) ++ [.blank])) →
        gs.map (showFile e w o s) = (gs.map fun g => .file (w.display g.1) :: g.2.flatMap (shownOf e w o s) ++ [.blank]).map .ok := by
      intro gs hgs
      rw [List.map_map]
      exact List.map_congr_left hgs
    rw [hx _ (fun g hgm => (hg g hgm).1), concat_all] at h
    rw [← Except.ok.inj h, List.flatMap_def]

end

end NextPlaid.Display
