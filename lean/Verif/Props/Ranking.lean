import Verif.Proofs.Ranking2
import Verif.Props.Results

/-!
C55: the ranking signals of a search do what they are documented to do: a penalty between 0 and 1 that compounds and is off for queries
about tests, boosts that never lower a score, the coherence boost for one unit of a file, and nothing that depends on a hash order.

One documented effect fails (plurals in `-ies`), and with negative scores the signs turn round; both are shown.
-/

namespace NextPlaid.Props

open NextPlaid.Rank NextPlaid.Spec NextPlaid.Fusion

section
variable {K : Type} [Field K] [LinearOrder K] [IsStrictOrderedRing K] (r : Rounding K) (g : Signals K)

/-- C55: reranking keeps the candidates and their order. -/
theorem C55_units (order : List (Tally K) → List (Tally K)) (query : List Char) (hits : List (Hit K)) :
    (rerank r g order query hits).map (·.unit) = hits.map (·.unit) := rerank_units r g order query hits

/-- C55: reranking does not depend on the order in which a hash map is read. -/
theorem C55_order (o o' : List (Tally K) → List (Tally K)) (ho : ∀ l, (o l).Perm l) (ho' : ∀ l, (o' l).Perm l) (query : List Char) (hits : List (Hit K)) :
    rerank r g o query hits = rerank r g o' query hits := rerank_order r g o o' ho ho' query hits

/-- C55: the penalty is the product of the factors of all the kinds of file that the path is of; backslashes are slashes. -/
theorem C55_penalty_compounds (file : List Char) :
    penalty r g file = (factors g (file.map fun c => if c = '\\' then '/' else c)).foldl (fun p x => r.rnd (p * x)) 1 :=
  penalty_factors r g file

/-- C55: the penalty is between 0 and 1 if its constants are. -/
theorem C55_penalty_range (hr : r.Lawful) (h1 : 0 ≤ g.strong ∧ g.strong ≤ 1) (h2 : 0 ≤ g.moderate ∧ g.moderate ≤ 1) (h3 : 0 ≤ g.mild ∧ g.mild ≤ 1)
    (file : List Char) : 0 ≤ penalty r g file ∧ penalty r g file ≤ 1 := penalty_bounds r g hr h1 h2 h3 file

/-- C55: the penalty lowers a score that is not negative, not below zero, and is off if the query, in lower case, has `test`, `spec`
or `benchmark` in it. -/
theorem C55_penalised (hr : r.Lawful) (h1 : 0 ≤ g.strong ∧ g.strong ≤ 1) (h2 : 0 ≤ g.moderate ∧ g.moderate ≤ 1) (h3 : 0 ≤ g.mild ∧ g.mild ≤ 1)
    (query : List Char) (h : Hit K) (h0 : 0 ≤ h.score) (hs : r.rnd h.score = h.score) :
    (penalised r g query h).unit = h.unit ∧ 0 ≤ (penalised r g query h).score ∧ (penalised r g query h).score ≤ h.score ∧
    ((penalised r g query h).score = if ∃ w ∈ ["test".toList, "spec".toList, "benchmark".toList], w <:+: g.lower query then h.score
      else r.rnd (h.score * penalty r g h.unit.file)) := by
  obtain ⟨h4, h5⟩ := penalty_bounds r g hr h1 h2 h3 h.unit.file
  have hlow : 0 ≤ r.rnd (h.score * penalty r g h.unit.file) := rnd_nonneg r hr (mul_nonneg h0 h4)
  have hup : r.rnd (h.score * penalty r g h.unit.file) ≤ h.score := by
    conv_rhs => rw [← hs]
    exact hr.mono _ _ (mul_le_of_le_one_right h0 h5)
  have hoff : penalise g query = true ↔ ¬ ∃ w ∈ ["test".toList, "spec".toList, "benchmark".toList], w <:+: g.lower query := by
    simp only [penalise, testWords, Bool.not_eq_eq_eq_not, Bool.not_true, List.any_eq_false, containsText_iff, not_exists, not_and]
  unfold penalised
  by_cases hp : penalise g query = true
  · rw [if_pos hp, if_neg (hoff.mp hp)]
    exact ⟨rfl, hlow, hup, rfl⟩
  · rw [if_neg hp, if_pos (by by_contra hn; exact hp (hoff.mpr hn))]
    exact ⟨rfl, h0, le_refl _, rfl⟩

/-- C55: the boosts never lower a score: after the penalty a candidate's score only grows. -/
theorem C55_never_lower (hr : r.Lawful) (h1 : 0 ≤ g.strong ∧ g.strong ≤ 1) (h2 : 0 ≤ g.moderate ∧ g.moderate ≤ 1) (h3 : 0 ≤ g.mild ∧ g.mild ≤ 1)
    (h4 : 0 ≤ g.stemFrac) (h5 : 0 ≤ g.prefixFrac) (h6 : 0 ≤ g.defFrac) (h7 : 0 ≤ g.cohFrac)
    (o : List (Tally K) → List (Tally K)) (ho : ∀ l, (o l).Perm l) (query : List Char) (hits : List (Hit K))
    (hg : ∀ h ∈ hits, 0 ≤ h.score ∧ r.rnd h.score = h.score) (i : Nat) (h : Hit K) (hi : hits[i]? = some h) :
    ∃ h', (rerank r g o query hits)[i]? = some h' ∧ h'.unit = h.unit ∧ (penalised r g query h).score ≤ h'.score := by
  have g1 : Good r (hits.map (penalised r g query)) := by
    intro x hx
    obtain ⟨y, hy, rfl⟩ := List.mem_map.mp hx
    obtain ⟨a, b⟩ := hg y hy
    obtain ⟨_, c, _⟩ := C55_penalised r g hr h1 h2 h3 query y a b
    refine ⟨c, ?_⟩
    unfold penalised
    split
    · exact hr.idem _
    · exact b
  obtain ⟨g2, n2⟩ := stemBoost_up r g hr h4 h5 query g1
  obtain ⟨g3, n3⟩ := defBoost_up r g hr h6 query g2
  have n4 := cohBoost_up r g hr h7 o ho g3
  obtain ⟨h', a, b, c⟩ := notLower_trans (notLower_trans n2 n3) n4 i (penalised r g query h) (by rw [List.getElem?_map, hi]; rfl)
  exact ⟨h', a, b, c⟩

/-- C55: the boost for file names: the full one if a word of the query, other than a stop word, is one of the stem of the file's name
(in some form), the smaller one if only their beginnings agree; none otherwise, and none at all if no score is positive. -/
theorem C55_stem (query : List Char) (hits : List (Hit K)) (top : K) (htop : IsGreatest (hits.map (·.score)) top) (h : Hit K) (i : Nat)
    (hi : hits[i]? = some h) :
    let words := (Text.tokenizeIdentifiers query).filter fun t => !g.stopwords.contains t
    let stem := Text.tokenizeIdentifiers (g.lower (fileStem h.unit.file))
    (top ≤ 0 → (stemBoost r g query hits)[i]? = some h) ∧
    (0 < top → (∃ q ∈ words, ∃ t ∈ stem, SameWord g q t) → (stemBoost r g query hits)[i]? = some ⟨h.unit, r.rnd (h.score + r.rnd (top * g.stemFrac))⟩) ∧
    (0 < top → (¬ ∃ q ∈ words, ∃ t ∈ stem, SameWord g q t) → (∃ q ∈ words, ∃ t ∈ stem, SameBeginning g q t) →
      (stemBoost r g query hits)[i]? = some ⟨h.unit, r.rnd (h.score + r.rnd (top * g.prefixFrac))⟩) ∧
    (0 < top → (¬ ∃ q ∈ words, ∃ t ∈ stem, SameWord g q t) → (¬ ∃ q ∈ words, ∃ t ∈ stem, SameBeginning g q t) →
      (stemBoost r g query hits)[i]? = some h) := by
  intro words stem
  have hne : hits ≠ [] := by rintro rfl; cases hi
  have hmax : maxScore hits = top := by
    obtain ⟨a, b⟩ := maxScore_spec hits hne
    exact le_antisymm (htop.2 _ a) (b _ htop.1)
  have hm : ((stemQuery g query).any fun q => (stemTokens g h.unit.file).any fun t => sameToken g q t) = true ↔ ∃ q ∈ words, ∃ t ∈ stem, SameWord g q t := by
    simp only [List.any_eq_true, sameToken_iff]; rfl
  have hb : ((stemQuery g query).any fun q => (stemTokens g h.unit.file).any fun t => prefixToken g q t) = true ↔ ∃ q ∈ words, ∃ t ∈ stem, SameBeginning g q t := by
    simp only [List.any_eq_true, prefixToken_iff]; rfl
  have hgo : 0 < top → (stemBoost r g query hits)[i]? = some (stemBoosted r g query top h) := by
    intro hp
    unfold stemBoost
    rw [hmax]
    by_cases hw : stemQuery g query = []
    · rw [if_pos (.inr hw), hi]
      have : stemBoosted r g query top h = h := by
        simp only [stemBoosted, hw, List.any_nil, Bool.false_eq_true, if_false]
      rw [this]
    · rw [if_neg (by rw [not_or, not_le]; exact ⟨hp, hw⟩), List.getElem?_map, hi]; rfl
  refine ⟨?_, ?_, ?_, ?_⟩
  · intro hp
    unfold stemBoost
    rw [hmax, if_pos (.inl hp), hi]
  · intro hp h1
    rw [hgo hp]
    simp only [stemBoosted, if_pos (hm.mpr h1)]
  · intro hp h1 h2
    rw [hgo hp]
    simp only [stemBoosted, if_neg (fun x => h1 (hm.mp x)), if_pos (hb.mpr h2)]
  · intro hp h1 h2
    rw [hgo hp]
    simp only [stemBoosted, if_neg (fun x => h1 (hm.mp x)), if_neg (fun x => h2 (hb.mp x))]

/-- C55: the stem is that of the name of the file. -/
theorem C55_stem_of_name (path : List Char) : ∃ name, IsFileName path name ∧ (name ≠ "..".toList → IsStem name (fileStem path)) :=
  ⟨fileName path, fileName_is path, fun h => fileStem_is path h⟩

/-- C55: the boost for definitions: a function, method, class or constant that has a word of the query in its name gets it. -/
theorem C55_definition (query : List Char) (hits : List (Hit K)) (top : K) (htop : IsGreatest (hits.map (·.score)) top) (h : Hit K) (i : Nat)
    (hi : hits[i]? = some h) :
    let named := h.unit.isDef = true ∧ ∃ t ∈ Text.tokenizeIdentifiers (g.lower h.unit.name), t ∈ Text.tokenizeIdentifiers query
    (0 < top ∧ named → (defBoost r g query hits)[i]? = some ⟨h.unit, r.rnd (h.score + r.rnd (top * g.defFrac))⟩) ∧
    (¬ (0 < top ∧ named) → (defBoost r g query hits)[i]? = some h) := by
  intro named
  have hne : hits ≠ [] := by rintro rfl; cases hi
  have hmax : maxScore hits = top := by
    obtain ⟨a, b⟩ := maxScore_spec hits hne
    exact le_antisymm (htop.2 _ a) (b _ htop.1)
  have hd : defines g query h.unit = true ↔ named := by
    simp only [defines, Bool.and_eq_true, List.any_eq_true, List.contains_iff_mem, named]
  unfold defBoost
  rw [hmax]
  by_cases hp : top ≤ 0
  · rw [if_pos hp, hi]
    exact ⟨fun x => absurd x.1 (not_lt.mpr hp), fun _ => rfl⟩
  · rw [if_neg hp, List.getElem?_map, hi]
    simp only [Option.map_some]
    refine ⟨fun x => by rw [if_pos (hd.mpr x.2)], fun x => ?_⟩
    rw [if_neg]
    intro hd'
    exact x ⟨not_le.mp hp, hd.mp hd'⟩

/-- C55: coherence: the first best unit of each file is raised by the share that the file has of the greatest total, and no other unit is. -/
theorem C55_coherence (o : List (Tally K) → List (Tally K)) (ho : ∀ l, (o l).Perm l) (hits : List (Hit K)) (top total : K)
    (htop : IsGreatest (hits.map (·.score)) top) (htotal : IsGreatest (hits.map fun h => fileTotal r hits h.unit.file) total)
    (i : Nat) (h : Hit K) (hi : hits[i]? = some h) :
    (0 < top ∧ 0 < total ∧ FirstBest hits i h → (cohBoost r g o hits)[i]? =
      some ⟨h.unit, r.rnd (h.score + r.rnd (r.rnd (r.rnd (top * g.cohFrac) * fileTotal r hits h.unit.file) / total))⟩) ∧
    (¬ (0 < top ∧ 0 < total ∧ FirstBest hits i h) → (cohBoost r g o hits)[i]? = some h) := by
  have hne : hits ≠ [] := by rintro rfl; cases hi
  have hmax : maxScore hits = top := by
    obtain ⟨a, b⟩ := maxScore_spec hits hne
    exact le_antisymm (htop.2 _ a) (b _ htop.1)
  have hsum : maxSum (tallies r hits) = total := by
    obtain ⟨a, b⟩ := maxSum_total r hits hne
    exact le_antisymm (htotal.2 _ a) (b _ htotal.1)
  by_cases hc : maxScore hits ≤ 0 ∨ maxSum (tallies r hits) ≤ 0
  · have : cohBoost r g o hits = hits := by unfold cohBoost; rw [if_pos hc]
    rw [this, hi]
    rw [hmax, hsum] at hc
    refine ⟨?_, fun _ => rfl⟩
    rintro ⟨h1, h2, _⟩
    rcases hc with hc | hc
    · exact absurd h1 (not_lt.mpr hc)
    · exact absurd h2 (not_lt.mpr hc)
  · rw [not_or, not_le, not_le] at hc
    obtain ⟨a, b⟩ := cohBoost_spec r g o ho hits i h hi hc.1 hc.2
    rw [hmax, hsum] at a hc
    refine ⟨fun x => a x.2.2, fun x => b fun hf => x ⟨hc.1, hc.2, hf⟩⟩

end

/-! ### Examples, and where the claims fail -/

/-- The documented constants, with simple conditions on paths. -/
@[reducible] def usualSignals : Signals ℚ :=
  ⟨3/10, 1/2, 7/10, 1/4, 1/8, 1/2, 1/5, fun p => containsText "test".toList p, fun p => containsText "compat/".toList p, fun _ => false, fun q => q,
    ["the".toList], true⟩

example : penalty (exact ℚ) usualSignals "compat\\foo_test.py".toList = 9/100 := by decide +kernel

example : rerank (exact ℚ) usualSignals (fun l => l) "the parser".toList
    [⟨⟨0, "src/parsers.rs".toList, 1, 2, "run".toList, true, false⟩, 10⟩, ⟨⟨1, "a.rs".toList, 1, 2, "parser".toList, true, false⟩, 8⟩,
     ⟨⟨2, "a.rs".toList, 5, 6, "x".toList, false, false⟩, 2⟩] =
    [⟨⟨0, "src/parsers.rs".toList, 1, 2, "run".toList, true, false⟩, 25/2 + 57/20 * (25/2) / (65/4)⟩,
     ⟨⟨1, "a.rs".toList, 1, 2, "parser".toList, true, false⟩, 57/4 + 57/20⟩,
     ⟨⟨2, "a.rs".toList, 5, 6, "x".toList, false, false⟩, 2⟩] := by decide +kernel

/-- The comment at /repo/colgrep/src/ranking.rs:308 says that `dependencies` matches `dependency`; it does not, not even as a prefix. -/
theorem C55_plural_ies (g : Signals ℚ) : ¬ SameWord g "dependencies".toList "dependency".toList ∧ ¬ SameBeginning g "dependencies".toList "dependency".toList := by
  rw [← sameToken_iff, ← prefixToken_iff]
  cases hp : g.pluralSnake <;> simp only [sameToken, prefixToken, variants, hp] <;> decide

/-- With negative scores the penalty raises a score. -/
theorem C55_negative_raised :
    (penalised (exact ℚ) usualSignals "run".toList ⟨⟨0, "a_test.rs".toList, 1, 2, [], false, false⟩, -1⟩).score = -3/10 := by decide +kernel

/-- With negative scores coherence lowers a score. -/
theorem C55_negative_lowered :
    (cohBoost (exact ℚ) usualSignals (fun l => l) [⟨⟨0, ['a'], 1, 2, [], false, false⟩, 10⟩, ⟨⟨1, ['b'], 1, 2, [], false, false⟩, -5⟩]).map (·.score) =
      [12, -6] := by decide +kernel

end NextPlaid.Props
