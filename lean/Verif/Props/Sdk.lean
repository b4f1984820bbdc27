import Verif.Proofs.Sdk

/-! C89: the parser's Python package. -/

namespace NextPlaid.Props
open NextPlaid.Sdk NextPlaid.Scan

/-- C89: of two or more units, the merged unit lists parameters, calls, callers, variables and imports of all of them, each
once and in the order of first appearance by line; it is a document named after the file; its code and its embedding text are those of all units in that order; its
docstring is that of the units that have one, each text once. -/
theorem C89_merged (units : List CodeUnit) (filename : Text) (h : 2 ≤ units.length) :
    (mergeUnits units filename).name = filename ∧ (mergeUnits units filename).unitType = "Document".toList ∧
    ∃ l, InLineOrder units l ∧
      OnceInOrder (l.flatMap (·.parameters)) (mergeUnits units filename).parameters ∧
      OnceInOrder (l.flatMap (·.calls)) (mergeUnits units filename).calls ∧
      OnceInOrder (l.flatMap (·.calledBy)) (mergeUnits units filename).calledBy ∧
      OnceInOrder (l.flatMap (·.variables_)) (mergeUnits units filename).variables_ ∧
      OnceInOrder (l.flatMap (·.imports)) (mergeUnits units filename).imports ∧
      Joined (l.map (·.code)) (mergeUnits units filename).code ∧
      Joined (l.map (·.embeddingText)) (mergeUnits units filename).embeddingText ∧
      (∃ docs, OnceInOrder ((l.filterMap (·.docstring)).filter (· ≠ [])) docs ∧
        ((mergeUnits units filename).docstring = none ↔ docs = []) ∧
        ∀ d ∈ (mergeUnits units filename).docstring, Joined docs d) := by
  obtain ⟨u, v, us, rfl⟩ : ∃ u v us, units = u :: v :: us := by
    rcases units with _ | ⟨u, _ | ⟨v, us⟩⟩
    · simp at h
    · simp at h
    · exact ⟨u, v, us, rfl⟩
  refine ⟨rfl, rfl, sortByLine (u :: v :: us), sortByLine_order _, dedup_once _, dedup_once _, dedup_once _, dedup_once _, dedup_once _,
    join_joined _, join_joined _, dedupOrdered [] (docstrings (sortByLine (u :: v :: us))), ?_, ?_, ?_⟩
  · have : (((sortByLine (u :: v :: us)).filterMap (·.docstring)).filter (· ≠ [])) = docstrings (sortByLine (u :: v :: us)) := by
      unfold docstrings
      induction sortByLine (u :: v :: us) with
      | nil => rfl
      | cons w l ih =>
        rw [List.flatMap_cons, ← ih]
        cases hd : w.docstring with
        | none => simp [hd]
        | some d => cases d <;> simp [hd]
    rw [this]
    exact dedup_once _
  · show (if (docstrings _).isEmpty then none else some _) = none ↔ _
    generalize docstrings (sortByLine (u :: v :: us)) = d
    cases d with
    | nil => simp [dedupOrdered]
    | cons x d => simp [dedupOrdered]
  · intro d hd
    change d ∈ (if (docstrings _).isEmpty then none else some _) at hd
    split at hd
    · cases hd
    · cases hd
      exact join_joined _

/-- C89: its flags and its complexity are those of all units together. -/
theorem C89_merged_totals (units : List CodeUnit) (filename : Text) (h : 1 ≤ units.length) :
    (mergeUnits units filename).complexity = (units.map (·.complexity)).sum ∧
    (mergeUnits units filename).hasLoops = units.any (·.hasLoops) ∧
    (mergeUnits units filename).hasBranches = units.any (·.hasBranches) ∧
    (mergeUnits units filename).hasErrorHandling = units.any (·.hasErrorHandling) := by
  rcases units with _ | ⟨u, _ | ⟨v, us⟩⟩
  · simp at h
  · simp [mergeUnits]
  · have hp := sortByLine_perm (u :: v :: us)
    refine ⟨?_, ?_, ?_, ?_⟩
    · show (sortByLine (u :: v :: us)).foldl _ 0 = _
      rw [foldl_sum, Nat.zero_add]
      exact (hp.map _).sum_nat
    all_goals
      change (sortByLine (u :: v :: us)).foldl _ false = _
      rw [foldl_or, Bool.false_or]
      exact hp.any_eq

/-- C89: the merged unit begins at the first line of any unit. -/
theorem C89_first_line (units : List CodeUnit) (filename : Text) (h : units ≠ []) :
    (∃ u ∈ units, u.line = (mergeUnits units filename).line) ∧ ∀ u ∈ units, (mergeUnits units filename).line ≤ u.line := by
  rcases units with _ | ⟨u, _ | ⟨v, us⟩⟩
  · exact absurd rfl h
  · exact ⟨⟨u, by simp, rfl⟩, by simp [mergeUnits]⟩
  · have hp := sortByLine_perm (u :: v :: us)
    have hs := sortByLine_sorted (u :: v :: us)
    have he : (mergeUnits (u :: v :: us) filename).line = ((sortByLine (u :: v :: us)).headD (emptyUnit filename)).line := rfl
    rw [he]
    cases hl : sortByLine (u :: v :: us) with
    | nil => rw [hl] at hp; exact absurd hp.length_eq (by simp)
    | cons w l =>
      rw [hl] at hp hs
      rw [List.pairwise_cons] at hs
      refine ⟨⟨w, hp.mem_iff.1 List.mem_cons_self, rfl⟩, ?_⟩
      intro x hx
      rcases List.mem_cons.1 (hp.mem_iff.2 hx) with rfl | hx
      · exact Nat.le_refl _
      · exact hs.1 x hx

/-- C89, partial: the merged unit ends where the last unit ends, if a unit that begins later never ends earlier. Missing:
units inside others (`C89_last_line_short`). -/
theorem C89_last_line_partial (units : List CodeUnit) (filename : Text) (h : units ≠ [])
    (hn : ∀ u ∈ units, ∀ v ∈ units, u.line < v.line → u.endLine ≤ v.endLine)
    (hs' : ∀ u ∈ units, ∀ v ∈ units, u.line = v.line → u.endLine = v.endLine) :
    (∃ u ∈ units, u.endLine = (mergeUnits units filename).endLine) ∧ ∀ u ∈ units, u.endLine ≤ (mergeUnits units filename).endLine := by
  rcases units with _ | ⟨u, _ | ⟨v, us⟩⟩
  · exact absurd rfl h
  · exact ⟨⟨u, by simp, rfl⟩, by simp [mergeUnits]⟩
  · have hp := sortByLine_perm (u :: v :: us)
    have hs := sortByLine_sorted (u :: v :: us)
    have he : (mergeUnits (u :: v :: us) filename).endLine = ((sortByLine (u :: v :: us)).getLastD (emptyUnit filename)).endLine := rfl
    rw [he]
    rcases List.eq_nil_or_concat (sortByLine (u :: v :: us)) with hl | ⟨l, w, hl⟩
    · rw [hl] at hp; exact absurd hp.length_eq (by simp)
    · rw [List.concat_eq_append] at hl
      rw [hl] at hp hs ⊢
      rw [List.getLastD_concat]
      have hw : w ∈ u :: v :: us := hp.mem_iff.1 (by simp)
      refine ⟨⟨w, hw, rfl⟩, ?_⟩
      intro x hx
      have hle : x.line ≤ w.line := by
        rcases List.mem_append.1 (hp.mem_iff.2 hx) with hm | hm
        · exact (List.pairwise_append.1 hs).2.2 x hm w (by simp)
        · rw [List.mem_singleton.1 hm]
          exact Nat.le_refl _
      rcases Nat.lt_or_eq_of_le hle with hlt | heq
      · exact hn x hx w hw hlt
      · exact Nat.le_of_eq (hs' x hx w hw heq)

/-- C89: one unit alone is not merged but returned as it is, and no unit at all gives an empty one of its own. -/
theorem C89_small (u : CodeUnit) (filename : Text) : mergeUnits [u] filename = u ∧ (mergeUnits [] filename).code = [] ∧
    (mergeUnits [] filename).name = filename := ⟨rfl, rfl, rfl⟩

/-- C89: merging gives one unit, not merging gives all of them, and the only other outcome is that the language is not known. -/
theorem C89_parse (low : Text → Text) (extract : Text → Text → Language → List CodeUnit) (code filename : Text) :
    (∀ lang, detect low filename = some lang →
      parseCode low extract code filename false = some (extract filename code lang) ∧
      parseCode low extract code filename true = some [mergeUnits (extract filename code lang) filename]) ∧
    (detect low filename = none → ∀ merge, parseCode low extract code filename merge = none) := by
  refine ⟨fun lang h => ?_, fun h merge => ?_⟩
  · unfold parseCode
    rw [h]
    exact ⟨rfl, rfl⟩
  · unfold parseCode
    rw [h]

/-- C89: the name of a language that the package reports is one that it accepts, for that language: parsing with the detected
language is parsing. -/
theorem C89_detected (low : Text → Text) (hlow : LowAscii low) (extract : Text → Text → Language → List CodeUnit)
    (code filename : Text) (merge : Bool) :
    (∀ lang, fromStr low (debugName lang) = some lang) ∧
    ∀ name, detectLanguage low filename = some name →
      parseCodeWithLanguage low extract code filename name merge = parseCode low extract code filename merge := by
  have key : ∀ lang, fromStr low (debugName lang) = some lang := by
    intro lang
    have ha : ∀ lang, ∀ c ∈ debugName lang, c.toNat < 128 := by intro lang; cases lang <;> decide +kernel
    have hb : ∀ lang, byLanguageName ((debugName lang).map Char.toLower) = some lang := by
      intro lang; cases lang <;> decide +kernel
    unfold fromStr
    rw [hlow _ (ha lang), hb lang]
  refine ⟨key, ?_⟩
  intro name h
  unfold detectLanguage at h
  unfold parseCode parseCodeWithLanguage
  cases hd : detect low filename with
  | none => rw [hd] at h; cases h
  | some lang =>
    rw [hd] at h
    cases h
    simp only [key lang]

/-- C89: every language that the package lists is accepted, and no two entries are the same language. -/
theorem C89_listed (low : Text → Text) (hlow : LowAscii low) :
    (∀ n ∈ supportedLanguages, ∃ lang, fromStr low n = some lang) ∧
    ∀ n ∈ supportedLanguages, ∀ m ∈ supportedLanguages, fromStr low n = fromStr low m → n = m := by
  have ha : ∀ n ∈ supportedLanguages, ∀ c ∈ n, c.toNat < 128 := by decide +kernel
  have hl : ∀ n ∈ supportedLanguages, n.map Char.toLower = n := by decide +kernel
  have he : ∀ n ∈ supportedLanguages, fromStr low n = byLanguageName n := by
    intro n hn
    unfold fromStr
    rw [hlow n (ha n hn), hl n hn]
  have h1 : ∀ n ∈ supportedLanguages, (byLanguageName n).isSome := by decide +kernel
  have h2 : ∀ n ∈ supportedLanguages, ∀ m ∈ supportedLanguages, byLanguageName n = byLanguageName m → n = m := by decide +kernel
  refine ⟨fun n hn => ?_, fun n hn m hm h => ?_⟩
  · rw [he n hn]
    exact Option.isSome_iff_exists.1 (h1 n hn)
  · rw [he n hn, he m hm] at h
    exact h2 n hn m hm h

/-- C89 fails: languages that are detected and accepted are missing from the list, among them CSS, QML and PowerShell. -/
theorem C89_not_listed (low : Text → Text) (hlow : LowAscii low) :
    ∀ n ∈ ["css", "qml", "powershell", "text", "asciidoc", "org", "dockerfile", "makefile"].map String.toList,
      (∃ lang, fromStr low n = some lang ∧ ∀ m ∈ supportedLanguages, fromStr low m ≠ some lang) := by
  intro n hn
  have ha : ∀ n ∈ ["css", "qml", "powershell", "text", "asciidoc", "org", "dockerfile", "makefile"].map String.toList,
      (∀ c ∈ n, c.toNat < 128) ∧ n.map Char.toLower = n ∧ (byLanguageName n).isSome ∧
      ∀ m ∈ supportedLanguages, byLanguageName m ≠ byLanguageName n := by decide +kernel
  have hs : ∀ m ∈ supportedLanguages, (∀ c ∈ m, c.toNat < 128) ∧ m.map Char.toLower = m := by decide +kernel
  obtain ⟨h1, h2, h3, h4⟩ := ha n hn
  obtain ⟨lang, hlang⟩ := Option.isSome_iff_exists.1 h3
  refine ⟨lang, by unfold fromStr; rw [hlow n h1, h2, hlang], ?_⟩
  intro m hm
  unfold fromStr
  rw [hlow m (hs m hm).1, (hs m hm).2, ← hlang]
  exact h4 m hm

/-! ### A concrete case -/

namespace ToySdk

/-- A class of ten lines with a method in lines 2 to 4. -/
def cls : CodeUnit := { emptyUnit "A".toList with line := 1, endLine := 10, code := "class".toList, calls := ["f".toList, "g".toList], complexity := 2 }
def method : CodeUnit := { emptyUnit "m".toList with line := 2, endLine := 4, code := "def".toList, calls := ["g".toList, "h".toList], hasLoops := true }

example : (mergeUnits [method, cls] "a.ts".toList).calls = ["f".toList, "g".toList, "h".toList] ∧
    (mergeUnits [method, cls] "a.ts".toList).code = "class\n\ndef".toList ∧
    (mergeUnits [method, cls] "a.ts".toList).complexity = 3 := by decide +kernel

example : LowAscii (fun s => s.map Char.toLower) := fun _ _ => rfl

example : (∀ u ∈ [cls], ∀ v ∈ [cls], u.line < v.line → u.endLine ≤ v.endLine) ∧
    ∀ u ∈ [cls, { method with line := 11, endLine := 12 }], ∀ v ∈ [cls, { method with line := 11, endLine := 12 }],
      u.line = v.line → u.endLine = v.endLine := by decide +kernel

end ToySdk

open ToySdk in
/-- C89 fails: the merged unit may end before units it contains: of a class and a method in it, it ends with the method. -/
theorem C89_last_line_short : ∃ units filename, 2 ≤ units.length ∧ (∀ u ∈ units, u.line ≤ u.endLine) ∧
    ∃ u ∈ units, (mergeUnits units filename).endLine < u.endLine :=
  ⟨[cls, method], "a.ts".toList, by decide, by decide +kernel, cls, by simp, by decide +kernel⟩

end NextPlaid.Props
