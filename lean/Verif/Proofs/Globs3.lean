import Verif.Proofs.Globs2

namespace NextPlaid.Globs

open NextPlaid.Regex NextPlaid.Spec

/-- `SelectsDir` with another meaning of the parts. -/
def selD (D : List Tok → List Char → Prop) (pattern dir : List Char) : Prop := match pattern with
  | '/' :: p => D (tokens p) dir
  | '*' :: '/' :: p => D (tokens ('*' :: '/' :: p)) dir
  | p => ∃ rest, EndOf rest dir ∧ D (tokens p) rest

theorem prefix_cases (p : List Char) :
    (∃ ps, p = '*' :: '*' :: '/' :: ps) ∨ (∃ ps, p = '*' :: '/' :: ps) ∨ (∃ ps, p = '/' :: ps) ∨
      (anyDir.isPrefixOf p = false ∧ ['*', '/'].isPrefixOf p = false ∧ ['/'].isPrefixOf p = false) := by
  by_cases h1 : anyDir.isPrefixOf p
  · obtain ⟨t, ht⟩ := List.isPrefixOf_iff_prefix.mp h1
    exact .inl ⟨t, by rw [← ht]; rfl⟩
  by_cases h2 : ['*', '/'].isPrefixOf p
  · obtain ⟨t, ht⟩ := List.isPrefixOf_iff_prefix.mp h2
    exact .inr (.inl ⟨t, by rw [← ht]; rfl⟩)
  by_cases h3 : ['/'].isPrefixOf p
  · obtain ⟨t, ht⟩ := List.isPrefixOf_iff_prefix.mp h3
    exact .inr (.inr (.inl ⟨t, by rw [← ht]; rfl⟩))
  exact .inr (.inr (.inr ⟨Bool.eq_false_iff.mpr h1, Bool.eq_false_iff.mpr h2, Bool.eq_false_iff.mpr h3⟩))

theorem tokens_literal (p : List Char) (h1 : '*' ∉ p) (h2 : '?' ∉ p) : tokens p = p.map .lit := by
  fun_induction tokens p <;> simp_all

theorem map_literal (p : List Char) (h1 : '*' ∉ p) (h2 : '?' ∉ p) : (tokens p).map tokRx = p.map .chr := by
  rw [tokens_literal p h1 h2, List.map_map]; rfl

theorem selD_other (D : List Tok → List Char → Prop) (p dir : List Char) (h2 : ['*', '/'].isPrefixOf p = false) (h3 : ['/'].isPrefixOf p = false) :
    selD D p dir ↔ ∃ rest, EndOf rest dir ∧ D (tokens p) rest := by
  unfold selD
  split
  · simp at h3
  · simp at h2
  · rfl

theorem selectsDir_other (p dir : List Char) (h2 : ['*', '/'].isPrefixOf p = false) (h3 : ['/'].isPrefixOf p = false) :
    SelectsDir p dir ↔ ∃ rest, EndOf rest dir ∧ Describes (tokens p) rest := by
  unfold SelectsDir
  split
  · simp at h3
  · simp at h2
  · rfl

theorem selD_cases (p : List Char) :
    (∃ ps, p = '*' :: '/' :: ps) ∨ (∃ ps, p = '/' :: ps) ∨ (['*', '/'].isPrefixOf p = false ∧ ['/'].isPrefixOf p = false) := by
  rcases prefix_cases p with ⟨ps, rfl⟩ | h | h | ⟨_, h⟩
  · exact .inr (.inr ⟨rfl, rfl⟩)
  · exact .inl h
  · exact .inr (.inl h)
  · exact .inr (.inr h)

theorem selectsDir_iff (p dir : List Char) : SelectsDir p dir ↔ selD Describes p dir := by
  rcases selD_cases p with ⟨ps, rfl⟩ | ⟨ps, rfl⟩ | ⟨h2, h3⟩
  · exact Iff.rfl
  · exact Iff.rfl
  · rw [selectsDir_other p dir h2 h3, selD_other _ p dir h2 h3]

theorem endOf_trans {a b c : List Char} (h1 : EndOf a b) (h2 : EndOf b c) : EndOf a c := by
  rcases h2 with rfl | ⟨d, rfl⟩
  · exact h1
  · rcases h1 with rfl | ⟨e, rfl⟩
    · exact .inr ⟨d, rfl⟩
    · exact .inr ⟨d ++ '/' :: e, by simp⟩

/-- `**/` at the start adds nothing. -/
theorem endOf_dirs (ts : List Tok) (dir : List Char) (hn : '\n' ∉ dir) :
    (∃ rest, EndOf rest dir ∧ Denotes (.dirs :: ts) rest) ↔ ∃ rest, EndOf rest dir ∧ Denotes ts rest := by
  constructor
  · rintro ⟨rest, h1, h2 | ⟨u, s', rfl, _, h2⟩⟩
    · exact ⟨rest, h1, h2⟩
    · exact ⟨s', endOf_trans (.inr ⟨u, rfl⟩) h1, h2⟩
  · rintro ⟨rest, h1, h2⟩; exact ⟨rest, h1, .inl h2⟩

/-- The pieces of the expression of a directory pattern. -/
theorem dir_found (p : List Char) (hlit : isGlob p = false → ['/'].isPrefixOf p = false) :
    ∃ rs, Stands (dirToRegex p) rs ∧ ∀ path, '\n' ∉ path →
      (Found {} (pieces rs) path ↔ ∃ dir r, path = dir ++ '/' :: r ∧ selD Denotes p dir) := by
  have hf : (({} : Flags).fold) = id := rfl
  have hm : (({} : Flags).multi) = false := rfl
  by_cases hg : isGlob p
  · simp only [dirToRegex, hg, if_true]
    rcases prefix_cases p with ⟨ps, rfl⟩ | ⟨ps, rfl⟩ | ⟨ps, rfl⟩ | ⟨h1, h2, h3⟩
    · refine ⟨[anywhereRx] ++ ((tokens ps).map tokRx ++ [.chr '/']), ?_, ?_⟩
      · rw [List.append_assoc]
        exact stands_anywhere.append ((stands_body ps).append stands_slash)
      · intro path hn
        simp only [List.cons_append, List.nil_append]
        rw [found_dir hf (isHead_anywhere hf hm) _ _ hn]
        constructor
        · rintro ⟨dir, r, rfl, h⟩
          exact ⟨dir, r, rfl, (endOf_dirs (tokens ps) dir (fun h => hn (by simp [h]))).mpr h⟩
        · rintro ⟨dir, r, rfl, h⟩
          exact ⟨dir, r, rfl, (endOf_dirs (tokens ps) dir (fun h => hn (by simp [h]))).mp h⟩
    · have ht : tokens ('*' :: '/' :: ps) = .run :: .lit '/' :: tokens ps := by
        rw [tokens, tokens] <;> simp
      refine ⟨.bol :: ((tokens ('*' :: '/' :: ps)).map tokRx ++ [.chr '/']), ?_, ?_⟩
      · rw [List.append_assoc, ht]
        exact stands_level.append ((stands_body ps).append stands_slash)
      · intro path hn
        rw [found_root hf hm]
        exact Iff.rfl
    · refine ⟨[.bol] ++ ((tokens ps).map tokRx ++ [.chr '/']), ?_, ?_⟩
      · rw [List.append_assoc]
        exact stands_bol.append ((stands_body ps).append stands_slash)
      · intro path hn
        simp only [List.cons_append, List.nil_append]
        rw [found_root hf hm]
        exact Iff.rfl
    · refine ⟨[boundaryRx] ++ ((tokens p).map tokRx ++ [.chr '/']), ?_, ?_⟩
      · have : dirHead p = (['(', '^', '|', '/', ')'], p) := by simp [dirHead, h1, h2, h3]
        rw [this, List.append_assoc]
        exact stands_boundary.append ((stands_body p).append stands_slash)
      · intro path hn
        simp only [List.cons_append, List.nil_append]
        rw [found_dir hf (isHead_boundary hf hm) _ _ hn]
        simp only [selD_other Denotes p _ h2 h3]
  · have hg' : isGlob p = false := by simpa using hg
    simp only [isGlob, Bool.or_eq_false_iff, List.contains_eq_mem, decide_eq_false_iff_not] at hg'
    obtain ⟨⟨hs, hq⟩, _⟩ := hg'
    have h3 := hlit (by simpa using hg)
    have h2 : ['*', '/'].isPrefixOf p = false := by
      cases hp : ['*', '/'].isPrefixOf p with
      | false => rfl
      | true => obtain ⟨t, ht⟩ := List.isPrefixOf_iff_prefix.mp hp; exact absurd (by rw [← ht]; simp) hs
    refine ⟨[boundaryRx] ++ ((tokens p).map tokRx ++ [.chr '/']), ?_, ?_⟩
    · simp only [dirToRegex, hg, List.append_assoc, map_literal p hs hq]
      exact stands_boundary.append ((stands_escape p).append stands_slash)
    · intro path hn
      simp only [List.cons_append, List.nil_append]
      rw [found_dir hf (isHead_boundary hf hm) _ _ hn]
      simp only [selD_other Denotes p _ h2 h3]

theorem selD_mono {D D' : List Tok → List Char → Prop} {p dir : List Char} (h : ∀ ts s, EndOf s dir → D ts s → D' ts s)
    (hs : selD D p dir) : selD D' p dir := by
  rcases selD_cases p with ⟨ps, rfl⟩ | ⟨ps, rfl⟩ | ⟨h2, h3⟩
  · exact h _ _ (.inl rfl) hs
  · exact h _ _ (.inl rfl) hs
  · rw [selD_other _ p dir h2 h3] at hs ⊢
    obtain ⟨rest, h1, h2⟩ := hs; exact ⟨rest, h1, h _ _ h1 h2⟩

theorem selD_one {p dir : List Char} (hq : '?' ∉ p) (hs : selD Denotes p dir) : selD Describes p dir := by
  have key : ∀ p', '?' ∉ p' → ∀ s, Denotes (tokens p') s → Describes (tokens p') s :=
    fun p' h s hd => describes_of_denotes _ _ (tokens_one p' h) hd
  rcases selD_cases p with ⟨ps, rfl⟩ | ⟨ps, rfl⟩ | ⟨h2, h3⟩
  · exact key _ hq _ hs
  · exact key _ (fun h => hq (by simp [h])) _ hs
  · rw [selD_other _ p dir h2 h3] at hs ⊢
    obtain ⟨rest, h1, h2⟩ := hs; exact ⟨rest, h1, key _ hq _ h2⟩

theorem endOf_newline {s path : List Char} (h : EndOf s path) (hn : '\n' ∉ path) : '\n' ∉ s := by
  rcases h with rfl | ⟨d, rfl⟩
  · exact hn
  · exact fun h => hn (by simp [h])

/-- What an expression leaves of the rows. -/
theorem notMatching_kept (rows : List Row) (ps : List (List Char)) (g : List Char → List Char) (sel : List Char → List Char → Prop) (hne : ps ≠ [])
    (h : ∀ p ∈ ps, ∃ rs, Stands (g p) rs ∧ ∀ row ∈ rows, (Found {} (pieces rs) row.file ↔ sel p row.file)) :
    ∃ kept : List Row, notMatching rows (joinBar (ps.map g)) = kept.map (·.id) ∧ kept.Sublist rows ∧
      ∀ row ∈ rows, (row ∈ kept ↔ ∀ p ∈ ps, ¬ sel p row.file) := by
  classical
  obtain ⟨ts, h1, h2, h3⟩ : ∃ ts : List (List Char × List Rx), ts.map (·.1) = ps.map g ∧ (∀ t ∈ ts, Stands t.1 t.2) ∧
      ∀ row ∈ rows, ((∃ t ∈ ts, Found {} (pieces t.2) row.file) ↔ ∃ p ∈ ps, sel p row.file) := by
    clear hne
    induction ps with
    | nil => exact ⟨[], rfl, by simp, by simp⟩
    | cons p ps ih =>
      obtain ⟨rs, ha, hb⟩ := h p (by simp)
      obtain ⟨ts, h1, h2, h3⟩ := ih (fun p hp => h p (by simp [hp]))
      refine ⟨(g p, rs) :: ts, by simp [h1], ?_, ?_⟩
      · intro t ht
        rcases List.mem_cons.mp ht with rfl | ht
        · exact ha
        · exact h2 t ht
      · intro row hr
        simp only [List.mem_cons, exists_eq_or_imp, hb row hr, h3 row hr]
  obtain ⟨r, h4, h5⟩ := parse_join {} ts (by intro h; rw [h] at h1; exact hne (by simpa using h1.symm)) h2
  rw [h1] at h4
  refine ⟨rows.filter fun row => !isMatch {} r row.file, by simp [notMatching, h4], List.filter_sublist, ?_⟩
  intro row hr
  simp only [List.mem_filter, hr, true_and, Bool.not_eq_true', Bool.eq_false_iff, ne_eq, h5, h3 row hr]
  push Not
  rfl

end NextPlaid.Globs
