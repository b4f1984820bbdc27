import Verif.Model.Plugin

/-! Proofs about `Verif.Model.Plugin`. -/

namespace NextPlaid.Proofs.Plugin
open NextPlaid.Plugin NextPlaid.Spec.Plugin

theorem quoted_plain {c : Char} {rest : List Char} (h : ¬ Special c) : quoted (c :: rest) = (quoted rest).push c := by
  simp only [Special, not_or] at h
  simp [quoted, scan, h]

theorem quoted_quote (rest : List Char) : quoted ('"' :: rest) = .closed [] rest := by simp [quoted, scan]

/-- Text without special characters is read as it is. -/
theorem quoted_prefix : ∀ (p rest : List Char), (∀ c ∈ p, ¬ Special c) →
    quoted (p ++ rest) = p.foldr Word.push (quoted rest)
  | [], _, _ => rfl
  | c :: p, rest, h => by
    rw [List.cons_append, quoted_plain (h c (by simp)), quoted_prefix p rest fun d hd => h d (by simp [hd])]
    rfl

theorem push_closed (p t r : List Char) : p.foldr Word.push (.closed t r) = .closed (p ++ t) r := by
  induction p with
  | nil => rfl
  | cons c p ih => simp [ih, Word.push]

theorem push_expands (p : List Char) : p.foldr Word.push .expands = .expands := by
  induction p with
  | nil => rfl
  | cons c p ih => simp [ih, Word.push]

theorem push_unclosed (p : List Char) : p.foldr Word.push .unclosed = .unclosed := by
  induction p with
  | nil => rfl
  | cons c p ih => simp [ih, Word.push]

theorem push_eq {c : Char} {w : Word} {t r : List Char} (h : w.push c = .closed t r) :
    ∃ t', t = c :: t' ∧ w = .closed t' r := by
  cases w with
  | closed a b => cases h; exact ⟨a, rfl, rfl⟩
  | expands => cases h
  | unclosed => cases h

/-- The text read and what is left are no longer than what there was, but for the closing quote. -/
theorem read_length : ∀ (l : List Char) (m : Mode) (t r : List Char), scan m l = .closed t r →
    t.length + r.length + 1 ≤ l.length + (match m with | .plain => 0 | _ => 1)
  | [], m, t, r, h => by simp [scan] at h
  | c :: rest, .plain, t, r, h => by
    simp only [scan] at h
    split at h
    · cases h; simp
    · split at h
      · cases h
      · split at h
        · have := read_length rest .dollar t r h; simp at this ⊢; omega
        · split at h
          · have := read_length rest .backslash t r h; simp at this ⊢; omega
          · obtain ⟨t', rfl, h'⟩ := push_eq h
            have := read_length rest .plain t' r h'
            simp at this ⊢; omega
  | c :: rest, .dollar, t, r, h => by
    simp only [scan] at h
    split at h
    · cases h
    · split at h
      · cases h; simp; omega
      · split at h
        · cases h
        · split at h
          · obtain ⟨t', rfl, h'⟩ := push_eq h
            have := read_length rest .backslash t' r h'
            simp at this ⊢; omega
          · obtain ⟨t', rfl, h'⟩ := push_eq h
            obtain ⟨t'', rfl, h''⟩ := push_eq h'
            have := read_length rest .plain t'' r h''
            simp at this ⊢; omega
  | c :: rest, .backslash, t, r, h => by
    simp only [scan] at h
    split at h
    · have := read_length rest .plain t r h; simp at this ⊢; omega
    · split at h
      · obtain ⟨t', rfl, h'⟩ := push_eq h
        have := read_length rest .plain t' r h'
        simp at this ⊢; omega
      · obtain ⟨t', rfl, h'⟩ := push_eq h
        obtain ⟨t'', rfl, h''⟩ := push_eq h'
        have := read_length rest .plain t'' r h''
        simp at this ⊢; omega

theorem quoted_length (after u v : List Char) (h : quoted (after ++ ['"']) = .closed u v) :
    u.length + v.length ≤ after.length := by
  have := read_length _ .plain u v h
  simp at this
  omega

theorem quoted_dollar {c : Char} (rest : List Char) (h : opensExpansion c = true) : quoted ('$' :: c :: rest) = .expands := by
  simp [quoted, scan, h]

theorem quoted_backtick (rest : List Char) : quoted ('`' :: rest) = .expands := by simp [quoted, scan]

theorem smallLoop_eq : ∀ (entries : List (Option Bool)) (n : Nat), n ≤ smallLimit →
    (smallLoop n entries = true ↔ 0 < n + filesIn entries ∧ n + filesIn entries ≤ smallLimit)
  | [], n, h => by simp [smallLoop, filesIn]; omega
  | none :: rest, n, h => by
    have := smallLoop_eq rest n h
    simpa [smallLoop, filesIn] using this
  | some false :: rest, n, h => by
    have := smallLoop_eq rest n h
    simpa [smallLoop, filesIn] using this
  | some true :: rest, n, h => by
    simp only [smallLoop]
    have hc : filesIn (some true :: rest) = filesIn rest + 1 := by simp [filesIn]
    rw [hc]
    split
    · simp; omega
    · rw [smallLoop_eq rest (n + 1) (by omega)]
      omega

end NextPlaid.Proofs.Plugin
