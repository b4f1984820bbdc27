import Verif.Spec.Units
import Mathlib.Tactic.ByContra
import Mathlib.Tactic.Push

/-! Blank lines, attributes above a node, and the raw units between declarations. -/

namespace NextPlaid.Units

open NextPlaid.Spec

theorem dropWhile_nil_iff (p : Char → Bool) (s : Text) : s.dropWhile p = [] ↔ ∀ c ∈ s, p c = true := by
  induction s with
  | nil => simp
  | cons c cs ih =>
    by_cases h : p c
    · simp [List.dropWhile, h, ih]
    · simp [List.dropWhile, h]

theorem blank_iff (s : Text) : blank s = true ↔ BlankLine s := by
  unfold blank BlankLine trim
  rw [List.isEmpty_iff, List.reverse_eq_nil_iff, dropWhile_nil_iff]
  constructor
  · intro h
    rw [← dropWhile_nil_iff]
    by_contra hne
    have hd := List.head_dropWhile_not isWs hne
    have := h _ (List.mem_reverse.2 (List.head_mem hne))
    rw [this] at hd; simp at hd
  · intro h c hc
    exact h c ((List.dropWhile_sublist _).subset (List.mem_reverse.1 hc))

theorem blank_false_iff (s : Text) : blank s = false ↔ ¬ BlankLine s := by
  rw [← blank_iff]; simp

theorem joinNl_eq : ∀ ls : List Text, joinNl ls = List.intercalate ['\n'] ls
  | [] => rfl
  | [l] => by simp [joinNl]
  | l :: m :: ls => by
    rw [joinNl, joinNl_eq (m :: ls)]
    simp [List.intercalate, List.intersperse]

theorem hasLine_join : ∀ (ls : List Text) (l : Text), l ∈ ls → HasLine (joinNl ls) l
  | [], l, h => by cases h
  | [a], l, h => by
    obtain rfl : l = a := by simpa using h
    exact ⟨[], [], by simp [joinNl], .inl rfl, .inl rfl⟩
  | a :: b :: ls, l, h => by
    rcases List.mem_cons.1 h with rfl | h
    · exact ⟨[], '\n' :: joinNl (b :: ls), by simp [joinNl], .inl rfl, .inr rfl⟩
    · obtain ⟨pre, post, he, hp, hq⟩ := hasLine_join (b :: ls) l h
      refine ⟨a ++ '\n' :: pre, post, by simp [joinNl, he], .inr ?_, hq⟩
      rcases hp with rfl | hp
      · simp
      · rw [List.getLast?_append]
        simp [List.getLast?_cons, hp]

theorem codeIs_hasLine {file : List Text} {u : CodeUnit} (h : CodeIs file u) {n : Nat} {l : Text}
    (hn : Covers u n) (hl : file[n - 1]? = some l) : HasLine u.code l := by
  obtain ⟨h1, h2, h3⟩ := h
  obtain ⟨h4, h5⟩ := hn
  rw [h3, ← joinNl_eq]
  apply hasLine_join
  rw [List.mem_iff_getElem?]
  refine ⟨n - u.line, ?_⟩
  rw [List.getElem?_take, List.getElem?_drop, if_pos (by omega), show u.line - 1 + (n - u.line) = n - 1 by omega, hl]

/-! ### Attributes above a node -/

theorem walkBack_spec (lang : Lang) (ls : List Text) (row : Nat) :
    ∀ (i start : Nat), i ≤ start → start ≤ row →
      (∀ r, start ≤ r → r < row → BlankLine (ls[r]?.getD []) ∨ isAttribute lang (trim (ls[r]?.getD [])) = true) →
      (start < row → ¬ BlankLine (ls[start]?.getD [])) →
      (∀ r, i ≤ r → r < start → BlankLine (ls[r]?.getD [])) →
      StartsAt lang ls row (walkBack lang ls i start)
  | 0, start, hi, hs, h1, h2, h3 => by
    rw [walkBack]
    refine ⟨hs, h1, h2, fun r hr _ hb => absurd (h3 r (by omega) hr) hb⟩
  | i + 1, start, hi, hs, h1, h2, h3 => by
    rw [walkBack]
    split
    · rename_i hb
      refine walkBack_spec lang ls row i start (by omega) hs h1 h2 ?_
      intro r hr hr'
      rcases Nat.lt_or_ge i r with h | h
      · exact h3 r h hr'
      · obtain rfl : r = i := by omega
        exact (blank_iff _).1 hb
    · rename_i hb
      split
      · rename_i ha
        refine walkBack_spec lang ls row i i le_rfl (by omega) ?_ ?_ ?_
        · intro r hr hr'
          rcases Nat.lt_or_ge r start with h | h
          · rcases Nat.lt_or_ge i r with h' | h'
            · exact .inl (h3 r h' h)
            · obtain rfl : r = i := by omega
              exact .inr ha
          · exact h1 r h hr'
        · intro _
          rw [← blank_iff]; exact hb
        · intro r hr hr'; omega
      · rename_i ha
        refine ⟨hs, h1, h2, ?_⟩
        intro r hr hall hnb
        rcases Nat.lt_trichotomy r i with h | h | h
        · exact absurd ((blank_iff _).2 (hall i h (by omega))) hb
        · subst h; simpa using ha
        · exact absurd (h3 r (by omega) hr) hnb

theorem findStart_spec (lang : Lang) (ls : List Text) (row : Nat) : StartsAt lang ls row (findStart lang ls row) := by
  apply walkBack_spec lang ls row row row le_rfl le_rfl
  · intro r h1 h2; omega
  · intro h; omega
  · intro r h1 h2; omega

/-! ### Raw units -/

/-- What a raw unit is. -/
def RawOk (all : List Text) (cov : Nat → Bool) (u : CodeUnit) : Prop :=
  u.utype = .rawCode ∧ u.calledBy = [] ∧ CodeIs all u ∧ u.endLine ≤ all.length ∧
  (∃ l, TextAt all u.line l) ∧ (∃ l, TextAt all u.endLine l) ∧ ∀ n, u.line ≤ n → n ≤ u.endLine → cov n = false

theorem rawUnit_ok {all : List Text} {cov : Nat → Bool} {s e : Nat} (hse : s ≤ e) (he : e ≤ all.length)
    (hs : ∃ l, TextAt all s l) (het : ∃ l, TextAt all e l) (hc : ∀ n, s ≤ n → n ≤ e → cov n = false) :
    ∃ u, rawUnit all s e = some u ∧ u.line = s ∧ u.endLine = e ∧ RawOk all cov u := by
  obtain ⟨l, h1, h2, h3⟩ := hs
  have hcont : (if s - 1 ≤ e ∧ e ≤ all.length then (all.drop (s - 1)).take (e - (s - 1)) else []) =
      (all.drop (s - 1)).take (e - (s - 1)) := if_pos ⟨by omega, he⟩
  have hnb : ((all.drop (s - 1)).take (e - (s - 1))).all blank = false := by
    rw [List.all_eq_false]
    refine ⟨l, ?_, by rw [blank_iff]; exact h3⟩
    rw [List.mem_iff_getElem?]
    refine ⟨0, ?_⟩
    rw [List.getElem?_take, if_pos (by omega), List.getElem?_drop]
    simpa using h2
  refine ⟨_, by unfold rawUnit; simp only [hcont, hnb]; rfl, rfl, rfl, ?_⟩
  refine ⟨rfl, rfl, ⟨h1, hse, ?_⟩, he, ⟨l, h1, h2, h3⟩, het, hc⟩
  show joinNl _ = _
  rw [joinNl_eq, show e - (s - 1) = e + 1 - s by omega]

/-- The raw units found from here on. `b` is the last line that is settled. -/
def GapsOk (all : List Text) (cov : Nat → Bool) (b : Nat) (R : List CodeUnit) : Prop :=
  (∀ u ∈ R, b < u.line ∧ RawOk all cov u) ∧
  (∀ n, b < n → (∃ l, TextAt all n l) → cov n = false → ∃ u ∈ R, Covers u n) ∧
  R.Pairwise fun u v => ∃ k, u.endLine < k ∧ k < v.line ∧ cov k = true

theorem textAt_le {all : List Text} {n : Nat} (h : ∃ l, TextAt all n l) : 1 ≤ n ∧ n ≤ all.length := by
  obtain ⟨l, h1, h2, _⟩ := h
  obtain ⟨h3, _⟩ := List.getElem?_eq_some_iff.1 h2
  exact ⟨h1, by omega⟩

/-- The state of the gap when `i` lines have been read. -/
def GapState (all : List Text) (cov : Nat → Bool) (i : Nat) : Option (Nat × Nat) → Prop
  | none => True
  | some (s, e) => s ≤ e ∧ e ≤ i ∧ (∃ l, TextAt all s l) ∧ (∃ l, TextAt all e l) ∧
      (∀ n, s ≤ n → n ≤ i → cov n = false) ∧ ∀ n, e < n → n ≤ i → ¬ ∃ l, TextAt all n l

def settled (i : Nat) : Option (Nat × Nat) → Nat
  | none => i
  | some (s, _) => s - 1

theorem gaps_ok (all : List Text) (cov : Nat → Bool) :
    ∀ (ls : List Text) (i : Nat) (gap : Option (Nat × Nat)), all.drop i = ls → i ≤ all.length →
      GapState all cov i gap → GapsOk all cov (settled i gap) (gaps all cov i gap ls)
  | [], i, none, hd, hi, hg => by
    have hlen : all.length ≤ i := List.drop_eq_nil_iff.1 hd
    rw [gaps]
    refine ⟨by simp, ?_, .nil⟩
    intro n hn ht _
    have := textAt_le ht
    simp only [settled] at hn; omega
  | [], i, some (s, e), hd, hi, hg => by
    have hlen : all.length ≤ i := List.drop_eq_nil_iff.1 hd
    obtain ⟨g1, g2, g3, g4, g5, g6⟩ := hg
    obtain ⟨u, hu, hl, he, hok⟩ := rawUnit_ok g1 (by omega) g3 g4 (fun n h1 h2 => g5 n h1 (by omega))
    have hs1 := textAt_le g3
    rw [gaps, Option.bind_some, hu]
    refine ⟨?_, ?_, by simp⟩
    · intro v hv
      obtain rfl : v = u := by simpa using hv
      refine ⟨?_, hok⟩
      rw [hl]; simp only [settled]; omega
    · intro n hn ht hc
      simp only [settled] at hn
      refine ⟨u, by simp, by rw [hl]; omega, ?_⟩
      rw [he]
      by_contra hne
      exact g6 n (by omega) (by have := textAt_le ht; omega) ht
  | l :: ls, i, gap, hd, hi, hg => by
    have hlt : i < all.length := by
      by_contra h
      rw [List.drop_eq_nil_of_le (by omega)] at hd; simp at hd
    have hget : all[i]? = some l := by
      have := congrArg (fun x => x[0]?) hd
      simpa [List.getElem?_drop] using this
    have hd' : all.drop (i + 1) = ls := by
      rw [← List.drop_drop, hd]; rfl
    have key : gaps all cov i gap (l :: ls) =
        if cov (i + 1) then
          match gap with
          | none => gaps all cov (i + 1) none ls
          | some (s, e) => (rawUnit all s e).toList ++ gaps all cov (i + 1) none ls
        else if !blank l then
          match gap with
          | none => gaps all cov (i + 1) (some (i + 1, i + 1)) ls
          | some (s, _) => gaps all cov (i + 1) (some (s, i + 1)) ls
        else gaps all cov (i + 1) gap ls := by
      rcases gap with _ | ⟨s, e⟩ <;> rw [gaps]
    rw [key]
    · split
      · rename_i hcov
        cases gap with
        | none =>
          have ih := gaps_ok all cov ls (i + 1) none hd' hlt trivial
          simp only [settled] at ih ⊢
          obtain ⟨a1, a2, a3⟩ := ih
          refine ⟨fun u hu => ⟨by have := (a1 u hu).1; omega, (a1 u hu).2⟩, ?_, a3⟩
          intro n hn ht hc
          rcases Nat.lt_or_ge (i + 1) n with h | h
          · exact a2 n h ht hc
          · obtain rfl : n = i + 1 := by omega
            rw [hcov] at hc; simp at hc
        | some g =>
          obtain ⟨s, e⟩ := g
          obtain ⟨g1, g2, g3, g4, g5, g6⟩ := hg
          obtain ⟨u, hu, hl, he, hok⟩ := rawUnit_ok g1 (by omega) g3 g4 (fun n h1 h2 => g5 n h1 (by omega))
          have hs1 := textAt_le g3
          have ih := gaps_ok all cov ls (i + 1) none hd' hlt trivial
          simp only [settled] at ih ⊢
          obtain ⟨a1, a2, a3⟩ := ih
          simp only [hu, Option.toList_some, List.singleton_append]
          refine ⟨?_, ?_, ?_⟩
          · intro v hv
            rcases List.mem_cons.1 hv with rfl | hv
            · exact ⟨by rw [hl]; omega, hok⟩
            · exact ⟨by have := (a1 v hv).1; omega, (a1 v hv).2⟩
          · intro n hn ht hc
            rcases Nat.lt_trichotomy n (i + 1) with h | h | h
            · refine ⟨u, by simp, by rw [hl]; omega, ?_⟩
              rw [he]
              by_contra hne
              exact g6 n (by omega) (by omega) ht
            · subst h; rw [hcov] at hc; simp at hc
            · obtain ⟨v, hv, hc'⟩ := a2 n h ht hc
              exact ⟨v, by simp [hv], hc'⟩
          · refine List.pairwise_cons.2 ⟨?_, a3⟩
            intro v hv
            exact ⟨i + 1, by omega, (a1 v hv).1, hcov⟩
      · rename_i hcov
        have hcov : cov (i + 1) = false := by simpa using hcov
        split
        · rename_i hb
          have ht : ∃ l, TextAt all (i + 1) l := ⟨l, by omega, by simpa using hget, by
            rw [← blank_iff]; simpa using hb⟩
          cases gap with
          | none =>
            have ih := gaps_ok all cov ls (i + 1) (some (i + 1, i + 1)) hd' hlt
              ⟨le_rfl, le_rfl, ht, ht, fun n h1 h2 => by obtain rfl : n = i + 1 := by omega
                                                         exact hcov, fun n h1 h2 => by omega⟩
            simpa [settled] using ih
          | some g =>
            obtain ⟨s, e⟩ := g
            obtain ⟨g1, g2, g3, g4, g5, g6⟩ := hg
            exact gaps_ok all cov ls (i + 1) (some (s, i + 1)) hd' hlt
              ⟨by omega, le_rfl, g3, ht, fun n h1 h2 => by
                rcases Nat.lt_or_ge i n with h | h
                · obtain rfl : n = i + 1 := by omega
                  exact hcov
                · exact g5 n h1 h, fun n h1 h2 => by omega⟩
        · rename_i hb
          have hnt : ¬ ∃ l, TextAt all (i + 1) l := by
            rintro ⟨l', h1, h2, h3⟩
            simp only [Nat.add_sub_cancel] at h2
            rw [hget] at h2
            obtain rfl : l = l' := by simpa using h2
            rw [← blank_iff] at h3
            simp at hb; rw [hb] at h3; simp at h3
          cases gap with
          | none =>
            have ih := gaps_ok all cov ls (i + 1) none hd' hlt trivial
            simp only [settled] at ih ⊢
            obtain ⟨a1, a2, a3⟩ := ih
            refine ⟨fun u hu => ⟨by have := (a1 u hu).1; omega, (a1 u hu).2⟩, ?_, a3⟩
            intro n hn ht hc
            rcases Nat.lt_or_ge (i + 1) n with h | h
            · exact a2 n h ht hc
            · obtain rfl : n = i + 1 := by omega
              exact absurd ht hnt
          | some g =>
            obtain ⟨s, e⟩ := g
            obtain ⟨g1, g2, g3, g4, g5, g6⟩ := hg
            exact gaps_ok all cov ls (i + 1) (some (s, e)) hd' hlt
              ⟨g1, by omega, g3, g4, fun n h1 h2 => by
                rcases Nat.lt_or_ge i n with h | h
                · obtain rfl : n = i + 1 := by omega
                  exact hcov
                · exact g5 n h1 h, fun n h1 h2 ht => by
                rcases Nat.lt_or_ge i n with h | h
                · obtain rfl : n = i + 1 := by omega
                  exact hnt ht
                · exact g6 n h1 h ht⟩

end NextPlaid.Units
