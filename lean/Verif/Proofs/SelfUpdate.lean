import Verif.Model.SelfUpdate
import Mathlib.Data.List.Basic

/-! Lemmas on `colgrep update`. -/

namespace NextPlaid.SelfUpdate

open NextPlaid.Spec.SelfUpdate

theorem isPrefixOf_iff {k s : List Char} : k.isPrefixOf s = true ↔ ∃ t, s = k ++ t := by
  rw [List.isPrefixOf_iff_prefix]
  exact ⟨fun ⟨t, h⟩ => ⟨t, h.symm⟩, fun ⟨t, h⟩ => ⟨t, h.symm⟩⟩

/-- The search finds the first place. -/
theorem behind_some {k s t : List Char} (hk : k ≠ []) : behind k s = some t ↔ ∃ b, FirstAt k s b t := by
  induction s with
  | nil =>
    simp only [behind, hk, if_false]
    constructor
    · intro h; cases h
    · rintro ⟨b, h, _⟩
      have := congrArg List.length h
      simp at this
      exact absurd (List.length_eq_zero_iff.1 (by omega)) hk
  | cons c cs ih =>
    unfold behind
    by_cases hp : k.isPrefixOf (c :: cs) = true
    · rw [if_pos hp]
      obtain ⟨u, hu⟩ := isPrefixOf_iff.1 hp
      rw [hu, List.drop_left, Option.some.injEq]
      constructor
      · rintro rfl
        exact ⟨[], ⟨by simp, fun _ _ _ => by simp⟩⟩
      · rintro ⟨b, h1, h2⟩
        have := h2 [] u (by simp)
        have hb : b = [] := by simpa using this
        subst hb
        simpa using h1
    · rw [if_neg hp, ih]
      constructor
      · rintro ⟨b, h1, h2⟩
        refine ⟨c :: b, by rw [h1]; simp, ?_⟩
        intro b' c' h
        cases b' with
        | nil => exact absurd (isPrefixOf_iff.2 ⟨c', by simpa using h⟩) hp
        | cons d b' =>
          simp only [List.cons_append, List.cons.injEq] at h
          simpa using h2 b' c' h.2
      · rintro ⟨b, h1, h2⟩
        cases b with
        | nil => exact absurd (isPrefixOf_iff.2 ⟨t, by simpa using h1⟩) hp
        | cons d b =>
          simp only [List.cons_append, List.cons.injEq] at h1
          refine ⟨b, h1.2, ?_⟩
          intro b' c' h
          have := h2 (c :: b') c' (by simp [h])
          simpa using this

theorem behind_none {k s : List Char} (hk : k ≠ []) : behind k s = none ↔ ∀ b t, s ≠ b ++ k ++ t := by
  induction s with
  | nil =>
    simp only [behind, hk, if_false, true_iff]
    intro b t h
    have := congrArg List.length h
    simp at this
    exact hk (List.length_eq_zero_iff.1 (by omega))
  | cons c cs ih =>
    unfold behind
    by_cases hp : k.isPrefixOf (c :: cs) = true
    · rw [if_pos hp]
      obtain ⟨u, hu⟩ := isPrefixOf_iff.1 hp
      simp only [reduceCtorEq, false_iff]
      exact fun h => h [] u (by simpa using hu)
    · rw [if_neg hp, ih]
      constructor
      · intro h b t hb
        cases b with
        | nil => exact hp (isPrefixOf_iff.2 ⟨t, by simpa using hb⟩)
        | cons d b =>
          simp only [List.cons_append, List.cons.injEq] at hb
          exact h b t hb.2
      · intro h b t hb
        exact h (c :: b) t (by simp [hb])

theorem untilQuote_some {s t : List Char} : untilQuote s = some t ↔ '"' ∉ t ∧ ∃ u, s = t ++ '"' :: u := by
  induction s generalizing t with
  | nil => simp [untilQuote]
  | cons c cs ih =>
    unfold untilQuote
    by_cases hc : c = '"'
    · subst hc
      rw [if_pos rfl, Option.some.injEq]
      constructor
      · rintro rfl
        exact ⟨by simp, cs, rfl⟩
      · rintro ⟨h1, u, h2⟩
        cases t with
        | nil => rfl
        | cons d t =>
          simp only [List.cons_append, List.cons.injEq] at h2
          exact absurd (by simp [← h2.1]) h1
    · rw [if_neg hc, Option.map_eq_some_iff]
      constructor
      · rintro ⟨a, ha, rfl⟩
        obtain ⟨h1, u, h2⟩ := ih.1 ha
        exact ⟨by simp [h1, Ne.symm hc], u, by simp [h2]⟩
      · rintro ⟨h1, u, h2⟩
        cases t with
        | nil =>
          simp only [List.nil_append, List.cons.injEq] at h2
          exact absurd h2.1 hc
        | cons d t =>
          simp only [List.cons_append, List.cons.injEq] at h2
          obtain ⟨rfl, h2⟩ := h2
          exact ⟨t, ih.2 ⟨fun h => h1 (by simp [h]), u, h2⟩, rfl⟩

theorem strip_iff {tag v : List Char} : strip tag = v ↔ Names tag v := by
  constructor
  · rintro rfl
    unfold strip
    split
    · exact .withV _
    · rename_i h
      refine .bare _ ?_
      intro hh
      cases tag with
      | nil => cases hh
      | cons c cs =>
        simp only [List.head?_cons, Option.some.injEq] at hh
        subst hh
        exact h cs rfl
  · intro h
    cases h with
    | withV => rfl
    | bare _ h =>
      unfold strip
      split
      · simp at h
      · rfl

theorem key_ne : key ≠ [] := by decide

theorem versionIn_some {body v : List Char} : versionIn body = some v ↔
    ∃ before tag rest, FirstAt key body before (tag ++ '"' :: rest) ∧ '"' ∉ tag ∧ Names tag v := by
  unfold versionIn
  rw [Option.map_eq_some_iff]
  constructor
  · rintro ⟨tag, h, hv⟩
    obtain ⟨t, h1, h2⟩ := Option.bind_eq_some_iff.1 h
    obtain ⟨b, hb⟩ := (behind_some key_ne).1 h1
    obtain ⟨h3, u, rfl⟩ := untilQuote_some.1 h2
    exact ⟨b, tag, u, hb, h3, strip_iff.1 hv⟩
  · rintro ⟨b, tag, u, hb, h3, hv⟩
    refine ⟨tag, Option.bind_eq_some_iff.2 ⟨_, (behind_some key_ne).2 ⟨b, hb⟩, untilQuote_some.2 ⟨h3, u, rfl⟩⟩, strip_iff.2 hv⟩

theorem install_updated {i : Installer} {v v' : List Char} (h : install i v = (v', .updated)) :
    i.hasShell = true ∧ i.shell i.received v = (v', true) := by
  unfold install runInstaller at h
  split at h
  · cases h
  · rename_i w h2
    cases h
    split at h2
    · exact ⟨by assumption, Option.some.inj h2⟩
    · cases h2
  · cases h

end NextPlaid.SelfUpdate
