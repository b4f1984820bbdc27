import Verif.Model.Uninstall
import Verif.Spec.Uninstall

namespace NextPlaid.Uninstall

open NextPlaid.Spec.Uninstall

theorem below_iff {dir p : Path} : below dir p = true ↔ Below dir p := by
  simp only [below, Bool.and_eq_true, decide_eq_true_eq, List.isPrefixOf_iff_prefix]
  constructor
  · rintro ⟨⟨r, rfl⟩, hl⟩
    exact ⟨r, fun h => by simp [h] at hl, rfl⟩
  · rintro ⟨r, hr, rfl⟩
    refine ⟨⟨r, rfl⟩, ?_⟩
    have := List.length_pos_iff.2 hr
    simp; omega

theorem below_false {dir p : Path} (h : ¬ Below dir p) : below dir p = false := by
  cases hb : below dir p with
  | false => rfl
  | true => exact absurd (below_iff.1 hb) h

/-- A removal that succeeds removes exactly what is below the directory. -/
theorem removeDir_ok {f : Fault} {dir : Option Path} {fs fs' : List Path} (h : removeDir f dir fs = (true, fs')) :
    ∃ d, dir = some d ∧ ∀ p, p ∈ fs' ↔ p ∈ fs ∧ ¬ Below d p := by
  cases dir with
  | none => simp [removeDir] at h
  | some d =>
    refine ⟨d, rfl, fun p => ?_⟩
    simp only [removeDir, removeIfThere] at h
    split at h
    · cases f with
      | some k => simp [removeTree] at h
      | none =>
        simp only [removeTree, Prod.mk.injEq, true_and] at h
        subst h
        simp [← below_iff]
    · rename_i ha
      simp only [Prod.mk.injEq, true_and] at h
      subst h
      simp only [List.any_eq_true, not_exists, not_and] at ha
      exact ⟨fun hp => ⟨hp, fun hb => ha p hp (below_iff.2 hb)⟩, fun hp => hp.1⟩

/-- A removal never touches what is elsewhere, and adds nothing. -/
theorem removeDir_frame (f : Fault) (dir : Option Path) (fs : List Path) (p : Path) :
    (p ∈ (removeDir f dir fs).2 → p ∈ fs) ∧ (p ∈ fs → (∀ d, dir = some d → ¬ Below d p) → p ∈ (removeDir f dir fs).2) := by
  cases dir with
  | none => exact ⟨id, fun h _ => h⟩
  | some d =>
    simp only [removeDir, removeIfThere]
    split
    · cases f with
      | none =>
        simp only [removeTree, List.mem_filter]
        exact ⟨fun h => h.1, fun h hb => ⟨h, by rw [below_false (hb d rfl)]; rfl⟩⟩
      | some k =>
        simp only [removeTree, List.mem_filter]
        exact ⟨fun h => h.1, fun h hb => ⟨h, by rw [below_false (hb d rfl)]; rfl⟩⟩
    · exact ⟨id, fun h _ => h⟩

theorem uninstallAll_ok {e : Env} {a b : Fault} {fs fs' : List Path} (h : uninstallAll e a b fs = (true, fs')) :
    ∃ d c, dataDir e = some d ∧ cacheDir e = some c ∧ ∀ p, p ∈ fs' ↔ p ∈ fs ∧ ¬ Below d p ∧ ¬ Below c p := by
  unfold uninstallAll at h
  dsimp only at h
  cases hr : removeDir a (dataDir e) fs with
  | mk ok fs1 =>
    rw [hr] at h
    cases ok with
    | false => simp at h
    | true =>
      simp only [if_true] at h
      obtain ⟨d, hd, h1⟩ := removeDir_ok hr
      obtain ⟨c, hc, h2⟩ := removeDir_ok h
      refine ⟨d, c, hd, hc, fun p => ?_⟩
      rw [h2, h1, and_assoc]

theorem clearEach_ok {base : Path} {locked : String → Bool} {fault : String → Fault} : ∀ {ns : List String} {fs fs' : List Path},
    clearEach base locked fault ns fs = (true, fs') → ∀ p, p ∈ fs' ↔ p ∈ fs ∧ ∀ n ∈ ns, ¬ Below (base ++ [n]) p
  | [], fs, fs', h, p => by simp [clearEach] at h; subst h; simp
  | n :: ns, fs, fs', h, p => by
    unfold clearEach at h
    dsimp only at h
    split at h
    · simp at h
    · cases hf : fault n with
      | some k => rw [hf] at h; simp [removeTree] at h
      | none =>
        rw [hf] at h
        simp only [removeTree, if_true] at h
        rw [clearEach_ok h p]
        simp only [List.mem_filter, List.mem_cons, forall_eq_or_imp, Bool.not_eq_true', and_assoc]
        refine and_congr Iff.rfl (and_congr ?_ Iff.rfl)
        rw [← below_iff]; simp

theorem clearEach_frame (base : Path) (locked : String → Bool) (fault : String → Fault) : ∀ (ns : List String) (fs : List Path) (p : Path),
    (p ∈ (clearEach base locked fault ns fs).2 → p ∈ fs) ∧
      (p ∈ fs → (∀ n ∈ ns, ¬ Below (base ++ [n]) p) → p ∈ (clearEach base locked fault ns fs).2)
  | [], fs, p => ⟨id, fun h _ => h⟩
  | n :: ns, fs, p => by
    unfold clearEach
    dsimp only
    split
    · exact ⟨id, fun h _ => h⟩
    · have h1 : (p ∈ (removeTree (fault n) (base ++ [n]) fs).2 → p ∈ fs) ∧
          (p ∈ fs → ¬ Below (base ++ [n]) p → p ∈ (removeTree (fault n) (base ++ [n]) fs).2) := by
        cases fault n with
        | none => simp only [removeTree, List.mem_filter]; exact ⟨fun h => h.1, fun h hb => ⟨h, by rw [below_false hb]; rfl⟩⟩
        | some k => simp only [removeTree, List.mem_filter]; exact ⟨fun h => h.1, fun h hb => ⟨h, by rw [below_false hb]; rfl⟩⟩
      split
      · have ih := clearEach_frame base locked fault ns (removeTree (fault n) (base ++ [n]) fs).2 p
        exact ⟨fun h => h1.1 (ih.1 h), fun h hb => ih.2 (h1.2 h (hb n (by simp))) fun m hm => hb m (by simp [hm])⟩
      · exact ⟨h1.1, fun h hb => h1.2 h (hb n (by simp))⟩

end NextPlaid.Uninstall
