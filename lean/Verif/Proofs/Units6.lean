import Verif.Proofs.Units5

/-! Lines that belong to no declaration; the template of a Vue file; call graphs of parts. -/

namespace NextPlaid.Units

open NextPlaid.Spec

section raws

variable {file : List Text} {decls raws : List CodeUnit}

theorem declared_iff (hd : ∀ u ∈ decls, DeclOk file u) (hr : ∀ u ∈ raws, u.utype = .rawCode) {n : Nat} :
    Declared (decls ++ raws) n ↔ ∃ u ∈ decls, Covers u n := by
  constructor
  · rintro ⟨u, hu, ht, hc⟩
    rcases List.mem_append.1 hu with h | h
    · exact ⟨u, h, hc⟩
    · exact absurd (hr u h) ht
  · rintro ⟨u, hu, hc⟩
    exact ⟨u, List.mem_append.2 (.inl hu), (hd u hu).2.1, hc⟩

theorem raw_mem (hd : ∀ u ∈ decls, DeclOk file u) {u : CodeUnit} (hu : u ∈ decls ++ raws) (ht : u.utype = .rawCode) :
    u ∈ raws := by
  rcases List.mem_append.1 hu with h | h
  · exact absurd ht (hd u h).2.1
  · exact h

theorem cov_false (hd : ∀ u ∈ decls, DeclOk file u) (hr : ∀ u ∈ raws, u.utype = .rawCode) {n : Nat} (hn : n ≤ file.length) :
    covered file.length decls n = false ↔ ¬ Declared (decls ++ raws) n := by
  rw [declared_iff hd hr, ← covered_iff hn]
  simp

theorem loose_covered (hd : ∀ u ∈ decls, DeclOk file u) (hg : GapsOk file (covered file.length decls) 0 raws) {n : Nat}
    (h : Loose file (decls ++ raws) n) : ∃ u ∈ raws, Covers u n := by
  have hr : ∀ u ∈ raws, u.utype = .rawCode := fun u hu => (hg.1 u hu).2.1
  have := textAt_le h.1
  exact hg.2.1 n (by omega) h.1 ((cov_false hd hr this.2).2 h.2)

theorem pairwise_unique {n : Nat} : ∀ {raws : List CodeUnit}, raws.Pairwise (fun u v => u.endLine < v.line) →
    (∀ u ∈ raws, u.line ≤ u.endLine) → ∀ {u : CodeUnit}, u ∈ raws → Covers u n →
    raws.filter (fun v => decide (v.line ≤ n ∧ n ≤ v.endLine)) = [u]
  | [], _, _, u, hu, _ => by cases hu
  | v :: vs, hp, hle, u, hu, hc => by
    obtain ⟨h1, h2⟩ := List.pairwise_cons.1 hp
    rcases List.mem_cons.1 hu with rfl | hu
    · rw [List.filter_cons_of_pos (by rw [decide_eq_true_eq]; exact hc)]
      congr 1
      rw [List.filter_eq_nil_iff]
      intro w hw
      have := h1 w hw
      have := hc.2
      simp only [decide_eq_true_eq]
      omega
    · have := h1 u hu
      have := hc.1
      rw [List.filter_cons_of_neg (by simp only [decide_eq_true_eq]; omega)]
      exact pairwise_unique h2 (fun w hw => hle w (by simp [hw])) hu hc

theorem loose_once (hd : ∀ u ∈ decls, DeclOk file u) (hg : GapsOk file (covered file.length decls) 0 raws) {n : Nat}
    (h : Loose file (decls ++ raws) n) :
    ((decls ++ raws).filter fun u => decide (u.utype = .rawCode ∧ u.line ≤ n ∧ n ≤ u.endLine)).length = 1 := by
  obtain ⟨u, hu, hc⟩ := loose_covered hd hg h
  have h1 : decls.filter (fun u => decide (u.utype = .rawCode ∧ u.line ≤ n ∧ n ≤ u.endLine)) = [] := by
    rw [List.filter_eq_nil_iff]
    intro v hv
    have := (hd v hv).2.1
    simp [this]
  have h2 : raws.filter (fun u => decide (u.utype = .rawCode ∧ u.line ≤ n ∧ n ≤ u.endLine)) =
      raws.filter (fun v => decide (v.line ≤ n ∧ n ≤ v.endLine)) := by
    apply List.filter_congr
    intro v hv
    simp [(hg.1 v hv).2.1]
  rw [List.filter_append, h1, h2, pairwise_unique (u := u) ?_ ?_ hu hc]
  · rfl
  · exact hg.2.2.imp fun ⟨k, h1, h2, _⟩ => by omega
  · intro v hv
    exact (hg.1 v hv).2.2.2.1.2.1

theorem loose_same (hd : ∀ u ∈ decls, DeclOk file u) (hg : GapsOk file (covered file.length decls) 0 raws) {n m : Nat}
    (hn : Loose file (decls ++ raws) n) (hm : Loose file (decls ++ raws) m) (hnm : n ≤ m)
    (hbetween : ∀ k, n ≤ k → k ≤ m → ¬ Declared (decls ++ raws) k) : ∃ u ∈ raws, Covers u n ∧ Covers u m := by
  have hr : ∀ u ∈ raws, u.utype = .rawCode := fun u hu => (hg.1 u hu).2.1
  obtain ⟨u, hu, hcu⟩ := loose_covered hd hg hn
  obtain ⟨v, hv, hcv⟩ := loose_covered hd hg hm
  by_cases heq : u = v
  · subst heq; exact ⟨u, hu, hcu, hcv⟩
  · exfalso
    have hmle := (textAt_le hm.1).2
    have hp := hg.2.2
    obtain ⟨i, hi⟩ := List.mem_iff_getElem?.1 hu
    obtain ⟨j, hj⟩ := List.mem_iff_getElem?.1 hv
    obtain ⟨hi', hi⟩ := List.getElem?_eq_some_iff.1 hi
    obtain ⟨hj', hj⟩ := List.getElem?_eq_some_iff.1 hj
    rw [List.pairwise_iff_getElem] at hp
    have h1 := (hg.1 u hu).2.2.2.1.2.1
    have h2 := (hg.1 v hv).2.2.2.1.2.1
    obtain ⟨a1, a2⟩ := hcu
    obtain ⟨b1, b2⟩ := hcv
    rcases Nat.lt_trichotomy i j with h | h | h
    · obtain ⟨k, hk1, hk2, hk3⟩ := hp i j hi' hj' h
      rw [hi] at hk1; rw [hj] at hk2
      have := hbetween k (by omega) (by omega)
      rw [← cov_false hd hr (by omega), hk3] at this
      simp at this
    · subst h; rw [hi] at hj; exact heq hj
    · obtain ⟨k, hk1, hk2, hk3⟩ := hp j i hj' hi' h
      rw [hj] at hk1; rw [hi] at hk2
      omega

end raws

/-! ### The template of a Vue file -/

theorem chop_length : ∀ (ps : List Text) (k : Nat) (p : Text), ps[k]? = some p → p ≠ [] → k < (chop ps).length
  | [], k, p, h, _ => by simp at h
  | [q], k, p, h, hp => by
    cases k with
    | zero =>
      obtain rfl : q = p := by simpa using h
      rw [chop]
      split
      · rename_i he
        exact absurd (List.isEmpty_iff.1 he) hp
      · simp
    | succ k => simp at h
  | q :: r :: ps, k, p, h, hp => by
    rw [chop]
    cases k with
    | zero => simp
    | succ k =>
      have := chop_length (r :: ps) k p (by simpa using h) hp
      simp only [List.length_cons] at this ⊢; omega

theorem lines_join_length {ls : List Text} (h : ∀ l ∈ ls, NoNl l) {k : Nat} {l : Text} (hk : ls[k]? = some l) (hl : l ≠ []) :
    k < (lines (joinNl ls)).length := by
  have hne : ls ≠ [] := by rintro rfl; simp at hk
  unfold lines
  rw [splitNl_join ls hne h]
  exact chop_length _ _ _ hk hl

theorem vueInside_get (tag : Text) : ∀ (ls : List Text) (k : Nat) (l : Text), ls[k]? = some l →
    (∀ (j : Nat) (x : Text), j ≤ k → ls[j]? = some x → closes tag x = false) → (vueInside tag ls)[k]? = some l
  | [], k, l, h, _ => by simp at h
  | a :: ls, k, l, h, hc => by
    rw [vueInside, if_neg (by simp [hc 0 a (Nat.zero_le _) rfl])]
    cases k with
    | zero => simpa using h
    | succ k =>
      simp only [List.getElem?_cons_succ] at h ⊢
      exact vueInside_get tag ls k l h fun j x hj hx => hc (j + 1) x (by omega) (by simpa using hx)

/-- The lines after the first opening tag and before the next closing tag are content lines, at their place. -/
theorem vueScan_get (tag : Text) (all : List Text) : ∀ (ls : List Text) (i a r : Nat) (o l : Text), all.drop i = ls → i ≤ a →
    all[a]? = some o → opens tag o = true → (∀ (j : Nat) (x : Text), i ≤ j → j < a → all[j]? = some x → opens tag x = false) →
    a < r → all[r]? = some l → (∀ (j : Nat) (x : Text), a < j → j ≤ r → all[j]? = some x → closes tag x = false) →
    ∃ k, (vueScan tag i ls).2 + k = r ∧ (vueScan tag i ls).1[k]? = some l
  | [], i, a, r, o, l, hd, hia, ha, _, _, _, _, _ => by
    have := List.drop_eq_nil_iff.1 hd
    obtain ⟨h', _⟩ := List.getElem?_eq_some_iff.1 ha
    omega
  | x :: ls, i, a, r, o, l, hd, hia, ha, ho, hfirst, har, hr, hcl => by
    obtain ⟨hx, hd'⟩ := drop_cons hd
    rw [vueScan]
    rcases Nat.lt_or_ge i a with hlt | hge
    · rw [if_neg (by simp [hfirst i x le_rfl hlt hx])]
      exact vueScan_get tag all ls (i + 1) a r o l hd' hlt ha ho (fun j y h1 h2 => hfirst j y (by omega) h2) har hr hcl
    · obtain rfl : a = i := by omega
      rw [hx] at ha
      obtain rfl : x = o := by simpa using ha
      rw [if_pos ho]
      have hget : ∀ j, ls[j]? = all[a + 1 + j]? := fun j => by rw [← hd', List.getElem?_drop]
      have hin : (vueInside tag ls)[r - (a + 1)]? = some l := by
        apply vueInside_get
        · rw [hget, ← hr]; congr 1; omega
        · intro j y hj hy
          rw [hget] at hy
          exact hcl _ y (by omega) (by omega) hy
      have hlen := inline_length tag x
      simp only
      rcases hi : inlineContent tag x with _ | ⟨b, rest⟩
      · exact ⟨r - (a + 1), by simp; omega, by simpa using hin⟩
      · rw [hi] at hlen
        obtain rfl : rest = [] := by
          cases rest with
          | nil => rfl
          | cons _ _ => simp at hlen
        refine ⟨r - a, by simp; omega, ?_⟩
        obtain ⟨j, hj⟩ : ∃ j, r - a = j + 1 := ⟨r - a - 1, by omega⟩
        rw [hj]
        simp only [List.cons_append, List.nil_append, List.getElem?_cons_succ]
        rw [← hin]; congr 1; omega

/-! ### Call graphs of parts -/

theorem graph_one (all units : List CodeUnit) (u : CodeUnit)
    (h : ∀ x, CalledFrom all u.name x ↔ CalledFrom units u.name x) :
    (if (callersOf all u).isEmpty then u else { u with calledBy := dedupAdj ((callersOf all u).insertionSort (· ≤ ·)) }) =
    (if (callersOf units u).isEmpty then u else { u with calledBy := dedupAdj ((callersOf units u).insertionSort (· ≤ ·)) }) := by
  have hmem : ∀ x, x ∈ callersOf all u ↔ x ∈ callersOf units u := fun x => by
    rw [mem_callersOf, mem_callersOf, h]
  have hempty : (callersOf all u).isEmpty = (callersOf units u).isEmpty := by
    rw [Bool.eq_iff_iff, List.isEmpty_iff, List.isEmpty_iff, List.eq_nil_iff_forall_not_mem, List.eq_nil_iff_forall_not_mem]
    simp [hmem]
  rw [hempty]
  split
  · rfl
  · have : dedupAdj ((callersOf all u).insertionSort (· ≤ ·)) = dedupAdj ((callersOf units u).insertionSort (· ≤ ·)) := by
      apply List.Perm.eq_of_pairwise (le := (· < ·))
      · intro a b _ _ h1 h2
        exact absurd (lt_trans h1 h2) (lt_irrefl a)
      · exact dedupAdj_sorted _ (List.pairwise_insertionSort _ _)
      · exact dedupAdj_sorted _ (List.pairwise_insertionSort _ _)
      · rw [List.perm_ext_iff_of_nodup]
        · intro x
          rw [mem_dedupAdj, mem_dedupAdj, (List.perm_insertionSort _ _).mem_iff, (List.perm_insertionSort _ _).mem_iff, hmem]
        · exact (dedupAdj_sorted _ (List.pairwise_insertionSort _ _)).imp fun h => ne_of_lt h
        · exact (dedupAdj_sorted _ (List.pairwise_insertionSort _ _)).imp fun h => ne_of_lt h
    rw [this]

theorem graph_append {old new : List CodeUnit}
    (h1 : ∀ u ∈ old, ∀ v ∈ new, u.name ∉ v.calls) (h2 : ∀ u ∈ new, ∀ v ∈ old, u.name ∉ v.calls) :
    buildCallGraph (old ++ new) = buildCallGraph old ++ buildCallGraph new := by
  unfold buildCallGraph
  rw [List.map_append]
  congr 1
  · apply List.map_congr_left
    intro u hu
    apply graph_one
    intro x
    constructor
    · rintro ⟨v, hv, rfl, hc⟩
      rcases List.mem_append.1 hv with hv | hv
      · exact ⟨v, hv, rfl, hc⟩
      · exact absurd hc (h1 u hu v hv)
    · rintro ⟨v, hv, rfl, hc⟩
      exact ⟨v, List.mem_append.2 (.inl hv), rfl, hc⟩
  · apply List.map_congr_left
    intro u hu
    apply graph_one
    intro x
    constructor
    · rintro ⟨v, hv, rfl, hc⟩
      rcases List.mem_append.1 hv with hv | hv
      · exact absurd hc (h2 u hu v hv)
      · exact ⟨v, hv, rfl, hc⟩
    · rintro ⟨v, hv, rfl, hc⟩
      exact ⟨v, List.mem_append.2 (.inr hv), rfl, hc⟩

end NextPlaid.Units
