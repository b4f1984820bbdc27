import Verif.Spec.Hub

/-! Lemmas about getting the files of a model. -/

namespace NextPlaid.Hub
open NextPlaid NextPlaid.Spec

theorem get_has (net : Net) (s : Cache) (f : String) (c : Nat) (s' : Cache) (h : fetch net s f = (some c, s')) :
    s'.has c f = true ∧ s'.ref = some c := by
  have hd : ∀ h : download net s f = (some c, s'), s'.has c f = true ∧ s'.ref = some c := by
    intro h
    unfold download at h
    split at h
    · cases h
    · cases h; simp
  unfold fetch at h
  split at h
  · next c0 hr =>
    split at h
    · next hh => cases h; exact ⟨hh, hr⟩
    · exact hd h
  · exact hd h

theorem get_mono (net : Net) (s : Cache) (f : String) (d : Nat) (g : String) (h : s.has d g = true) :
    (fetch net s f).2.has d g = true := by
  have hd : (download net s f).2.has d g = true := by
    unfold download
    split
    · exact h
    · simp [h]
  unfold fetch
  split
  · split
    · exact h
    · exact hd
  · exact hd

theorem get_none (net : Net) (s : Cache) (f : String) (s' : Cache) (h : fetch net s f = (none, s')) : s' = s ∧ net f = none := by
  have hd : ∀ h : download net s f = (none, s'), s' = s ∧ net f = none := by
    intro h
    unfold download at h
    split at h
    · next hn => cases h; exact ⟨rfl, hn⟩
    · cases h
  unfold fetch at h
  split at h
  · split at h
    · cases h
    · exact hd h
  · exact hd h

theorem getRequired_mono (net : Net) (d : Nat) (g : String) : ∀ (fs : List String) (dir : Option Nat) (s : Cache),
    s.has d g = true → (getRequired net fs dir s).2.has d g = true
  | [], _, _, h => h
  | f :: fs, dir, s, h => by
    rw [getRequired]
    have hm := get_mono net s f d g h
    split
    · next c s' he =>
      rw [he] at hm
      exact getRequired_mono net d g fs _ s' hm
    · next s' he =>
      rw [he] at hm
      split
      · exact hm
      · exact getRequired_mono net d g fs _ s' hm

theorem getOptional_mono (net : Net) (d : Nat) (g : String) : ∀ (fs : List String) (s : Cache),
    s.has d g = true → (getOptional net fs s).has d g = true
  | [], _, h => h
  | f :: fs, s, h => by
    rw [getOptional]
    exact getOptional_mono net d g fs _ (get_mono net s f d g h)

/-- The directory is kept once it is known. -/
theorem getRequired_dir (net : Net) (c : Nat) : ∀ (fs : List String) (s : Cache) (dir : Option Nat) (s' : Cache),
    getRequired net fs (some c) s = (.ok dir, s') → dir = some c
  | [], _, _, _, h => by cases h; rfl
  | f :: fs, s, dir, s', h => by
    rw [getRequired] at h
    split at h
    · exact getRequired_dir net c fs _ dir s' h
    · split at h
      · cases h
      · exact getRequired_dir net c fs _ dir s' h

theorem get_one {net : Net} {s : Cache} {c : Nat} (h : OneRevision net s c) (f : String) :
    OneRevision net (fetch net s f).2 c ∧ ((fetch net s f).1 = none ∨ (fetch net s f).1 = some c) := by
  have hd : OneRevision net (download net s f).2 c ∧ ((download net s f).1 = none ∨ (download net s f).1 = some c) := by
    unfold download
    split
    · exact ⟨h, .inl rfl⟩
    · next d hn =>
      rcases h.1 f with h0 | h0
      · rw [h0] at hn; cases hn
      · rw [h0] at hn
        cases hn
        exact ⟨⟨h.1, .inr rfl⟩, .inr rfl⟩
  unfold fetch
  split
  · next d hr =>
    split
    · refine ⟨h, .inr ?_⟩
      rcases h.2 with h0 | h0
      · rw [h0] at hr; cases hr
      · rw [h0] at hr; exact hr.symm
    · exact hd
  · exact hd

theorem getRequired_one {net : Net} {c : Nat} : ∀ (fs : List String) (dir : Option Nat) (s : Cache) (dir' : Option Nat) (s' : Cache),
    OneRevision net s c → (dir = none ∨ dir = some c) → getRequired net fs dir s = (.ok dir', s') →
    OneRevision net s' c ∧ (dir' = none ∨ dir' = some c) ∧ ∀ f ∈ fs, f ≠ "config.json" → s'.has c f = true
  | [], dir, s, dir', s', h, hd, he => by cases he; exact ⟨h, hd, by simp⟩
  | f :: fs, dir, s, dir', s', h, hd, he => by
    rw [getRequired] at he
    obtain ⟨h1, h2⟩ := get_one h f
    split at he
    · next d t hg =>
      rw [hg] at h1 h2
      have hdc : d = c := by
        rcases h2 with h2 | h2
        · cases h2
        · exact Option.some.inj h2
      subst hdc
      obtain ⟨h3, h4, h5⟩ := getRequired_one fs _ t dir' s' h1 (by rcases hd with rfl | rfl <;> exact .inr rfl) he
      refine ⟨h3, h4, fun g hg' hne => ?_⟩
      rcases List.mem_cons.1 hg' with rfl | hg'
      · have := getRequired_mono net d g fs (dir.or (some d)) t (get_has net s g d t hg).1
        rw [he] at this
        exact this
      · exact h5 g hg' hne
    · next t hg =>
      rw [hg] at h1
      split at he
      · cases he
      · next hf =>
        obtain ⟨h3, h4, h5⟩ := getRequired_one fs _ t dir' s' h1 hd he
        refine ⟨h3, h4, fun g hg' hne => ?_⟩
        rcases List.mem_cons.1 hg' with rfl | hg'
        · exact absurd hne (by simpa using hf)
        · exact h5 g hg' hne

theorem getOptional_one {net : Net} {c : Nat} : ∀ (fs : List String) (s : Cache), OneRevision net s c →
    OneRevision net (getOptional net fs s) c
  | [], _, h => h
  | f :: fs, s, h => by rw [getOptional]; exact getOptional_one fs _ (get_one h f).1

/-- The recorded revision once a file was found. -/
theorem getRequired_ref {net : Net} {c : Nat} : ∀ (fs : List String) (dir : Option Nat) (s t : Cache) (dir' : Option Nat),
    OneRevision net s c → (s.ref = some c ∨ (dir = none ∧ dir' ≠ none)) → getRequired net fs dir s = (.ok dir', t) →
    t.ref = some c
  | [], dir, s, t, dir', _, h0, hg => by
    cases hg
    rcases h0 with h0 | ⟨h0, h0'⟩
    · exact h0
    · exact absurd h0 h0'
  | f :: fs, dir, s, t, dir', ho, h0, hg => by
    rw [getRequired] at hg
    obtain ⟨ho1, ho2⟩ := get_one ho f
    split at hg
    · next d u hu =>
      rw [hu] at ho1 ho2
      have hd : d = c := by
        rcases ho2 with ho2 | ho2
        · cases ho2
        · exact Option.some.inj ho2
      subst hd
      exact getRequired_ref fs _ u t dir' ho1 (.inl (get_has net s f d u hu).2) hg
    · next u hu =>
      split at hg
      · cases hg
      · obtain ⟨e, _⟩ := get_none net s f u hu
        subst e
        exact getRequired_ref fs _ u t dir' ho h0 hg

theorem getOptional_ref {net : Net} {c : Nat} : ∀ (fs : List String) (u : Cache), OneRevision net u c → u.ref = some c →
    (getOptional net fs u).ref = some c
  | [], _, _, hu => hu
  | f :: fs, u, hu0, hu => by
    rw [getOptional]
    apply getOptional_ref fs _ (get_one hu0 f).1
    rcases hg : fetch net u f with ⟨r, v⟩
    cases r with
    | none => rw [(get_none net u f v hg).1]; exact hu
    | some d =>
      have := (get_one hu0 f).2
      rw [hg] at this
      rcases this with h | h
      · cases h
      · cases h; exact (get_has net u f c v hg).2

/-- When everything asked for is to be had, the loop succeeds. -/
theorem getRequired_succeeds {net : Net} {c : Nat} : ∀ (fs : List String) (dir : Option Nat) (s : Cache), OneRevision net s c →
    (∀ f ∈ fs, f ≠ "config.json" → net f = some c ∨ (s.ref = some c ∧ s.has c f = true)) →
    ∃ dir' s', getRequired net fs dir s = (.ok dir', s')
  | [], dir, s, _, _ => ⟨dir, s, rfl⟩
  | f :: fs, dir, s, h, hf => by
    rw [getRequired]
    obtain ⟨h1, h2⟩ := get_one h f
    have hkeep : ∀ (r : Option Nat) (t : Cache), fetch net s f = (r, t) →
        ∀ g ∈ fs, g ≠ "config.json" → net g = some c ∨ (t.ref = some c ∧ t.has c g = true) := by
      intro r t hg g hgm hne
      rcases hf g (List.mem_cons_of_mem _ hgm) hne with h' | ⟨hr, hh⟩
      · exact .inl h'
      · right
        have hm := get_mono net s f c g hh
        rw [hg] at hm
        refine ⟨?_, hm⟩
        cases r with
        | none => rw [(get_none net s f t hg).1]; exact hr
        | some d =>
          rw [hg] at h2
          rcases h2 with h2 | h2
          · cases h2
          · cases h2; exact (get_has net s f c t hg).2
    split
    · next d t hg =>
      rw [hg] at h1
      exact getRequired_succeeds fs _ t h1 (hkeep _ t hg)
    · next t hg =>
      rw [hg] at h1
      split
      · next hne =>
        exfalso
        obtain ⟨ht, hn⟩ := get_none net s f t hg
        rcases hf f List.mem_cons_self hne with h' | ⟨hr, hh⟩
        · rw [hn] at h'; cases h'
        · unfold fetch at hg
          rw [hr] at hg
          simp only [hh, if_true] at hg
          cases hg
      · exact getRequired_succeeds fs _ t h1 (hkeep _ t hg)

/-! ### Offline -/

theorem get_offline {net : Net} (hn : Offline net) (s : Cache) (f : String) :
    fetch net s f = (s.ref.bind fun c => if s.has c f then some c else none, s) := by
  unfold fetch download
  rw [hn f]
  cases s.ref with
  | none => rfl
  | some c => simp only [Option.bind_some]; split <;> rfl

theorem getRequired_offline {net : Net} (hn : Offline net) : ∀ (fs : List String) (dir : Option Nat) (s : Cache),
    (getRequired net fs dir s).2 = s
  | [], _, _ => rfl
  | f :: fs, dir, s => by
    rw [getRequired, get_offline hn]
    split
    · next c t he => rw [← (Prod.mk.inj he).2]; exact getRequired_offline hn fs _ s
    · next t he =>
      rw [← (Prod.mk.inj he).2]
      split
      · rfl
      · exact getRequired_offline hn fs _ s

theorem getOptional_offline {net : Net} (hn : Offline net) : ∀ (fs : List String) (s : Cache), getOptional net fs s = s
  | [], _ => rfl
  | f :: fs, s => by rw [getOptional, get_offline hn]; exact getOptional_offline hn fs s

/-! ### A cache with every file -/

theorem getRequired_warm (net : Net) (s : Cache) (c : Nat) (hr : s.ref = some c) : ∀ (fs : List String),
    (∀ f ∈ fs, s.has c f = true) → ∀ dir, (dir = none → fs ≠ []) → (dir = none ∨ dir = some c) →
      getRequired net fs dir s = (.ok (some c), s)
  | [], _, dir, h1, h2 => by
    rcases h2 with rfl | rfl
    · exact absurd rfl (h1 rfl)
    · rfl
  | f :: fs, h, dir, _, h2 => by
    have hg : fetch net s f = (some c, s) := by
      unfold fetch
      rw [hr]
      simp only [h f List.mem_cons_self, if_true]
    rw [getRequired, hg]
    have : dir.or (some c) = some c := by rcases h2 with rfl | rfl <;> rfl
    simp only [this]
    exact getRequired_warm net s c hr fs (fun g hg => h g (List.mem_cons_of_mem _ hg)) _ (by simp) (.inr rfl)

/-! ### Trimming -/

theorem dropWhile_of_head {c : Char} {l : List Char} (h : l.head? ≠ some c) : l.dropWhile (· == c) = l := by
  cases l with
  | nil => rfl
  | cons a l =>
    rw [List.dropWhile_cons, if_neg]
    intro he
    apply h
    simpa using he

theorem trim_bare {c : Char} {l : List Char} (h1 : l.head? ≠ some c) (h2 : l.getLast? ≠ some c) : trimMatches c l = l := by
  unfold trimMatches
  rw [dropWhile_of_head h1, dropWhile_of_head (by rw [List.head?_reverse]; exact h2), List.reverse_reverse]

theorem trim_quoted {c : Char} {l : List Char} (hne : l ≠ []) (h1 : l.head? ≠ some c) (h2 : l.getLast? ≠ some c) :
    trimMatches c (c :: (l ++ [c])) = l := by
  have e : (c :: (l ++ [c])).dropWhile (· == c) = l ++ [c] := by
    rw [List.dropWhile_cons, if_pos (by simp), dropWhile_of_head]
    cases l with
    | nil => exact absurd rfl hne
    | cons a l => exact h1
  unfold trimMatches
  rw [e, List.reverse_append, List.reverse_singleton, List.singleton_append, List.dropWhile_cons, if_pos (by simp),
    dropWhile_of_head (by rw [List.head?_reverse]; exact h2), List.reverse_reverse]

end NextPlaid.Hub
