import Verif.Proofs.Worktree

/-! Proofs about the seeding of worktrees: a whole run, and the list of worktrees. -/

namespace NextPlaid.Worktree
open NextPlaid.Colgrep

variable {P C U H : Type} [DecidableEq P] [DecidableEq H]

omit [DecidableEq H] in
theorem trySeed_first (disk : Disk P C) (pre post : List (Nat → Sibling P U H)) (look : Nat → Sibling P U H) (l : Log P U H)
    (hpre : ∀ s ∈ pre, ¬ Spec.Whole (s 0)) (h : Spec.Whole (look 0)) :
    trySeed disk (pre ++ look :: post) l = copyFrom disk look (look 0).store.state l := by
  unfold trySeed
  induction pre with
  | nil => rw [List.nil_append, List.findSome?_cons, usable_whole h]; rfl
  | cons s pre ih =>
    have hs : usable (s 0) = none := by
      cases hu : usable (s 0) with
      | none => rfl
      | some st => exact absurd (usable_some hu).1 (hpre s List.mem_cons_self)
    rw [List.cons_append, List.findSome?_cons, hs]
    exact ih fun s hs => hpre s (List.mem_cons_of_mem _ hs)

omit [DecidableEq H] in
theorem trySeed_none (disk : Disk P C) (siblings : List (Nat → Sibling P U H)) (l : Log P U H) (h : ∀ s ∈ siblings, ¬ Spec.Whole (s 0)) :
    trySeed disk siblings l = l := by
  unfold trySeed
  have : siblings.findSome? (fun look => (usable (look 0)).map fun st => copyFrom disk look st l) = none := by
    rw [List.findSome?_eq_none_iff]
    intro s hs
    cases hu : usable (s 0) with
    | none => rfl
    | some st => exact absurd (usable_some hu).1 (h s hs)
  rw [this]; rfl

omit [DecidableEq H] in
theorem copyFrom_now (disk : Disk P C) (look : Nat → Sibling P U H) (st : State P H) (l : Log P U H) :
    (copyFrom disk look st l).now = ⟨restat disk st, (look 1).store.vec, (look 2).store.db, l.now.building⟩ := by
  unfold copyFrom saveState write
  simp only
  split <;> rfl

theorem seeded_run {L : Lang P C U H} (hL : L.Lawful) (hinj : Function.Injective L.hash) {seen : List (Disk P C)} {src disk : Disk P C}
    {d : Persist P U H} (hn : (src.map (·.1)).Nodup) (hd : (disk.map (·.1)).Nodup) (ha : After L seen src d) {look : Nat → Sibling P U H}
    (hs : Spec.Still look d) (hw : Spec.Whole (look 0)) (l : Log P U H) (hb : l.now.building = false) :
    ∃ l', index L disk .never (copyFrom disk look (look 0).store.state l) = .ok l' ∧
      After L (recast (known src d.state) disk :: [recordedDisk src disk d.state, ignoredDisk seen disk])
        (recast (known src d.state) disk) l'.now := by
  have hnow : (copyFrom disk look (look 0).store.state l).now = { d with state := restat disk d.state } := by
    rw [copyFrom_now, hs 0, hs 1, hs 2, hb, ← ha.building]
  obtain ⟨l', h1, h2⟩ := index_ok L hL hinj _ _ _ (recordedDisk_nodup (disk := disk) (st := d.state) hn) (seeded_calm hn hd ha)
    (copyFrom disk look (look 0).store.state l) (by rw [hnow]; exact seeded_after hn ha)
  refine ⟨l', ?_, h2⟩
  rw [← h1]
  symm
  rw [hs 0] at hw
  apply index_recast
  · intro e he
    rw [hnow]
    show e.1 ∈ (restat disk d.state).ignored ∨ (∃ info, get (restat disk d.state).files e.1 = some info ∧ _) ∨
      (get (restat disk d.state).files e.1 = none ∧ _)
    rw [restat_get]
    cases hg : get d.state.files e.1 with
    | none => exact Or.inr (Or.inr ⟨rfl, known_other hg _⟩)
    | some i =>
      refine Or.inr (Or.inl ⟨_, rfl, ?_⟩)
      rw [mem_get hd he]; rfl
  · rw [hnow]; exact ha.building
  · rw [hnow]; exact hw.index
  · rw [hnow]; exact hw.rows
  · rw [hnow]
    show (restat disk d.state).files ≠ []
    unfold restat
    simpa using hw.files

/-- A sibling's file that is recorded is text. -/
theorem recorded_text {L : Lang P C U H} {seen : List (Disk P C)} {src disk : Disk P C} {d : Persist P U H} (hn : (src.map (·.1)).Nodup)
    (ha : After L seen src d) {p : P} {f0 : File C} (h : (p, f0) ∈ recordedDisk src disk d.state) : L.parse p f0.content ≠ none := by
  have hg := mem_get (recordedDisk_nodup (disk := disk) (st := d.state) hn) h
  rw [recordedDisk_get hn] at hg
  split at hg
  · rename_i hs
    obtain ⟨i, hi⟩ := Option.isSome_iff_exists.1 hs
    obtain ⟨f, h1, _, h3, _⟩ := ha.current p i hi
    rw [h1] at hg
    cases hg
    exact h3
  · cases hg

theorem seeded_ignored {L : Lang P C U H} {seen : List (Disk P C)} {src disk : Disk P C} {d d' : Persist P U H} (hn : (src.map (·.1)).Nodup)
    (ha : After L seen src d)
    (h : After L (recast (known src d.state) disk :: [recordedDisk src disk d.state, ignoredDisk seen disk])
        (recast (known src d.state) disk) d') {p : P} (hp : p ∈ d'.state.ignored) :
    (∃ s ∈ seen, ∃ f, (p, f) ∈ s ∧ f.scanned = true ∧ L.parse p f.content = none) ∨
      ∃ f, (p, f) ∈ disk ∧ f.scanned = true ∧ L.parse p f.content = none := by
  obtain ⟨d0, h0, f0, h1, h2, h3⟩ := h.skipped p hp
  rcases List.mem_cons.1 h0 with rfl | h0
  · right
    obtain ⟨e, he, hh⟩ := List.mem_map.1 h1
    cases hh
    cases hg : get d.state.files e.1 with
    | none =>
      rw [known_other hg] at h3
      exact ⟨e.2, he, h2, h3⟩
    | some i =>
      exfalso
      obtain ⟨f, hf, hk⟩ := known_recorded hn ha hg
      obtain ⟨f', hf', _, h5, _⟩ := ha.current _ i hg
      rw [hf] at hf'
      cases hf'
      rw [hk] at h3
      exact h5 h3
  · rcases List.mem_cons.1 h0 with rfl | h0
    · exact absurd h3 (recorded_text hn ha h1)
    · rw [List.mem_singleton] at h0
      subst h0
      left
      obtain ⟨e, he, hh⟩ := List.mem_map.1 h1
      obtain ⟨s, hs, hes⟩ := List.mem_flatten.1 he
      cases hh
      exact ⟨s, hs, e.2, hes, h2, h3⟩

/-! ### The list of worktrees -/

theorem linesOf_cons {l : List Char} (h : '\n' ∉ l) (rest : List Char) : linesOf (l ++ '\n' :: rest) = l :: linesOf rest := by
  induction l with
  | nil => simp [linesOf]
  | cons c l ih =>
    have hc : c ≠ '\n' := fun e => h (e ▸ List.mem_cons_self)
    rw [List.cons_append]
    conv_lhs => unfold linesOf
    rw [if_neg hc, ih fun e => h (List.mem_cons_of_mem _ e)]

theorem linesOf_lines (ls : List (List Char)) (h : ∀ l ∈ ls, '\n' ∉ l) (rest : List Char) :
    linesOf ((ls.flatMap fun line => line ++ ['\n']) ++ rest) = ls ++ linesOf rest := by
  induction ls with
  | nil => rfl
  | cons l ls ih =>
    have := ih fun l hl => h l (List.mem_cons_of_mem _ hl)
    rw [List.flatMap_cons, List.append_assoc, List.append_assoc]
    rw [List.cons_append, List.nil_append, linesOf_cons (h l List.mem_cons_self), this]; rfl

theorem stripPrefix_append (pre l : List Char) : stripPrefix pre (pre ++ l) = some l := by
  induction pre with
  | nil => rfl
  | cons a pre ih => simp [stripPrefix, ih]

theorem stripPrefix_some {pre l s : List Char} (h : stripPrefix pre l = some s) : l = pre ++ s := by
  induction pre generalizing l with
  | nil => cases h; rfl
  | cons a pre ih =>
    cases l with
    | nil => cases h
    | cons b l =>
      unfold stripPrefix at h
      split at h
      · rename_i hab
        rw [hab, ih h]; rfl
      · cases h

theorem trimmed_self {white : Char → Bool} {s : List Char} (h1 : ∀ c, s.head? = some c → white c = false)
    (h2 : ∀ c, s.getLast? = some c → white c = false) : trimmed white s = s := by
  have key : ∀ l : List Char, (∀ c, l.head? = some c → white c = false) → l.dropWhile white = l := by
    intro l hl
    cases l with
    | nil => rfl
    | cons c l => rw [List.dropWhile_cons, hl c rfl]; rfl
  unfold trimmed
  rw [key s h1, key s.reverse (by intro c hc; rw [List.head?_reverse] at hc; exact h2 c hc), List.reverse_reverse]

theorem rootsIn_porcelain {R : Type} (white : Char → Bool) (canonical : List Char → Option R) (trees : List (List Char × List (List Char)))
    (hp : ∀ t ∈ trees, '\n' ∉ t.1 ∧ (∀ c, t.1.head? = some c → white c = false) ∧ ∀ c, t.1.getLast? = some c → white c = false)
    (ha : ∀ t ∈ trees, ∀ line ∈ t.2, '\n' ∉ line ∧ ¬ "worktree ".toList <+: line) :
    rootsIn white canonical (Spec.porcelain trees) = trees.filterMap fun t => canonical t.1 := by
  have hpre : "worktree ".toList = entryPrefix := by decide
  rw [hpre] at ha
  unfold rootsIn Spec.porcelain
  rw [hpre]
  induction trees with
  | nil => rfl
  | cons t trees ih =>
    have ih := ih (fun t h => hp t (List.mem_cons_of_mem _ h)) fun t h => ha t (List.mem_cons_of_mem _ h)
    obtain ⟨h1, h2, h3⟩ := hp t List.mem_cons_self
    have h4 := ha t List.mem_cons_self
    rw [List.flatMap_cons, List.append_assoc, List.append_assoc, List.append_assoc, List.append_assoc]
    rw [← List.append_assoc entryPrefix]
    rw [List.cons_append, List.nil_append, linesOf_cons (by
      rw [List.mem_append]
      rintro (h | h)
      · revert h; decide
      · exact h1 h)]
    rw [linesOf_lines _ fun l hl => (h4 l hl).1]
    rw [← List.nil_append (['\n'] ++ _), List.cons_append, List.nil_append (as := trees.flatMap _), linesOf_cons (by simp), List.filterMap_cons, List.filterMap_append, List.filterMap_cons]
    rw [stripPrefix_append]
    have hnone : List.filterMap (fun line => (stripPrefix entryPrefix line).bind fun path => canonical (trimmed white path)) t.2 = [] := by
      rw [List.filterMap_eq_nil_iff]
      intro line hl
      cases hs : stripPrefix entryPrefix line with
      | none => rfl
      | some s => exact absurd ⟨s, (stripPrefix_some hs).symm⟩ (h4 line hl).2
    have hnil : (stripPrefix entryPrefix []).bind (fun path => canonical (trimmed white path)) = none := rfl
    rw [hnone, hnil]
    simp only [Option.bind_some, trimmed_self h2 h3, List.nil_append]
    rw [List.filterMap_cons, ih]

end NextPlaid.Worktree
