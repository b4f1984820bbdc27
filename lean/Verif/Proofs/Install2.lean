import Verif.Proofs.Install
import Verif.Proofs.Ranking2
import Mathlib.Data.List.Nodup

namespace NextPlaid.Install

open NextPlaid.Spec

variable {A : Type}

/-! ### Names and what stands under them -/

theorem look_mem {k : Text} {a : A} {l : List (Text × A)} (h : look k l = some a) : (k, a) ∈ l := by
  unfold look at h
  rw [Option.map_eq_some_iff] at h
  obtain ⟨p, hp, rfl⟩ := h
  have h1 := List.mem_of_find?_eq_some hp
  have h2 := List.find?_some hp
  simp only [decide_eq_true_eq] at h2
  subst h2
  exact h1

theorem look_none {k : Text} {a : A} {l : List (Text × A)} (h : look k l = none) : (k, a) ∉ l := by
  unfold look at h
  rw [Option.map_eq_none_iff, List.find?_eq_none] at h
  intro hm
  exact h _ hm (by simp)

theorem mem_look {k : Text} {a : A} : ∀ {l : List (Text × A)}, (l.map (·.1)).Nodup → (k, a) ∈ l → look k l = some a := by
  intro l
  induction l with
  | nil => intro _ h; cases h
  | cons p l ih =>
    intro hn h
    rw [List.map_cons, List.nodup_cons] at hn
    rcases List.mem_cons.1 h with h | h
    · subst h; simp [look]
    · have hne : p.1 ≠ k := by
        rintro rfl
        exact hn.1 (List.mem_map.2 ⟨_, h, rfl⟩)
      have := ih hn.2 h
      unfold look at this ⊢
      rw [List.find?_cons_of_neg (by simpa using hne)]
      exact this

theorem put_put (k : Text) (a b : A) : ∀ l : List (Text × A), put k a (put k b l) = put k a l
  | [] => by simp [put]
  | p :: l => by
    by_cases h : p.1 = k
    · simp [put, h]
    · simp [put, h, put_put k a b l]

theorem put_self {k : Text} {a : A} : ∀ {l : List (Text × A)}, look k l = some a → put k a l = l
  | [], h => by simp [look] at h
  | p :: l, h => by
    by_cases hp : p.1 = k
    · simp [look, hp] at h
      subst h
      simp [put, ← hp]
    · simp only [put, if_neg hp]
      rw [put_self]
      simpa [look, List.find?_cons_of_neg, hp] using h

theorem drop_put {k : Text} {a : A} : ∀ {l : List (Text × A)}, look k l = none → drop k (put k a l) = l
  | [], _ => by simp [drop, put]
  | p :: l, h => by
    by_cases hp : p.1 = k
    · simp [look, hp] at h
    · have h' : look k l = none := by simpa [look, List.find?_cons_of_neg, hp] using h
      simp only [put, if_neg hp]
      have := drop_put (a := a) h'
      unfold drop at this ⊢
      rw [List.filter_cons_of_pos (by simpa using hp), this]

theorem look_put (k : Text) (a : A) : ∀ l : List (Text × A), look k (put k a l) = some a
  | [] => by simp [look, put]
  | p :: l => by
    by_cases hp : p.1 = k
    · simp [look, put, hp]
    · simp only [put, if_neg hp]
      have := look_put k a l
      simpa [look, List.find?_cons_of_neg, hp] using this

theorem mem_put {k k' : Text} {a b : A} (hk : k' ≠ k) : ∀ {l : List (Text × A)}, (k', b) ∈ put k a l ↔ (k', b) ∈ l
  | [] => by simp [put, hk]
  | p :: l => by
    by_cases hp : p.1 = k
    · simp only [put, if_pos hp, List.mem_cons, Prod.mk.injEq, hk, false_and, false_or]
      constructor
      · exact .inr
      · rintro (rfl | h)
        · exact absurd hp hk
        · exact h
    · simp only [put, if_neg hp, List.mem_cons, mem_put hk]

theorem mem_put_self {k : Text} {a b : A} : ∀ {l : List (Text × A)}, (l.map (·.1)).Nodup → ((k, b) ∈ put k a l ↔ b = a)
  | [], _ => by simp [put]
  | p :: l, hn => by
    rw [List.map_cons, List.nodup_cons] at hn
    by_cases hp : p.1 = k
    · simp only [put, if_pos hp, List.mem_cons, Prod.mk.injEq, true_and]
      constructor
      · rintro (h | h)
        · exact h
        · exact absurd (List.mem_map.2 ⟨_, h, hp.symm⟩) hn.1
      · exact .inl
    · simp only [put, if_neg hp, List.mem_cons, mem_put_self hn.2]
      constructor
      · rintro (h | h)
        · exact absurd (by rw [← h]) hp
        · exact h
      · exact .inr

theorem mem_drop {k k' : Text} {b : A} {l : List (Text × A)} : (k', b) ∈ drop k l ↔ (k', b) ∈ l ∧ k' ≠ k := by
  simp [drop]

/-! ### `config.toml` -/

theorem once_nil : Once ⟨[], []⟩ := ⟨by simp, by simp⟩

theorem once_look {d : Toml} (h : Once d) {t : List (Text × Value)} (hs : look sandbox d.items = some (.table t)) : (t.map (·.1)).Nodup :=
  h.2 _ _ (look_mem hs)

theorem says_iff {d : Toml} (h : Once d) {key : String} {v : Value} :
    HasSetting d "sandbox_workspace_write" key v ↔ ∃ t, look sandbox d.items = some (.table t) ∧ (key.toList, v) ∈ t := by
  constructor
  · rintro ⟨t, h1, h2⟩; exact ⟨t, mem_look h.1 h1, h2⟩
  · rintro ⟨t, h1, h2⟩; exact ⟨t, look_mem h1, h2⟩

theorem tableOf {d : Toml} {t : List (Text × Value)} (h : sandboxTable d = some t) :
    (look sandbox d.items = none ∧ t = []) ∨ look sandbox d.items = some (.table t) := by
  unfold sandboxTable at h
  split at h
  · next e => cases h; exact .inl ⟨e, rfl⟩
  · next e => cases h; exact .inr e
  · cases h

theorem listOf {t : List (Text × Value)} {l : List Root} (h : rootList t = some l) :
    (look roots t = none ∧ l = []) ∨ look roots t = some (.array l) := by
  unfold rootList at h
  split at h
  · next e => cases h; exact .inl ⟨e, rfl⟩
  · next e => cases h; exact .inr e
  · cases h

/-- After the table has been set. -/
theorem sandbox_put {d : Toml} (h : Once d) (i : Item) {key : String} {v : Value} :
    HasSetting { d with items := put sandbox i d.items } "sandbox_workspace_write" key v ↔ ∃ t, i = .table t ∧ (key.toList, v) ∈ t := by
  constructor
  · rintro ⟨t, h1, h2⟩
    have := (mem_put_self h.1).1 h1
    exact ⟨t, this.symm, h2⟩
  · rintro ⟨t, rfl, h2⟩
    exact ⟨t, look_mem (look_put _ _ _), h2⟩

theorem sandbox_drop {d : Toml} {key : String} {v : Value} :
    ¬ HasSetting { d with items := drop sandbox d.items } "sandbox_workspace_write" key v := by
  rintro ⟨t, h1, _⟩
  exact (mem_drop.1 h1).2 rfl

theorem key_ne {key : String} (h : key ≠ "writable_roots") : key.toList ≠ roots := by
  intro e
  exact h (String.toList_injective e)

theorem add_root {path : Text} {file : Option Toml} {d' : Toml} (ho : Once (file.getD ⟨[], []⟩))
    (h : addRoot path file = some (some d')) :
    SameRest (file.getD ⟨[], []⟩) d' ∧ ∃ l, MayWrite d' l ∧ Root.path path ∈ l ∧
      ((MayWrite (file.getD ⟨[], []⟩) l) ∨
        ∃ l₀, l = l₀ ++ [Root.path path] ∧ Root.path path ∉ l₀ ∧
          (MayWrite (file.getD ⟨[], []⟩) l₀ ∨ l₀ = [] ∧ ∀ v, ¬ HasSetting (file.getD ⟨[], []⟩) "sandbox_workspace_write" "writable_roots" v)) := by
  revert ho h
  generalize hd : file.getD ⟨[], []⟩ = d
  intro ho h
  simp only [addRoot, hd] at h
  rw [Option.bind_eq_some_iff] at h
  obtain ⟨t, ht, h⟩ := h
  rw [Option.bind_eq_some_iff] at h
  obtain ⟨l, hl, h⟩ := h
  have htn : (t.map (·.1)).Nodup := by
    rcases tableOf ht with ⟨_, rfl⟩ | h1
    · simp
    · exact once_look ho h1
  split at h
  · next hin =>
    simp only [Option.some.injEq] at h
    subst h
    simp only [Option.getD_some] at hd
    subst hd
    refine ⟨⟨rfl, fun _ _ _ => Iff.rfl, fun _ _ _ => Iff.rfl⟩, l, ?_⟩
    have hw : MayWrite d' l := by
      rcases listOf hl with ⟨_, rfl⟩ | h2
      · simp at hin
      · rcases tableOf ht with ⟨_, rfl⟩ | h1
        · simp [look] at h2
        · exact ⟨t, look_mem h1, look_mem h2⟩
    exact ⟨hw, hin, .inl hw⟩
  · next hin =>
    simp only [Option.some.injEq] at h
    subst h
    refine ⟨⟨rfl, fun k i hk => mem_put hk, fun key v hk => ?_⟩, l ++ [Root.path path], ?_, by simp, .inr ⟨l, rfl, hin, ?_⟩⟩
    · rw [sandbox_put ho, says_iff ho]
      constructor
      · rintro ⟨t', e, hm⟩
        cases e
        rw [mem_put (key_ne hk)] at hm
        rcases tableOf ht with ⟨_, rfl⟩ | h1
        · cases hm
        · exact ⟨t, h1, hm⟩
      · rintro ⟨t', e, hm⟩
        refine ⟨_, rfl, (mem_put (key_ne hk)).2 ?_⟩
        rcases tableOf ht with ⟨h0, _⟩ | h1
        · rw [h0] at e; cases e
        · rw [h1] at e; cases e; exact hm
    · exact (sandbox_put ho _).2 ⟨_, rfl, look_mem (look_put _ _ _)⟩
    · rcases listOf hl with ⟨h0, rfl⟩ | h2
      · refine .inr ⟨rfl, fun v hv => ?_⟩
        rw [says_iff ho] at hv
        obtain ⟨t', e, hm⟩ := hv
        rcases tableOf ht with ⟨h1, _⟩ | h1
        · rw [h1] at e; cases e
        · rw [h1] at e; cases e; exact look_none h0 hm
      · rcases tableOf ht with ⟨_, rfl⟩ | h1
        · simp [look] at h2
        · exact .inl ⟨t, look_mem h1, look_mem h2⟩

theorem remove_root {path : Text} {d : Toml} (ho : Once d) :
    (removeRoot path (some d) = some d ∧ ∀ l, MayWrite d l → Root.path path ∉ l) ∨
    ∃ d' l, MayWrite d l ∧ Root.path path ∈ l ∧ SameRest d d' ∧
      (∀ l', MayWrite d' l' ↔ l' = l.filter (· ≠ Root.path path) ∧ l' ≠ []) ∧
      (removeRoot path (some d) = some d' ∧ d'.items ≠ [] ∨ removeRoot path (some d) = none ∧ d'.items = []) := by
  have none_case : (∀ l, ¬ MayWrite d l) → removeRoot path (some d) = some d →
      (removeRoot path (some d) = some d ∧ ∀ l, MayWrite d l → Root.path path ∉ l) := fun h e => ⟨e, fun l hl => absurd hl (h l)⟩
  cases hs : look sandbox d.items with
  | none =>
    refine .inl (none_case ?_ ?_)
    · intro l hl
      obtain ⟨t, h1, _⟩ := (says_iff ho).1 hl
      rw [hs] at h1; cases h1
    · simp [removeRoot, hs]
  | some i =>
    cases i with
    | other n =>
      refine .inl (none_case ?_ ?_)
      · intro l hl
        obtain ⟨t, h1, _⟩ := (says_iff ho).1 hl
        rw [hs] at h1; cases h1
      · simp [removeRoot, hs]
    | table t =>
      have htn := once_look ho hs
      have hw : ∀ l, MayWrite d l ↔ look roots t = some (.array l) := by
        intro l
        rw [MayWrite, says_iff ho]
        constructor
        · rintro ⟨t', e, hm⟩; rw [hs] at e; cases e; exact mem_look htn hm
        · intro e; exact ⟨t, hs, look_mem e⟩
      cases hr : look roots t with
      | none =>
        refine .inl (none_case ?_ ?_)
        · intro l hl; rw [hw, hr] at hl; cases hl
        · simp [removeRoot, hs, hr]
      | some v =>
        cases v with
        | other n =>
          refine .inl (none_case ?_ ?_)
          · intro l hl; rw [hw, hr] at hl; cases hl
          · simp [removeRoot, hs, hr]
        | array l =>
          by_cases hin : Root.path path ∈ l
          · refine .inr ⟨dropRoot d t (l.filter (· ≠ Root.path path)), l, (hw l).2 hr, hin, ?_, ?_, ?_⟩
            · refine ⟨rfl, fun k i hk => ?_, fun key v hk => ?_⟩
              · unfold dropRoot
                dsimp only
                by_cases he : (if (l.filter (· ≠ Root.path path)) = [] then drop roots t
                    else put roots (.array (l.filter (· ≠ Root.path path))) t) = []
                · rw [if_pos he, mem_drop]
                  exact ⟨fun h => h.1, fun h => ⟨h, hk⟩⟩
                · rw [if_neg he, mem_put (k := sandbox) hk]
              · have hmem : ∀ t', t' = (if (l.filter (· ≠ Root.path path)) = [] then drop roots t
                    else put roots (.array (l.filter (· ≠ Root.path path))) t) → ((key.toList, v) ∈ t' ↔ (key.toList, v) ∈ t) := by
                  rintro t' rfl
                  split
                  · rw [mem_drop]; exact ⟨fun h => h.1, fun h => ⟨h, key_ne hk⟩⟩
                  · rw [mem_put (key_ne hk)]
                have hd : HasSetting d "sandbox_workspace_write" key v ↔ (key.toList, v) ∈ t := by
                  rw [says_iff ho]
                  constructor
                  · rintro ⟨t', e, hm⟩; rw [hs] at e; cases e; exact hm
                  · intro hm; exact ⟨t, hs, hm⟩
                rw [hd]
                unfold dropRoot
                dsimp only
                revert hmem
                generalize (if (l.filter (· ≠ Root.path path)) = [] then drop roots t
                    else put roots (.array (l.filter (· ≠ Root.path path))) t) = t'
                intro hmem
                rw [← hmem t' rfl]
                by_cases he : t' = []
                · rw [if_pos he, he]
                  simp only [List.not_mem_nil, iff_false]
                  exact sandbox_drop
                · rw [if_neg he, sandbox_put ho]
                  constructor
                  · rintro ⟨_, e, hm⟩; cases e; exact hm
                  · intro hm; exact ⟨_, rfl, hm⟩
            · intro l'
              by_cases hf : l.filter (· ≠ Root.path path) = []
              · rw [hf]
                constructor
                · intro h
                  exfalso
                  unfold MayWrite dropRoot at h
                  dsimp only at h
                  rw [if_pos rfl] at h
                  split at h
                  · exact sandbox_drop h
                  · rw [sandbox_put ho] at h
                    obtain ⟨_, e, hm⟩ := h
                    cases e
                    exact (mem_drop.1 hm).2 rfl
                · rintro ⟨h1, h2⟩; exact absurd h1 h2
              · have hne : put roots (Value.array (l.filter (· ≠ Root.path path))) t ≠ [] := by
                  intro e
                  have := look_put roots (Value.array (l.filter (· ≠ Root.path path))) t
                  rw [e] at this
                  simp [look] at this
                unfold MayWrite dropRoot
                dsimp only
                rw [if_neg hf, if_neg hne, sandbox_put ho]
                constructor
                · rintro ⟨_, e, hm⟩
                  cases e
                  have := (mem_put_self htn).1 hm
                  cases this
                  exact ⟨rfl, hf⟩
                · rintro ⟨rfl, _⟩
                  exact ⟨_, rfl, look_mem (look_put _ _ _)⟩
            · by_cases he : (dropRoot d t (l.filter (· ≠ Root.path path))).items = []
              · refine .inr ⟨?_, he⟩
                simp only [removeRoot, hs, hr, not_true_eq_false, hin, if_false, if_pos he]
              · refine .inl ⟨?_, he⟩
                simp only [removeRoot, hs, hr, not_true_eq_false, hin, if_false, if_neg he]
          · refine .inl ⟨?_, ?_⟩
            · simp only [removeRoot, hs, hr, hin, not_false_eq_true, if_true]
            · intro l' hl'
              rw [hw, hr] at hl'
              cases hl'
              exact hin

/-- Removing what has been added gives back the same file. -/
theorem add_remove {path : Text} {file f : Option Toml}
    (hnew : ∀ d t l, file = some d → look sandbox d.items = some (.table t) → look roots t = some (.array l) → Root.path path ∉ l ∧ l ≠ [])
    (htab : ∀ d, file = some d → d.items ≠ [] ∧ look sandbox d.items ≠ some (.table []))
    (h : addRoot path file = some f) : removeRoot path f = file := by
  simp only [addRoot] at h
  rw [Option.bind_eq_some_iff] at h
  obtain ⟨t, ht, h⟩ := h
  rw [Option.bind_eq_some_iff] at h
  obtain ⟨l, hl, h⟩ := h
  have hin : Root.path path ∉ l := by
    rcases listOf hl with ⟨_, rfl⟩ | h2
    · simp
    · rcases tableOf ht with ⟨_, rfl⟩ | h1
      · simp [look] at h2
      · cases file with
        | none => simp [look] at h1
        | some d => exact (hnew d t l rfl h1 h2).1
  rw [if_neg hin] at h
  simp only [Option.some.injEq] at h
  subst h
  have hfil : (l ++ [Root.path path]).filter (· ≠ Root.path path) = l := by
    rw [List.filter_append, List.filter_eq_self.2]
    · simp
    · intro a ha
      simp only [ne_eq, decide_not, Bool.not_eq_eq_eq_not, Bool.not_true, decide_eq_false_iff_not]
      rintro rfl
      exact hin ha
  -- the table after the removal
  have htt : (if l = [] then drop roots (put roots (.array (l ++ [Root.path path])) t)
      else put roots (.array l) (put roots (.array (l ++ [Root.path path])) t)) = t := by
    rcases listOf hl with ⟨h0, rfl⟩ | h2
    · rw [if_pos rfl, drop_put h0]
    · have : l ≠ [] := by
        rcases tableOf ht with ⟨_, rfl⟩ | h1
        · simp [look] at h2
        · cases file with
          | none => simp [look] at h1
          | some d => exact (hnew d t l rfl h1 h2).2
      rw [if_neg this, put_put, put_self h2]
  have hd : ∀ d : Toml, file.getD ⟨[], []⟩ = d →
      (dropRoot { d with items := put sandbox (.table (put roots (.array (l ++ [Root.path path])) t)) d.items }
        (put roots (.array (l ++ [Root.path path])) t) l) = d := by
    intro d hd
    unfold dropRoot
    dsimp only
    rw [htt]
    rcases tableOf ht with ⟨h0, rfl⟩ | h1
    · rw [if_pos rfl, hd] at *
      rw [drop_put h0]
    · rw [hd] at h1
      have : t ≠ [] := by
        rintro rfl
        cases file with
        | none => simp at hd; subst hd; simp [look] at h1
        | some d' => simp at hd; subst hd; exact (htab d' rfl).2 h1
      rw [if_neg this, put_put, put_self h1]
  have hd' := hd _ rfl
  have e1 := look_put sandbox (Item.table (put roots (.array (l ++ [Root.path path])) t)) (file.getD ⟨[], []⟩).items
  have e2 := look_put roots (Value.array (l ++ [Root.path path])) t
  have hmem : Root.path path ∈ l ++ [Root.path path] := by simp
  simp only [removeRoot, e1, e2, hmem, not_true_eq_false, if_false, hfil, hd']
  cases file with
  | none => simp
  | some d => simp [(htab d rfl).1]

/-! ### `settings.json` -/

theorem mentions_iff {j : Json} : mentions j = true ↔ Calls j := by
  cases j with
  | obj l =>
    simp only [mentions, Json.get, Calls, Json.obj.injEq]
    cases h : look commandKey l with
    | none =>
      simp only [Bool.false_eq_true, false_iff]
      rintro ⟨_, _, rfl, e, _⟩
      rw [show "command".toList = commandKey from rfl, h] at e; cases e
    | some v =>
      cases v <;> simp only [Bool.false_eq_true, false_iff]
      case str s =>
        rw [Rank.containsText_iff]
        constructor
        · intro hi; exact ⟨l, s, rfl, h, hi⟩
        · rintro ⟨_, _, rfl, e, hi⟩
          rw [show "command".toList = commandKey from rfl, h] at e; cases e; exact hi
      all_goals
        rintro ⟨_, _, rfl, e, _⟩
        rw [show "command".toList = commandKey from rfl, h] at e; cases e
  | _ => simp [mentions, Json.get, Calls]

theorem keeps_iff {j : Json} : keeps j = true ↔ ¬ Ours j := by
  cases j with
  | obj l =>
    simp only [keeps, Json.get, Ours, Json.obj.injEq]
    cases h : look hooksKey l with
    | none =>
      simp only [true_iff]
      rintro ⟨_, _, rfl, e, _⟩
      rw [show "hooks".toList = hooksKey from rfl, h] at e; cases e
    | some v =>
      cases v <;> simp only [true_iff]
      case arr hs =>
        rw [Bool.not_eq_true', Bool.eq_false_iff, Ne, List.any_eq_true, not_iff_not]
        constructor
        · rintro ⟨x, hx, hc⟩; exact ⟨l, hs, rfl, h, x, hx, mentions_iff.1 hc⟩
        · rintro ⟨_, _, rfl, e, x, hx, hc⟩
          rw [show "hooks".toList = hooksKey from rfl, h] at e; cases e
          exact ⟨x, hx, mentions_iff.2 hc⟩
      all_goals
        rintro ⟨_, _, rfl, e, _⟩
        rw [show "hooks".toList = hooksKey from rfl, h] at e; cases e
  | _ => simp [keeps, Json.get, Ours]

theorem filter_keeps (l : List Json) : open Classical in l.filter keeps = l.filter fun m => ¬ Ours m := by
  apply List.filter_congr
  intro m _
  rw [Bool.eq_iff_iff, keeps_iff]
  simp

theorem cleanHooks_eq (events : List (Text × Json)) : cleanHooks events = clearedAll events := by
  classical
  induction events with
  | nil => rfl
  | cons p l ih =>
    unfold cleanHooks clearedAll at ih ⊢
    rw [List.map_cons, List.filter_cons, List.filterMap_cons, ih]
    obtain ⟨k, j⟩ := p
    cases j with
    | arr ms =>
      simp only [cleanEvent, cleared, filter_keeps]
      by_cases h : ms.filter (fun m => ¬ Ours m) = []
      · rw [if_pos h]
        simp only [h, emptyEvent, Option.map_none]
        rfl
      · rw [if_neg h]
        simp only [Option.map_some]
        have : emptyEvent (.arr (ms.filter fun m => ¬ Ours m)) = false := by
          unfold emptyEvent
          split
          · next e => rw [Json.arr.injEq] at e; exact absurd e h
          · rfl
        rw [this]
        rfl
    | _ => simp [cleanEvent, cleared, emptyEvent]

theorem look_drop_ne {k k' : Text} (h : k' ≠ k) : ∀ l : List (Text × A), look k' (drop k l) = look k' l
  | [] => rfl
  | p :: l => by
    have ih := look_drop_ne h l
    unfold drop look at *
    by_cases hp : p.1 = k
    · have : ¬ p.1 = k' := fun e => h (e ▸ hp)
      rw [List.filter_cons_of_neg (by simpa using hp), List.find?_cons_of_neg (by simpa using this)]
      exact ih
    · rw [List.filter_cons_of_pos (by simpa using hp)]
      by_cases hk : p.1 = k'
      · simp [hk]
      · rw [List.find?_cons_of_neg (by simpa using hk), List.find?_cons_of_neg (by simpa using hk)]
        exact ih

theorem look_drop {k : Text} (l : List (Text × A)) : look k (drop k l) = none := by
  unfold look drop
  rw [Option.map_eq_none_iff, List.find?_eq_none]
  intro p hp
  simpa using (List.mem_filter.1 hp).2

theorem look_put_ne {k k' : Text} (h : k' ≠ k) (a : A) : ∀ l : List (Text × A), look k' (put k a l) = look k' l
  | [] => by simp [put, look, Ne.symm h]
  | p :: l => by
    have ih := look_put_ne h a l
    by_cases hp : p.1 = k
    · have : ¬ p.1 = k' := fun e => h (e ▸ hp)
      simp only [put, if_pos hp]
      unfold look
      rw [List.find?_cons_of_neg (by simpa using Ne.symm h), List.find?_cons_of_neg (by simpa using this)]
    · simp only [put, if_neg hp]
      unfold look at *
      by_cases hk : p.1 = k'
      · simp [hk]
      · rw [List.find?_cons_of_neg (by simpa using hk), List.find?_cons_of_neg (by simpa using hk)]
        exact ih

theorem put_names {k : Text} {a b : A} : ∀ {l : List (Text × A)}, look k l = some b → (put k a l).map (·.1) = l.map (·.1)
  | [], h => by simp [look] at h
  | p :: l, h => by
    by_cases hp : p.1 = k
    · simp [put, hp]
    · simp only [put, if_neg hp, List.map_cons]
      rw [put_names (b := b)]
      simpa [look, List.find?_cons_of_neg, hp] using h

theorem drop_names {k : Text} (l : List (Text × A)) : (drop k l).map (·.1) = (l.map (·.1)).filter (· ≠ k) := by
  rw [drop, List.filter_map]; rfl

/-! ### Trimming what is trimmed -/

theorem trim_eq {white : Char → Bool} {u w : Text} (hu : u ≠ []) (h1 : ∀ c ∈ u.head?, white c = false)
    (h2 : ∀ c ∈ u.getLast?, white c = false) (hw : ∀ c ∈ w, white c = true) : trim white (u ++ w) = u := by
  have e1 : (u ++ w).dropWhile white = u ++ w := by
    cases u with
    | nil => exact absurd rfl hu
    | cons c u => rw [List.cons_append, List.dropWhile_cons_of_neg]; simpa using h1 c rfl
  have e2 : (w.reverse ++ u.reverse).dropWhile white = u.reverse := by
    rw [List.dropWhile_append_of_pos (by simpa using hw)]
    cases hr : u.reverse with
    | nil => simp at hr; exact absurd hr hu
    | cons c v =>
      rw [List.dropWhile_cons_of_neg]
      have : u.getLast? = some c := by rw [← List.head?_reverse, hr]; rfl
      simpa using h2 c this
  rw [trim, e1, List.reverse_append, e2, List.reverse_reverse]

theorem remove_add {white : Char → Bool} {title skill t u w : Text} (hnl : white '\n' = true) (ht : Unmarked t) (hs : Unmarked skill)
    (hu : u ≠ []) (h1 : ∀ c ∈ u.head?, white c = false) (h2 : ∀ c ∈ u.getLast?, white c = false) (e : t = u ++ w)
    (hw : ∀ c ∈ w, white c = true) :
    removeSection white title (addSection title skill (some t)) = if u = title then none else some (u ++ ['\n']) := by
  have sec : t ++ section_ skill = t ++ opening ++ ['\n'] ++ skill ++ ['\n'] ++ closing ++ ['\n'] := by
    simp [section_, markers.1, markers.2]
  have htr : trim white (t ++ ['\n']) = u := by
    rw [e, List.append_assoc]
    refine trim_eq hu h1 h2 ?_
    intro c hc
    rcases List.mem_append.1 hc with hc | hc
    · exact hw c hc
    · rw [List.mem_singleton.1 hc]; exact hnl
  simp only [addSection, removeSection, Option.getD_some, strip_plain ht.1, Option.getD_none, sec, strip_around ht hs, htr, hu, false_or]

/-! ### Histories without edits -/

theorem kept_step {white : Char → Bool} {title : Text} (hnl : white '\n' = true) {n n' : Notes} {d : Deed} (h : Becomes white title n d n')
    (hd : ∀ x, d ≠ .edit x) (h1 : inked white n.text ≠ []) (h2 : inked white n.text ≠ inked white title) :
    inked white n'.text = inked white n.text := by
  have hn : inked white ['\n'] = [] := filter_white (by simpa using hnl)
  have app : ∀ a b : Text, inked white (a ++ b) = inked white a ++ inked white b := fun a b => List.filter_append ..
  cases h with
  | first => exact absurd rfl h1
  | append t s => simp only [Notes.text, app, hn, List.append_nil]
  | renew b s a s' => simp only [Notes.text, app, hn, List.append_nil]
  | nothing => rfl
  | none => rfl
  | gone b s a u hc hg =>
    exfalso
    have := core_inked hc
    rcases hg with rfl | rfl
    · exact h1 this.symm
    · exact h2 this.symm
  | left b s a u hc _ _ =>
    have := core_inked hc
    simp only [Notes.text, app, hn, List.append_nil] at this ⊢
    exact this
  | edit => exact absurd rfl (hd _)

theorem kept_all {white : Char → Bool} {title : Text} (hnl : white '\n' = true) {n n' : Notes} {l : List Deed}
    (h : BecomeAll white title n l n') (hd : ∀ x, Deed.edit x ∉ l) (h1 : inked white n.text ≠ [])
    (h2 : inked white n.text ≠ inked white title) : inked white n'.text = inked white n.text := by
  induction h with
  | nil => rfl
  | cons n d n1 l n2 hb _ ih =>
    have e := kept_step hnl hb (fun x ex => hd x (by simp [ex])) h1 h2
    rw [ih (fun x hx => hd x (by simp [hx])) (by rw [e]; exact h1) (by rw [e]; exact h2), e]

theorem skill_install {white : Char → Bool} {title : Text} {n n' : Notes} {s : Text} (h : Becomes white title n (.install s) n') :
    n'.skill = some s := by
  cases h <;> rfl

theorem skill_uninstall {white : Char → Bool} {title : Text} {n n' : Notes} (h : Becomes white title n .uninstall n') : n'.skill = none := by
  cases h <;> rfl

theorem becomeAll_snoc {white : Char → Bool} {title : Text} {d : Deed} : ∀ {l : List Deed} {n n' : Notes},
    BecomeAll white title n (l ++ [d]) n' → ∃ m, Becomes white title m d n'
  | [], n, n', h => by
    cases h with
    | cons _ _ _ _ _ hb hr => cases hr; exact ⟨_, hb⟩
  | e :: l, n, n', h => by
    cases h with
    | cons _ _ _ _ _ hb hr => exact becomeAll_snoc hr

end NextPlaid.Install
