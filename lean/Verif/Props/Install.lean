import Verif.Proofs.Install2

namespace NextPlaid.Props

open NextPlaid NextPlaid.Spec NextPlaid.Install

/-- A small notion of blank space, for the examples. -/
@[reducible] def blankSpace (c : Char) : Bool := c = ' ' || c = '\n'

@[reducible] def codexTitle : Text := "# Codex Agent Tools".toList

/-- **C68** (every history).  However often `colgrep` is installed and uninstalled, with whatever versions of its instructions, and however
the owner edits the file in between, as long as nobody else writes one of the two lines: the file is what the description of the
specification says. -/
theorem C68_history {white : Char → Bool} {title : Text} (ht : Unmarked title) {n : Notes} (hn : n.Unmarked) (l : List Deed)
    (hl : ∀ d ∈ l, d.Unmarked) :
    ∃ n' : Notes, BecomeAll white title n l n' ∧ n'.Unmarked ∧ l.foldl (doDeed white title) n.file = n'.file := deeds ht l hn hl

example : Unmarked codexTitle ∧ (Notes.own "Be kind.\n".toList).Unmarked ∧
    (Deed.edit (.around "Be kind.\n".toList "v1".toList "\nBe brief.\n".toList)).Unmarked := by
  refine ⟨⟨?_, ?_⟩, ⟨?_, ?_⟩, ⟨⟨?_, ?_⟩, ⟨?_, ?_⟩⟩⟩ <;> decide +kernel

example : [Deed.install "v1".toList, .edit (.around "Be kind.\n".toList "v1".toList "\nBe brief.\n".toList), .install "v2".toList, .uninstall].foldl
    (doDeed blankSpace codexTitle) (some "Be kind.\n".toList) = some "Be kind.\n\nBe brief.\n".toList := by decide +kernel

/-- **C68** (the owner's text stays).  Installing and uninstalling in any order leaves every visible character of the owner's text, in its
order, unless there is none or only the title.  After an installation the file has the section with these instructions, after an
uninstallation it has none. -/
theorem C68_kept {white : Char → Bool} {title : Text} (hnl : white '\n' = true) (ht : Unmarked title) {n : Notes} (hn : n.Unmarked)
    (h1 : inked white n.text ≠ []) (h2 : inked white n.text ≠ inked white title) (l : List Deed) (hl : ∀ d ∈ l, d.Unmarked)
    (he : ∀ x, Deed.edit x ∉ l) :
    ∃ n' : Notes, l.foldl (doDeed white title) n.file = n'.file ∧ inked white n'.text = inked white n.text ∧
      (∀ s l₀, l = l₀ ++ [.install s] → n'.skill = some s) ∧ (∀ l₀, l = l₀ ++ [.uninstall] → n'.skill = none) := by
  obtain ⟨n', h, _, e⟩ := deeds (white := white) ht l hn hl
  refine ⟨n', e, kept_all hnl h he h1 h2, ?_, ?_⟩
  · rintro s l₀ rfl
    obtain ⟨m, hm⟩ := becomeAll_snoc h
    exact skill_install hm
  · rintro l₀ rfl
    obtain ⟨m, hm⟩ := becomeAll_snoc h
    exact skill_uninstall hm

example : blankSpace '\n' = true ∧ inked blankSpace "Be kind.\n".toList ≠ [] ∧
    inked blankSpace "Be kind.\n".toList ≠ inked blankSpace codexTitle := by decide +kernel

/-- **C68** (and back).  A file that begins and ends with a visible character, except for the end of its last line, and is not just the
title, is after installing and uninstalling what it was. -/
theorem C68_restores {white : Char → Bool} {title skill u : Text} (hnl : white '\n' = true) (hp : Unmarked (u ++ ['\n'])) (hs : Unmarked skill)
    (hu : u ≠ []) (ht : u ≠ title) (h1 : ∀ c ∈ u.head?, white c = false) (h2 : ∀ c ∈ u.getLast?, white c = false) :
    removeSection white title (addSection title skill (some (u ++ ['\n']))) = some (u ++ ['\n']) := by
  rw [remove_add hnl hp hs hu h1 h2 rfl (by simpa using hnl), if_neg ht]

/-- **C68** (and back, without a file).  If there was no file, there is none afterwards. -/
theorem C68_restores_absent {white : Char → Bool} {title skill : Text} (hnl : white '\n' = true) (ht : Unmarked title) (hs : Unmarked skill)
    (hu : title ≠ []) (h1 : ∀ c ∈ title.head?, white c = false) (h2 : ∀ c ∈ title.getLast?, white c = false) :
    removeSection white title (addSection title skill none) = none := by
  have hp : Unmarked (title ++ ['\n', '\n']) := by have := plain_sep ht (plain_sep plain_nil plain_nil); simpa using this
  have := remove_add (title := title) hnl hp hs hu h1 h2 rfl (by simpa using hnl)
  rw [if_pos rfl] at this
  exact this

example : (∀ c ∈ codexTitle.head?, blankSpace c = false) ∧ (∀ c ∈ codexTitle.getLast?, blankSpace c = false) ∧ codexTitle ≠ [] ∧
    "Be kind.".toList ≠ codexTitle ∧ (∀ c ∈ "Be kind.".toList.getLast?, blankSpace c = false) := by decide +kernel

/-- **C68** is false where the owner's text has the opening line without the closing one (say, because they deleted the rest of the
section): their text behind it is lost when `colgrep` is uninstalled. -/
theorem C68_opening_refuted : removeSection blankSpace codexTitle (addSection codexTitle "v1".toList
    (some "Be kind.\n<!-- COLGREP_START -->\nBe brief.\n".toList)) = some "Be kind.\n".toList := by decide +kernel

/-- **C68** is false where the two lines stand in the other order: the text between them is doubled. -/
theorem C68_order_refuted : removeSection blankSpace codexTitle (some "<!-- COLGREP_END -->\nBe kind.\n<!-- COLGREP_START -->\n".toList) =
    some "<!-- COLGREP_END -->\nBe kind.\n\nBe kind.\n<!-- COLGREP_START -->\n".toList := by decide +kernel

/-- **C68** is false for blank space: the indentation of the first line is lost, -/
theorem C68_indent_refuted : removeSection blankSpace codexTitle (addSection codexTitle "v1".toList (some "    make test\n".toList)) =
    some "make test\n".toList := by decide +kernel

/-- and every new installation adds an empty line. -/
theorem C68_again_refuted : addSection codexTitle "v1".toList (addSection codexTitle "v1".toList (some "Be kind.\n".toList)) =
    some ("Be kind.\n\n".toList ++ section_ "v1".toList) := by decide +kernel

/-- **C68** is false for an owner's file that has only the title: it is deleted. -/
theorem C68_title_refuted : removeSection blankSpace codexTitle (addSection codexTitle "v1".toList (some "# Codex Agent Tools\n".toList)) =
    none := by decide +kernel

/-! ### Codex's sandbox -/

/-- **C68** (the sandbox, installing).  Afterwards Codex may write to the directory; the other directories are the same, in their order, and
so is everything else in the file.  If it fails, the file is not touched. -/
theorem C68_sandbox_add {path : Text} {file : Option Toml} {d' : Toml} (ho : Once (file.getD ⟨[], []⟩))
    (h : addRoot path file = some (some d')) :
    SameRest (file.getD ⟨[], []⟩) d' ∧ ∃ l, MayWrite d' l ∧ Root.path path ∈ l ∧
      (MayWrite (file.getD ⟨[], []⟩) l ∨
        ∃ l₀, l = l₀ ++ [Root.path path] ∧ Root.path path ∉ l₀ ∧
          (MayWrite (file.getD ⟨[], []⟩) l₀ ∨ l₀ = [] ∧ ∀ v, ¬ HasSetting (file.getD ⟨[], []⟩) "sandbox_workspace_write" "writable_roots" v)) :=
  add_root ho h

/-- **C68** (the sandbox, installing again).  Where Codex may write to the directory already, nothing changes. -/
theorem C68_sandbox_again {path : Text} {file f : Option Toml} (h : addRoot path file = some f) : addRoot path f = some f := by
  simp only [addRoot] at h
  rw [Option.bind_eq_some_iff] at h
  obtain ⟨t, ht, h⟩ := h
  rw [Option.bind_eq_some_iff] at h
  obtain ⟨l, hl, h⟩ := h
  split at h
  · next hin =>
    simp only [Option.some.injEq] at h
    subst h
    simp only [addRoot, ht, Option.bind_some, hl, if_pos hin]
  · simp only [Option.some.injEq] at h
    subst h
    simp only [addRoot, Option.getD_some, sandboxTable, look_put, rootList, Option.bind_some]
    rw [if_pos (by simp)]

/-- **C68** (the sandbox, uninstalling).  Codex may no longer write to the directory by this list; the other directories are the same, in
their order, and so is everything else in the file.  The file vanishes if no setting is left. -/
theorem C68_sandbox_remove {path : Text} {d : Toml} (ho : Once d) :
    (removeRoot path (some d) = some d ∧ ∀ l, MayWrite d l → Root.path path ∉ l) ∨
    ∃ d' l, MayWrite d l ∧ Root.path path ∈ l ∧ SameRest d d' ∧
      (∀ l', MayWrite d' l' ↔ l' = l.filter (· ≠ Root.path path) ∧ l' ≠ []) ∧
      (removeRoot path (some d) = some d' ∧ d'.items ≠ [] ∨ removeRoot path (some d) = none ∧ d'.items = []) := remove_root ho

/-- **C68** (the sandbox, and back).  If the directory was not in the list, and there was no empty list, empty table or file without
settings, then after installing and uninstalling the file is what it was. -/
theorem C68_sandbox_restores {path : Text} {file f : Option Toml}
    (hnew : ∀ d t l, file = some d → look sandbox d.items = some (.table t) → look roots t = some (.array l) → Root.path path ∉ l ∧ l ≠ [])
    (htab : ∀ d, file = some d → d.items ≠ [] ∧ look sandbox d.items ≠ some (.table []))
    (h : addRoot path file = some f) : removeRoot path f = file := add_remove hnew htab h

/-- A file with a setting, a directory and a comment. -/
@[reducible] def someConfig : Toml :=
  ⟨[("model".toList, .other 1), ("sandbox_workspace_write".toList,
      .table [("network".toList, .other 2), ("writable_roots".toList, .array [.path "/tmp".toList])])], "# mine".toList⟩

example : addRoot "/data".toList (some someConfig) = some (some ⟨[("model".toList, .other 1), ("sandbox_workspace_write".toList,
      .table [("network".toList, .other 2), ("writable_roots".toList, .array [.path "/tmp".toList, .path "/data".toList])])],
      "# mine".toList⟩) ∧
    removeRoot "/data".toList ((addRoot "/data".toList (some someConfig)).getD none) = some someConfig ∧
    (someConfig.items.map (·.1)).Nodup := by decide +kernel

/-- **C68** is false for a file that has only comments: it is deleted with them. -/
theorem C68_sandbox_comments_refuted : (addRoot "/data".toList (some ⟨[], "# mine".toList⟩)).map (removeRoot "/data".toList) = some none := by
  decide +kernel

/-- **C68** is false for an owner who had listed the directory themselves: it is taken out. -/
theorem C68_sandbox_own_refuted : (addRoot "/tmp".toList (some someConfig)).map (removeRoot "/tmp".toList) =
    some (some ⟨[("model".toList, .other 1), ("sandbox_workspace_write".toList, .table [("network".toList, .other 2)])], "# mine".toList⟩) := by
  decide +kernel

/-! ### Claude Code's hooks -/

/-- **C68** (hooks).  Uninstalling takes out the matchers that have a hook whose command contains `colgrep`, then the events without
matchers, then the list of hooks if it is empty.  Nothing else in the settings changes: neither the other matchers and their order nor the
other settings and theirs. -/
theorem C68_hooks {l : List (Text × Json)} {events : List (Text × Json)} (h : look "hooks".toList l = some (.obj events)) :
    ∃ l', removeHooks (.obj l) = .obj l' ∧ (∀ k, k ≠ "hooks".toList → look k l' = look k l) ∧
      (clearedAll events = [] → look "hooks".toList l' = none ∧ l'.map (·.1) = (l.map (·.1)).filter (· ≠ "hooks".toList)) ∧
      (clearedAll events ≠ [] → look "hooks".toList l' = some (.obj (clearedAll events)) ∧ l'.map (·.1) = l.map (·.1)) := by
  have e : removeHooks (.obj l) = if clearedAll events = [] then .obj (drop hooksKey l) else
      .obj (put hooksKey (.obj (clearedAll events)) l) := by
    have h' : look hooksKey l = some (.obj events) := h
    simp only [removeHooks, h', cleanHooks_eq]
  rw [e]
  by_cases hc : clearedAll events = []
  · rw [if_pos hc]
    refine ⟨_, rfl, fun k hk => look_drop_ne hk l, fun _ => ⟨look_drop l, drop_names l⟩, fun hn => absurd hc hn⟩
  · rw [if_neg hc]
    exact ⟨_, rfl, fun k hk => look_put_ne hk _ l, fun hn => absurd hn hc, fun _ => ⟨look_put _ _ l, put_names h⟩⟩

/-- **C68** (no hooks).  Settings without a list of hooks are not changed. -/
theorem C68_no_hooks {j : Json} (h : ∀ events, ¬ Events j events) : removeHooks j = j := by
  cases j with
  | obj l =>
    simp only [removeHooks]
    split
    · next ev e => exact absurd ⟨l, rfl, e⟩ (h ev)
    · rfl
  | _ => rfl

/-- **C68** (hooks gone).  Afterwards no hook of any matcher of any event calls `colgrep`. -/
theorem C68_hooks_gone {j : Json} {events : List (Text × Json)} (h : Events (removeHooks j) events) {e : Text} {ms : List Json}
    (he : (e, Json.arr ms) ∈ events) {m : Json} (hm : m ∈ ms) : ¬ Ours m := by
  classical
  by_cases hj : ∃ ev, Events j ev
  · obtain ⟨ev, l, rfl, hl⟩ := hj
    obtain ⟨l', e', _, h1, h2⟩ := C68_hooks hl
    obtain ⟨l'', el, hl'⟩ := h
    rw [e'] at el
    cases el
    by_cases hc : clearedAll ev = []
    · rw [(h1 hc).1] at hl'; cases hl'
    · rw [(h2 hc).1] at hl'
      cases hl'
      unfold clearedAll at he
      rw [List.mem_filterMap] at he
      obtain ⟨⟨k, j⟩, _, hj⟩ := he
      rw [Option.map_eq_some_iff] at hj
      obtain ⟨j', hj', ej⟩ := hj
      cases ej
      cases j with
      | arr ms' =>
        simp only [cleared] at hj'
        split at hj'
        · cases hj'
        · simp only [Option.some.injEq, Json.arr.injEq] at hj'
          subst hj'
          simpa using (List.mem_filter.1 hm).2
      | _ => simp [cleared] at hj'
  · have hj' : ∀ ev, ¬ Events j ev := fun ev hv => hj ⟨ev, hv⟩
    rw [C68_no_hooks hj'] at h
    exact absurd h (hj' _)

/-- A hook with this command. -/
@[reducible] def hookFor (c : String) : Json := .obj [("type".toList, .str "command".toList), ("command".toList, .str c.toList)]

/-- A matcher with these hooks. -/
@[reducible] def matcherFor (l : List Json) : Json := .obj [("matcher".toList, .str "Bash".toList), ("hooks".toList, .arr l)]

example : removeHooks (.obj [("model".toList, .num 1), ("hooks".toList, .obj [("SessionStart".toList, .arr [matcherFor [hookFor "colgrep --hook"]]),
      ("Stop".toList, .arr [matcherFor [hookFor "bell"], matcherFor [hookFor "colgrep --x"]])])]) =
    .obj [("model".toList, .num 1), ("hooks".toList, .obj [("Stop".toList, .arr [matcherFor [hookFor "bell"]])])] := by
  simp +decide [removeHooks, look, cleanHooks, cleanEvent, keeps, Json.get, emptyEvent, mentions, put, hooksKey, commandKey, colgrep,
    Rank.containsText]

/-- **C68** is false for a matcher in which the owner has a hook of their own beside `colgrep`'s: theirs is taken out too. -/
theorem C68_hooks_mixed_refuted : removeHooks (.obj [("hooks".toList, .obj [("Stop".toList,
      .arr [matcherFor [hookFor "bell", hookFor "colgrep --hook"]])])]) = .obj [] ∧ ¬ Calls (hookFor "bell") := by
  constructor
  · simp +decide [removeHooks, look, cleanHooks, cleanEvent, keeps, Json.get, emptyEvent, mentions, put, drop, hooksKey, commandKey, colgrep,
      Rank.containsText]
  · rw [← mentions_iff]
    simp +decide [mentions, Json.get, look, commandKey, colgrep, Rank.containsText]

end NextPlaid.Props
