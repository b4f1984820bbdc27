import Verif.Proofs.Plugin

/-!
C108: the plugin for Claude Code is installed and removed completely, and its hooks speak up where colgrep can be used.
-/

namespace NextPlaid.Props
open NextPlaid.Plugin NextPlaid.Spec.Plugin NextPlaid.Proofs.Plugin

/-- The shell hands the path on as it is if no character of it means something in double quotes.  Partial: see
`C108_path_refuted`. -/
theorem C108_path_partial (path : List Char) (h : ∀ c ∈ path, ¬ Special c) : addArgument path = .closed path [] := by
  rw [addArgument, quoted_prefix path _ h, quoted_quote, push_closed, List.append_nil]

/-- Blanks and quotes of the other kind do no harm. -/
example : addArgument "/home/o'neil my/share/colgrep".toList = .closed "/home/o'neil my/share/colgrep".toList [] := by
  decide +kernel

/-- In every other path the shell reads something else: a `$` before a name or a parenthesis and a backtick are expanded, so
that a command in the name of a directory is run, a double quote ends the word, and an escaped character loses its backslash. -/
theorem C108_path_refuted (before after : List Char) (h : ∀ c ∈ before, ¬ Special c) :
    addArgument (before ++ '$' :: '(' :: after) = .expands ∧
    addArgument (before ++ '`' :: after) = .expands ∧
    addArgument (before ++ '"' :: after) = .closed before (after ++ ['"']) ∧
    (∀ t r, addArgument (before ++ '\\' :: '\\' :: after) = .closed t r → t ≠ before ++ '\\' :: '\\' :: after) := by
  refine ⟨?_, ?_, ?_, ?_⟩
  · rw [addArgument, List.append_assoc, quoted_prefix before _ h, List.cons_append, List.cons_append,
      quoted_dollar _ (by decide), push_expands]
  · rw [addArgument, List.append_assoc, quoted_prefix before _ h, List.cons_append, quoted_backtick, push_expands]
  · rw [addArgument, List.append_assoc, quoted_prefix before _ h, List.cons_append, quoted_quote, push_closed,
      List.append_nil]
  · intro t r
    rw [addArgument, List.append_assoc, quoted_prefix before _ h, List.cons_append, List.cons_append]
    have hq : quoted ('\\' :: '\\' :: (after ++ ['"'])) = (quoted (after ++ ['"'])).push '\\' := by
      simp [quoted, scan, escapable]
    rw [hq]
    rcases hw : quoted (after ++ ['"']) with ⟨u, v⟩ | _ | _
    · have hlen : u.length + v.length ≤ after.length := quoted_length after u v hw
      intro he
      rw [show Word.push '\\' (.closed u v) = .closed ('\\' :: u) v from rfl, push_closed] at he
      cases he
      intro hc
      have := congrArg List.length hc
      simp at this
      omega
    · intro he; rw [show Word.push '\\' .expands = .expands from rfl, push_expands] at he; cases he
    · intro he; rw [show Word.push '\\' .unclosed = .unclosed from rfl, push_unclosed] at he; cases he

/-- If the installation reports success the plugin is installed, from the files written now, whatever was there before; and
the file of settings is untouched. -/
theorem C108_installed (k : Calls) (dir : List Char) (w : World) (h : (install k dir w).1 = true) :
    Installed dir (install k dir w).2 ∧ (install k dir w).2.hooks = w.hooks := by
  have hmk : ∀ (x : World), (addMarket k.addMarket dir (addArgument dir) x).1 = true →
      (addMarket k.addMarket dir (addArgument dir) x).2 = { x with market := some dir } ∧ x.files = true := by
    intro x he
    unfold addMarket at he ⊢
    split at he
    · split at he
      · rename_i t heq hc
        simp only [Bool.and_eq_true, beq_iff_eq] at hc
        simp [hc.1.1, hc.1.2, hc.2]
      · cases he
    · cases he
  have hin : ∀ (x : World), (installPlugin k.install x).1 = true → (installPlugin k.install x).2 = { x with plugin := true } := by
    intro x he
    unfold installPlugin at he ⊢
    split at he
    · rename_i hc; simp [hc]
    · cases he
  have hhk : ∀ (x : World), (uninstallPlugin k.uninstall (removeMarket k.removeMarket x).2).2.hooks = x.hooks := by
    intro x
    simp only [uninstallPlugin, removeMarket]
    split <;> split <;> rfl
  unfold install at h ⊢
  split at h
  · cases h
  · rename_i h1
    split at h
    · cases h
    · rename_i h2
      rw [if_neg h1, if_neg h2]
      dsimp only at h ⊢
      split at h
      · cases h
      · rename_i h3
        rw [if_neg h3]
        simp only [Bool.not_eq_true', Bool.not_eq_false] at h3
        obtain ⟨e1, e2⟩ := hmk _ h3
        rw [hin _ h, e1]
        exact ⟨⟨e2, rfl, rfl⟩, hhk _⟩

/-- With a path without special characters and a Claude Code whose commands work, it does report success. -/
theorem C108_succeeds (k : Calls) (dir : List Char) (w : World) (h : ∀ c ∈ dir, ¬ Special c)
    (hk : k.version = true ∧ k.write = true ∧ k.addMarket = true ∧ k.install = true) : (install k dir w).1 = true := by
  obtain ⟨h1, h2, h3, h4⟩ := hk
  have hf : ∀ (a b : Bool) (x : World), (uninstallPlugin a (removeMarket b { x with files := true }).2).2.files = true := by
    intro a b x
    simp only [uninstallPlugin, removeMarket]
    split <;> split <;> rfl
  simp [install, h1, h2, h3, h4, C108_path_partial dir h, addMarket, hf, installPlugin]

/-- A second installation changes nothing. -/
theorem C108_again (k k' : Calls) (dir : List Char) (w : World) (h : (install k dir w).1 = true)
    (h' : (install k' dir (install k dir w).2).1 = true) :
    (install k' dir (install k dir w).2).2 = (install k dir w).2 := by
  obtain ⟨⟨h1, h2, h3⟩, h4⟩ := C108_installed k dir w h
  obtain ⟨⟨h1', h2', h3'⟩, h4'⟩ := C108_installed k' dir _ h'
  have ext : ∀ x y : World, x.files = y.files → x.market = y.market → x.plugin = y.plugin → x.hooks = y.hooks → x = y := by
    rintro ⟨_, _, _, _⟩ ⟨_, _, _, _⟩ rfl rfl rfl rfl; rfl
  exact ext _ _ (h1'.trans h1.symm) (h2'.trans h2.symm) (h3'.trans h3.symm) h4'

/-- A failed installation may take away a plugin that worked: the old one is removed before the new one can be had. -/
theorem C108_failed_install_refuted (dir : List Char) (w : World) (h : Installed dir w) :
    ∃ k : Calls, (install k dir w).1 = false ∧ (install k dir w).2.plugin = false ∧ (install k dir w).2.market = none := by
  obtain ⟨h1, h2, h3⟩ := h
  refine ⟨{ addMarket := false }, ?_⟩
  simp only [install, removeMarket, uninstallPlugin, h2, h3]
  rcases ha : addArgument dir with ⟨t, _ | ⟨c, r⟩⟩ | _ | _ <;> simp [addMarket]

example : Installed "d".toList ⟨true, some "d".toList, true, false⟩ := ⟨rfl, rfl, rfl⟩

/-- If every step of the removal succeeds nothing is left of an installed plugin, its hooks included.  Partial: it says so
also when steps fail (`C108_uninstalled_refuted`). -/
theorem C108_uninstalled_partial (k : Calls) (w : World)
    (hk : k.settings = true ∧ k.uninstall = true ∧ k.removeMarket = true ∧ k.removeFiles = true) :
    Gone (uninstall k w).2 := by
  obtain ⟨h1, h2, h3, h4⟩ := hk
  rcases w with ⟨f, m, p, q⟩
  cases p <;> cases m <;> simp [uninstall, uninstallPlugin, removeMarket, h1, h2, h3, h4, Gone]

/-- Installing and removing leaves things as on a machine that never had it. -/
theorem C108_there_and_back (k : Calls) (dir : List Char) (w : World) (hk : k.settings = true ∧ k.uninstall = true ∧
    k.removeMarket = true ∧ k.removeFiles = true) : (uninstall k (install k dir w).2).2 = {} := by
  obtain ⟨h1, h2, h3, h4⟩ := C108_uninstalled_partial k (install k dir w).2 hk
  rcases hx : (uninstall k (install k dir w).2).2 with ⟨a, b, c, d⟩
  rw [hx] at h1 h2 h3 h4
  simp only at h1 h2 h3 h4
  subst h1 h2 h3 h4
  rfl

/-- The removal says that colgrep has been uninstalled even if both commands fail; then the plugin is still registered, with
a marketplace whose files are gone. -/
theorem C108_uninstalled_refuted (dir : List Char) (w : World) (h : Installed dir w) :
    ∃ k : Calls, (uninstall k w).1 = true ∧ (uninstall k w).2.plugin = true ∧ (uninstall k w).2.market = some dir ∧
      (uninstall k w).2.files = false := by
  obtain ⟨h1, h2, h3⟩ := h
  exact ⟨{ uninstall := false, removeMarket := false }, by simp [uninstall, uninstallPlugin, removeMarket, h2, h3]⟩

/-- A session is told of colgrep exactly if there is an index for the project or for one around it, or the project has
between one and fifty files; unreadable entries and directories do not count. -/
theorem C108_hooks (exists_ : Bool) (parent : Option Bool) (entries : List (Option Bool)) :
    inject exists_ parent entries = true ↔
      exists_ = true ∨ parent = some true ∨ (1 ≤ filesIn entries ∧ filesIn entries ≤ 50) := by
  have := smallLoop_eq entries 0 (Nat.zero_le _)
  simp only [Nat.zero_add, smallLimit] at this
  simp only [inject, isSmall, Bool.or_eq_true, beq_iff_eq, this, or_assoc]
  rfl

example : inject false none [some true, some false, none] = true ∧ inject false (some false) [some false, none] = false ∧
    inject false none (List.replicate 51 (some true)) = false := by
  decide +kernel

end NextPlaid.Props
