import Verif.Proofs.Uninstall

/-!
C103: `colgrep --uninstall` removes what colgrep has stored and nothing else; `colgrep clear --all` removes the indexes and nothing else.
-/

namespace NextPlaid.Props

open NextPlaid.Uninstall NextPlaid.Spec.Uninstall

/-- A usual environment. -/
def Toy.env : Env := { xdg := none, colgrep := none, home := some ["home", "u"], platform := some ["home", "u", ".local", "share"] }

/-- Files of colgrep and of others. -/
def Toy.files : List Path :=
  [["home", "u", ".local", "share", "colgrep", "config.json"], ["home", "u", ".local", "share", "colgrep", "indices", "p-1", "state.json"],
   ["home", "u", ".cache", "colgrep", "onnxruntime", "lib.so"], ["home", "u", "thesis.tex"], ["home", "u", ".local", "share", "colgrep2", "x"]]

/-- **C103, uninstalling.**  If it says that all is uninstalled and `COLGREP_DATA_DIR` is not set, no file of colgrep is left. -/
theorem C103_uninstalled_partial (e : Env) (data cache : Fault) (fs fs' : List Path) (hno : e.colgrep = none) (h : uninstallAll e data cache fs = (true, fs')) :
    ∃ D home, (e.xdg = some D ∨ (e.xdg = none ∧ e.platform = some D)) ∧ e.home = some home ∧
      (∀ base, indexBase e = some base → ∀ name rest, Own D home (base ++ name :: rest)) ∧ (∀ c, configPath e = some c → Own D home c) ∧
      (∀ m, marketplace e = some m → ∀ rest, Own D home (m ++ rest)) ∧
      ∀ p, Own D home p → p ∉ fs' := by
  obtain ⟨d, c, hd, hc, hp⟩ := uninstallAll_ok h
  cases hD : dataHome e with
  | none => simp [dataDir, hD] at hd
  | some D =>
    cases hh : e.home with
    | none => simp [cacheDir, hh] at hc
    | some home =>
      simp only [dataDir, hD, Option.map_some, Option.some.injEq] at hd
      simp only [cacheDir, hh, Option.map_some, Option.some.injEq] at hc
      subst hd hc
      have hx : e.xdg = some D ∨ (e.xdg = none ∧ e.platform = some D) := by
        unfold dataHome at hD
        cases hx : e.xdg with
        | some q => rw [hx] at hD; exact .inl hD
        | none => rw [hx] at hD; exact .inr ⟨rfl, hD⟩
      have hb : indexBase e = some (D ++ ["colgrep", "indices"]) := by simp [indexBase, hno, hD]
      refine ⟨D, home, hx, rfl, ?_, ?_, ?_, ?_⟩
      · intro base hbase name rest
        rw [hb] at hbase
        cases hbase
        have := Own.index (dataHome := D) (home := home) name rest
        simpa using this
      · intro q hq
        have : D ++ ["colgrep", "indices"] = (D ++ ["colgrep"]) ++ ["indices"] := by simp
        simp only [configPath, hb, Option.bind_some, this, List.dropLast_concat] at hq
        rw [if_neg (by simp)] at hq
        cases hq
        have := Own.config (dataHome := D) (home := home)
        simpa using this
      · intro m hm rest
        simp only [marketplace, hD, Option.map_some, Option.some.injEq] at hm
        subst hm
        exact Own.plugin rest
      · intro p how hmem
        obtain ⟨_, h1, h2⟩ := (hp p).1 hmem
        cases how with
        | index name rest => exact h1 ⟨["indices", name] ++ rest, by simp, by simp⟩
        | config => exact h1 ⟨["config.json"], by simp, by simp⟩
        | plugin rest => exact h1 ⟨["claude-marketplace"] ++ rest, by simp, by simp⟩
        | runtime rest => exact h2 ⟨["onnxruntime"] ++ rest, by simp, by simp⟩

example : uninstallAll Toy.env none none Toy.files = (true, [["home", "u", "thesis.tex"], ["home", "u", ".local", "share", "colgrep2", "x"]]) := by decide +kernel

/-- **C103, nothing else.**  Whether it succeeds or not, uninstalling removes only files below the directory `colgrep` of the data directory and below
`.cache/colgrep` of the home directory, and adds none. -/
theorem C103_nothing_else (e : Env) (data cache : Fault) (fs : List Path) (p : Path) :
    (p ∈ (uninstallAll e data cache fs).2 → p ∈ fs) ∧
      (p ∈ fs → (∀ D, (e.xdg = some D ∨ (e.xdg = none ∧ e.platform = some D)) → ¬ Below (D ++ ["colgrep"]) p) →
        (∀ home, e.home = some home → ¬ Below (home ++ [".cache", "colgrep"]) p) → p ∈ (uninstallAll e data cache fs).2) := by
  have f1 := removeDir_frame data (dataDir e) fs p
  have f2 := removeDir_frame cache (cacheDir e) (removeDir data (dataDir e) fs).2 p
  have hd : (∀ D, (e.xdg = some D ∨ (e.xdg = none ∧ e.platform = some D)) → ¬ Below (D ++ ["colgrep"]) p) → ∀ d, dataDir e = some d → ¬ Below d p := by
    intro h d hd
    simp only [dataDir, Option.map_eq_some_iff] at hd
    obtain ⟨D, hD, rfl⟩ := hd
    refine h D ?_
    unfold dataHome at hD
    cases hx : e.xdg with
    | some q => rw [hx] at hD; exact .inl hD
    | none => rw [hx] at hD; exact .inr ⟨rfl, hD⟩
  have hc : (∀ home, e.home = some home → ¬ Below (home ++ [".cache", "colgrep"]) p) → ∀ d, cacheDir e = some d → ¬ Below d p := by
    intro h d hd
    simp only [cacheDir, Option.map_eq_some_iff] at hd
    obtain ⟨home, hh, rfl⟩ := hd
    exact h home hh
  unfold uninstallAll
  dsimp only
  split
  · exact ⟨fun h => f1.1 (f2.1 h), fun h a b => f2.2 (f1.2 h (hd a)) (hc b)⟩
  · exact ⟨f1.1, fun h a _ => f1.2 h (hd a)⟩

/-- **C103, but not with `COLGREP_DATA_DIR`.**  If it names a directory elsewhere, uninstalling says that all is uninstalled and leaves every index, and the
configuration beside it. -/
theorem C103_left_behind (e : Env) (dir : Path) (fs fs' : List Path) (data cache : Fault) (hdir : e.colgrep = some dir)
    (h : uninstallAll e data cache fs = (true, fs')) (p : Path) (hp : p ∈ fs) (hown : Below dir p ∨ configPath e = some p)
    (he1 : ∀ D, dataDir e = some D → ¬ Below D p) (he2 : ∀ D, cacheDir e = some D → ¬ Below D p) : p ∈ fs' ∧ indexBase e = some dir := by
  obtain ⟨d, c, hd, hc, hi⟩ := uninstallAll_ok h
  exact ⟨(hi p).2 ⟨hp, he1 d hd, he2 c hc⟩, by simp [indexBase, hdir]⟩

example : uninstallAll { Toy.env with colgrep := some ["data", "colgrep"] } none none [["data", "colgrep", "p-1", "state.json"], ["data", "config.json"]] =
    (true, [["data", "colgrep", "p-1", "state.json"], ["data", "config.json"]]) ∧
    configPath { Toy.env with colgrep := some ["data", "colgrep"] } = some ["data", "config.json"] := by decide +kernel

/-- **C103, a failure.**  If the data directory cannot be removed, the failure is reported, and the cache is left as it is. -/
theorem C103_failure (e : Env) (keep : Path → Bool) (cache : Fault) (fs : List Path) (d : Path) (hd : dataDir e = some d) (hthere : ∃ p ∈ fs, Below d p) :
    (uninstallAll e (some keep) cache fs).1 = false ∧
      ∀ p ∈ fs, ¬ Below d p → p ∈ (uninstallAll e (some keep) cache fs).2 := by
  have hr : removeDir (some keep) (dataDir e) fs = (false, fs.filter fun p => !below d p || keep p) := by
    rw [hd]
    simp only [removeDir, removeIfThere, removeTree]
    rw [if_pos]
    obtain ⟨p, hp, hb⟩ := hthere
    exact List.any_eq_true.2 ⟨p, hp, below_iff.2 hb⟩
  have hu : uninstallAll e (some keep) cache fs = (false, fs.filter fun p => !below d p || keep p) := by
    simp [uninstallAll, hr]
  rw [hu]
  exact ⟨rfl, fun p hp hb => List.mem_filter.2 ⟨hp, by rw [below_false hb]; rfl⟩⟩

example : dataDir Toy.env = some ["home", "u", ".local", "share", "colgrep"] ∧
    ∃ p ∈ Toy.files, below ["home", "u", ".local", "share", "colgrep"] p = true := by decide +kernel

/-- **C103, clearing all indexes.**  If it succeeds, nothing is left in any directory in the data directory, and everything else is: other directories, and
files that are directly in the data directory. -/
theorem C103_cleared (e : Env) (base : Path) (locked : String → Bool) (fault : String → Fault) (names : List String) (fs fs' : List Path)
    (hb : indexBase e = some base) (hnames : ∀ n, n ∈ names ↔ ∃ p ∈ fs, Below (base ++ [n]) p) (h : clearAll e locked fault names fs = (true, fs')) :
    ∀ p, p ∈ fs' ↔ p ∈ fs ∧ ¬ ∃ n, Below (base ++ [n]) p := by
  simp only [clearAll, hb] at h
  intro p
  rw [clearEach_ok h p]
  constructor
  · rintro ⟨hp, hn⟩
    exact ⟨hp, fun ⟨n, hbn⟩ => hn n ((hnames n).2 ⟨p, hp, hbn⟩) hbn⟩
  · rintro ⟨hp, hn⟩
    exact ⟨hp, fun n _ hbn => hn ⟨n, hbn⟩⟩

example : clearAll Toy.env (fun _ => false) (fun _ => none) ["p-1"] Toy.files =
    (true, [["home", "u", ".local", "share", "colgrep", "config.json"], ["home", "u", ".cache", "colgrep", "onnxruntime", "lib.so"], ["home", "u", "thesis.tex"],
      ["home", "u", ".local", "share", "colgrep2", "x"]]) := by decide +kernel

/-- **C103, nothing outside.**  Whether it succeeds or not, clearing removes only files in directories of the data directory. -/
theorem C103_clear_inside (e : Env) (locked : String → Bool) (fault : String → Fault) (names : List String) (fs : List Path) (p : Path) :
    (p ∈ (clearAll e locked fault names fs).2 → p ∈ fs) ∧
      (p ∈ fs → (∀ base, indexBase e = some base → ∀ n, ¬ Below (base ++ [n]) p) → p ∈ (clearAll e locked fault names fs).2) := by
  unfold clearAll
  cases hb : indexBase e with
  | none => exact ⟨id, fun h _ => h⟩
  | some base =>
    have := clearEach_frame base locked fault names fs p
    exact ⟨this.1, fun h hn => this.2 h fun n _ => hn base rfl n⟩

/-- **C103, but not only indexes.**  Clearing does not look whether a directory is an index: if `COLGREP_DATA_DIR` names a directory that is also used for
something else, every file in a directory in it is removed. -/
theorem C103_not_only_indexes (e : Env) (dir : Path) (locked : String → Bool) (fault : String → Fault) (names : List String) (fs fs' : List Path)
    (hdir : e.colgrep = some dir) (hnames : ∀ n, n ∈ names ↔ ∃ p ∈ fs, Below (dir ++ [n]) p) (h : clearAll e locked fault names fs = (true, fs'))
    (name file : String) (rest : List String) : dir ++ name :: file :: rest ∉ fs' := by
  have hb : indexBase e = some dir := by simp [indexBase, hdir]
  rw [C103_cleared e dir locked fault names fs fs' hb hnames h]
  rintro ⟨_, hn⟩
  exact hn ⟨name, file :: rest, by simp, by simp⟩

example : clearAll { Toy.env with colgrep := some ["home", "u"] } (fun _ => false) (fun _ => none) ["Photos"] [["home", "u", "Photos", "1.jpg"]] = (true, []) := by
  decide +kernel

/-- **C103, an index in use.**  If another process holds the lock of an index, clearing stops there and says so: the indexes that come before are cleared, that
one and those that come after are as they were. -/
theorem C103_in_use (e : Env) (base : Path) (locked : String → Bool) (before after : List String) (name : String) (fs : List Path)
    (hb : indexBase e = some base) (hl : locked name = true) (hfree : ∀ n ∈ before, locked n = false) :
    (clearAll e locked (fun _ => none) (before ++ name :: after) fs).1 = false ∧
      ∀ p, p ∈ (clearAll e locked (fun _ => none) (before ++ name :: after) fs).2 ↔ p ∈ fs ∧ ∀ n ∈ before, ¬ Below (base ++ [n]) p := by
  simp only [clearAll, hb]
  induction before generalizing fs with
  | nil => simp [clearEach, hl]
  | cons m ms ih =>
    have hm := hfree m (by simp)
    have := ih (removeTree none (base ++ [m]) fs).2 (fun n hn => hfree n (by simp [hn]))
    simp only [List.cons_append]
    rw [clearEach]
    simp only [hm, Bool.false_eq_true, if_false]
    rw [if_pos (by rfl)]
    refine ⟨this.1, fun p => ?_⟩
    rw [this.2 p]
    simp only [removeTree, List.mem_filter, List.mem_cons, forall_eq_or_imp, Bool.not_eq_true', and_assoc]
    refine and_congr Iff.rfl (and_congr ?_ Iff.rfl)
    rw [← below_iff]; simp

end NextPlaid.Props
