import Verif.Proofs.SelfUpdate

/-!
C105: when `colgrep update` says that colgrep is up to date or has been updated, the latest version is installed; if it cannot find out or install it,
it says so.

The first half of this fails: the status of the download is lost in a pipeline.  Proved: it holds if the installer arrives as a whole and reports its
failures; what is read from the answer of the server; when nothing is installed.
-/

namespace NextPlaid.Props

open NextPlaid.SelfUpdate NextPlaid.Spec.SelfUpdate

/-- An answer with a version. -/
def Toy.answer (tag : String) : List Char := ("{\"id\":1,\"tag_name\":\"" ++ tag ++ "\",\"update_url\":\"/x\"}").toList

/-- A shell that runs the one installer there is, which installs 1.3.0; a part of it does nothing. -/
def Toy.shell (text installed : List Char) : List Char × Bool := if text = "install".toList then ("1.3.0".toList, true) else (installed, true)

/-- **C105: the version in an answer.**  It is read exactly when the answer contains the key, at its first place, before a closed string, and it is that
string without a `v` at its start. -/
theorem C105_version (body v : List Char) : latestVersion (.body body) = .ok (some v) ↔
    ∃ before tag rest, FirstAt "\"tag_name\":\"".toList body before (tag ++ '"' :: rest) ∧ '"' ∉ tag ∧ Names tag v := by
  constructor
  · intro h
    exact versionIn_some.1 (Except.ok.inj h)
  · intro h
    exact congrArg Except.ok (versionIn_some.2 h)

example : latestVersion (.body (Toy.answer "v1.3.0")) = .ok (some "1.3.0".toList) := by rfl

/-- **C105: no version.**  If `curl` runs but fails, or the key is not in its answer, no version is known, and that is no error. -/
theorem C105_unknown (body : List Char) (h : ∀ before behind, body ≠ before ++ "\"tag_name\":\"".toList ++ behind) :
    latestVersion .failed = .ok none ∧ latestVersion (.body body) = .ok none := by
  refine ⟨rfl, ?_⟩
  have : behind key body = none := (behind_none key_ne).2 h
  simp [latestVersion, versionIn, this]

/-- **C105: nothing to do.**  If the answer names the version that runs, nothing is downloaded or run and colgrep says that it is up to date. -/
theorem C105_current (current body : List Char) (i : Installer) (h : latestVersion (.body body) = .ok (some current)) :
    update current (.body body) i = (current, .upToDate) := by
  simp [update, h]

/-- **C105: "up to date" is said only then**, and what is installed is as it was. -/
theorem C105_said_current (current v : List Char) (r : Reply) (i : Installer) (h : update current r i = (v, .upToDate)) :
    v = current ∧ latestVersion r = .ok (some current) := by
  have hi : ∀ w, install i w ≠ (v, .upToDate) := by
    intro w hw
    unfold install at hw
    split at hw <;> cases hw
  unfold update at h
  split at h
  · cases h
  · rename_i w hl
    split at h
    · rename_i he
      subst he
      cases h
      exact ⟨rfl, hl⟩
    · exact absurd h (hi _)
  · exact absurd h (hi _)

/-- **C105 (partial): what is said is true** if the server's answer names the latest version, the whole installer arrives, and it ends with status 0 only
if it has installed that version. -/
theorem C105_honest_partial (current latest script : List Char) (r : Reply) (i : Installer)
    (hanswer : ∀ v, latestVersion r = .ok (some v) → v = latest) (harrives : i.received = script)
    (hgood : ∀ v v', i.shell script v = (v', true) → v' = latest) :
    Honest latest (update current r i).1 (update current r i).2 := by
  cases hs : (update current r i).2 with
  | failed => exact .inl rfl
  | upToDate =>
    obtain ⟨h1, h2⟩ := C105_said_current current (update current r i).1 r i (Prod.ext rfl hs)
    exact .inr (h1.trans (hanswer _ h2))
  | updated =>
    right
    have key : install i current = ((update current r i).1, .updated) := by
      have he : update current r i = ((update current r i).1, .updated) := Prod.ext rfl hs
      generalize (update current r i).1 = w at he ⊢
      unfold update at he
      split at he
      · cases he
      · split at he
        · cases he
        · exact he
      · exact he
    obtain ⟨_, h⟩ := install_updated key
    rw [harrives] at h
    exact hgood _ _ h

example : update "1.2.0".toList (.body (Toy.answer "v1.3.0")) ⟨"install".toList, Toy.shell, true⟩ = ("1.3.0".toList, .updated) ∧
    update "1.3.0".toList (.body (Toy.answer "v1.3.0")) ⟨"install".toList, Toy.shell, true⟩ = ("1.3.0".toList, .upToDate) := ⟨by rfl, by rfl⟩

/-- **C105: an installer that fails is reported.** -/
theorem C105_failure (current : List Char) (r : Reply) (i : Installer) (hnot : latestVersion r ≠ .ok (some current))
    (h : i.hasShell = false ∨ (i.shell i.received current).2 = false) : (update current r i).2 = .failed := by
  have hi : (install i current).2 = .failed := by
    unfold install runInstaller
    rcases h with h | h
    · simp [h]
    · cases hs : i.hasShell with
      | false => rfl
      | true =>
        cases hx : i.shell i.received current with
        | mk a b =>
          rw [hx] at h
          simp only at h
          subst h
          simp [hx]
  unfold update
  split
  · rfl
  · split
    · rename_i v hv he
      subst he
      exact absurd hv hnot
    · exact hi
  · exact hi

example : (update "1.2.0".toList .failed ⟨"install".toList, fun _ v => (v, false), true⟩).2 = .failed := by rfl

/-- **C105 fails without a network.**  Whatever is installed: the request fails, the installer cannot be fetched, the shell reads nothing and ends with
status 0, and colgrep says that it has been updated. -/
theorem C105_offline (current : List Char) (i : Installer) (hi : i.Lawful) (hs : i.hasShell = true) (hnothing : i.received = []) :
    update current .failed i = (current, .updated) := by
  simp [update, latestVersion, install, runInstaller, hs, hnothing, hi current]

example : (⟨[], Toy.shell, true⟩ : Installer).Lawful ∧ ¬ Honest "1.3.0".toList (update "1.2.0".toList .failed ⟨[], Toy.shell, true⟩).1
    (update "1.2.0".toList .failed ⟨[], Toy.shell, true⟩).2 := by
  refine ⟨fun v => by rfl, ?_⟩
  rintro (h | h)
  · exact absurd h (by decide)
  · exact absurd h (by decide)

/-- **C105: versions are only compared for equality.**  With any other tag the installer runs: also if the version that runs is newer. -/
theorem C105_older (current v : List Char) (body : List Char) (i : Installer) (h : latestVersion (.body body) = .ok (some v)) (hne : v ≠ current) :
    update current (.body body) i = install i current := by
  simp [update, h, hne]

example : latestVersion (.body (Toy.answer "v1.3.0")) = .ok (some "1.3.0".toList) ∧
    update "1.4.0".toList (.body (Toy.answer "v1.3.0")) ⟨"install".toList, Toy.shell, true⟩ = ("1.3.0".toList, .updated) := ⟨by rfl, by rfl⟩

/-- **C105: an answer with a space.**  Valid JSON with a space behind the colon names no version for colgrep: the installer runs although the version is
the one that runs. -/
theorem C105_space : latestVersion (.body "{\"tag_name\": \"v1.3.0\"}".toList) = .ok none := by rfl

end NextPlaid.Props
