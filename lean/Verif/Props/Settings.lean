import Verif.Proofs.Settings

/-!
C74.  The settings of the command line tool: the last command that mentions a setting decides it.
-/

namespace NextPlaid.Props
open NextPlaid.JsonText NextPlaid.Settings NextPlaid.Spec

variable {R : Type} {A : Alphas R}

/-- Numbers, after any history of commands: the option of the search, else the number set last, else the default (also after a 0). -/
theorem C74_numbers (hF : LawfulReals A.toReals) (l : List (Cmd R)) (hl : ∀ cmd ∈ l, FitsCmd cmd) :
    let c := inUse A.toReals (runs A l none)
    (∀ cliK cliN, topK c cliK cliN = cliK.getD (chosen (saysNumber (·.k)) (if cliN.isSome then 10 else 15) l.reverse)) ∧
    (∀ cliN, contextLines c cliN = cliN.getD (chosen (saysNumber (·.n)) 20 l.reverse)) ∧
    (∀ cli, poolFactor c cli true = 1 ∧ poolFactor c cli false = (cli.map (max · 1)).getD (chosen (saysNumber (·.pool)) 2 l.reverse)) ∧
    (∀ env, maxDepth c env = (env.filter (0 < ·)).getD (chosen (saysNumber (·.depth)) 1024 l.reverse)) ∧
    atLeastOne c.parallel = chosen (fun c => (saysNumber (·.parallel) c).map (·.map some)) none l.reverse ∧
    atLeastOne c.batch = chosen (fun c => (saysNumber (·.batch) c).map (·.map some)) none l.reverse := by
  intro c
  refine ⟨?_, ?_, ?_, ?_, ?_, ?_⟩
  · intro cliK cliN
    have := in_use_number hF l hl (·.k) (·.k) (if cliN.isSome then 10 else 15) (fun _ _ => rfl) (fun _ _ => rfl) (fun a h => ((shows_iff a).1 h).1) rfl
    rw [← this]
    unfold topK
    cases cliK <;> rfl
  · intro cliN
    have := in_use_number hF l hl (·.n) (·.n) 20 (fun _ _ => rfl) (fun _ _ => rfl) (fun a h => ((shows_iff a).1 h).2.1) rfl
    rw [← this]
    unfold contextLines
    cases cliN <;> rfl
  · intro cli
    refine ⟨rfl, ?_⟩
    have := in_use_number hF l hl (·.pool) (·.pool) 2 (fun _ _ => rfl) (fun _ _ => rfl) (fun a h => by have := (shows_iff a).1 h; tauto) rfl
    rw [← this]
    rfl
  · intro env
    have := in_use_number hF l hl (·.depth) (·.depth) 1024 (fun _ _ => rfl) (fun _ _ => rfl) (fun a h => by have := (shows_iff a).1 h; tauto) rfl
    rw [← this]
    rfl
  · exact in_use_numberOpt hF l hl (·.parallel) (·.parallel) (fun _ _ => rfl) (fun _ _ => rfl) (fun a h => by have := (shows_iff a).1 h; tauto) rfl
  · exact in_use_numberOpt hF l hl (·.batch) (·.batch) (fun _ _ => rfl) (fun _ _ => rfl) (fun a h => by have := (shows_iff a).1 h; tauto) rfl

/-- Switches, after any history of commands: what was switched last, else the default. -/
theorem C74_switches (hF : LawfulReals A.toReals) (l : List (Cmd R)) (hl : ∀ cmd ∈ l, FitsCmd cmd) :
    let c := inUse A.toReals (runs A l none)
    isVerbose c = chosen (saysSwitch (·.verbose) (·.noVerbose)) false l.reverse ∧
    (∀ semanticOnly, useHybrid c semanticOnly = (!semanticOnly && chosen (saysSwitch (·.hybrid) (·.noHybrid)) true l.reverse)) ∧
    ∀ cuda, useFp32 cuda c = chosen saysPrecision cuda l.reverse := by
  intro c
  refine ⟨?_, ?_, ?_⟩
  · refine in_use hF l hl (eff := isVerbose) (fun c cmd hs => eff_settings (eff := isVerbose) ?_ ?_ ?_ ?_ ?_ c cmd hs) rfl
    · intro c a hc
      unfold saysSwitch isVerbose kept Config.apply
      dsimp only
      rw [contradictory_eq, hc]
      rcases Bool.eq_false_or_eq_true a.verbose with h1 | h1 <;> rcases Bool.eq_false_or_eq_true a.noVerbose with h2 | h2 <;> simp [h1, h2]
    · intro a hc; unfold saysSwitch; simp [hc]
    · intro a hc
      have := (shows_iff a).1 hc
      unfold saysSwitch
      simp [this]
    · intro m v; rfl
    · intro c m; rfl
  · intro so
    have := in_use hF l hl (eff := fun c => useHybrid c false) (tells := saysSwitch (·.hybrid) (·.noHybrid)) (initial := true)
      (fun c cmd hs => eff_settings (eff := fun c => useHybrid c false) ?_ ?_ ?_ ?_ ?_ c cmd hs) rfl
    · rw [← this]
      cases so <;> rfl
    · intro c a hc
      unfold saysSwitch useHybrid kept Config.apply
      dsimp only
      rw [contradictory_eq, hc]
      rcases Bool.eq_false_or_eq_true a.hybrid with h1 | h1 <;> rcases Bool.eq_false_or_eq_true a.noHybrid with h2 | h2 <;> simp [h1, h2]
    · intro a hc; unfold saysSwitch; simp [hc]
    · intro a hc
      have := (shows_iff a).1 hc
      unfold saysSwitch
      simp [this]
    · intro m v; rfl
    · intro c m; rfl
  · intro cuda
    refine in_use hF l hl (eff := useFp32 cuda) (fun c cmd hs => eff_settings (eff := useFp32 cuda) ?_ ?_ ?_ ?_ ?_ c cmd hs) rfl
    · intro c a hc
      unfold saysPrecision useFp32 kept Config.apply
      dsimp only
      rw [contradictory_eq, hc]
      cases a.fp32 <;> cases a.int8 <;> cases a.defaultPrecision <;> simp
    · intro a hc; unfold saysPrecision; simp [hc]
    · intro a hc
      have := (shows_iff a).1 hc
      unfold saysPrecision
      simp [this]
    · intro m v; rfl
    · intro c m; rfl

/-- The model and the cache directory, after any history of commands. -/
theorem C74_texts (hF : LawfulReals A.toReals) (l : List (Cmd R)) (hl : ∀ cmd ∈ l, FitsCmd cmd) (initial : List Char) :
    let c := inUse A.toReals (runs A l none)
    (∀ cli, resolveModel initial c cli = cli.getD (chosen saysModel initial l.reverse)) ∧
    c.coreml = chosen (fun c => (saysCoreml c).map (·.map some)) none l.reverse := by
  intro c
  constructor
  · intro cli
    have := in_use hF l hl (eff := fun c => c.model.getD initial) (tells := saysModel) (initial := initial) (fun c cmd hs => ?_) rfl
    · rw [← this]
      unfold resolveModel
      cases cli <;> rfl
    · cases cmd with
      | setModel m v =>
        rw [model_after c m v hs]
        cases v <;> rfl
      | settings a =>
        show (after A c (.settings a)).model.getD initial = c.model.getD initial
        cases hcf : a.conflict with
        | true => rw [conflict_after c a hcf]
        | false =>
          cases hsh : a.shows with
          | true => rw [shows_after c a hsh]
          | false => rw [settings_after c a hcf hsh]; rfl
  · refine in_use hF l hl (eff := fun c => c.coreml) (tells := fun c => (saysCoreml c).map (·.map some)) (initial := none)
      (fun c cmd hs => eff_settings (eff := fun c => c.coreml) (tells := fun c => (saysCoreml c).map (·.map some)) ?_ ?_ ?_ ?_ ?_ c cmd hs) rfl
    · intro c a hc
      have hx : ¬ (a.coreml.isSome = true ∧ a.clearCoreml = true) := by
        intro h
        have : a.conflict = true := by simp [Args.conflict, h.1, h.2]
        rw [hc] at this
        cases this
      unfold saysCoreml kept Config.apply
      dsimp only
      rw [contradictory_eq, hc]
      cases h1 : a.coreml <;> cases h2 : a.clearCoreml <;> simp [h1, h2] at hx ⊢
    · intro a hc; unfold saysCoreml; simp [hc]
    · intro a hc
      have := (shows_iff a).1 hc
      unfold saysCoreml
      simp [this]
    · intro m v; rfl
    · intro c m; rfl

/-- The balance between keywords and meaning, after any history of commands: the option of the search as it is, else the
environment, else what was set last, else the default. -/
theorem C74_alpha (hF : LawfulReals A.toReals) (l : List (Cmd R)) (hl : ∀ cmd ∈ l, FitsCmd cmd) (cli env : Option R) :
    hybridAlpha A (inUse A.toReals (runs A l none)) cli env =
      cli.getD ((env.map A.clamp).getD (chosen (saysAlpha A) A.initial l.reverse)) := by
  have := in_use hF l hl (eff := fun c => c.alpha.getD A.initial) (tells := saysAlpha A) (initial := A.initial)
    (fun c cmd hs => ?_) rfl
  · rw [← this]
    unfold hybridAlpha
    cases cli <;> cases env <;> rfl
  · cases cmd with
    | setModel m v =>
      rw [model_after c m v hs]
      cases v <;> rfl
    | settings a =>
      cases hcf : a.conflict with
      | true => rw [conflict_after c a hcf]; unfold saysAlpha; simp [hcf]
      | false =>
        cases hsh : a.shows with
        | true =>
          have := (shows_iff a).1 hsh
          rw [shows_after c a hsh]
          unfold saysAlpha
          simp [this]
        | false =>
          rw [settings_after c a hcf hsh]
          unfold saysAlpha kept Config.apply
          dsimp only
          rw [contradictory_eq, hcf]
          cases ha : a.alpha with
          | none =>
            have : c.alpha.filter (fun r => (A.shows r).isSome) = c.alpha := by
              cases h : c.alpha with
              | none => rfl
              | some r => simp [Option.filter, hs r h]
            simp [this]
          | some r =>
            by_cases hz : A.isZero r = true
            · simp [hz]
            · cases hsw : (A.shows (A.clamp r)) with
              | none => simp [hz, Option.filter, hsw]
              | some t => simp [hz, Option.filter, hsw]

/-- The lists of patterns, after any history of commands: a pattern is in the list if the last command that mentions it, or clears the
list, added it; and it is there once. -/
theorem C74_patterns (hF : LawfulReals A.toReals) (l : List (Cmd R)) (hl : ∀ cmd ∈ l, FitsCmd cmd) :
    let c := inUse A.toReals (runs A l none)
    (∀ p, p ∈ c.ignore ↔ chosen (saysPattern (·.clearIgnore) (·.addIgnore) (·.removeIgnore) p) false l.reverse = true) ∧
    (∀ p, p ∈ c.force ↔ chosen (saysPattern (·.clearInclude) (·.addInclude) (·.removeInclude) p) false l.reverse = true) ∧
    c.ignore.Nodup ∧ c.force.Nodup := by
  intro c
  refine ⟨fun p => ?_, fun p => ?_, ?_⟩
  · rw [← in_use_pattern hF l hl _ _ _ (·.ignore) p (fun _ _ => rfl) (fun _ _ => rfl) (fun a h => by have := (shows_iff a).1 h; simp [this]) rfl]
    exact decide_eq_true_iff.symm
  · rw [← in_use_pattern hF l hl _ _ _ (·.force) p (fun _ _ => rfl) (fun _ _ => rfl) (fun a h => by have := (shows_iff a).1 h; simp [this]) rfl]
    exact decide_eq_true_iff.symm
  · exact always hF (P := fun c => c.ignore.Nodup ∧ c.force.Nodup) ⟨List.nodup_nil, List.nodup_nil⟩ (fun c cmd hs h => nodup_after h cmd hs) l hl

/-! ### Where the settings do not do what they say -/

/-- Paths are shown relative to the working directory after every history of commands: `--no-relative-paths` has no effect. -/
theorem C74_always_relative (hF : LawfulReals A.toReals) (l : List (Cmd R)) (hl : ∀ cmd ∈ l, FitsCmd cmd) :
    useRelative (inUse A.toReals (runs A l none)) = true := by
  refine always hF (P := fun c => useRelative c = true) rfl (fun c cmd hs h => ?_) l hl
  cases cmd with
  | setModel m v =>
    rw [model_after c m v hs]
    cases v <;> exact h
  | settings a =>
    cases hcf : a.conflict with
    | true => rw [conflict_after c a hcf]; exact h
    | false =>
      cases hsh : a.shows with
      | true => rw [shows_after c a hsh]; exact h
      | false =>
        rw [settings_after c a hcf hsh]
        unfold useRelative kept Config.apply at *
        dsimp only
        cases a.relative <;> cases a.noRelative <;> simp [h]

/-- The number of results and of lines that `settings` shows is the one in use exactly if it was set: the defaults shown are others. -/
theorem C74_shown (c : Config R) (cliN : Option Nat) :
    (shownK c = topK c none cliN ↔ ∃ k, c.k = some k) ∧ (shownN c = contextLines c none ↔ ∃ n, c.n = some n) := by
  constructor
  · unfold shownK topK
    cases c.k <;> cases cliN <;> simp
  · unfold shownN contextLines
    cases c.n <;> simp

/-- A kill while the settings are saved: all settings are silently the initial ones, and no command changes anything any more. -/
theorem C74_killed (hF : LawfulReals A.toReals) (c : Config R) (hc : Fits c) (torn : List Char) (ht : Torn (c.text A.toReals) torn) (l : List (Cmd R)) :
    inUse A.toReals (runs A l (some torn)) = {} ∧ runs A l (some torn) = some torn := by
  have hl := config_torn hF hc ht
  have hr : runs A l (some torn) = some torn := by
    unfold runs
    induction l with
    | nil => rfl
    | cons cmd l ih =>
      rw [List.foldl_cons]
      have : cmd.run A (some torn) = some torn := by
        unfold Cmd.run
        rw [hl]
      rw [this]
      exact ih
  refine ⟨?_, hr⟩
  rw [hr]
  unfold inUse
  rw [hl]
  rfl

/-! ### A concrete case -/

namespace ToySettings

/-- 0, 0.5, 1 (the value 2 is brought to 1) and not a number. -/
inductive Num | zero | half | one | two | nan
  deriving DecidableEq

@[reducible] def alphas : Alphas Num where
  shows
    | .zero => some "0.0".toList
    | .half => some "0.5".toList
    | .one => some "1.0".toList
    | .two => some "2.0".toList
    | .nan => none
  reads t := if t = "0.0".toList then some .zero else if t = "0.5".toList then some .half else if t = "1.0".toList then some .one
    else if t = "2.0".toList then some .two else none
  ofInt _ := .one
  isZero r := r == .zero
  clamp r := if r = .two then .one else r
  initial := .half

theorem lawful : LawfulReals alphas.toReals where
  shape := by
    intro r t h
    have hd : ∀ a b : Char, a.isDigit = true → b.isDigit = true → Fractional [a, '.', b] := fun a b ha hb =>
      ⟨[], [a], ['.', b], [], rfl, Or.inl rfl, ⟨by simp, by simpa using ha⟩, by by_cases h : a = '0' <;> simp [h], Or.inr ⟨[b], rfl, by simp, by simpa using hb⟩,
        Or.inl rfl, Or.inl (by simp)⟩
    match r, h with
    | .zero, h => cases h; exact hd '0' '0' (by decide) (by decide)
    | .half, h => cases h; exact hd '0' '5' (by decide) (by decide)
    | .one, h => cases h; exact hd '1' '0' (by decide) (by decide)
    | .two, h => cases h; exact hd '2' '0' (by decide) (by decide)
  same := by
    intro r t h
    match r, h with
    | .zero, h => cases h; rfl
    | .half, h => cases h; rfl
    | .one, h => cases h; rfl
    | .two, h => cases h; rfl

/-- A history: some numbers and a pattern, another model, absolute paths and a balance of 0. -/
def history : List (Cmd Num) :=
  [.settings { k := some 30, addIgnore := ["gen".toList, "tmp".toList], alpha := some .two }, .setModel "m".toList true, .setModel "bad".toList false,
    .settings { n := some 4, noVerbose := true, removeIgnore := ["tmp".toList] }, .settings { noRelative := true, alpha := some .zero }]

theorem history_fits : ∀ cmd ∈ history, FitsCmd cmd := by simp [history, FitsCmd]

end ToySettings

open ToySettings in
example :
    let c := inUse alphas.toReals (runs alphas history none)
    topK c none none = 30 ∧ contextLines c none = 4 ∧ resolveModel [] c none = "m".toList ∧ "gen".toList ∈ c.ignore ∧ "tmp".toList ∉ c.ignore := by
  have hn := C74_numbers lawful history history_fits
  have hm := C74_texts lawful history history_fits []
  have hp := C74_patterns lawful history history_fits
  refine ⟨(hn.1 none none).trans (by decide +kernel), (hn.2.1 none).trans (by decide +kernel), (hm.1 none).trans (by decide +kernel), ?_, ?_⟩
  · exact (hp.1 _).2 (by decide +kernel)
  · intro h
    exact absurd ((hp.1 _).1 h) (by decide +kernel)

/-- A balance of 0 (keywords only) cannot be set: it resets the balance, here after it was set to 1. -/
theorem C74_alpha_zero : ∃ l : List (Cmd ToySettings.Num), (∀ cmd ∈ l, FitsCmd cmd) ∧
    (∃ a, l.getLast? = some (.settings a) ∧ a.alpha = some .zero) ∧
    hybridAlpha ToySettings.alphas (inUse ToySettings.alphas.toReals (runs ToySettings.alphas l none)) none none = .half :=
  ⟨ToySettings.history, ToySettings.history_fits, ⟨_, rfl, rfl⟩,
    (C74_alpha ToySettings.lawful ToySettings.history ToySettings.history_fits none none).trans (by decide +kernel)⟩

/-- Two commands at the same time: what one of them sets is lost. -/
theorem C74_race : ∃ a b : Cmd ToySettings.Num, FitsCmd a ∧ FitsCmd b ∧
    (inUse ToySettings.alphas.toReals (runs ToySettings.alphas [a, b] none)).k = some 30 ∧
    (inUse ToySettings.alphas.toReals (race ToySettings.alphas a b none)).k = none := by
  refine ⟨.settings { k := some 30 }, .settings { n := some 4 }, by simp [FitsCmd], by simp [FitsCmd], ?_, ?_⟩
  · have h := (load_runs ToySettings.lawful [.settings { k := some 30 }, .settings { n := some 4 }] (file := none) (c := {}) rfl fits_empty (by simp [FitsCmd])).1
    unfold inUse
    rw [h]
    rfl
  · have h := config_load ToySettings.lawful (c := ({ n := some 4 } : Config ToySettings.Num)) (by simp [Fits])
    have hr : race ToySettings.alphas (.settings { k := some 30 }) (.settings { n := some 4 }) none =
        some (({ n := some 4 } : Config ToySettings.Num).text ToySettings.alphas.toReals) := rfl
    rw [hr]
    unfold inUse
    rw [h]
    rfl

end NextPlaid.Props
