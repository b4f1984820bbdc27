import Verif.Proofs.Records2
import Verif.Spec.Settings

/-! The settings file, and what histories of commands leave. -/

namespace NextPlaid.Settings
open NextPlaid.JsonText NextPlaid.Records NextPlaid.Spec

variable {R : Type} {F : Reals R}

/-! ### Reading what was written -/

theorem filter_skipNone {α : Type} (key : String) (key' : List Char) (f : α → J R) (o : Option α) :
    (skipNone key f o).filter (fun e => e.1 == key') = if key.toList = key' then skipNone key f o else [] := by
  cases o with
  | none => simp [skipNone]
  | some a =>
    by_cases h : key.toList = key'
    · simp [skipNone, entry, h]
    · simp [skipNone, entry, h]

theorem filter_skipEmpty {α : Type} (key : String) (key' : List Char) (f : α → J R) (o : List α) :
    (skipEmpty key f o).filter (fun e => e.1 == key') = if key.toList = key' then skipEmpty key f o else [] := by
  cases o with
  | nil => simp [skipEmpty]
  | cons a l =>
    by_cases h : key.toList = key'
    · simp [skipEmpty, entry, h]
    · simp [skipEmpty, entry, h]

theorem field_skip {α β : Type} {key : String} {f : α → J R} {o : Option α} {read : J R → Option (Option β)} {l : List (List Char × J R)} {r : Option β}
    (hl : l.filter (fun e => e.1 == key.toList) = skipNone key f o) (h0 : o = none → r = none) (h : ∀ a ∈ o, read (f a) = some r) :
    field key read (some none) l = some r := by
  unfold field
  rw [hl]
  cases o with
  | none => rw [h0 rfl]; rfl
  | some a => exact h a rfl

theorem field_skipEmpty {key : String} {l : List (List Char × J R)} {o : List (List Char)}
    (hl : l.filter (fun e => e.1 == key.toList) = skipEmpty key .str o) :
    field key (readList readStr) (some []) l = some o := by
  unfold field
  rw [hl]
  cases o with
  | nil => rfl
  | cons a o => exact readAll_map (a :: o) (fun _ _ => rfl)

/-- What is left of settings that are written and read: a balance that is not finite is lost. -/
def kept (F : Reals R) (c : Config R) : Config R := { c with alpha := c.alpha.filter fun r => (F.shows r).isSome }

/-- All numbers fit in 64 bits. -/
def Fits (c : Config R) : Prop := ∀ o ∈ [c.k, c.n, c.pool, c.parallel, c.batch, c.depth], ∀ n ∈ o, n < 2 ^ 64

theorem readOptNat {n : Nat} (h : n < 2 ^ 64) : readOpt (R := R) readNat (natJ n) = some (some n) := by
  have := readOpt_natJ (R := R) (o := some n) (by intro m hm; cases hm; exact h)
  exact this

theorem readOptReal (F : Reals R) (r : R) : readOpt (readReal F) (realJ F r) = some ((some r).filter fun r => (F.shows r).isSome) := by
  unfold realJ
  by_cases h : (F.shows r).isSome
  · rw [if_pos h]; simp [readOpt, readReal, Option.filter, h]
  · rw [if_neg h]; simp [readOpt, Option.filter, h]

theorem config_read {c : Config R} (h : Fits c) : readConfig F (c.toJ F) = some (kept F c) := by
  have hk := fun n (hn : n ∈ c.k) => h c.k (by simp) n hn
  have hn := fun n (hn : n ∈ c.n) => h c.n (by simp) n hn
  have hp := fun n (hn : n ∈ c.pool) => h c.pool (by simp) n hn
  have hs := fun n (hn : n ∈ c.parallel) => h c.parallel (by simp) n hn
  have hb := fun n (hn : n ∈ c.batch) => h c.batch (by simp) n hn
  have hd := fun n (hn : n ∈ c.depth) => h c.depth (by simp) n hn
  unfold readConfig Config.toJ
  refine bind_of (fields_obj _) ?_
  refine bind_of (field_skip (f := .str) (o := c.model) (r := c.model) (by simp [List.filter_append, filter_skipNone, filter_skipEmpty]) id (by intro a ha; rw [ha]; rfl)) ?_
  refine bind_of (field_skip (f := natJ) (o := c.k) (r := c.k) (by simp [List.filter_append, filter_skipNone, filter_skipEmpty]) id (by intro a ha; rw [readOptNat (hk a ha), ha])) ?_
  refine bind_of (field_skip (f := natJ) (o := c.n) (r := c.n) (by simp [List.filter_append, filter_skipNone, filter_skipEmpty]) id (by intro a ha; rw [readOptNat (hn a ha), ha])) ?_
  refine bind_of (field_skip (f := .bool) (o := c.fp32) (r := c.fp32) (by simp [List.filter_append, filter_skipNone, filter_skipEmpty]) id (by intro a ha; rw [ha]; rfl)) ?_
  refine bind_of (field_skip (f := .str) (o := c.coreml) (r := c.coreml) (by simp [List.filter_append, filter_skipNone, filter_skipEmpty]) id (by intro a ha; rw [ha]; rfl)) ?_
  refine bind_of (field_skip (f := natJ) (o := c.pool) (r := c.pool) (by simp [List.filter_append, filter_skipNone, filter_skipEmpty]) id (by intro a ha; rw [readOptNat (hp a ha), ha])) ?_
  refine bind_of (field_skip (f := natJ) (o := c.parallel) (r := c.parallel) (by simp [List.filter_append, filter_skipNone, filter_skipEmpty]) id (by intro a ha; rw [readOptNat (hs a ha), ha])) ?_
  refine bind_of (field_skip (f := natJ) (o := c.batch) (r := c.batch) (by simp [List.filter_append, filter_skipNone, filter_skipEmpty]) id (by intro a ha; rw [readOptNat (hb a ha), ha])) ?_
  refine bind_of (field_skip (f := .bool) (o := c.verbose) (r := c.verbose) (by simp [List.filter_append, filter_skipNone, filter_skipEmpty]) id (by intro a ha; rw [ha]; rfl)) ?_
  refine bind_of (field_skip (f := natJ) (o := c.depth) (r := c.depth) (by simp [List.filter_append, filter_skipNone, filter_skipEmpty]) id (by intro a ha; rw [readOptNat (hd a ha), ha])) ?_
  refine bind_of (field_skip (f := .bool) (o := c.relative) (r := c.relative) (by simp [List.filter_append, filter_skipNone, filter_skipEmpty]) id (by intro a ha; rw [ha]; rfl)) ?_
  refine bind_of (field_skip (f := .bool) (o := c.hybrid) (r := c.hybrid) (by simp [List.filter_append, filter_skipNone, filter_skipEmpty]) id (by intro a ha; rw [ha]; rfl)) ?_
  refine bind_of (field_skip (f := realJ F) (o := c.alpha) (r := c.alpha.filter fun r => (F.shows r).isSome)
    (by simp [List.filter_append, filter_skipNone, filter_skipEmpty]) (by intro h0; rw [h0]; rfl) (by intro a ha; rw [ha]; exact readOptReal F a)) ?_
  refine bind_of (field_skipEmpty (o := c.ignore) (by simp [List.filter_append, filter_skipNone, filter_skipEmpty])) ?_
  refine bind_of (field_skipEmpty (o := c.force) (by simp [List.filter_append, filter_skipNone, filter_skipEmpty])) ?_
  rfl

theorem writable_skipNone {α : Type} (key : String) {f : α → J R} {o : Option α} (h : ∀ a ∈ o, Writable F (f a)) : ∀ e ∈ skipNone key f o, Writable F e.2 := by
  cases o with
  | none => simp [skipNone]
  | some a => intro e he; simp [skipNone, entry] at he; subst he; exact h a rfl

theorem writable_skipEmpty (key : String) {o : List (List Char)} : ∀ e ∈ skipEmpty (R := R) key .str o, Writable F e.2 := by
  cases o with
  | nil => simp [skipEmpty]
  | cons a l =>
    intro e he
    simp only [skipEmpty, entry, List.mem_singleton] at he
    subst he
    unfold Writable
    refine (writableItems_iff _).2 ?_
    intro v hv
    obtain ⟨x, _, rfl⟩ := List.mem_map.1 hv
    unfold Writable
    trivial

theorem depth_skipNone {α : Type} (key : String) {f : α → J R} {o : Option α} (h : ∀ a, depth (f a) = 0) : ∀ e ∈ skipNone key f o, depth e.2 ≤ 1 := by
  cases o with
  | none => simp [skipNone]
  | some a => intro e he; simp [skipNone, entry] at he; subst he; rw [h a]; omega

theorem depth_skipEmpty (key : String) {o : List (List Char)} : ∀ e ∈ skipEmpty (R := R) key .str o, depth e.2 ≤ 1 := by
  cases o with
  | nil => simp [skipEmpty]
  | cons a l =>
    intro e he
    simp only [skipEmpty, entry, List.mem_singleton] at he
    subst he
    have : depthItems (R := R) (((a :: l).map .str)) ≤ 0 := depthItems_le _ _ (by
      intro v hv
      obtain ⟨x, _, rfl⟩ := List.mem_map.1 hv
      simp [depth])
    unfold depth
    omega

theorem writable_realJ (r : R) : Writable F (realJ F r) := by
  unfold realJ
  by_cases h : (F.shows r).isSome
  · rw [if_pos h]; unfold Writable; exact h
  · rw [if_neg h]; unfold Writable; trivial

theorem depth_realJ (r : R) : depth (realJ F r) = 0 := by
  unfold realJ
  by_cases h : (F.shows r).isSome
  · rw [if_pos h]; simp [depth]
  · rw [if_neg h]; simp [depth]

theorem config_writable {c : Config R} (h : Fits c) : Writable F (c.toJ F) := by
  unfold Config.toJ Writable
  refine (writableMembers_iff _).2 ?_
  have hb : ∀ (o : Option Bool) a, a ∈ o → Writable F (J.bool a) := by intro o a _; unfold Writable; trivial
  have hs : ∀ (o : Option (List Char)) a, a ∈ o → Writable F (J.str a) := by intro o a _; unfold Writable; trivial
  have hn : ∀ o ∈ [c.k, c.n, c.pool, c.parallel, c.batch, c.depth], ∀ a ∈ o, Writable F (natJ a) := fun o ho a ha => writable_natJ (h o ho a ha)
  intro e he
  simp only [List.mem_append] at he
  rcases he with he | he | he | he | he | he | he | he | he | he | he | he | he | he | he
  · exact writable_skipNone _ (hs _) e he
  · exact writable_skipNone _ (hn c.k (by simp)) e he
  · exact writable_skipNone _ (hn c.n (by simp)) e he
  · exact writable_skipNone _ (hb _) e he
  · exact writable_skipNone _ (hs _) e he
  · exact writable_skipNone _ (hn c.pool (by simp)) e he
  · exact writable_skipNone _ (hn c.parallel (by simp)) e he
  · exact writable_skipNone _ (hn c.batch (by simp)) e he
  · exact writable_skipNone _ (hb _) e he
  · exact writable_skipNone _ (hn c.depth (by simp)) e he
  · exact writable_skipNone _ (hb _) e he
  · exact writable_skipNone _ (hb _) e he
  · exact writable_skipNone _ (fun a _ => writable_realJ a) e he
  · exact writable_skipEmpty _ e he
  · exact writable_skipEmpty _ e he

theorem config_depth (c : Config R) : depth (c.toJ F) ≤ 2 := by
  unfold Config.toJ depth
  refine Nat.succ_le_succ (depthMembers_le _ _ ?_)
  have hb : ∀ a : Bool, depth (J.bool (R := R) a) = 0 := by simp [depth]
  have hs : ∀ a, depth (J.str (R := R) a) = 0 := by simp [depth]
  have hn : ∀ a, depth (natJ (R := R) a) = 0 := depth_natJ
  intro e he
  simp only [List.mem_append] at he
  rcases he with he | he | he | he | he | he | he | he | he | he | he | he | he | he | he
  · exact depth_skipNone _ hs e he
  · exact depth_skipNone _ hn e he
  · exact depth_skipNone _ hn e he
  · exact depth_skipNone _ hb e he
  · exact depth_skipNone _ hs e he
  · exact depth_skipNone _ hn e he
  · exact depth_skipNone _ hn e he
  · exact depth_skipNone _ hn e he
  · exact depth_skipNone _ hb e he
  · exact depth_skipNone _ hn e he
  · exact depth_skipNone _ hb e he
  · exact depth_skipNone _ hb e he
  · exact depth_skipNone _ depth_realJ e he
  · exact depth_skipEmpty _ e he
  · exact depth_skipEmpty _ e he

theorem config_load (hF : LawfulReals F) {c : Config R} (h : Fits c) : load F (some (c.text F)) = some (kept F c) := by
  unfold load Config.text pretty
  dsimp only
  have hd := config_depth (F := F) c
  rw [parse_render hF _ _ (config_writable h) (by omega), Option.bind_some, config_read h]

theorem config_torn (hF : LawfulReals F) {c : Config R} (h : Fits c) {torn} (ht : Torn (c.text F) torn) : load F (some torn) = none := by
  unfold load
  dsimp only
  have hd := config_depth (F := F) c
  rw [parse_torn hF (some 0) (v := c.toJ F) (Or.inl (by unfold Config.toJ Container; trivial)) (config_writable h) (by omega) ht]
  rfl

/-! ### Histories -/

variable {A : Alphas R}

/-- A command on settings. -/
def after (A : Alphas R) (c : Config R) (cmd : Cmd R) : Config R := ((cmd.change A c).map (kept A.toReals)).getD c

theorem fits_number {g o : Option Nat} (hg : ∀ n ∈ g, n < 2 ^ 64) (ho : ∀ n ∈ o, n < 2 ^ 64) : ∀ n ∈ number g o, n < 2 ^ 64 := by
  intro n hn
  cases g with
  | none => exact ho n hn
  | some v =>
    have := hg v rfl
    unfold number at hn
    dsimp only at hn
    by_cases hv : v = 0
    · rw [if_pos hv] at hn; cases hn
    · rw [if_neg hv] at hn; cases hn; omega

theorem fits_apply {c : Config R} {a : Args R} (hc : Fits c) (ha : FitsCmd (.settings a)) : Fits (c.apply A a) := by
  unfold Fits at *
  unfold FitsCmd at ha
  simp only [List.mem_cons, List.not_mem_nil, or_false, forall_eq_or_imp, forall_eq] at *
  obtain ⟨c1, c2, c3, c4, c5, c6⟩ := hc
  obtain ⟨a1, a2, a3, a4, a5, a6⟩ := ha
  exact ⟨fits_number a1 c1, fits_number a2 c2, fits_number a3 c3, fits_number a4 c4, fits_number a5 c5, fits_number a6 c6⟩

theorem fits_change {c c' : Config R} {cmd : Cmd R} (hc : Fits c) (ha : FitsCmd cmd) (h : cmd.change A c = some c') : Fits c' := by
  cases cmd with
  | settings a =>
    unfold Cmd.change at h
    dsimp only at h
    by_cases hx : (a.conflict || a.shows) = true
    · rw [if_pos hx] at h; cases h
    · rw [if_neg hx] at h; cases h; exact fits_apply hc ha
  | setModel m v =>
    unfold Cmd.change at h
    dsimp only at h
    by_cases hx : c.model = some m ∨ ¬ v = true
    · rw [if_pos hx] at h; cases h
    · rw [if_neg hx] at h; cases h; exact hc

theorem fits_after {c : Config R} {cmd : Cmd R} (hc : Fits c) (ha : FitsCmd cmd) : Fits (after A c cmd) := by
  unfold after
  cases h : cmd.change A c with
  | none => exact hc
  | some c' => exact (fits_change hc ha h : Fits c')

theorem load_run (hF : LawfulReals A.toReals) {file : Option (List Char)} {c : Config R} (hl : load A.toReals file = some c) (hc : Fits c) {cmd : Cmd R}
    (hcmd : FitsCmd cmd) : load A.toReals (cmd.run A file) = some (after A c cmd) := by
  unfold Cmd.run after
  rw [hl]
  dsimp only
  cases h : cmd.change A c with
  | none => exact hl
  | some c' => exact config_load hF (fits_change hc hcmd h)

theorem load_runs (hF : LawfulReals A.toReals) : ∀ (l : List (Cmd R)) {file : Option (List Char)} {c : Config R}, load A.toReals file = some c → Fits c →
    (∀ cmd ∈ l, FitsCmd cmd) → load A.toReals (runs A l file) = some (l.foldl (after A) c) ∧ Fits (l.foldl (after A) c)
  | [], _, _, hl, hc, _ => ⟨hl, hc⟩
  | cmd :: l, _, _, hl, hc, h =>
    load_runs hF l (load_run hF hl hc (h cmd (by simp))) (fits_after hc (h cmd (by simp))) (fun d hd => h d (by simp [hd]))

theorem fits_empty : Fits ({} : Config R) := by
  unfold Fits
  simp

/-- A setting after commands. -/
theorem chosen_fold {S C V : Type} {step : S → C → S} {P : S → Prop} {Q : C → Prop} {eff : S → V} {tells : C → Option (Option V)} {initial : V}
    (hP : ∀ s c, P s → Q c → P (step s c))
    (h : ∀ s c, P s → Q c → eff (step s c) = (match tells c with | none => eff s | some none => initial | some (some v) => v)) :
    ∀ (l : List C) (s : S), P s → (∀ c ∈ l, Q c) → eff s = initial → eff (l.foldl step s) = chosen tells initial l.reverse := by
  have key : ∀ (l : List C) (s : S), P s → (∀ c ∈ l, Q c) →
      eff (l.foldl step s) = (match l.reverse.findSome? tells with | none => eff s | some none => initial | some (some v) => v) := by
    intro l
    induction l with
    | nil => intro s _ _; rfl
    | cons c l ih =>
      intro s hs hl
      rw [List.foldl_cons, ih (step s c) (hP s c hs (hl c (by simp))) (fun d hd => hl d (by simp [hd])), List.reverse_cons, List.findSome?_append]
      cases hf : l.reverse.findSome? tells with
      | some o => cases o <;> rfl
      | none =>
        simp only [Option.none_or, List.findSome?_cons, List.findSome?_nil]
        rw [h s c hs (hl c (by simp))]
        cases tells c with
        | none => rfl
        | some o => rfl
  intro l s hs hl h0
  rw [key l s hs hl, h0]
  unfold chosen
  cases l.reverse.findSome? tells with
  | none => rfl
  | some o => cases o <;> rfl

/-! ### One command -/

@[simp] theorem contradictory_eq (a : Args R) : contradictory a = a.conflict := by
  unfold contradictory Args.conflict
  cases a.fp32 <;> cases a.int8 <;> cases a.defaultPrecision <;> simp [Bool.or_assoc]

theorem settings_after (c : Config R) (a : Args R) (h : a.conflict = false) (hs : a.shows = false) : after A c (.settings a) = kept A.toReals (c.apply A a) := by
  unfold after Cmd.change
  dsimp only
  rw [h, hs]
  rfl

theorem conflict_after (c : Config R) (a : Args R) (h : a.conflict = true) : after A c (.settings a) = c := by
  unfold after Cmd.change
  dsimp only
  rw [h]
  rfl

theorem shows_after (c : Config R) (a : Args R) (h : a.shows = true) : after A c (.settings a) = c := by
  unfold after Cmd.change
  dsimp only
  rw [h, Bool.or_true]
  rfl

theorem shows_iff (a : Args R) : a.shows = true ↔ a.k = none ∧ a.n = none ∧ a.fp32 = false ∧ a.int8 = false ∧ a.defaultPrecision = false ∧ a.coreml = none ∧
    a.clearCoreml = false ∧ a.pool = none ∧ a.parallel = none ∧ a.batch = none ∧ a.depth = none ∧ a.verbose = false ∧ a.noVerbose = false ∧
    a.relative = false ∧ a.noRelative = false ∧ a.hybrid = false ∧ a.noHybrid = false ∧ a.alpha = none ∧ a.addIgnore = [] ∧ a.removeIgnore = [] ∧
    a.addInclude = [] ∧ a.removeInclude = [] ∧ a.clearIgnore = false ∧ a.clearInclude = false := by
  simp [Args.shows, and_assoc]

theorem model_after (c : Config R) (m : List Char) (v : Bool) (hf : ∀ r ∈ c.alpha, (A.shows r).isSome) :
    after A c (.setModel m v) = if v then { c with model := some m } else c := by
  have hk : c.alpha.filter (fun r => (A.shows r).isSome) = c.alpha := by
    cases h : c.alpha with
    | none => rfl
    | some r => simp [hf r h]
  unfold after Cmd.change
  dsimp only
  by_cases h1 : v = true
  · by_cases h2 : c.model = some m
    · rw [if_pos (Or.inl h2), if_pos h1, ← h2]
      rfl
    · rw [if_neg (by simp [h1, h2]), if_pos h1]
      simp [kept, hk]
  · rw [if_pos (Or.inr h1), if_neg h1]
    rfl

/-- What is always so: the balance is finite. -/
def Sound (A : Alphas R) (c : Config R) : Prop := ∀ r ∈ c.alpha, (A.shows r).isSome

theorem sound_after {c : Config R} {cmd : Cmd R} (h : Sound A c) : Sound A (after A c cmd) := by
  unfold after
  cases hc : cmd.change A c with
  | none => exact h
  | some c' =>
    intro r hr
    have : r ∈ c'.alpha.filter fun r => (A.shows r).isSome := hr
    rw [Option.mem_def, Option.filter_eq_some_iff] at this
    exact this.2

/-- The options that are given, when there is no conflict. -/
theorem eff_settings {V : Type} {eff : Config R → V} {tells : Cmd R → Option (Option V)} {initial : V}
    (hkept : ∀ c a, a.conflict = false → eff (kept A.toReals (c.apply A a)) =
      (match tells (.settings a) with | none => eff c | some none => initial | some (some v) => v))
    (hconf : ∀ a, a.conflict = true → tells (.settings a) = none) (hshow : ∀ a, a.shows = true → tells (.settings a) = none)
    (hmodel : ∀ m v, tells (.setModel m v) = none) (heff : ∀ c m, eff { c with model := m } = eff c)
    (c : Config R) (cmd : Cmd R) (hs : Sound A c) :
    eff (after A c cmd) = (match tells cmd with | none => eff c | some none => initial | some (some v) => v) := by
  cases cmd with
  | setModel m v =>
    rw [hmodel m v, model_after c m v hs]
    cases v with
    | true => exact heff c _
    | false => rfl
  | settings a =>
    cases hcf : a.conflict with
    | true => rw [hconf a hcf, conflict_after c a hcf]
    | false =>
      cases hsh : a.shows with
      | true => rw [hshow a hsh, shows_after c a hsh]
      | false => rw [settings_after c a hcf hsh, hkept c a hcf]

theorem number_eff (g o : Option Nat) (initial : Option Nat → V) : initial (number g o) =
    (match (g.map fun n => if n = 0 then none else some n) with | none => initial o | some none => initial none | some (some v) => initial (some v)) := by
  cases g with
  | none => rfl
  | some v =>
    unfold number
    by_cases h : v = 0
    · simp [h]
    · simp [h, Nat.max_eq_left (Nat.one_le_iff_ne_zero.2 h)]

/-! ### Lists of patterns -/

theorem mem_add (l : List (List Char)) (p q : List Char) : q ∈ add l p ↔ q ∈ l ∨ q = p := by
  unfold add
  by_cases h : l.contains p
  · rw [if_pos h]
    have : p ∈ l := by simpa using h
    constructor
    · exact Or.inl
    · rintro (h | rfl)
      · exact h
      · exact this
  · rw [if_neg h]; simp

theorem mem_adds : ∀ (added l : List (List Char)) (q : List Char), q ∈ added.foldl add l ↔ q ∈ l ∨ q ∈ added
  | [], l, q => by simp
  | p :: added, l, q => by rw [List.foldl_cons, mem_adds added, mem_add]; simp [or_assoc]

theorem mem_removes : ∀ (removed l : List (List Char)) (q : List Char), q ∈ removed.foldl remove l ↔ q ∈ l ∧ q ∉ removed
  | [], l, q => by simp
  | p :: removed, l, q => by rw [List.foldl_cons, mem_removes removed]; simp [remove, and_assoc]

theorem mem_patterns (clear : Bool) (added removed l : List (List Char)) (q : List Char) :
    q ∈ patterns clear added removed l ↔ q ∉ removed ∧ (q ∈ added ∨ clear = false ∧ q ∈ l) := by
  unfold patterns
  rw [mem_removes, mem_adds]
  cases clear <;> simp [and_comm, or_comm]

theorem nodup_add {l : List (List Char)} (h : l.Nodup) (p : List Char) : (add l p).Nodup := by
  unfold add
  by_cases hp : l.contains p
  · rw [if_pos hp]; exact h
  · rw [if_neg hp]
    have hp' : p ∉ l := by simpa using hp
    refine List.nodup_append.2 ⟨h, by simp, ?_⟩
    intro a ha b hb
    simp at hb
    subst hb
    intro hab
    exact hp' (hab ▸ ha)

theorem nodup_adds : ∀ (added : List (List Char)) {l : List (List Char)}, l.Nodup → (added.foldl add l).Nodup
  | [], _, h => h
  | p :: added, _, h => nodup_adds added (nodup_add h p)

theorem nodup_removes : ∀ (removed : List (List Char)) {l : List (List Char)}, l.Nodup → (removed.foldl remove l).Nodup
  | [], _, h => h
  | _ :: removed, _, h => nodup_removes removed (h.filter _)

theorem nodup_patterns (clear : Bool) (added removed : List (List Char)) {l : List (List Char)} (h : l.Nodup) : (patterns clear added removed l).Nodup := by
  unfold patterns
  refine nodup_removes _ (nodup_adds _ ?_)
  cases clear
  · exact h
  · exact List.nodup_nil

/-! ### All commands -/

theorem in_use (hF : LawfulReals A.toReals) (l : List (Cmd R)) (hl : ∀ cmd ∈ l, FitsCmd cmd) {V : Type} {eff : Config R → V}
    {tells : Cmd R → Option (Option V)} {initial : V}
    (hstep : ∀ c cmd, Sound A c → eff (after A c cmd) = (match tells cmd with | none => eff c | some none => initial | some (some v) => v))
    (h0 : eff {} = initial) : eff (inUse A.toReals (runs A l none)) = chosen tells initial l.reverse := by
  have hload := (load_runs hF l (file := none) (c := {}) rfl fits_empty hl).1
  unfold inUse
  rw [hload]
  exact chosen_fold (P := Sound A) (Q := fun _ => True) (fun s c hs _ => sound_after hs) (fun s c hs _ => hstep s c hs) l {} (by intro r hr; cases hr)
    (fun _ _ => trivial) h0

theorem in_use_number (hF : LawfulReals A.toReals) (l : List (Cmd R)) (hl : ∀ cmd ∈ l, FitsCmd cmd) (g : Args R → Option Nat) (get : Config R → Option Nat)
    (d : Nat) (hget : ∀ c a, get (kept A.toReals (c.apply A a)) = number (g a) (get c)) (hmodel : ∀ c m, get { c with model := m } = get c)
    (hshow : ∀ a : Args R, a.shows = true → g a = none) (h0 : get {} = none) :
    (get (inUse A.toReals (runs A l none))).getD d = chosen (saysNumber g) d l.reverse := by
  refine in_use hF l hl (eff := fun c => (get c).getD d) (fun c cmd hs => eff_settings (eff := fun c => (get c).getD d) ?_ ?_ ?_ ?_ ?_ c cmd hs) (by simp [h0])
  · intro c a hc
    rw [hget]
    unfold saysNumber
    dsimp only
    rw [contradictory_eq, hc, number_eff (g a) (get c) (fun o => o.getD d)]
    cases g a with
    | none => rfl
    | some v => by_cases hv : v = 0 <;> simp [hv]
  · intro a hc; unfold saysNumber; simp [hc]
  · intro a hc; unfold saysNumber; simp [hshow a hc]
  · intro m v; rfl
  · intro c m; rw [hmodel]

theorem in_use_numberOpt (hF : LawfulReals A.toReals) (l : List (Cmd R)) (hl : ∀ cmd ∈ l, FitsCmd cmd) (g : Args R → Option Nat) (get : Config R → Option Nat)
    (hget : ∀ c a, get (kept A.toReals (c.apply A a)) = number (g a) (get c)) (hmodel : ∀ c m, get { c with model := m } = get c)
    (hshow : ∀ a : Args R, a.shows = true → g a = none) (h0 : get {} = none) :
    atLeastOne (get (inUse A.toReals (runs A l none))) = chosen (fun c => (saysNumber g c).map fun o => o.map some) none l.reverse := by
  refine in_use hF l hl (eff := fun c => atLeastOne (get c)) (fun c cmd hs => eff_settings (eff := fun c => atLeastOne (get c))
    (tells := fun c => (saysNumber g c).map fun o => o.map some) (initial := none) ?_ ?_ ?_ ?_ ?_ c cmd hs)
    (by simp [h0, atLeastOne])
  · intro c a hc
    rw [hget]
    unfold saysNumber
    dsimp only
    rw [contradictory_eq, hc, number_eff (g a) (get c) atLeastOne]
    cases g a with
    | none => rfl
    | some v =>
      by_cases hv : v = 0
      · simp [hv, atLeastOne]
      · simp [hv, atLeastOne, Nat.max_eq_left (Nat.one_le_iff_ne_zero.2 hv)]
  · intro a hc; unfold saysNumber; simp [hc]
  · intro a hc; unfold saysNumber; simp [hshow a hc]
  · intro m v; rfl
  · intro c m; rw [hmodel]

theorem in_use_pattern (hF : LawfulReals A.toReals) (l : List (Cmd R)) (hl : ∀ cmd ∈ l, FitsCmd cmd) (clear : Args R → Bool)
    (added removed : Args R → List (List Char)) (get : Config R → List (List Char)) (p : List Char)
    (hget : ∀ c a, get (kept A.toReals (c.apply A a)) = patterns (clear a) (added a) (removed a) (get c)) (hmodel : ∀ c m, get { c with model := m } = get c)
    (hshow : ∀ a : Args R, a.shows = true → clear a = false ∧ added a = [] ∧ removed a = []) (h0 : get {} = []) :
    decide (p ∈ get (inUse A.toReals (runs A l none))) = chosen (saysPattern clear added removed p) false l.reverse := by
  refine in_use hF l hl (eff := fun c => decide (p ∈ get c)) (fun c cmd hs => eff_settings (eff := fun c => decide (p ∈ get c)) ?_ ?_ ?_ ?_ ?_ c cmd hs)
    (by simp [h0])
  · intro c a hc
    rw [hget]
    unfold saysPattern
    dsimp only
    rw [contradictory_eq, hc]
    by_cases h1 : p ∈ removed a
    · simp [mem_patterns, h1]
    · by_cases h2 : p ∈ added a
      · simp [mem_patterns, h1, h2]
      · cases h3 : clear a <;> simp [mem_patterns, h1, h2]
  · intro a hc; unfold saysPattern; simp [hc]
  · intro a hc
    obtain ⟨h1, h2, h3⟩ := hshow a hc
    unfold saysPattern
    simp [h1, h2, h3]
  · intro m v; rfl
  · intro c m; rw [hmodel]

theorem nodup_after {c : Config R} (h : c.ignore.Nodup ∧ c.force.Nodup) (cmd : Cmd R) (hs : Sound A c) :
    (after A c cmd).ignore.Nodup ∧ (after A c cmd).force.Nodup := by
  cases cmd with
  | setModel m v =>
    rw [model_after c m v hs]
    cases v <;> exact h
  | settings a =>
    cases hcf : a.conflict with
    | true => rw [conflict_after c a hcf]; exact h
    | false =>
      cases hsh : a.shows with
      | true => rw [shows_after c a hsh]; exact h
      | false => rw [settings_after c a hcf hsh]; exact ⟨nodup_patterns _ _ _ h.1, nodup_patterns _ _ _ h.2⟩

theorem always (hF : LawfulReals A.toReals) {P : Config R → Prop} (h0 : P {}) (hstep : ∀ c cmd, Sound A c → P c → P (after A c cmd))
    (l : List (Cmd R)) (hl : ∀ cmd ∈ l, FitsCmd cmd) : P (inUse A.toReals (runs A l none)) := by
  have hload := (load_runs hF l (file := none) (c := {}) rfl fits_empty hl).1
  unfold inUse
  rw [hload]
  have key : ∀ (l : List (Cmd R)) (c : Config R), Sound A c → P c → P (l.foldl (after A) c) := by
    intro l
    induction l with
    | nil => intro c _ h; exact h
    | cons cmd l ih => intro c hs h; exact ih _ (sound_after hs) (hstep c cmd hs h)
  exact key l {} (by intro r hr; cases hr) h0

end NextPlaid.Settings
