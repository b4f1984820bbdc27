import Verif.Spec.ConfCache

/-!
Proofs for C83: requests that overlap.
-/

namespace NextPlaid.ConfCache

open NextPlaid.Spec.ConfCache
open NextPlaid.Catalogue (Cfg File)

/-- Between taking the lock and letting go of it. -/
def holds : Pc → Bool
  | .set0 _ | .set1 _ | .set2 _ _ | .create0 _ | .create1 _ | .write0 _ _ | .write1 _ _ | .write2 _ _ | .delete0 | .delete1 => true
  | _ => false

/-- At most one request has the lock. -/
def Me (s : St) : Prop := ∀ t, holds (s.pc t) = true ↔ s.lock = some t

theorem begins_holds (r : Req) : holds (begins r) = false := by cases r <;> rfl

/-- What one step of `t` does to the lock and to `t`: by cases. -/
theorem me_of {s s' : St} {t : Nat} (h : Me s) (hpc : ∀ u, u ≠ t → s'.pc u = s.pc u)
    (hl : (s'.lock = s.lock ∧ holds (s'.pc t) = holds (s.pc t)) ∨
      (s.lock = none ∧ s'.lock = some t ∧ holds (s'.pc t) = true) ∨
      (holds (s.pc t) = true ∧ s'.lock = none ∧ holds (s'.pc t) = false)) : Me s' := by
  intro u
  rcases hl with ⟨h1, h2⟩ | ⟨h1, h2, h3⟩ | ⟨h1, h2, h3⟩
  · rw [h1]
    by_cases hu : u = t
    · subst hu; rw [h2]; exact h u
    · rw [hpc u hu]; exact h u
  · rw [h2]
    by_cases hu : u = t
    · subst hu; simp [h3]
    · rw [hpc u hu, h u, h1]
      simp [Ne.symm hu]
  · rw [h2]
    by_cases hu : u = t
    · subst hu; simp [h3]
    · rw [hpc u hu, h u, (h t).1 h1]
      simp [Ne.symm hu]

theorem run_pc_other (s : St) (t u : Nat) (hu : u ≠ t) : (run s t).pc u = s.pc u := by
  unfold run
  split <;> (try split) <;> simp [St.goto, St.fin, St.release, St.acquire, hu] <;> (try (split <;> simp [St.goto, hu]))

theorem run_me {s : St} (h : Me s) (t : Nat) : Me (run s t) := by
  refine me_of h (run_pc_other s t) ?_
  unfold run
  split <;> rename_i hp <;> (try split) <;>
    simp [St.goto, St.fin, St.release, St.acquire, hp, holds] <;> (try (cases hl : s.lock <;> simp [St.goto, hp, holds, hl]))

theorem act_me {s : St} (h : Me s) (a : Act) : Me (act s a) := by
  cases a with
  | run t => exact run_me h t
  | start t r =>
    simp only [act]
    split
    · rename_i o hp
      refine me_of (t := t) h (fun u hu => by simp [St.goto, hu]) (Or.inl ⟨rfl, ?_⟩)
      have := begins_holds r
      simp only [St.goto, if_true, this, hp]
      rfl
    · exact h

theorem exec_inv {P : St → Prop} (h : ∀ s a, P s → P (act s a)) : ∀ (as : List Act) (s : St), P s → P (exec s as) := by
  intro as
  induction as with
  | nil => intro s hs; exact hs
  | cons a as ih => intro s hs; exact ih _ (h s a hs)

theorem start_me (d : Bool) (f : File) : Me (start d f) := by
  intro t
  simp [start, holds]

/-- One when there is a file. -/
def ex (f : File) : Nat := if f = .absent then 0 else 1

/-- `k`: one when there was a file at first. -/
structure Cnt (k : Nat) (s : St) : Prop where
  me : Me s
  fresh : ∀ t c, s.pc t = .create1 c ∨ s.pc t = .write0 true c → s.file = .absent
  le : s.created + k ≤ s.removed + ex s.file
  pend : ∀ t c, s.pc t = .write1 true c ∨ s.pc t = .write2 true c → s.created + k + 1 ≤ s.removed + ex s.file

/-- Another one is not in the critical section. -/
theorem other_free {s : St} (h : Me s) {t u : Nat} (ht : holds (s.pc t) = true) (hu : u ≠ t) : holds (s.pc u) = false := by
  cases hh : holds (s.pc u) with
  | false => rfl
  | true =>
    have h1 := (h t).1 ht
    have h2 := (h u).1 hh
    rw [h1] at h2
    exact absurd (by simpa using h2.symm) hu

theorem cnt_of {k : Nat} {s s' : St} {t : Nat} (h : Cnt k s) (hme : Me s') (hpc : ∀ u, u ≠ t → s'.pc u = s.pc u)
    (hf : s'.file = s.file ∨ holds (s.pc t) = true ∨ s'.file = .absent)
    (hc : s'.created = s.created ∨ holds (s.pc t) = true)
    (hr : s.removed + ex s.file ≤ s'.removed + ex s'.file)
    (hfresh : ∀ c, s'.pc t = .create1 c ∨ s'.pc t = .write0 true c → s'.file = .absent)
    (hle : s'.created + k ≤ s'.removed + ex s'.file)
    (hpend : ∀ c, s'.pc t = .write1 true c ∨ s'.pc t = .write2 true c → s'.created + k + 1 ≤ s'.removed + ex s'.file) : Cnt k s' := by
  refine ⟨hme, ?_, hle, ?_⟩
  · intro u c hu
    by_cases e : u = t
    · subst e; exact hfresh c hu
    · rw [hpc u e] at hu
      rcases hf with hf | hf | hf
      · rw [hf]; exact h.fresh u c hu
      · have := other_free h.me hf e
        rcases hu with hu | hu <;> rw [hu] at this <;> cases this
      · exact hf
  · intro u c hu
    by_cases e : u = t
    · subst e; exact hpend c hu
    · rw [hpc u e] at hu
      have hp := h.pend u c hu
      rcases hc with hc | hc
      · rw [hc]; omega
      · have := other_free h.me hc e
        rcases hu with hu | hu <;> rw [hu] at this <;> cases this

theorem acquire_fields (s : St) (t : Nat) (p : Pc) :
    (s.acquire t p).dir = s.dir ∧ (s.acquire t p).file = s.file ∧ (s.acquire t p).cache = s.cache ∧ (s.acquire t p).created = s.created ∧
      (s.acquire t p).removed = s.removed ∧ ((s.acquire t p).pc t = p ∨ (s.acquire t p).pc t = s.pc t) := by
  unfold St.acquire
  split
  · simp [St.goto]
  · simp

/-- Steps that do not touch the file and lead to no place that is spoken of. -/
theorem cnt_light {k : Nat} {s s' : St} {t : Nat} (h : Cnt k s) (hme : Me s') (hpc : ∀ u, u ≠ t → s'.pc u = s.pc u)
    (hf : s'.file = s.file) (hc : s'.created = s.created) (hr : s'.removed = s.removed)
    (h1 : ∀ c, s'.pc t ≠ .create1 c) (h2 : ∀ c, s'.pc t ≠ .write0 true c) (h3 : ∀ c, s'.pc t ≠ .write1 true c)
    (h4 : ∀ c, s'.pc t ≠ .write2 true c) : Cnt k s' := by
  refine cnt_of h hme hpc (Or.inl hf) (Or.inl hc) (by rw [hf, hr]) ?_ ?_ ?_
  · intro c hx
    rcases hx with hx | hx
    · exact absurd hx (h1 c)
    · exact absurd hx (h2 c)
  · rw [hf, hc, hr]; exact h.le
  · intro c hx
    rcases hx with hx | hx
    · exact absurd hx (h3 c)
    · exact absurd hx (h4 c)

theorem run_cnt {k : Nat} {s : St} (h : Cnt k s) (t : Nat) : Cnt k (run s t) := by
  have hme := run_me h.me t
  have hpc := run_pc_other s t
  cases hp : s.pc t with
  | idle a => simpa [run, hp] using h
  | get0 =>
    cases hc : s.cache <;> (apply cnt_light h hme hpc <;> simp [run, hp, hc, St.goto, St.fin])
  | get1 =>
    cases hc : s.file <;> (apply cnt_light h hme hpc <;> simp [run, hp, hc, St.goto, St.fin])
  | get2 c => apply cnt_light h hme hpc <;> simp [run, hp, St.goto, St.fin]
  | waitSet m =>
    obtain ⟨-, e2, -, e4, e5, e6⟩ := acquire_fields s t (.set0 m)
    apply cnt_light h hme hpc <;> simp only [run, hp, e2, e4, e5] <;> (intro c; rcases e6 with e6 | e6 <;> rw [e6] <;> simp [hp])
  | set0 m =>
    cases hc : s.cache <;> (apply cnt_light h hme hpc <;> simp [run, hp, hc, St.goto])
  | set1 m =>
    cases hc : s.file <;> (apply cnt_light h hme hpc <;> simp [run, hp, hc, St.goto, St.fin, St.release])
  | set2 m c => apply cnt_light h hme hpc <;> simp [run, hp, St.goto]
  | waitCreate c =>
    obtain ⟨-, e2, -, e4, e5, e6⟩ := acquire_fields s t (.create0 c)
    apply cnt_light h hme hpc <;> simp only [run, hp, e2, e4, e5] <;> (intro c'; rcases e6 with e6 | e6 <;> rw [e6] <;> simp [hp])
  | create0 c =>
    by_cases hf : s.file = .absent
    · refine cnt_of h hme hpc (Or.inl ?_) (Or.inl ?_) (le_of_eq ?_) ?_ ?_ ?_
      · simp [run, hp, hf, St.goto]
      · simp [run, hp, hf, St.goto]
      · simp [run, hp, hf, St.goto]
      · simp [run, hp, hf, St.goto]
      · have := h.le
        simpa [run, hp, hf, St.goto] using this
      · simp [run, hp, hf, St.goto]
    · apply cnt_light h hme hpc <;> simp [run, hp, hf, St.goto, St.fin, St.release]
  | create1 c =>
    have hf := h.fresh t c (Or.inl hp)
    refine cnt_of h hme hpc (Or.inl ?_) (Or.inl ?_) (le_of_eq ?_) ?_ ?_ ?_
    · simp [run, hp, St.goto]
    · simp [run, hp, St.goto]
    · simp [run, hp, St.goto]
    · simp [run, hp, hf, St.goto]
    · have := h.le
      simpa [run, hp, hf, St.goto] using this
    · simp [run, hp, St.goto]
  | write0 new c =>
    cases hd : s.dir with
    | false => apply cnt_light h hme hpc <;> simp [run, hp, hd, St.goto, St.fin, St.release]
    | true =>
      have hex : ex s.file ≤ 1 := by unfold ex; split <;> omega
      have hle := h.le
      refine cnt_of h hme hpc (Or.inr (Or.inl (by simp [holds, hp]))) (Or.inl ?_) ?_ ?_ ?_ ?_
      · simp [run, hp, hd, St.goto]
      · simpa [run, hp, hd, St.goto, ex] using hex
      · simp [run, hp, hd, St.goto]
      · simp [run, hp, hd, St.goto, ex] at hle ⊢
        split at hle <;> omega
      · intro c' hx
        have hnew : new = true := by
          simp [run, hp, hd, St.goto] at hx
          exact hx.1
        subst hnew
        have hf := h.fresh t c (Or.inr hp)
        simp [run, hp, hd, St.goto, ex, hf] at hle ⊢
        omega
  | write1 new c =>
    have hex : ex (if s.file = .absent then .absent else .good c) = ex s.file := by
      unfold ex
      by_cases hf : s.file = .absent <;> simp [hf]
    refine cnt_of h hme hpc (Or.inr (Or.inl (by simp [holds, hp]))) (Or.inl ?_) (le_of_eq ?_) ?_ ?_ ?_
    · simp [run, hp, St.goto]
    · simp only [run, hp, St.goto, hex]
    · simp [run, hp, St.goto]
    · have := h.le
      simp only [run, hp, St.goto, hex]
      exact this
    · intro c' hx
      have hnew : new = true := by
        simp [run, hp, St.goto] at hx
        exact hx.1
      subst hnew
      have := h.pend t c (Or.inl hp)
      simp only [run, hp, St.goto, hex]
      exact this
  | write2 new c =>
    refine cnt_of h hme hpc (Or.inl ?_) (Or.inr (by simp [holds, hp])) (le_of_eq ?_) ?_ ?_ ?_
    · simp [run, hp, St.goto, St.fin, St.release]
    · simp [run, hp, St.goto, St.fin, St.release]
    · simp [run, hp, St.goto, St.fin, St.release]
    · cases new with
      | true =>
        have := h.pend t c (Or.inr hp)
        simp [run, hp, St.goto, St.fin, St.release]
        omega
      | false =>
        have := h.le
        simpa [run, hp, St.goto, St.fin, St.release] using this
    · simp [run, hp, St.goto, St.fin, St.release]
  | waitDelete =>
    obtain ⟨-, e2, -, e4, e5, e6⟩ := acquire_fields s t .delete0
    apply cnt_light h hme hpc <;> simp only [run, hp, e2, e4, e5] <;> (intro c'; rcases e6 with e6 | e6 <;> rw [e6] <;> simp [hp])
  | delete0 => apply cnt_light h hme hpc <;> simp [run, hp, St.goto]
  | delete1 => apply cnt_light h hme hpc <;> simp [run, hp, St.goto, St.release]
  | delete2 =>
    cases hd : s.dir with
    | false => apply cnt_light h hme hpc <;> simp [run, hp, hd, St.goto, St.fin]
    | true =>
      have hex : ex s.file ≤ 1 := by unfold ex; split <;> omega
      have hle := h.le
      refine cnt_of h hme hpc (Or.inr (Or.inr ?_)) (Or.inl ?_) ?_ ?_ ?_ ?_
      · simp [run, hp, hd, St.goto, St.fin]
      · simp [run, hp, hd, St.goto, St.fin]
      · simpa [run, hp, hd, St.goto, St.fin, ex] using hex
      · simp [run, hp, hd, St.goto, St.fin]
      · simp [run, hp, hd, St.goto, St.fin]
        omega
      · simp [run, hp, hd, St.goto, St.fin]

theorem begins_cases (r : Req) : begins r = .get0 ∨ (∃ m, begins r = .waitSet m) ∨ (∃ c, begins r = .waitCreate c) ∨ begins r = .waitDelete := by
  cases r <;> simp [begins]

theorem act_cnt {k : Nat} {s : St} (h : Cnt k s) (a : Act) : Cnt k (act s a) := by
  have hme := act_me h.me a
  cases a with
  | run t => exact run_cnt h t
  | start t r =>
    simp only [act] at hme ⊢
    split
    · rename_i o hp
      rw [hp] at hme
      have hb := begins_cases r
      apply cnt_light (t := t) h hme (fun u hu => by simp [St.goto, hu]) <;> simp only [St.goto, if_true] <;> (try rfl) <;>
        (intro c; rcases hb with hb | ⟨_, hb⟩ | ⟨_, hb⟩ | hb <;> rw [hb] <;> simp)
    · exact h

theorem start_cnt (d : Bool) (f : File) : Cnt (ex f) (start d f) :=
  ⟨start_me d f, by simp [start], by simp [start], by simp [start]⟩

theorem created_le (d : Bool) (f : File) (as : List Act) :
    (exec (start d f) as).created + ex f ≤ (exec (start d f) as).removed + ex (exec (start d f) as).file :=
  (exec_inv (P := Cnt (ex f)) (fun _ a hs => act_cnt hs a) as _ (start_cnt d f)).le

/-! ### No index is removed -/

/-- Where requests can be, and what they can have been told, while nothing is removed. -/
def okPc (c0 : Cfg) : Pc → Prop
  | .idle (some (.config (some c))) | .idle (some (.changed c)) => Same c0 c
  | .idle (some (.created _)) | .idle (some .notFound) | .idle (some .internal) | .idle (some .deleted) => False
  | .get2 c | .set2 _ c | .write0 false c | .write1 false c | .write2 false c => Same c0 c
  | .create1 _ | .write0 true _ | .write1 true _ | .write2 true _ | .waitDelete | .delete0 | .delete1 | .delete2 => False
  | _ => True

structure Fld (c0 : Cfg) (s : St) : Prop where
  me : Me s
  dir : s.dir = true
  file : (∃ c, s.file = .good c ∧ Same c0 c) ∨ (s.file = .bad ∧ ∃ t c, s.pc t = .write1 false c)
  cache : ∀ c, s.cache = some c → Same c0 c
  ok : ∀ t, okPc c0 (s.pc t)
  done : ∀ t c, s.pc t = .write2 false c → s.file = .good c

theorem same_set {c0 c : Cfg} (h : Same c0 c) (m : Option Nat) : Same c0 { c with maxDocuments := m } := by
  unfold Same at *
  rw [h]

theorem fld_bad {c0 : Cfg} {s : St} (h : Fld c0 s) {t : Nat} (ht : holds (s.pc t) = true) (hw : ∀ c, s.pc t ≠ .write1 false c) :
    ∃ c, s.file = .good c ∧ Same c0 c := by
  rcases h.file with hf | ⟨_, u, c, hu⟩
  · exact hf
  · by_cases e : u = t
    · subst e; exact absurd hu (hw c)
    · have := other_free h.me ht e
      rw [hu] at this
      cases this

/-- Steps that do not touch the directory. -/
theorem fld_light {c0 : Cfg} {s s' : St} {t : Nat} (h : Fld c0 s) (hme : Me s') (hpc : ∀ u, u ≠ t → s'.pc u = s.pc u)
    (hd : s'.dir = s.dir) (hf : s'.file = s.file) (hc : ∀ c, s'.cache = some c → Same c0 c) (hok : okPc c0 (s'.pc t))
    (hw : ∀ c, s.pc t ≠ .write1 false c) (hdn : ∀ c, s'.pc t = .write2 false c → s'.file = .good c) : Fld c0 s' := by
  refine ⟨hme, by rw [hd]; exact h.dir, ?_, hc, ?_, ?_⟩
  · rw [hf]
    rcases h.file with hg | ⟨hb, u, c, hu⟩
    · exact Or.inl hg
    · refine Or.inr ⟨hb, u, c, ?_⟩
      rw [hpc u (by rintro rfl; exact hw c hu)]
      exact hu
  · intro u
    by_cases e : u = t
    · subst e; exact hok
    · rw [hpc u e]; exact h.ok u
  · intro u c hu
    by_cases e : u = t
    · subst e; exact hdn c hu
    · rw [hpc u e] at hu
      rw [hf]; exact h.done u c hu

theorem run_fld {c0 : Cfg} {s : St} (h : Fld c0 s) (t : Nat) : Fld c0 (run s t) := by
  have hme := run_me h.me t
  have hpc := run_pc_other s t
  have hok := h.ok t
  have hcache := h.cache
  cases hp : s.pc t with
  | idle a => simpa [run, hp] using h
  | get0 =>
    cases hc : s.cache with
    | none => apply fld_light h hme hpc <;> simp [run, hp, hc, St.goto, okPc]
    | some c =>
      have := hcache c hc
      apply fld_light h hme hpc <;> simp [run, hp, hc, St.goto, St.fin, okPc, this]
  | get1 =>
    cases hc : s.file with
    | good c =>
      have : Same c0 c := by
        rcases h.file with ⟨c', h1, h2⟩ | ⟨h1, _⟩
        · rw [hc] at h1; cases h1; exact h2
        · rw [hc] at h1; cases h1
      apply fld_light h hme hpc <;> simp [run, hp, hc, St.goto, okPc, this]
      exact hcache
    | bad =>
      apply fld_light h hme hpc <;> simp [run, hp, hc, St.goto, St.fin, okPc]
      exact hcache
    | absent =>
      apply fld_light h hme hpc <;> simp [run, hp, hc, St.goto, St.fin, okPc]
      exact hcache
  | get2 c =>
    rw [hp] at hok
    have : Same c0 c := hok
    apply fld_light h hme hpc <;> simp [run, hp, St.goto, St.fin, okPc, this]
  | waitSet m =>
    obtain ⟨e1, e2, e3, e4, e5, e6⟩ := acquire_fields s t (.set0 m)
    have hr : run s t = s.acquire t (.set0 m) := by simp [run, hp]
    rw [hr] at hme hpc ⊢
    apply fld_light h hme hpc e1 e2
    · rw [e3]; exact hcache
    · rcases e6 with e6 | e6 <;> rw [e6]
      · trivial
      · exact hok
    · simp [hp]
    · intro c hx
      rcases e6 with e6 | e6 <;> rw [e6] at hx
      · cases hx
      · rw [hp] at hx; cases hx
  | set0 m =>
    cases hc : s.cache with
    | none => apply fld_light h hme hpc <;> simp [run, hp, hc, St.goto, okPc]
    | some c =>
      have := same_set (hcache c hc) m
      apply fld_light h hme hpc <;> simp [run, hp, hc, St.goto, okPc, this]
      exact hcache c hc
  | set1 m =>
    obtain ⟨c, hf, hs⟩ := fld_bad h (t := t) (by simp [hp, holds]) (by simp [hp])
    apply fld_light h hme hpc <;> simp [run, hp, hf, St.goto, okPc, hs]
    exact hcache
  | set2 m c =>
    rw [hp] at hok
    have h1 : Same c0 c := hok
    have h2 := same_set h1 m
    apply fld_light h hme hpc <;> simp [run, hp, St.goto, okPc, h1, h2]
  | waitCreate c =>
    obtain ⟨e1, e2, e3, e4, e5, e6⟩ := acquire_fields s t (.create0 c)
    have hr : run s t = s.acquire t (.create0 c) := by simp [run, hp]
    rw [hr] at hme hpc ⊢
    apply fld_light h hme hpc e1 e2
    · rw [e3]; exact hcache
    · rcases e6 with e6 | e6 <;> rw [e6]
      · trivial
      · exact hok
    · simp [hp]
    · intro c hx
      rcases e6 with e6 | e6 <;> rw [e6] at hx
      · cases hx
      · rw [hp] at hx; cases hx
  | create0 c =>
    obtain ⟨c', hf, hs⟩ := fld_bad h (t := t) (by simp [hp, holds]) (by simp [hp])
    apply fld_light h hme hpc <;> simp [run, hp, hf, St.goto, St.fin, St.release, okPc]
    exact hcache
  | create1 c => rw [hp] at hok; exact hok.elim
  | write0 new c =>
    cases new with
    | true => rw [hp] at hok; exact hok.elim
    | false =>
      rw [hp] at hok
      have h1 : Same c0 c := hok
      have hd := h.dir
      have hfree := fun u hu => other_free h.me (t := t) (u := u) (by simp [hp, holds]) hu
      refine ⟨hme, by simp [run, hp, hd, St.goto], ?_, ?_, ?_, ?_⟩
      · refine Or.inr ⟨by simp [run, hp, hd, St.goto], t, c, by simp [run, hp, hd, St.goto]⟩
      · simp [run, hp, hd, St.goto]; exact hcache
      · intro u
        by_cases e : u = t
        · subst e; simp [run, hp, hd, St.goto, okPc, h1]
        · rw [hpc u e]; exact h.ok u
      · intro u c' hu
        by_cases e : u = t
        · subst e; simp [run, hp, hd, St.goto] at hu
        · rw [hpc u e] at hu
          have := hfree u e
          rw [hu] at this; cases this
  | write1 new c =>
    cases new with
    | true => rw [hp] at hok; exact hok.elim
    | false =>
      rw [hp] at hok
      have h1 : Same c0 c := hok
      have hfree := fun u hu => other_free h.me (t := t) (u := u) (by simp [hp, holds]) hu
      have hf : s.file ≠ .absent := by
        rcases h.file with ⟨c', hx, _⟩ | ⟨hx, _⟩ <;> rw [hx] <;> simp
      refine ⟨hme, by simp [run, hp, h.dir, St.goto], ?_, ?_, ?_, ?_⟩
      · exact Or.inl ⟨c, by simp [run, hp, hf, St.goto], h1⟩
      · simp [run, hp, St.goto]; exact hcache
      · intro u
        by_cases e : u = t
        · subst e; simp [run, hp, St.goto, okPc, h1]
        · rw [hpc u e]; exact h.ok u
      · intro u c' hu
        by_cases e : u = t
        · subst e
          simp [run, hp, St.goto] at hu
          subst hu
          simp [run, hp, hf, St.goto]
        · rw [hpc u e] at hu
          have := hfree u e
          rw [hu] at this; cases this
  | write2 new c =>
    cases new with
    | true => rw [hp] at hok; exact hok.elim
    | false =>
      rw [hp] at hok
      have h1 : Same c0 c := hok
      apply fld_light h hme hpc <;> simp [run, hp, St.goto, St.fin, St.release, okPc, h1]
  | waitDelete => rw [hp] at hok; exact hok.elim
  | delete0 => rw [hp] at hok; exact hok.elim
  | delete1 => rw [hp] at hok; exact hok.elim
  | delete2 => rw [hp] at hok; exact hok.elim

theorem act_fld {c0 : Cfg} {s : St} (h : Fld c0 s) {a : Act} (ha : ∀ t, a ≠ .start t .delete) : Fld c0 (act s a) := by
  have hme := act_me h.me a
  cases a with
  | run t => exact run_fld h t
  | start t r =>
    simp only [act] at hme ⊢
    split
    · rename_i o hp
      rw [hp] at hme
      have hr : r ≠ .delete := fun e => ha t (by rw [e])
      refine fld_light (t := t) h hme (fun u hu => by simp [St.goto, hu]) rfl rfl h.cache ?_ (by simp [hp]) ?_
      · cases r <;> simp [St.goto, begins, okPc] at hr ⊢
      · cases r <;> simp [St.goto, begins]
    · exact h

theorem exec_fld {c0 : Cfg} : ∀ (as : List Act) (s : St), Fld c0 s → (∀ t, .start t .delete ∉ as) → Fld c0 (exec s as) := by
  intro as
  induction as with
  | nil => intro s hs _; exact hs
  | cons a as ih =>
    intro s hs h
    exact ih _ (act_fld hs (fun t e => h t (by rw [e]; exact List.mem_cons_self))) (fun t ht => h t (List.mem_cons_of_mem _ ht))

theorem start_fld (c : Cfg) : Fld c (start true (.good c)) :=
  ⟨start_me _ _, rfl, Or.inl ⟨c, rfl, rfl⟩, by simp [start], by simp [start, okPc], by simp [start]⟩

/-! ### Calm executions -/

structure Coh (s : St) : Prop where
  me : Me s
  cache : ∀ c, s.cache = some c → s.file = .good c ∨ ∃ t new c', s.pc t = .write1 new c' ∨ s.pc t = .write2 new c'
  read : ∀ t c, s.pc t = .get2 c ∨ (∃ m, s.pc t = .set2 m c) ∨ (∃ new, s.pc t = .write2 new c) → s.file = .good c
  w1 : ∀ t new c, s.pc t = .write1 new c → s.file = .bad
  del : ∀ t, s.pc t = .delete1 ∨ s.pc t = .delete2 → s.cache = none

/-- Steps that touch neither the cache nor the directory. -/
theorem coh_light {s s' : St} {t : Nat} (h : Coh s) (hme : Me s') (hpc : ∀ u, u ≠ t → s'.pc u = s.pc u)
    (hf : s'.file = s.file) (hc : s'.cache = s.cache) (hw : ∀ new c, s.pc t ≠ .write1 new c ∧ s.pc t ≠ .write2 new c)
    (hr : ∀ c, s'.pc t = .get2 c ∨ (∃ m, s'.pc t = .set2 m c) ∨ (∃ new, s'.pc t = .write2 new c) → s'.file = .good c)
    (h1 : ∀ new c, s'.pc t ≠ .write1 new c)
    (hd : s'.pc t = .delete1 ∨ s'.pc t = .delete2 → s'.cache = none) : Coh s' := by
  refine ⟨hme, ?_, ?_, ?_, ?_⟩
  · intro c hx
    rw [hc] at hx
    rw [hf]
    rcases h.cache c hx with h0 | ⟨u, new, c', hu⟩
    · exact Or.inl h0
    · have hut : u ≠ t := by
        rintro rfl
        rcases hu with hu | hu
        · exact (hw new c').1 hu
        · exact (hw new c').2 hu
      exact Or.inr ⟨u, new, c', by rw [hpc u hut]; exact hu⟩
  · intro u c hu
    by_cases e : u = t
    · subst e; exact hr c hu
    · rw [hpc u e] at hu; rw [hf]; exact h.read u c hu
  · intro u new c hu
    by_cases e : u = t
    · subst e; exact absurd hu (h1 new c)
    · rw [hpc u e] at hu; rw [hf]; exact h.w1 u new c hu
  · intro u hu
    by_cases e : u = t
    · subst e; exact hd hu
    · rw [hpc u e] at hu; rw [hc]; exact h.del u hu

theorem run_coh {s : St} (h : Coh s) (hcalm : Calm s) (t : Nat) : Coh (run s t) := by
  have hme := run_me h.me t
  have hpc := run_pc_other s t
  have noRem : holds (s.pc t) = true → ∀ u, ¬ (s.pc u = .delete2) := by
    intro ht u hu
    have h1 := (hcalm.2 u hu).1
    rw [(h.me t).1 ht] at h1
    cases h1
  have noLook : holds (s.pc t) = true → ∀ u c, s.pc u ≠ .get2 c := by
    intro ht u c hu
    have h1 := hcalm.1 u (Or.inr ⟨c, hu⟩)
    rw [(h.me t).1 ht] at h1
    cases h1
  cases hp : s.pc t with
  | idle a => simpa [run, hp] using h
  | get0 =>
    cases hc : s.cache <;> (apply coh_light h hme hpc <;> simp [run, hp, hc, St.goto, St.fin])
  | get1 =>
    cases hc : s.file <;> (apply coh_light h hme hpc <;> simp [run, hp, hc, St.goto, St.fin])
  | get2 c =>
    have hlock := hcalm.1 t (Or.inr ⟨c, hp⟩)
    have hfree : ∀ u, holds (s.pc u) = false := by
      intro u
      cases hh : holds (s.pc u) with
      | false => rfl
      | true => have := (h.me u).1 hh; rw [hlock] at this; cases this
    have hf := h.read t c (Or.inl hp)
    refine ⟨hme, ?_, ?_, ?_, ?_⟩
    · intro c' hx
      left
      simp [run, hp, St.goto, St.fin] at hx ⊢
      rw [← hx]; exact hf
    · intro u c' hu
      by_cases e : u = t
      · subst e; simp [run, hp, St.goto, St.fin] at hu
      · rw [hpc u e] at hu
        have := h.read u c' hu
        simpa [run, hp, St.goto, St.fin] using this
    · intro u new c' hu
      by_cases e : u = t
      · subst e; simp [run, hp, St.goto, St.fin] at hu
      · rw [hpc u e] at hu
        have := h.w1 u new c' hu
        simpa [run, hp, St.goto, St.fin] using this
    · intro u hu
      by_cases e : u = t
      · subst e; simp [run, hp, St.goto, St.fin] at hu
      · rw [hpc u e] at hu
        rcases hu with hu | hu
        · have := hfree u; rw [hu] at this; cases this
        · exact absurd (Or.inr ⟨c, hp⟩) ((hcalm.2 u hu).2 t)
  | waitSet m =>
    obtain ⟨e1, e2, e3, e4, e5, e6⟩ := acquire_fields s t (.set0 m)
    have hr : run s t = s.acquire t (.set0 m) := by simp [run, hp]
    rw [hr] at hme hpc ⊢
    apply coh_light h hme hpc e2 e3 (by simp [hp]) <;> rcases e6 with e6 | e6 <;> rw [e6] <;> simp [hp]
  | set0 m =>
    cases hc : s.cache <;> (apply coh_light h hme hpc <;> simp [run, hp, hc, St.goto])
  | set1 m =>
    cases hc : s.file <;> (apply coh_light h hme hpc <;> simp [run, hp, hc, St.goto, St.fin, St.release])
  | set2 m c =>
    have hh : holds (s.pc t) = true := by simp [hp, holds]
    have hf := h.read t c (Or.inr (Or.inl ⟨m, hp⟩))
    have hfree := fun u hu => other_free h.me (t := t) (u := u) hh hu
    refine ⟨hme, ?_, ?_, ?_, ?_⟩
    · intro c' hx
      left
      simp [run, hp, St.goto] at hx ⊢
      rw [← hx]; exact hf
    · intro u c' hu
      by_cases e : u = t
      · subst e; simp [run, hp, St.goto] at hu
      · rw [hpc u e] at hu
        have := h.read u c' hu
        simpa [run, hp, St.goto] using this
    · intro u new c' hu
      by_cases e : u = t
      · subst e; simp [run, hp, St.goto] at hu
      · rw [hpc u e] at hu
        have := h.w1 u new c' hu
        simpa [run, hp, St.goto] using this
    · intro u hu
      by_cases e : u = t
      · subst e; simp [run, hp, St.goto] at hu
      · rw [hpc u e] at hu
        rcases hu with hu | hu
        · have := hfree u e; rw [hu] at this; cases this
        · exact absurd hu (noRem hh u)
  | waitCreate c =>
    obtain ⟨e1, e2, e3, e4, e5, e6⟩ := acquire_fields s t (.create0 c)
    have hr : run s t = s.acquire t (.create0 c) := by simp [run, hp]
    rw [hr] at hme hpc ⊢
    apply coh_light h hme hpc e2 e3 (by simp [hp]) <;> rcases e6 with e6 | e6 <;> rw [e6] <;> simp [hp]
  | create0 c =>
    by_cases hf : s.file = .absent <;> (apply coh_light h hme hpc <;> simp [run, hp, hf, St.goto, St.fin, St.release])
  | create1 c => apply coh_light h hme hpc <;> simp [run, hp, St.goto]
  | write0 new c =>
    have hh : holds (s.pc t) = true := by simp [hp, holds]
    have hfree := fun u hu => other_free h.me (t := t) (u := u) hh hu
    cases hd : s.dir with
    | false => apply coh_light h hme hpc <;> simp [run, hp, hd, St.goto, St.fin, St.release]
    | true =>
      refine ⟨hme, ?_, ?_, ?_, ?_⟩
      · intro c' hx
        exact Or.inr ⟨t, new, c, Or.inl (by simp [run, hp, hd, St.goto])⟩
      · intro u c' hu
        by_cases e : u = t
        · subst e; simp [run, hp, hd, St.goto] at hu
        · rw [hpc u e] at hu
          have hx := hfree u e
          rcases hu with hu | ⟨m, hu⟩ | ⟨new', hu⟩
          · exact absurd hu (noLook hh u c')
          · rw [hu] at hx; cases hx
          · rw [hu] at hx; cases hx
      · intro u new' c' hu
        simp [run, hp, hd, St.goto]
      · intro u hu
        by_cases e : u = t
        · subst e; simp [run, hp, hd, St.goto] at hu
        · rw [hpc u e] at hu
          have := h.del u hu
          simpa [run, hp, hd, St.goto] using this
  | write1 new c =>
    have hh : holds (s.pc t) = true := by simp [hp, holds]
    have hfree := fun u hu => other_free h.me (t := t) (u := u) hh hu
    have hf := h.w1 t new c hp
    refine ⟨hme, ?_, ?_, ?_, ?_⟩
    · intro c' hx
      exact Or.inr ⟨t, new, c, Or.inr (by simp [run, hp, St.goto])⟩
    · intro u c' hu
      by_cases e : u = t
      · subst e
        simp [run, hp, St.goto] at hu
        simp [run, hp, St.goto, hf, hu]
      · rw [hpc u e] at hu
        have hx := hfree u e
        rcases hu with hu | ⟨m, hu⟩ | ⟨new', hu⟩
        · exact absurd hu (noLook hh u c')
        · rw [hu] at hx; cases hx
        · rw [hu] at hx; cases hx
    · intro u new' c' hu
      by_cases e : u = t
      · subst e; simp [run, hp, St.goto] at hu
      · rw [hpc u e] at hu
        have hx := hfree u e
        rw [hu] at hx; cases hx
    · intro u hu
      by_cases e : u = t
      · subst e; simp [run, hp, St.goto] at hu
      · rw [hpc u e] at hu
        have := h.del u hu
        simpa [run, hp, St.goto] using this
  | write2 new c =>
    have hh : holds (s.pc t) = true := by simp [hp, holds]
    have hfree := fun u hu => other_free h.me (t := t) (u := u) hh hu
    have hf := h.read t c (Or.inr (Or.inr ⟨new, hp⟩))
    refine ⟨hme, ?_, ?_, ?_, ?_⟩
    · intro c' hx
      left
      simp [run, hp, St.goto, St.fin, St.release] at hx ⊢
      rw [← hx]; exact hf
    · intro u c' hu
      by_cases e : u = t
      · subst e; simp [run, hp, St.goto, St.fin, St.release] at hu
      · rw [hpc u e] at hu
        have := h.read u c' hu
        simpa [run, hp, St.goto, St.fin, St.release] using this
    · intro u new' c' hu
      by_cases e : u = t
      · subst e; simp [run, hp, St.goto, St.fin, St.release] at hu
      · rw [hpc u e] at hu
        have hx := hfree u e
        rw [hu] at hx; cases hx
    · intro u hu
      by_cases e : u = t
      · subst e; simp [run, hp, St.goto, St.fin, St.release] at hu
      · rw [hpc u e] at hu
        rcases hu with hu | hu
        · have := hfree u e; rw [hu] at this; cases this
        · exact absurd hu (noRem hh u)
  | waitDelete =>
    obtain ⟨e1, e2, e3, e4, e5, e6⟩ := acquire_fields s t .delete0
    have hr : run s t = s.acquire t .delete0 := by simp [run, hp]
    rw [hr] at hme hpc ⊢
    apply coh_light h hme hpc e2 e3 (by simp [hp]) <;> rcases e6 with e6 | e6 <;> rw [e6] <;> simp [hp]
  | delete0 =>
    refine ⟨hme, ?_, ?_, ?_, ?_⟩
    · simp [run, hp, St.goto]
    · intro u c' hu
      by_cases e : u = t
      · subst e; simp [run, hp, St.goto] at hu
      · rw [hpc u e] at hu
        have := h.read u c' hu
        simpa [run, hp, St.goto] using this
    · intro u new c' hu
      by_cases e : u = t
      · subst e; simp [run, hp, St.goto] at hu
      · rw [hpc u e] at hu
        have := h.w1 u new c' hu
        simpa [run, hp, St.goto] using this
    · simp [run, hp, St.goto]
  | delete1 =>
    have := h.del t (Or.inl hp)
    apply coh_light h hme hpc <;> simp [run, hp, St.goto, St.release, this]
  | delete2 =>
    have hdel := h.del t (Or.inr hp)
    obtain ⟨hlock, hlook⟩ := hcalm.2 t hp
    have hfree : ∀ u, holds (s.pc u) = false := by
      intro u
      cases hh : holds (s.pc u) with
      | false => rfl
      | true => have := (h.me u).1 hh; rw [hlock] at this; cases this
    cases hd : s.dir with
    | false => apply coh_light h hme hpc <;> simp [run, hp, hd, St.goto, St.fin]
    | true =>
      refine ⟨hme, ?_, ?_, ?_, ?_⟩
      · simp [run, hp, hd, St.goto, St.fin, hdel]
      · intro u c' hu
        by_cases e : u = t
        · subst e; simp [run, hp, hd, St.goto, St.fin] at hu
        · rw [hpc u e] at hu
          have hx := hfree u
          rcases hu with hu | ⟨m, hu⟩ | ⟨new', hu⟩
          · exact absurd (Or.inr ⟨c', hu⟩) (hlook u)
          · rw [hu] at hx; cases hx
          · rw [hu] at hx; cases hx
      · intro u new c' hu
        by_cases e : u = t
        · subst e; simp [run, hp, hd, St.goto, St.fin] at hu
        · rw [hpc u e] at hu
          have hx := hfree u
          rw [hu] at hx; cases hx
      · simp [run, hp, hd, St.goto, St.fin, hdel]

theorem act_coh {s : St} (h : Coh s) (hcalm : Calm s) (a : Act) : Coh (act s a) := by
  have hme := act_me h.me a
  cases a with
  | run t => exact run_coh h hcalm t
  | start t r =>
    simp only [act] at hme ⊢
    split
    · rename_i o hp
      rw [hp] at hme
      have hb := begins_cases r
      apply coh_light (t := t) h hme (fun u hu => by simp [St.goto, hu]) rfl rfl (by simp [hp]) <;>
        simp only [St.goto, if_true] <;> rcases hb with hb | ⟨_, hb⟩ | ⟨_, hb⟩ | hb <;> rw [hb] <;> simp
    · exact h

theorem exec_coh : ∀ (as : List Act) (s : St), Coh s → CalmAll s as → Coh (exec s as) := by
  intro as
  induction as with
  | nil => intro s hs _; exact hs
  | cons a as ih =>
    intro s hs h
    exact ih _ (act_coh hs (h 0) a) (fun k => h (k + 1))

theorem start_coh (d : Bool) (f : File) : Coh (start d f) :=
  ⟨start_me _ _, by simp [start], by simp [start], by simp [start], by simp [start]⟩

/-! ### Checking a schedule -/

def threadOf : Act → Nat
  | .start t _ => t
  | .run t => t

/-- `Calm`, looking at the first `n` requests only. -/
def calmB (n : Nat) (s : St) : Bool :=
  let looking (t : Nat) : Bool := match s.pc t with | .get1 => true | .get2 _ => true | _ => false
  (List.range n).all (fun t => !looking t || s.lock.isNone) &&
    (List.range n).all (fun t => decide (s.pc t ≠ .delete2) || (s.lock.isNone && (List.range n).all fun u => !looking u))

theorem act_pc_other (s : St) (a : Act) (u : Nat) (hu : u ≠ threadOf a) : (act s a).pc u = s.pc u := by
  cases a with
  | run t => exact run_pc_other s t u hu
  | start t r =>
    simp only [act]
    split
    · have hu' : u ≠ t := hu
      simp [St.goto, hu']
    · rfl

theorem exec_idle {n : Nat} : ∀ (as : List Act) (s : St), (∀ a ∈ as, threadOf a < n) → (∀ t, n ≤ t → s.pc t = .idle none) →
    ∀ t, n ≤ t → (exec s as).pc t = .idle none := by
  intro as
  induction as with
  | nil => intro s _ h; exact h
  | cons a as ih =>
    intro s ha h
    refine ih _ (fun b hb => ha b (List.mem_cons_of_mem _ hb)) ?_
    intro t ht
    have := ha a List.mem_cons_self
    rw [act_pc_other s a t (by omega)]
    exact h t ht

theorem calm_of {n : Nat} {s : St} (hi : ∀ t, n ≤ t → s.pc t = .idle none) (h : calmB n s = true) : Calm s := by
  unfold calmB at h
  simp only [Bool.and_eq_true, List.all_eq_true, List.mem_range, Bool.or_eq_true, Bool.not_eq_true', decide_eq_true_eq,
    Option.isNone_iff_eq_none] at h
  obtain ⟨h1, h2⟩ := h
  have hlt : ∀ t, s.pc t ≠ .idle none → t < n := by
    intro t ht
    by_contra hn
    exact ht (hi t (by omega))
  constructor
  · intro t ht
    have hn : t < n := hlt t (by rcases ht with ht | ⟨c, ht⟩ <;> rw [ht] <;> simp)
    rcases h1 t hn with hx | hx
    · rcases ht with ht | ⟨c, ht⟩ <;> rw [ht] at hx <;> cases hx
    · exact hx
  · intro t ht
    have ht' : s.pc t = .delete2 := ht
    have hn : t < n := hlt t (by rw [ht']; simp)
    rcases h2 t hn with hx | ⟨hx, hy⟩
    · exact absurd ht' hx
    · refine ⟨hx, ?_⟩
      intro u hu
      have hn : u < n := hlt u (by rcases hu with hu | ⟨c, hu⟩ <;> rw [hu] <;> simp)
      have := hy u hn
      rcases hu with hu | ⟨c, hu⟩ <;> rw [hu] at this <;> cases this

theorem calmAll_of {n : Nat} {d : Bool} {f : File} {as : List Act} (ha : ∀ a ∈ as, threadOf a < n)
    (h : ∀ k ≤ as.length, calmB n (exec (start d f) (as.take k)) = true) : CalmAll (start d f) as := by
  intro k
  have key : ∀ j ≤ as.length, Calm (exec (start d f) (as.take j)) := fun j hj =>
    calm_of (exec_idle _ _ (fun a h => ha a (List.mem_of_mem_take h)) (fun t _ => rfl)) (h j hj)
  by_cases hk : k ≤ as.length
  · exact key k hk
  · have := key as.length le_rfl
    rw [List.take_length] at this
    rw [List.take_of_length_le (by omega)]
    exact this

theorem quiet_of {n : Nat} {d : Bool} {f : File} {as : List Act} (ha : ∀ a ∈ as, threadOf a < n)
    (h : ∀ t < n, ∃ a, (exec (start d f) as).pc t = .idle a) : Quiet (exec (start d f) as) := by
  intro t
  by_cases ht : t < n
  · exact h t ht
  · exact ⟨none, exec_idle _ _ ha (fun _ _ => rfl) t (by omega)⟩

end NextPlaid.ConfCache
