import Verif.Proofs.Stream
import Verif.Proofs.Encode
import Verif.Spec.Stream

namespace NextPlaid.Stream

open NextPlaid NextPlaid.Encode NextPlaid.Spec

variable {T E E' R P : Type}

/-- The sessions that have a thread. -/
def threads (texts : List T) (poisoned : List Bool) : List Bool := if texts = [] then [] else poisoned

theorem threads_mem {texts : List T} {p : List Bool} {b : Bool} (h : b ∈ threads texts p) : b ∈ p := by
  unfold threads at h; split at h <;> simp_all

theorem pieces_length (n : Nat) (hn : 0 < n) (l : List T) : (pieces n l).length = (l.length + n - 1) / n := by
  have key : ∀ j, j < (pieces n l).length ↔ j * n < l.length := by
    intro j
    have h := pieces_get n hn l j
    constructor
    · intro hj
      by_contra hc
      rw [if_neg hc] at h
      rw [List.getElem?_eq_getElem hj] at h
      cases h
    · intro hj
      rw [if_pos hj] at h
      exact (List.getElem?_eq_some_iff.mp h).1
  have key2 : ∀ j, j < (l.length + n - 1) / n ↔ j * n < l.length := by
    intro j
    rw [Nat.lt_iff_add_one_le, Nat.le_div_iff_mul_le hn, Nat.add_mul, Nat.one_mul]
    omega
  apply Nat.le_antisymm
  · by_contra hc
    have := (key _).mp (Nat.lt_of_not_le hc)
    exact absurd ((key2 _).mpr this) (Nat.lt_irrefl _)
  · by_contra hc
    have := (key2 _).mp (Nat.lt_of_not_le hc)
    exact absurd ((key _).mpr this) (Nat.lt_irrefl _)

theorem workQueue_length (b : Nat) (texts : List T) : (workQueue b texts).length = (texts.length + max b 1 - 1) / max b 1 := by
  unfold workQueue
  rw [List.length_map, List.length_zipIdx, pieces_length _ (by omega)]

theorem rawStream_eq (b : Nat) (p : List Bool) (texts : List T) :
    (rawStream b p texts : Raw (Nat × Nat × List T) R) = start (workQueue b texts) (threads texts p) := by
  unfold rawStream threads
  split
  · subst_vars
    have : workQueue b ([] : List T) = [] := by
      rw [← List.length_eq_zero_iff, workQueue_length, List.length_nil]
      exact Nat.div_eq_of_lt (by omega)
    rw [this]
  · rfl

theorem workQueue_fst (b : Nat) (texts : List T) : (workQueue b texts).map Prod.fst = List.range (workQueue b texts).length := by
  unfold workQueue
  apply List.ext_getElem
  · simp
  · intro i h1 h2; simp

theorem workQueue_mem {b : Nat} {texts : List T} {w : Nat × Nat × List T} (h : w ∈ workQueue b texts) :
    w.2.1 = w.1 * max b 1 ∧ w.2.2 = (texts.drop (w.1 * max b 1)).take (max b 1) ∧ w.1 * max b 1 < texts.length := by
  unfold workQueue at h
  obtain ⟨⟨p, k⟩, hpk, rfl⟩ := List.mem_map.mp h
  have h1 := List.mem_zipIdx_iff_getElem?.mp hpk
  simp only at h1
  rw [pieces_get _ (by omega)] at h1
  split at h1
  · injection h1 with h1
    exact ⟨rfl, h1.symm, by assumption⟩
  · cases h1

theorem job_some {direct : Nat → List T → Res (List E)} {i : Nat} {w : Nat × Nat × List T} {r : Res (Nat × Nat × List E)}
    (h : job direct i w = some r) : r = streamJob direct i w ∧ r ≠ .error .panic := by
  unfold job at h
  split at h
  · cases h
  · rename_i hne
    injection h with h
    subst h
    exact ⟨rfl, fun hc => hne (by rw [hc])⟩

theorem job_none {direct : Nat → List T → Res (List E)} {i : Nat} {w : Nat × Nat × List T}
    (h : job direct i w = none) : direct i w.2.2 = .error .panic := by
  unfold job at h
  split at h
  · rename_i he
    unfold streamJob at he
    cases hd : direct i w.2.2 with
    | error f =>
      rw [hd] at he
      have he : (Except.error f : Res (Nat × Nat × List E)) = .error .panic := he
      injection he with he
      rw [he]
    | ok es => rw [hd] at he; cases he
  · cases h

theorem job_of_panic {direct : Nat → List T → Res (List E)} {i : Nat} {w : Nat × Nat × List T}
    (h : direct i w.2.2 = .error .panic) : job direct i w = none := by
  have : streamJob direct i w = .error .panic := by unfold streamJob; rw [h]; rfl
  unfold job; rw [this]

theorem sent_jobs {direct : Nat → List T → Res (List E)} {n : Nat} {done : List (Nat × Nat × Nat × List T)} {out : List (Res (Nat × Nat × List E))}
    (h : List.Forall₂ (fun d r => d.1 < n ∧ job direct d.1 d.2 = some r) done out) :
    List.Forall₂ (fun w r => ∃ i < n, r = streamJob direct i w) (done.map Prod.snd) out := by
  rw [List.forall₂_map_left_iff]
  exact h.imp fun d r hd => ⟨d.1, hd.1, (job_some hd.2).1⟩

theorem poisoned_count : ∀ (ws : List (Worker T)) (p : List Bool), ws.length = p.length →
    (∀ i : Nat, ws[i]? = some Worker.dead → p[i]? = some true) → deads ws ≤ p.count true
  | [], [], _, _ => by simp [deads]
  | w :: ws, b :: p, hl, h => by
    have ih := poisoned_count ws p (by simpa using hl) fun i hi => by simpa using h (i + 1) (by simpa using hi)
    have h0 := h 0
    simp only [List.getElem?_cons_zero, Option.some.injEq] at h0
    unfold deads at ih ⊢
    rw [List.filterMap_cons, List.count_cons]
    cases w with
    | dead => simp only [deadOf, List.length_cons, h0 rfl]; simp; omega
    | _ => simp only [deadOf]; omega

/-! ### Pooling as part of the encoding -/

/-- Encoding and pooling in one. -/
def pooledDirect (direct : Nat → List T → Res (List E)) (pool1 : E → Option E') (i : Nat) (ts : List T) : Res (List E') :=
  match direct i ts with
  | .error f => .error f
  | .ok es =>
    match es.mapM pool1 with
    | none => .error .panic
    | some xs => .ok xs

theorem poolChunk_job {direct : Nat → List T → Res (List E)} {pool1 : E → Option E'} {i : Nat} {w : Nat × Nat × List T}
    {r : Res (Nat × Nat × List E)} {x : Res (Nat × Nat × List E')} (hr : job direct i w = some r) (hx : poolChunk pool1 r = some x) :
    x = streamJob (pooledDirect direct pool1) i w := by
  obtain ⟨hr, -⟩ := job_some hr
  unfold streamJob at hr ⊢
  unfold pooledDirect
  cases hd : direct i w.2.2 with
  | error f =>
    rw [hd] at hr
    have hr : r = .error f := hr
    rw [hr] at hx
    simp only [poolChunk] at hx
    injection hx with hx
    rw [← hx]; rfl
  | ok es =>
    rw [hd] at hr
    have hr : r = .ok (w.1, w.2.1, es) := hr
    rw [hr] at hx
    simp only [poolChunk] at hx
    cases hm : es.mapM pool1 with
    | none => rw [hm] at hx; cases hx
    | some xs =>
      rw [hm] at hx
      injection hx with hx
      rw [← hx]
      simp only [hm]
      rfl

theorem mapM_option {A B : Type} (f : A → Option B) : ∀ (l : List A) (r : List B), l.mapM f = some r → OneEach (fun a b => f a = some b) l r
  | [], r, h => by
    simp at h; subst h
    exact ⟨rfl, by simp⟩
  | a :: l, r, h => by
    rw [List.mapM_cons] at h
    cases ha : f a with
    | none => rw [ha] at h; cases h
    | some b =>
      rw [ha] at h
      cases hl : l.mapM f with
      | none => rw [hl] at h; cases h
      | some bs =>
        rw [hl] at h
        have h : some (b :: bs) = some r := h
        injection h with h; subst h
        obtain ⟨h1, h2⟩ := mapM_option f l bs hl
        refine ⟨by simp [h1], fun i x y hx hy => ?_⟩
        cases i with
        | zero => simp at hx hy; rw [← hx, ← hy]; exact ha
        | succ i => exact h2 i x y (by simpa using hx) (by simpa using hy)

theorem pooledDirect_each {direct : Nat → List T → Res (List E)} {Enc : T → E → Prop}
    (hdirect : ∀ s ts es, direct s ts = .ok es → OneEach Enc ts es) (pool1 : E → Option E') (i : Nat) (ts : List T) (xs : List E')
    (h : pooledDirect direct pool1 i ts = .ok xs) : OneEach (fun t x => ∃ e, Enc t e ∧ pool1 e = some x) ts xs := by
  unfold pooledDirect at h
  cases hd : direct i ts with
  | error f => rw [hd] at h; cases h
  | ok es =>
    rw [hd] at h
    simp only at h
    cases hm : es.mapM pool1 with
    | none => rw [hm] at h; cases h
    | some ys =>
      rw [hm] at h
      injection h with h; subst h
      have h1 := hdirect i ts es hd
      have h2 := mapM_option pool1 es ys hm
      refine ⟨by rw [h2.1, h1.1], fun j t x ht hx => ?_⟩
      have hj : j < es.length := by rw [← h2.1]; exact (List.getElem?_eq_some_iff.mp hx).1
      exact ⟨es[j], h1.2 j t _ ht (List.getElem?_eq_getElem hj), h2.2 j _ x (List.getElem?_eq_getElem hj) hx⟩

theorem poolChunk_none {pool1 : E → Option E'} {r : Res (Nat × Nat × List E)} (h : poolChunk pool1 r = none) :
    ∃ c, r = .ok c ∧ ∃ e ∈ c.2.2, pool1 e = none := by
  cases r with
  | error f => cases h
  | ok c =>
    refine ⟨c, rfl, ?_⟩
    simp only [poolChunk, Option.map_eq_none_iff] at h
    generalize c.2.2 = l at h
    induction l with
    | nil => simp at h
    | cons e l ih =>
      rw [List.mapM_cons] at h
      cases he : pool1 e with
      | none => exact ⟨e, List.mem_cons_self, he⟩
      | some x =>
        rw [he] at h
        cases hl : l.mapM pool1 with
        | none =>
          obtain ⟨e', h1, h2⟩ := ih hl
          exact ⟨e', List.mem_cons_of_mem _ h1, h2⟩
        | some xs => rw [hl] at h; cases h

/-- From what was sent by the sessions, and of it what was pooled and sent on. -/
theorem sent_pooled {direct : Nat → List T → Res (List E)} {pool1 : E → Option E'} {n : Nat} {done : List (Nat × Nat × Nat × List T)}
    {out : List (Res (Nat × Nat × List E))} {pre : List (Res (Nat × Nat × List E))} {got : List (Res (Nat × Nat × List E'))}
    (h : List.Forall₂ (fun d r => d.1 < n ∧ job direct d.1 d.2 = some r) done out) (hp : pre <+: out)
    (hg : List.Forall₂ (fun r p => poolChunk pool1 r = some p) pre got) :
    ∃ d, d <+: done ∧ List.Forall₂ (fun w r => ∃ i < n, r = streamJob (pooledDirect direct pool1) i w) (d.map Prod.snd) got := by
  obtain ⟨rest, rfl⟩ := hp
  induction pre generalizing done got with
  | nil => cases hg; exact ⟨[], List.nil_prefix, .nil⟩
  | cons r pre ih =>
    cases hg with
    | cons h1 h2 =>
      cases h with
      | cons g1 g2 =>
        rename_i d done
        obtain ⟨d', hd1, hd2⟩ := ih h2 g2
        refine ⟨d :: d', by simpa using hd1, .cons ⟨d.1, g1.1, poolChunk_job g1.2 h1⟩ hd2⟩

/-! ### Together -/

theorem raw_acc {direct : Nat → List T → Res (List E)} {b : Nat} {p : List Bool} {texts : List T} {es : List Event}
    {s : Raw (Nat × Nat × List T) (Res (Given E))} (hr : (rawStream b p texts).run (job direct) es = some s) :
    ∃ done lost, Acc (job direct) (workQueue b texts) (threads texts p).length done lost s := by
  rw [rawStream_eq] at hr
  obtain ⟨d, l, a, -, -⟩ := acc_run (acc_start _ _ _) hr
  exact ⟨d, l, a⟩

theorem raw_sound {direct : Nat → List T → Res (List E)} {b : Nat} {p : List Bool} {texts : List T} {es : List Event}
    {s : Raw (Nat × Nat × List T) (Res (Given E))} (hr : (rawStream b p texts).run (job direct) es = some s)
    (hd : ∀ i ts, direct i ts ≠ .error .panic) (hp : ∀ x ∈ p, x = false) (he : ∀ i, .poison i ∉ es) : Sound s := by
  rw [rawStream_eq] at hr
  exact sound_run (acc_start _ _ _) (fun i w _ hn => hd i _ (job_none hn)) (sound_start _ _ fun x hx => hp x (threads_mem hx)) hr he

/-- All threads have ended, without a panic: everything was sent. -/
theorem sound_all {direct : Nat → List T → Res (List E)} {b : Nat} {p : List Bool} {texts : List T} {done : List (Nat × Nat × Nat × List T)}
    {lost : List (Nat × Nat × List T)} {s : Raw (Nat × Nat × List T) (Res (Given E))}
    (ha : Acc (job direct) (workQueue b texts) (threads texts p).length done lost s) (hs : Sound s) (hn : p ≠ []) (ho : s.allOver = true) :
    (done.map Prod.snd).Perm (workQueue b texts) := by
  obtain ⟨h1, h2⟩ := acc_over ha ho
  have hl := sound_lost ha hs
  have hq : s.queue = [] := by
    rcases h2 with h2 | h2
    · exact h2
    · rw [hl] at h2
      have ht : texts = [] := by
        by_contra hc
        rw [threads, if_neg hc] at h2
        exact hn (List.length_eq_zero_iff.mp h2.symm)
      have hw : workQueue b texts = [] := by
        rw [← List.length_eq_zero_iff, workQueue_length, ht, List.length_nil]
        exact Nat.div_eq_of_lt (by omega)
      have := ha.perm
      rw [hw] at this
      exact (List.append_eq_nil_iff.mp this.eq_nil).1
  have := ha.perm
  rw [h1, hl, hq] at this
  simpa using this

theorem oks_map {F : Type} (given : List (Given E)) : oks (given.map (Except.ok : Given E → Except F (Given E))) = given := by
  induction given with
  | nil => rfl
  | cons c l ih =>
    unfold oks at ih ⊢
    rw [List.map_cons, List.filterMap_cons]
    simp only [ih]

theorem mem_oks {F : Type} {ms : List (Except F (Given E))} {c : Given E} (h : c ∈ oks ms) : Except.ok c ∈ ms := by
  unfold oks at h
  obtain ⟨m, hm, he⟩ := List.mem_filterMap.mp h
  cases m with
  | ok c' => injection he with he; subst he; exact hm
  | error f => cases he

theorem oks_fst {direct : Nat → List T → Res (List E)} {n : Nat} {done : List (Nat × Nat × List T)} {out : List (Res (Given E))}
    (h : List.Forall₂ (fun w r => ∃ i < n, r = streamJob direct i w) done out) :
    ((oks out).map fun c => c.1).Sublist (done.map Prod.fst) := by
  induction h with
  | nil => exact .slnil
  | @cons w r done out h1 h2 ih =>
    obtain ⟨i, hi, rfl⟩ := h1
    unfold oks at ih ⊢
    rw [List.filterMap_cons, List.map_cons]
    unfold streamJob
    cases hd : direct i w.2.2 with
    | error f => exact .cons _ ih
    | ok es => exact .cons_cons _ ih

theorem rightSoFar {direct : Nat → List T → Res (List E)} {Enc : T → E → Prop}
    (hdirect : ∀ s ts es, direct s ts = .ok es → OneEach Enc ts es) {b n : Nat} {texts : List T} {done : List (Nat × Nat × List T)}
    {out : List (Res (Given E))} (h : List.Forall₂ (fun w r => ∃ i < n, r = streamJob direct i w) done out)
    (hsub : done.Subperm (workQueue b texts)) : RightSoFar Enc texts (oks out) := by
  refine ⟨fun c hc => ?_, ?_⟩
  · exact chunks_at direct Enc hdirect b n texts done out h (fun w hw => hsub.subset hw) c (mem_oks hc)
  · refine (oks_fst h).nodup ?_
    obtain ⟨l, hl, hs⟩ := hsub
    have h1 := hs.map Prod.fst
    rw [workQueue_fst] at h1
    exact (hl.map Prod.fst).nodup_iff.mp (h1.nodup List.nodup_range)

theorem forall2_prefix {A B : Type} {Q : A → B → Prop} {as : List A} {bs cs : List B} (h : List.Forall₂ Q as (bs ++ cs)) :
    ∃ d, d <+: as ∧ List.Forall₂ Q d bs := by
  induction bs generalizing as with
  | nil => exact ⟨[], List.nil_prefix, .nil⟩
  | cons b bs ih =>
    cases h with
    | cons h1 h2 =>
      rename_i a as
      obtain ⟨d, hd, he⟩ := ih h2
      exact ⟨a :: d, by simpa using hd, .cons h1 he⟩

theorem acc_subperm {direct : Nat → List T → Res (List E)} {all : List (Nat × Nat × List T)} {n : Nat} {done : List (Nat × Nat × Nat × List T)}
    {lost : List (Nat × Nat × List T)} {s : Raw (Nat × Nat × List T) (Res (Given E))}
    (ha : Acc (job direct) all n done lost s) : (done.map Prod.snd).Subperm all := by
  refine List.Subperm.trans ?_ ha.perm.subperm
  refine List.Sublist.subperm ?_
  exact ((List.sublist_append_left _ _).trans (List.sublist_append_right _ _)).trans (List.sublist_append_right _ _)

end NextPlaid.Stream
