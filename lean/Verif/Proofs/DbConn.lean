import Verif.Spec.DbConn
import Verif.Proofs.Server3

/-! Cached read connections. -/

namespace NextPlaid.DbConn
open NextPlaid.Spec

variable {P D : Type} [DecidableEq P]

@[simp] theorem put_same {A B : Type} [DecidableEq A] (f : A → B) (a : A) (b : B) : put f a b a = b := if_pos rfl

theorem put_other {A B : Type} [DecidableEq A] (f : A → B) {a x : A} (b : B) (h : x ≠ a) : put f a b x = f x := if_neg h

/-- The world and the specification. -/
structure Matches (w : World P D) (s : Ideal P D) : Prop where
  disk : ∀ p, s.disk p = (w.node p).map w.data
  files : ∀ p q i, w.node p = some i → w.node q = some i → p = q
  fresh : ∀ p i, w.node p = some i → i < w.next
  conn : ∀ p i, w.conn p = some i → w.node p = some i ∧ s.seen p = true
  reading : ∀ r, s.reading r = (w.held r).map (·.1)
  held : ∀ r p i b, w.held r = some (p, i, b) → w.node p = some i ∧ s.seen p = true

theorem started_matches {w : World P D} (h : Started w) : Matches w (found w) where
  disk _ := rfl
  files := h.files
  fresh := h.fresh
  conn p i hc := by rw [h.conn] at hc; cases hc
  reading r := by rw [h.held]; rfl
  held r p i b hh := by rw [h.held] at hh; cases hh

theorem start_matches {w : World P D} {s : Ideal P D} (h : Matches w s) (r : Nat) (p : P) :
    Matches (start w r p).1 (s.next (.start r p)) ∧ (start w r p).2 = s.reads (.start r p) := by
  unfold start
  cases hn : w.node p with
  | none =>
    have hd : s.disk p = none := by rw [h.disk, hn]; rfl
    simp only [Ideal.next, Ideal.reads, hd, Option.isNone_none, if_true]
    exact ⟨h, trivial⟩
  | some i =>
    have hd : s.disk p = some (w.data i) := by rw [h.disk, hn]; rfl
    have key : ∀ j b, w.node p = some j → Matches { w with held := put w.held r (some (p, j, b)) }
        { s with seen := fun x => if x = p then true else s.seen x, reading := fun x => if x = r then some p else s.reading x } := by
      intro j b hj
      refine ⟨h.disk, h.files, h.fresh, fun q k hk => ?_, fun x => ?_, fun x q k c hx => ?_⟩
      · refine ⟨(h.conn q k hk).1, ?_⟩
        show (if q = p then true else s.seen q) = true
        rw [(h.conn q k hk).2]; simp
      · show (if x = r then some p else s.reading x) = (put w.held r (some (p, j, b)) x).map (·.1)
        unfold put
        by_cases hx : x = r
        · rw [if_pos hx, if_pos hx]; rfl
        · rw [if_neg hx, if_neg hx]; exact h.reading x
      · change put w.held r (some (p, j, b)) x = some (q, k, c) at hx
        show w.node q = some k ∧ (if q = p then true else s.seen q) = true
        unfold put at hx
        by_cases hxr : x = r
        · rw [if_pos hxr] at hx
          cases hx
          exact ⟨hj, if_pos rfl⟩
        · rw [if_neg hxr] at hx
          refine ⟨(h.held x q k c hx).1, ?_⟩
          rw [(h.held x q k c hx).2]; simp
    simp only [Ideal.next, Ideal.reads, hd, Option.isNone_some, Bool.false_eq_true, if_false]
    cases hc : w.conn p with
    | none => exact ⟨key i true hn, rfl⟩
    | some j => exact ⟨key j false (h.conn p j hc).1, rfl⟩

theorem finish_matches {w : World P D} {s : Ideal P D} (h : Matches w s) (r : Nat) :
    Matches (finish w r).1 (s.next (.finish r)) ∧ (finish w r).2 = s.reads (.finish r) := by
  unfold finish
  have key : Matches { w with held := put w.held r none } (s.next (.finish r)) := by
    refine ⟨h.disk, h.files, h.fresh, h.conn, fun x => ?_, fun x q k c hx => ?_⟩
    · show (if x = r then none else s.reading x) = (put w.held r none x).map (·.1)
      unfold put
      by_cases hx : x = r
      · rw [if_pos hx, if_pos hx]; rfl
      · rw [if_neg hx, if_neg hx]; exact h.reading x
    · change put w.held r none x = some (q, k, c) at hx
      unfold put at hx
      by_cases hxr : x = r
      · rw [if_pos hxr] at hx; cases hx
      · rw [if_neg hxr] at hx; exact h.held x q k c hx
  cases hh : w.held r with
  | none =>
    have hr : s.reading r = none := by rw [h.reading, hh]; rfl
    simp only [Ideal.reads, hr]
    refine ⟨?_, trivial⟩
    have e : put w.held r none = w.held := by
      funext x; unfold put; by_cases hx : x = r
      · rw [if_pos hx, hx, hh]
      · rw [if_neg hx]
    rw [e] at key
    exact key
  | some q =>
    obtain ⟨p, j, b⟩ := q
    have hr : s.reading r = some p := by rw [h.reading, hh]; rfl
    have hj := h.held r p j b hh
    have hd : s.disk p = some (w.data j) := by rw [h.disk, hj.1]; rfl
    cases b with
    | false =>
      simp only [Ideal.reads, hr, hd]
      exact ⟨key, trivial⟩
    | true =>
      have hk : (w.conn p).getD j = j := by
        cases hc : w.conn p with
        | none => rfl
        | some k =>
          have := (h.conn p k hc).1
          rw [hj.1] at this
          exact (Option.some.inj this).symm
      simp only [Ideal.reads, hr, hd, hk]
      refine ⟨⟨key.disk, key.files, key.fresh, fun q k hq => ?_, key.reading, key.held⟩, trivial⟩
      change put w.conn p (some j) q = some k at hq
      unfold put at hq
      by_cases hqp : q = p
      · rw [if_pos hqp] at hq
        cases hq
        rw [hqp]
        exact hj
      · rw [if_neg hqp] at hq
        exact h.conn q k hq

theorem write_matches {w : World P D} {s : Ideal P D} (h : Matches w s) (p : P) (f : D → D) : Matches (write w p f) (s.next (.write p f)) := by
  unfold write
  cases hn : w.node p with
  | none =>
    have hd : s.disk p = none := by rw [h.disk, hn]; rfl
    have e : s.next (.write p f) = s := by
      show { s with disk := fun x => if x = p then (s.disk p).map f else s.disk x } = s
      have : (fun x => if x = p then (s.disk p).map f else s.disk x) = s.disk := by
        funext x
        by_cases hx : x = p
        · rw [if_pos hx, hx, hd]; rfl
        · rw [if_neg hx]
      rw [this]
    rw [e]
    exact h
  | some i =>
    refine ⟨fun q => ?_, h.files, h.fresh, h.conn, h.reading, h.held⟩
    show (if q = p then (s.disk p).map f else s.disk q) = (w.node q).map (put w.data i (f (w.data i)))
    by_cases hq : q = p
    · subst hq
      rw [if_pos rfl, h.disk, hn]
      simp
    · rw [if_neg hq, h.disk]
      cases hnq : w.node q with
      | none => rfl
      | some k =>
        have : k ≠ i := fun e => hq (h.files q p i (by rw [hnq, e]) hn)
        simp [put_other _ _ this]

theorem clear_matches {w : World P D} {s : Ideal P D} (h : Matches w s) (p : P) (hr : ∀ r, s.reading r ≠ some p) :
    Matches (clear w p) { s with disk := fun x => if x = p then none else s.disk x, seen := fun x => if x = p then false else s.seen x } ∧
      (clear w p).node p = none ∧ (clear w p).next = w.next ∧ (clear w p).data = w.data ∧ ∀ q ≠ p, (clear w p).node q = w.node q := by
  have hold : ∀ r q i b, w.held r = some (q, i, b) → q ≠ p := by
    intro r q i b hh e
    refine hr r ?_
    rw [h.reading, hh, ← e]; rfl
  unfold clear
  cases hn : w.node p with
  | none =>
    have hd : s.disk p = none := by rw [h.disk, hn]; rfl
    refine ⟨⟨fun q => ?_, h.files, h.fresh, fun q i hq => ?_, h.reading, fun r q i b hh => ?_⟩, hn, rfl, rfl, fun _ _ => rfl⟩
    · show (if q = p then none else s.disk q) = _
      by_cases hq : q = p
      · rw [if_pos hq, hq, hn]; rfl
      · rw [if_neg hq]; exact h.disk q
    · refine ⟨(h.conn q i hq).1, ?_⟩
      have hqp : q ≠ p := by
        intro e
        have := (h.conn q i hq).1
        rw [e, hn] at this
        cases this
      show (if q = p then false else s.seen q) = true
      rw [if_neg hqp]
      exact (h.conn q i hq).2
    · refine ⟨(h.held r q i b hh).1, ?_⟩
      show (if q = p then false else s.seen q) = true
      rw [if_neg (hold r q i b hh)]
      exact (h.held r q i b hh).2
  | some i0 =>
    have hnode : ∀ q ≠ p, put w.node p none q = w.node q := fun q hq => put_other _ _ hq
    refine ⟨⟨fun q => ?_, fun q q' i hq hq' => ?_, fun q i hq => ?_, fun q i hq => ?_, h.reading, fun r q i b hh => ?_⟩, put_same _ _ _, rfl, rfl, hnode⟩
    · show (if q = p then none else s.disk q) = (put w.node p none q).map w.data
      by_cases hq : q = p
      · rw [if_pos hq, hq, put_same]; rfl
      · rw [if_neg hq, hnode q hq]; exact h.disk q
    · change put w.node p none q = some i at hq
      change put w.node p none q' = some i at hq'
      have h1 : q ≠ p := by intro e; rw [e, put_same] at hq; cases hq
      have h2 : q' ≠ p := by intro e; rw [e, put_same] at hq'; cases hq'
      rw [hnode q h1] at hq
      rw [hnode q' h2] at hq'
      exact h.files q q' i hq hq'
    · change put w.node p none q = some i at hq
      have h1 : q ≠ p := by intro e; rw [e, put_same] at hq; cases hq
      rw [hnode q h1] at hq
      exact h.fresh q i hq
    · change put w.conn p none q = some i at hq
      have h1 : q ≠ p := by intro e; rw [e, put_same] at hq; cases hq
      rw [put_other _ _ h1] at hq
      show put w.node p none q = some i ∧ (if q = p then false else s.seen q) = true
      rw [hnode q h1, if_neg h1]
      exact h.conn q i hq
    · have h1 := hold r q i b hh
      show put w.node p none q = some i ∧ (if q = p then false else s.seen q) = true
      rw [hnode q h1, if_neg h1]
      exact h.held r q i b hh

theorem create_matches {w : World P D} {s : Ideal P D} (h : Matches w s) (p : P) (d : Option D) (hr : ∀ r, s.reading r ≠ some p) :
    Matches (create w p d) (s.next (.create p d)) := by
  obtain ⟨hc, hcn, hcx, hcd, _⟩ := clear_matches h p hr
  unfold create
  cases d with
  | none => exact hc
  | some d =>
    simp only
    have hfresh : ∀ q i, (clear w p).node q = some i → i ≠ w.next := by
      intro q i hq
      have := hc.fresh q i hq
      rw [hcx] at this
      omega
    have hnp : ∀ q i, (clear w p).node q = some i → q ≠ p := by
      intro q i hq e
      rw [e, hcn] at hq
      cases hq
    refine ⟨fun q => ?_, fun q q' i hq hq' => ?_, fun q i hq => ?_, fun q i hq => ?_, hc.reading, fun r q i b hh => ?_⟩
    · show (if q = p then some d else s.disk q) = (put (clear w p).node p (some w.next) q).map (put w.data w.next d)
      by_cases hq : q = p
      · rw [if_pos hq, hq, put_same]; simp
      · rw [if_neg hq, put_other _ _ hq]
        have := hc.disk q
        change (if q = p then none else s.disk q) = _ at this
        rw [if_neg hq] at this
        rw [this, hcd]
        cases hnq : (clear w p).node q with
        | none => rfl
        | some k => simp [put_other _ _ (hfresh q k hnq)]
    · change put (clear w p).node p (some w.next) q = some i at hq
      change put (clear w p).node p (some w.next) q' = some i at hq'
      by_cases h1 : q = p
      · by_cases h2 : q' = p
        · rw [h1, h2]
        · rw [h1, put_same] at hq
          rw [put_other _ _ h2] at hq'
          exact absurd (Option.some.inj hq).symm (hfresh q' i hq')
      · rw [put_other _ _ h1] at hq
        by_cases h2 : q' = p
        · rw [h2, put_same] at hq'
          exact absurd (Option.some.inj hq').symm (hfresh q i hq)
        · rw [put_other _ _ h2] at hq'
          exact hc.files q q' i hq hq'
    · change put (clear w p).node p (some w.next) q = some i at hq
      show i < w.next + 1
      by_cases h1 : q = p
      · rw [h1, put_same] at hq
        have := Option.some.inj hq
        omega
      · rw [put_other _ _ h1] at hq
        have := hc.fresh q i hq
        rw [hcx] at this
        omega
    · have := hc.conn q i hq
      show put (clear w p).node p (some w.next) q = some i ∧ _
      rw [put_other _ _ (hnp q i this.1)]
      exact this
    · have := hc.held r q i b hh
      show put (clear w p).node p (some w.next) q = some i ∧ _
      rw [put_other _ _ (hnp q i this.1)]
      exact this

theorem unseen {w : World P D} {s : Ideal P D} (h : Matches w s) {p : P} (hs : s.seen p = false) :
    (∀ q i, w.conn q = some i → q ≠ p) ∧ ∀ r q i b, w.held r = some (q, i, b) → q ≠ p := by
  constructor
  · intro q i hq e
    have := (h.conn q i hq).2
    rw [e, hs] at this
    cases this
  · intro r q i b hh e
    have := (h.held r q i b hh).2
    rw [e, hs] at this
    cases this

theorem remove_matches {w : World P D} {s : Ideal P D} (h : Matches w s) (p : P) (hs : s.seen p = false) :
    Matches (remove w p) (s.next (.remove p)) := by
  obtain ⟨hc, hh⟩ := unseen h hs
  have hne : ∀ q i, put w.node p none q = some i → q ≠ p ∧ w.node q = some i := by
    intro q i hq
    have h1 : q ≠ p := by intro e; rw [e, put_same] at hq; cases hq
    rw [put_other _ _ h1] at hq
    exact ⟨h1, hq⟩
  refine ⟨fun q => ?_, fun q q' i hq hq' => ?_, fun q i hq => ?_, fun q i hq => ?_, h.reading, fun r q i b hq => ?_⟩
  · show (if q = p then none else s.disk q) = (put w.node p none q).map w.data
    by_cases hq : q = p
    · rw [if_pos hq, hq, put_same]; rfl
    · rw [if_neg hq, put_other _ _ hq]; exact h.disk q
  · exact h.files q q' i (hne q i hq).2 (hne q' i hq').2
  · exact h.fresh q i (hne q i hq).2
  · show put w.node p none q = some i ∧ _
    rw [put_other _ _ (hc q i hq)]
    exact h.conn q i hq
  · show put w.node p none q = some i ∧ _
    rw [put_other _ _ (hh r q i b hq)]
    exact h.held r q i b hq

theorem rename_matches {w : World P D} {s : Ideal P D} (h : Matches w s) (p q : P) (hp : s.seen p = false) (hq : s.seen q = false) :
    Matches (rename w p q) (s.next (.rename p q)) := by
  have hcond : ((s.disk p).isSome ∧ s.disk q = none) ↔ ((w.node p).isSome ∧ w.node q = none) := by
    rw [h.disk, h.disk]
    simp
  unfold rename Ideal.next
  simp only
  by_cases hc : (w.node p).isSome ∧ w.node q = none
  · rw [if_pos hc, if_pos (hcond.mpr hc)]
    obtain ⟨hpn, hqn⟩ := hc
    obtain ⟨i0, hi0⟩ := Option.isSome_iff_exists.mp hpn
    have hpq : q ≠ p := by intro e; rw [e, hi0] at hqn; cases hqn
    obtain ⟨hcp, hhp⟩ := unseen h hp
    obtain ⟨hcq, hhq⟩ := unseen h hq
    have hnode : ∀ x, put (put w.node q (w.node p)) p none x = if x = p then none else if x = q then w.node p else w.node x := fun x => rfl
    have hcase : ∀ x i, put (put w.node q (w.node p)) p none x = some i → (x = q ∧ i = i0) ∨ (x ≠ p ∧ x ≠ q ∧ w.node x = some i) := by
      intro x i hx
      rw [hnode] at hx
      by_cases h1 : x = p
      · rw [if_pos h1] at hx; cases hx
      · rw [if_neg h1] at hx
        by_cases h2 : x = q
        · rw [if_pos h2, hi0] at hx; exact Or.inl ⟨h2, (Option.some.inj hx).symm⟩
        · rw [if_neg h2] at hx; exact Or.inr ⟨h1, h2, hx⟩
    refine ⟨fun x => ?_, fun x y i hx hy => ?_, fun x i hx => ?_, fun x i hx => ?_, h.reading, fun r x i b hx => ?_⟩
    · show (if x = p then none else if x = q then s.disk p else s.disk x) = (put (put w.node q (w.node p)) p none x).map w.data
      rw [hnode]
      by_cases h1 : x = p
      · rw [if_pos h1, if_pos h1]; rfl
      · rw [if_neg h1, if_neg h1]
        by_cases h2 : x = q
        · rw [if_pos h2, if_pos h2]; exact h.disk p
        · rw [if_neg h2, if_neg h2]; exact h.disk x
    · rcases hcase x i hx with ⟨h1, h2⟩ | ⟨h1, h2, h3⟩
      · rcases hcase y i hy with ⟨h4, h5⟩ | ⟨h4, h5, h6⟩
        · rw [h1, h4]
        · exact absurd (h.files y p i h6 (by rw [hi0, h2])) h4
      · rcases hcase y i hy with ⟨h4, h5⟩ | ⟨h4, h5, h6⟩
        · exact absurd (h.files x p i h3 (by rw [hi0, h5])) h1
        · exact h.files x y i h3 h6
    · rcases hcase x i hx with ⟨h1, h2⟩ | ⟨h1, h2, h3⟩
      · rw [h2]; exact h.fresh p i0 hi0
      · exact h.fresh x i h3
    · show put (put w.node q (w.node p)) p none x = some i ∧ _
      rw [hnode, if_neg (hcp x i hx), if_neg (hcq x i hx)]
      exact h.conn x i hx
    · show put (put w.node q (w.node p)) p none x = some i ∧ _
      rw [hnode, if_neg (hhp r x i b hx), if_neg (hhq r x i b hx)]
      exact h.held r x i b hx
  · rw [if_neg hc, if_neg (fun e => hc (hcond.mp e))]
    exact h

theorem step_matches {w : World P D} {s : Ideal P D} (h : Matches w s) (o : Op P D) (hc : Quiet s o) :
    Matches (step w o).1 (s.next o) ∧ (step w o).2 = s.reads o := by
  cases o with
  | start r p => exact start_matches h r p
  | finish r => exact finish_matches h r
  | write p f => exact ⟨write_matches h p f, rfl⟩
  | create p d => exact ⟨create_matches h p d hc, rfl⟩
  | remove p => exact ⟨remove_matches h p hc, rfl⟩
  | rename p q => exact ⟨rename_matches h p q hc.1 hc.2, rfl⟩

theorem run_matches : ∀ (l : List (Op P D)) {w : World P D} {s : Ideal P D}, Matches w s → AllQuiet s l →
    Matches (run w l).1 (s.after l) ∧ (run w l).2 = s.answers l
  | [], _, _, h, _ => ⟨h, rfl⟩
  | o :: l, w, s, h, hc => by
    obtain ⟨h1, h2⟩ := step_matches h o hc.1
    obtain ⟨h3, h4⟩ := run_matches l h1 hc.2
    refine ⟨h3, ?_⟩
    show (step w o).2 ++ (run (step w o).1 l).2 = s.reads o ++ (s.next o).answers l
    rw [h2, h4]

theorem run_append : ∀ (l l' : List (Op P D)) (w : World P D), run w (l ++ l') = ((run (run w l).1 l').1, (run w l).2 ++ (run (run w l).1 l').2)
  | [], _, _ => rfl
  | o :: l, l', w => by
    show ((run (step w o).1 (l ++ l')).1, (step w o).2 ++ (run (step w o).1 (l ++ l')).2) = _
    rw [run_append l l' (step w o).1]
    simp [run]

/-! ### Connections to files that are gone -/

/-- The cached connection of `p` is one to a file that is at no path, `p` is there, and all reads of `p` under way use that
connection, or will. -/
structure Stale (w : World P D) (p : P) (old : D) (i : Nat) : Prop where
  conn : w.conn p = some i
  here : (w.node p).isSome
  gone : ∀ q, w.node q ≠ some i
  old : w.data i = old
  lt : i < w.next
  held : ∀ r j, w.held r ≠ some (p, j, false) ∨ j = i

theorem stale_step {w : World P D} {p : P} {old : D} {i : Nat} (h : Stale w p old i) (o : Op P D) (ho : Stays p o) :
    Stale (step w o).1 p old i ∧ ∀ a ∈ (step w o).2, a.1 = p → a.2 = some old := by
  cases o with
  | start r q =>
    show Stale (start w r q).1 p old i ∧ ∀ a ∈ (start w r q).2, _
    unfold start
    cases hn : w.node q with
    | none =>
      refine ⟨h, ?_⟩
      intro a ha e
      simp only [List.mem_singleton] at ha
      subst ha
      have := h.here
      rw [← e, hn] at this
      cases this
    | some k =>
      cases hc : w.conn q with
      | none =>
        refine ⟨⟨h.conn, h.here, h.gone, h.old, h.lt, fun x j => ?_⟩, by simp⟩
        show put w.held r (some (q, k, true)) x ≠ _ ∨ _
        unfold put
        by_cases hx : x = r
        · rw [if_pos hx]; exact Or.inl (by simp)
        · rw [if_neg hx]; exact h.held x j
      | some k' =>
        refine ⟨⟨h.conn, h.here, h.gone, h.old, h.lt, fun x j => ?_⟩, by simp⟩
        show put w.held r (some (q, k', false)) x ≠ _ ∨ _
        unfold put
        by_cases hx : x = r
        · rw [if_pos hx]
          by_cases hj : j = i
          · exact Or.inr hj
          · refine Or.inl ?_
            intro e
            simp only [Option.some.injEq, Prod.mk.injEq] at e
            rw [e.1, h.conn] at hc
            have := Option.some.inj hc
            exact hj (by rw [← e.2.1, ← this])
        · rw [if_neg hx]; exact h.held x j
  | finish r =>
    show Stale (finish w r).1 p old i ∧ ∀ a ∈ (finish w r).2, _
    unfold finish
    have hheld : ∀ x j, put w.held r none x ≠ some (p, j, false) ∨ j = i := by
      intro x j
      unfold put
      by_cases hx : x = r
      · rw [if_pos hx]; exact Or.inl (by simp)
      · rw [if_neg hx]; exact h.held x j
    cases hh : w.held r with
    | none => exact ⟨h, by simp⟩
    | some t =>
      obtain ⟨q, j, b⟩ := t
      cases b with
      | false =>
        refine ⟨⟨h.conn, h.here, h.gone, h.old, h.lt, hheld⟩, ?_⟩
        intro a ha e
        simp only [List.mem_singleton] at ha
        subst ha
        simp only at e ⊢
        rcases h.held r j with h1 | h1
        · rw [hh, e] at h1; exact absurd rfl h1
        · rw [h1, h.old]
      | true =>
        refine ⟨⟨?_, h.here, h.gone, h.old, h.lt, hheld⟩, ?_⟩
        · show put w.conn q (some ((w.conn q).getD j)) p = some i
          unfold put
          by_cases hq : p = q
          · rw [if_pos hq, ← hq, h.conn]; rfl
          · rw [if_neg hq]; exact h.conn
        · intro a ha e
          simp only [List.mem_singleton] at ha
          subst ha
          simp only at e ⊢
          rw [e, h.conn]
          simp [h.old]
  | write q f =>
    refine ⟨?_, by simp [step]⟩
    show Stale (write w q f) p old i
    unfold write
    cases hn : w.node q with
    | none => exact h
    | some k =>
      refine ⟨h.conn, h.here, h.gone, ?_, h.lt, h.held⟩
      have : i ≠ k := fun e => h.gone q (by rw [hn, e])
      show put w.data k _ i = old
      rw [put_other _ _ this]
      exact h.old
  | create q d =>
    refine ⟨?_, by simp [step]⟩
    change q ≠ p at ho
    have hcl : Stale (clear w q) p old i := by
      unfold clear
      cases hn : w.node q with
      | none => exact h
      | some k =>
        refine ⟨?_, ?_, fun x => ?_, h.old, h.lt, h.held⟩
        · show put w.conn q none p = some i
          rw [put_other _ _ (Ne.symm ho)]; exact h.conn
        · show (put w.node q none p).isSome
          rw [put_other _ _ (Ne.symm ho)]; exact h.here
        · show put w.node q none x ≠ some i
          unfold put
          by_cases hx : x = q
          · rw [if_pos hx]; simp
          · rw [if_neg hx]; exact h.gone x
    have hdata : (clear w q).data = w.data := by unfold clear; cases w.node q <;> rfl
    show Stale (create w q d) p old i
    unfold create
    cases d with
    | none => exact hcl
    | some d =>
      refine ⟨hcl.conn, ?_, fun x => ?_, ?_, ?_, hcl.held⟩
      · show (put (clear w q).node q (some w.next) p).isSome
        rw [put_other _ _ (Ne.symm ho)]; exact hcl.here
      · show put (clear w q).node q (some w.next) x ≠ some i
        unfold put
        by_cases hx : x = q
        · rw [if_pos hx]
          intro e
          have := Option.some.inj e
          have := h.lt
          omega
        · rw [if_neg hx]; exact hcl.gone x
      · show put w.data w.next d i = old
        have := h.lt
        rw [put_other _ _ (by omega)]; exact h.old
      · show i < w.next + 1
        have := h.lt
        omega
  | remove q =>
    refine ⟨?_, by simp [step]⟩
    change q ≠ p at ho
    refine ⟨h.conn, ?_, fun x => ?_, h.old, h.lt, h.held⟩
    · show (put w.node q none p).isSome
      rw [put_other _ _ (Ne.symm ho)]; exact h.here
    · show put w.node q none x ≠ some i
      unfold put
      by_cases hx : x = q
      · rw [if_pos hx]; simp
      · rw [if_neg hx]; exact h.gone x
  | rename q q' =>
    refine ⟨?_, by simp [step]⟩
    change q ≠ p ∧ q' ≠ p at ho
    show Stale (rename w q q') p old i
    unfold rename
    split
    · refine ⟨h.conn, ?_, fun x => ?_, h.old, h.lt, h.held⟩
      · show (put (put w.node q' (w.node q)) q none p).isSome
        rw [put_other _ _ (Ne.symm ho.1), put_other _ _ (Ne.symm ho.2)]; exact h.here
      · show put (put w.node q' (w.node q)) q none x ≠ some i
        unfold put
        by_cases hx : x = q
        · rw [if_pos hx]; simp
        · rw [if_neg hx]
          by_cases hx' : x = q'
          · rw [if_pos hx']; exact h.gone q
          · rw [if_neg hx']; exact h.gone x
    · exact h

theorem stale_run : ∀ (l : List (Op P D)) {w : World P D} {p : P} {old : D} {i : Nat}, Stale w p old i → (∀ o ∈ l, Stays p o) →
    Stale (run w l).1 p old i ∧ ∀ a ∈ (run w l).2, a.1 = p → a.2 = some old
  | [], _, _, _, _, h, _ => ⟨h, by simp [run]⟩
  | o :: l, w, p, old, i, h, hl => by
    obtain ⟨h1, h2⟩ := stale_step h o (hl o (by simp))
    obtain ⟨h3, h4⟩ := stale_run l h1 (fun x hx => hl x (by simp [hx]))
    refine ⟨h3, fun a ha e => ?_⟩
    simp only [run, List.mem_append] at ha
    rcases ha with ha | ha
    · exact h2 a ha e
    · exact h4 a ha e

/-- A read of `p` right now. -/
theorem stale_read {w : World P D} {p : P} {old : D} {i : Nat} (h : Stale w p old i) (r : Nat) :
    (run w [.start r p, .finish r]).2 = [(p, some old)] := by
  obtain ⟨k, hk⟩ := Option.isSome_iff_exists.mp h.here
  have h1 : step w (.start r p) = ({ w with held := put w.held r (some (p, i, false)) }, []) := by
    show start w r p = _
    unfold start
    rw [hk, h.conn]
  simp only [run, h1]
  have h2 : (step { w with held := put w.held r (some (p, i, false)) } (.finish r)).2 = [(p, some old)] := by
    show (finish _ r).2 = _
    unfold finish
    simp [h.old]
  rw [h2]
  rfl

/-- After a read of `p`, at the end of a calm history without reads of `p` under way: is the connection cached?  It is, as soon
as a read has finished. -/
structure Cached (w : World P D) (p : P) (old : D) (i : Nat) : Prop where
  conn : w.conn p = some i
  node : w.node p = some i
  old : w.data i = old
  files : ∀ p q i, w.node p = some i → w.node q = some i → p = q
  fresh : ∀ p i, w.node p = some i → i < w.next
  held : ∀ r j b, w.held r ≠ some (p, j, b)

/-- Which paths have a cached connection or a read that will put one there. -/
theorem seen_cached : ∀ (l : List (Op P D)) {w : World P D} {s : Ideal P D}, Matches w s →
    (∀ p, s.seen p = true → (w.conn p).isSome ∨ ∃ r j, w.held r = some (p, j, true)) → AllQuiet s l →
    ∀ p, (s.after l).seen p = true → ((run w l).1.conn p).isSome ∨ ∃ r j, (run w l).1.held r = some (p, j, true)
  | [], _, _, _, hs, _, p, hp => hs p hp
  | o :: l, w, s, h, hs, hc, p, hp => by
    have hm := (step_matches h o hc.1).1
    refine seen_cached l hm ?_ hc.2 p hp
    intro p hp
    have hco := hc.1
    cases o with
    | start r q =>
      show ((start w r q).1.conn p).isSome ∨ ∃ r' j, (start w r q).1.held r' = some (p, j, true)
      change s.reading r = none at hco
      have hrn : w.held r = none := by
        have := h.reading r
        rw [hco] at this
        cases hw : w.held r with
        | none => rfl
        | some t => rw [hw] at this; cases this
      unfold start
      cases hn : w.node q with
      | none =>
        have hd : s.disk q = none := by rw [h.disk, hn]; rfl
        have e : s.next (.start r q) = s := by simp [Ideal.next, hd]
        rw [e] at hp
        exact hs p hp
      | some k =>
        have hd : s.disk q = some (w.data k) := by rw [h.disk, hn]; rfl
        have e : (s.next (.start r q)).seen p = if p = q then true else s.seen p := by simp [Ideal.next, hd]
        rw [e] at hp
        have keep : ∀ t, (∃ r' j, w.held r' = some (p, j, true)) → ∃ r' j, put w.held r t r' = some (p, j, true) := by
          rintro t ⟨r', j, hj⟩
          refine ⟨r', j, ?_⟩
          have : r' ≠ r := by intro e; rw [e, hrn] at hj; cases hj
          rw [put_other _ _ this]
          exact hj
        cases hcq : w.conn q with
        | none =>
          by_cases hpq : p = q
          · exact Or.inr ⟨r, k, by rw [hpq]; exact put_same _ _ _⟩
          · rw [if_neg hpq] at hp
            exact (hs p hp).imp_right (keep _)
        | some k' =>
          by_cases hpq : p = q
          · exact Or.inl (by rw [hpq]; show (w.conn q).isSome; rw [hcq]; rfl)
          · rw [if_neg hpq] at hp
            exact (hs p hp).imp_right (keep _)
    | finish r =>
      change s.seen p = true at hp
      show ((finish w r).1.conn p).isSome ∨ ∃ r' j, (finish w r).1.held r' = some (p, j, true)
      unfold finish
      cases hh : w.held r with
      | none => exact hs p hp
      | some t =>
        obtain ⟨q, j, b⟩ := t
        cases b with
        | false =>
          refine (hs p hp).imp_right ?_
          rintro ⟨r', j', hj'⟩
          refine ⟨r', j', ?_⟩
          have : r' ≠ r := by intro e; rw [e, hh] at hj'; simp at hj'
          show put w.held r none r' = _
          rw [put_other _ _ this]
          exact hj'
        | true =>
          by_cases hpq : p = q
          · left
            show (put w.conn q (some ((w.conn q).getD j)) p).isSome
            rw [hpq, put_same]; rfl
          · rcases hs p hp with h1 | ⟨r', j', hj'⟩
            · left
              show (put w.conn q (some ((w.conn q).getD j)) p).isSome
              rw [put_other _ _ hpq]; exact h1
            · right
              refine ⟨r', j', ?_⟩
              have : r' ≠ r := by
                intro e
                rw [e, hh] at hj'
                simp only [Option.some.injEq, Prod.mk.injEq] at hj'
                exact hpq hj'.1.symm
              show put w.held r none r' = _
              rw [put_other _ _ this]
              exact hj'
    | write q f =>
      change s.seen p = true at hp
      show ((write w q f).conn p).isSome ∨ ∃ r' j, (write w q f).held r' = some (p, j, true)
      unfold write
      cases w.node q <;> exact hs p hp
    | create q d =>
      change (if p = q then false else s.seen p) = true at hp
      have hpq : p ≠ q := by intro e; rw [if_pos e] at hp; cases hp
      rw [if_neg hpq] at hp
      have h1 : (clear w q).conn p = w.conn p ∧ (clear w q).held = w.held := by
        unfold clear
        cases w.node q with
        | none => exact ⟨rfl, rfl⟩
        | some k => exact ⟨put_other _ _ hpq, rfl⟩
      have h2 : (create w q d).conn p = w.conn p ∧ (create w q d).held = w.held := by
        unfold create
        cases d <;> exact h1
      show ((create w q d).conn p).isSome ∨ ∃ r' j, (create w q d).held r' = some (p, j, true)
      rw [h2.1, h2.2]
      exact hs p hp
    | remove q => exact hs p hp
    | rename q q' =>
      have e : (s.next (.rename q q')).seen = s.seen := by
        unfold Ideal.next
        simp only
        split <;> rfl
      rw [e] at hp
      have h2 : (rename w q q').conn = w.conn ∧ (rename w q q').held = w.held := by
        unfold rename
        split <;> exact ⟨rfl, rfl⟩
      show ((rename w q q').conn p).isSome ∨ ∃ r' j, (rename w q q').held r' = some (p, j, true)
      rw [h2.1, h2.2]
      exact hs p hp

/-- A database that was read and of which no read is under way has a cached connection. -/
theorem calm_cached {w : World P D} (h : Started w) {l : List (Op P D)} (hc : AllQuiet (found w) l) {p : P}
    (hs : ((found w).after l).seen p = true) (hr : ∀ r, ((found w).after l).reading r ≠ some p) :
    ∃ i old, ((found w).after l).disk p = some old ∧ Cached (run w l).1 p old i := by
  obtain ⟨hm, _⟩ := run_matches l (started_matches h) hc
  have hno : ∀ r j b, (run w l).1.held r ≠ some (p, j, b) := by
    intro r j b e
    refine hr r ?_
    rw [hm.reading, e]; rfl
  rcases seen_cached l (started_matches h) (by intro p hp; cases hp) hc p hs with h1 | ⟨r, j, h1⟩
  · obtain ⟨i, hi⟩ := Option.isSome_iff_exists.mp h1
    have hn := (hm.conn p i hi).1
    exact ⟨i, _, by rw [hm.disk, hn]; rfl, hi, hn, rfl, hm.files, hm.fresh, hno⟩
  · exact absurd h1 (hno r j true)

theorem cached_removed {w : World P D} {p : P} {old : D} {i : Nat} (h : Cached w p old i) (d : D) :
    Stale (run w [.remove p, .create p (some d)]).1 p old i := by
  have hlt := h.fresh p i h.node
  have h1 : (remove w p).node p = none := put_same _ _ _
  have h2 : clear (remove w p) p = remove w p := by unfold clear; rw [h1]
  show Stale (create (remove w p) p (some d)) p old i
  unfold create
  simp only [h2]
  refine ⟨h.conn, ?_, fun q => ?_, ?_, ?_, fun r j => Or.inl (h.held r j false)⟩
  · show (put (remove w p).node p (some w.next) p).isSome
    rw [put_same]; rfl
  · show put (put w.node p none) p (some w.next) q ≠ some i
    unfold put
    by_cases hq : q = p
    · rw [if_pos hq]
      intro e
      have := Option.some.inj e
      omega
    · rw [if_neg hq, if_neg hq]
      intro e
      exact hq (h.files q p i e h.node)
  · show put w.data w.next d i = old
    rw [put_other _ _ (by omega)]
    exact h.old
  · show i < w.next + 1
    omega

theorem cached_rebuilt {w : World P D} {p : P} {old : D} {i : Nat} (h : Cached w p old i) (d : D) {tmp aside : P} (h1 : tmp ≠ p)
    (h2 : aside ≠ p) (h3 : tmp ≠ aside) (ha : w.node aside = none) :
    Stale (run w [.create tmp (some d), .rename p aside, .rename tmp p, .remove aside]).1 p old i := by
  have hlt := h.fresh p i h.node
  have hcl : ∃ c, clear w tmp = { w with conn := c, node := put w.node tmp none } ∧ c p = w.conn p := by
    unfold clear
    cases hn : w.node tmp with
    | none =>
      refine ⟨w.conn, ?_, rfl⟩
      have : put w.node tmp none = w.node := by
        funext x; unfold put
        by_cases hx : x = tmp
        · rw [if_pos hx, hx, hn]
        · rw [if_neg hx]
      rw [this]
    | some k => exact ⟨_, rfl, put_other _ _ (Ne.symm h1)⟩
  obtain ⟨c, hcl, hcp⟩ := hcl
  have hcr : create w tmp (some d) = { w with conn := c, node := put w.node tmp (some w.next), data := put w.data w.next d, next := w.next + 1 } := by
    unfold create
    simp only [hcl]
    have : put (put w.node tmp none) tmp (some w.next) = put w.node tmp (some w.next) := by
      funext x; unfold put
      by_cases hx : x = tmp
      · rw [if_pos hx, if_pos hx]
      · rw [if_neg hx, if_neg hx, if_neg hx]
    rw [this]
  simp only [run, step]
  rw [hcr]
  have hr1 : rename ({ w with conn := c, node := put w.node tmp (some w.next), data := put w.data w.next d, next := w.next + 1 } : World P D) p aside =
      { w with conn := c, node := put (put (put w.node tmp (some w.next)) aside (some i)) p none, data := put w.data w.next d, next := w.next + 1 } := by
    unfold rename
    have hp : put w.node tmp (some w.next) p = some i := by rw [put_other _ _ (Ne.symm h1)]; exact h.node
    have hq : put w.node tmp (some w.next) aside = none := by rw [put_other _ _ (Ne.symm h3)]; exact ha
    simp [hp, hq]
  rw [hr1]
  have hr2 : rename ({ w with conn := c, node := put (put (put w.node tmp (some w.next)) aside (some i)) p none, data := put w.data w.next d, next := w.next + 1 } : World P D) tmp p =
      { w with conn := c, node := put (put (put (put (put w.node tmp (some w.next)) aside (some i)) p none) p (some w.next)) tmp none, data := put w.data w.next d, next := w.next + 1 } := by
    unfold rename
    have hp : put (put (put w.node tmp (some w.next)) aside (some i)) p none tmp = some w.next := by
      rw [put_other _ _ h1, put_other _ _ h3, put_same]
    simp [hp]
  rw [hr2]
  unfold remove
  refine ⟨by rw [← h.conn, ← hcp], ?_, fun q => ?_, ?_, ?_, fun r j => Or.inl (h.held r j false)⟩
  · simp only
    rw [put_other _ _ (Ne.symm h2), put_other _ _ (Ne.symm h1), put_same]; rfl
  · simp only [put]
    by_cases hq1 : q = aside
    · simp [hq1]
    · by_cases hq2 : q = tmp
      · simp [hq2]
      · by_cases hq3 : q = p
        · simp only [hq1, hq2, hq3, if_true, if_false, Ne, Option.some.injEq]
          simp only [Ne.symm h2, Ne.symm h1, if_false, Option.some.injEq]
          omega
        · simp only [hq1, hq2, hq3, if_false]
          intro e
          exact hq3 (h.files q p i e h.node)
  · show put w.data w.next d i = old
    rw [put_other _ _ (by omega)]
    exact h.old
  · show i < w.next + 1
    omega

theorem raced {w : World P D} (h : Started w) {p : P} {old : D} (hd : (found w).disk p = some old) (d : D) (r : Nat) :
    ∃ i, Stale (run w [.start r p, .create p (some d), .finish r]).1 p old i ∧
      (run w [.start r p, .create p (some d), .finish r]).2 = [(p, some old)] := by
  change (w.node p).map w.data = some old at hd
  obtain ⟨i, hn, ho⟩ := Option.map_eq_some_iff.mp hd
  have hlt := h.fresh p i hn
  refine ⟨i, ?_⟩
  have h1 : start w r p = ({ w with held := put w.held r (some (p, i, true)) }, []) := by
    unfold start; rw [hn, h.conn]
  have h2 : create ({ w with held := put w.held r (some (p, i, true)) } : World P D) p (some d) =
      { w with held := put w.held r (some (p, i, true)), conn := put w.conn p none, node := put (put w.node p none) p (some w.next), data := put w.data w.next d, next := w.next + 1 } := by
    unfold create clear
    simp [hn]
  simp only [run, step, h1]
  rw [h2]
  unfold finish
  simp only [put_same, Option.getD_none, List.nil_append, List.append_nil]
  have hdata : put w.data w.next d i = old := by rw [put_other _ _ (by omega)]; exact ho
  refine ⟨⟨put_same _ _ _, ?_, fun q => ?_, hdata, ?_, fun x j => Or.inl ?_⟩, by rw [hdata]⟩
  · simp only [put_same]; rfl
  · simp only [put]
    by_cases hq : q = p
    · simp only [hq, if_true, Ne, Option.some.injEq]
      omega
    · simp only [hq, if_false]
      intro e
      exact hq (h.files q p i e hn)
  · show i < w.next + 1
    omega
  · show put (put w.held r (some (p, i, true))) r none x ≠ _
    unfold put
    by_cases hx : x = r
    · rw [if_pos hx]; simp
    · rw [if_neg hx, if_neg hx, h.held]; simp

/-- Creating a database over one that is there helps. -/
theorem stale_created {w : World P D} {p : P} {old : D} {i : Nat} (h : Stale w p old i) (d : D) (r : Nat) :
    (run w [.create p (some d), .start r p, .finish r]).2 = [(p, some d)] := by
  obtain ⟨k, hk⟩ := Option.isSome_iff_exists.mp h.here
  have h2 : create w p (some d) = { w with conn := put w.conn p none, node := put (put w.node p none) p (some w.next), data := put w.data w.next d, next := w.next + 1 } := by
    unfold create clear
    simp [hk]
  simp only [run, step, h2]
  unfold start
  simp only [put_same]
  unfold finish
  simp

/-! ### The repair of the server -/

section
open NextPlaid.Server NextPlaid.Index NextPlaid.Db

variable {E : Env} {S : Sql} {T : TextEnv S}

theorem repairBy_live (s : Store E T) : repairBy (fun s => count s.db) s = repair s := rfl

theorem deleteIds_beyond {α : Type} (l : List α) (a n : Nat) (h : l.length ≤ a) : deleteIds (idRange a n) l = l := by
  rw [deleteIds_eq_filter, List.filter_eq_self.2]
  · exact List.zipIdx_map_fst ..
  · rintro ⟨x, i⟩ hp
    have := List.mem_zipIdx hp
    simp only [decide_eq_true_eq]
    rw [Server.mem_idRange]
    omega

/-- A store that needs no repair. -/
theorem healthy {s : Store E T} {D I} (h : Torn s D I) (hr : repair s = ([], .ok false)) (hne : D.zip I ≠ []) :
    Inv s.disk D ∧ s.db ≠ none ∧ D.length = I.length := by
  have hD : D ≠ [] := by intro e; rw [e] at hne; exact hne (by simp)
  have hI : I ≠ [] := by intro e; rw [e] at hne; exact hne (by simp)
  have hinv : Inv s.disk D := by
    rcases h.disk with ⟨_, h0⟩ | h0
    · exact absurd h0 hD
    · exact h0
  have hdb : s.db ≠ none := fun h0 => hD (h.noDb h0)
  refine ⟨hinv, hdb, ?_⟩
  obtain ⟨m, hm1, hm2, hm3⟩ := inv_meta hinv
  obtain ⟨tr, b, h1, _, h3, _⟩ := repair_clean h
  rw [hr] at h1
  cases h1
  have hc := count_rep h3.db
  change count s.db = _ at hc
  rw [count_rep h.db, List.length_map, List.length_zip] at hc
  have hd := h3.disk
  rcases hd with ⟨h0, _⟩ | hd
  · change s.disk = {} at h0
    rw [h0] at hm1; cases hm1
  · obtain ⟨m', hm1', _, hm3'⟩ := inv_meta hd
    change s.disk.metadata = some m' at hm1'
    rw [hm1] at hm1'
    cases hm1'
    rw [hm3, List.length_map, List.length_zip] at hm3'
    omega

/-- The repair with a count that is too small. -/
theorem repairBy_small (hS : S.Lawful) {s : Store E T} {D I} (h : Torn s D I) (hr : repair s = ([], .ok false)) {k : Nat} (hk : 0 < k)
    (hkn : k < (D.zip I).length) :
    ∃ d x, repairBy (fun _ => k) s = ([{ s with disk := d }], .ok true) ∧ load d = .ok x ∧
      Holds x (((D.zip I).map (·.1)).take k) := by
  have hne : D.zip I ≠ [] := by intro e; rw [e] at hkn; simp at hkn
  obtain ⟨hinv, hdb, hlen⟩ := healthy h hr hne
  have hDne : D ≠ [] := by intro e; rw [e] at hne; exact hne (by simp)
  obtain ⟨m, hm1, hm2, hm3⟩ := inv_meta hinv
  have hkD : k < D.length := by rw [List.length_zip] at hkn; omega
  obtain ⟨x, hx, _⟩ := Idx.load hinv.1 (flatten_ne_nil h.tokens hDne)
  obtain ⟨d, hd, hdi, _⟩ := deleteFromIndex_inv hinv (idRange k (D.length - k)) (idRange_nonneg _ _)
  rw [deleteIds_tail D k (by omega)] at hd hdi
  have htok : ∀ p ∈ (D.zip I).take k, p.1 ≠ [] := fun p hp => h.tokens p.1 (List.of_mem_zip (List.mem_of_mem_take hp)).1
  have hcl : Clean ({ s with disk := d, db := (delete s.db (idRange k (I.length - k))).1 } : Store E T) ((D.zip I).take k) := by
    refine ⟨?_, ?_, htok, fun h0 => absurd ((delete_none _ _).1 h0) hdb⟩
    · rw [List.map_take, zip_fst, ← hlen, List.take_length]
      exact .inr hdi
    · have hdel := (delete_rep h.db (idRange k (I.length - k))).1
      rw [deleteIds_tail I k (by omega)] at hdel
      rw [List.map_take, zip_snd, hlen, List.take_length]
      exact hdel
  obtain ⟨_, _, hp⟩ := hcl.paired hS
  obtain ⟨y, hy, hh⟩ := hp (by
    intro e
    have := congrArg List.length e
    rw [List.length_take, List.length_nil] at this
    omega)
  refine ⟨d, y, ?_, hy, by rw [← List.map_take]; exact hh⟩
  unfold repairBy
  rw [if_neg (by rw [hm1]; simp), if_neg (by simpa using hdb), hm2]
  simp only [hm3]
  rw [if_neg (by omega), if_neg (by omega)]
  unfold repairIndexBy
  rw [hx, hd]
  simp only
  obtain ⟨m', _, hm2', hm3'⟩ := inv_meta hdi
  simp only [verifyBy, hm2', hm3']
  rw [if_pos (by rw [List.length_take]; omega)]

/-- The repair with a count that is too large. -/
theorem repairBy_large {s : Store E T} {D I} (h : Torn s D I) (hr : repair s = ([], .ok false)) (hne : D.zip I ≠ []) {k : Nat}
    (hkn : (D.zip I).length < k) :
    ∃ db, repairBy (fun _ => k) s = ([{ s with db := db }], .error .err) ∧ Torn { s with db := db } D I ∧
      repair { s with db := db } = ([], .ok false) := by
  obtain ⟨hinv, hdb, hlen⟩ := healthy h hr hne
  obtain ⟨m, hm1, hm2, hm3⟩ := inv_meta hinv
  have hkD : D.length < k := by rw [List.length_zip] at hkn; omega
  have hdel := (delete_rep h.db (idRange D.length (k - D.length))).1
  rw [deleteIds_beyond I _ _ (by omega)] at hdel
  have hnn : (delete s.db (idRange D.length (k - D.length))).1 ≠ none := fun h0 => absurd ((delete_none _ _).1 h0) hdb
  refine ⟨(delete s.db (idRange D.length (k - D.length))).1, ?_, ⟨h.disk, hdel, h.tokens, fun h0 => absurd h0 hnn, h.noDisk⟩, ?_⟩
  · unfold repairBy
    rw [if_neg (by rw [hm1]; simp), if_neg (by simpa using hdb), hm2]
    simp only [hm3]
    rw [if_neg (by omega), if_pos hkD]
    unfold repairDbBy
    simp only [verifyBy, hm2, hm3]
    rw [if_neg (by omega)]
  · unfold repair
    rw [if_neg (by rw [hm1]; simp), if_neg (by simpa using hnn), hm2]
    simp only [hm3]
    rw [count_rep hdel, if_pos hlen]

theorem countAt_stale {w : World P (Tables S)} {p : P} {old : Tables S} {i : Nat} (h : Stale w p old i) : countAt w p = count (some old) := by
  unfold countAt
  rw [stale_read h 0]

end

end NextPlaid.DbConn
