import Verif.Model.Net
import Mathlib.Tactic.Linarith

/-! Threads in a row compute the same whatever the schedule, come to an end, and never block for ever. -/

namespace NextPlaid.Net

variable {S M : Type}

/-- What a cell does with what is in its channel and what is still to come. -/
def after (c : Cell S M) (ms : List M) : S × List M := if c.closed then (c.state, []) else feed c.stage c.state (c.queue ++ ms)

/-- The last states. -/
def eval : List (Cell S M) → List M → List S
  | [], _ => []
  | c :: cs, ms => (after c ms).1 :: eval cs (c.hand ++ (after c ms).2)

/-- The number of steps still to come. -/
def work : List (Cell S M) → List M → Nat
  | [], _ => 0
  | c :: cs, ms => (if c.closed then 0 else 1 + (c.queue ++ ms).length) + (c.hand ++ (after c ms).2).length + work cs (c.hand ++ (after c ms).2)

/-- A closed thread has nothing left in its channel, and its sender is closed and has nothing left to send. -/
def Tidy : List (Cell S M) → Prop
  | [] => True
  | [c] => c.closed = true → c.queue = []
  | c :: d :: cs => (c.closed = true → c.queue = []) ∧ (d.closed = true → c.closed = true ∧ c.hand = []) ∧ Tidy (d :: cs)

theorem tidy_head {c : Cell S M} {cs : List (Cell S M)} (h : Tidy (c :: cs)) : c.closed = true → c.queue = [] := by
  cases cs with
  | nil => exact h
  | cons d cs => exact h.1

theorem tidy_tail {c : Cell S M} {cs : List (Cell S M)} (h : Tidy (c :: cs)) : Tidy cs := by
  cases cs with
  | nil => trivial
  | cons d cs => exact h.2.2

/-- A step of the tail keeps what the head knows of it. -/
theorem step_head {cs cs' : List (Cell S M)} (h : Step cs cs') : ∀ {d : Cell S M} {ds : List (Cell S M)}, cs = d :: ds →
    ∃ d' ds', cs' = d' :: ds' ∧ d'.closed = d.closed := by
  cases h with
  | push cs hc room => intro d ds he; injection he with h1 h2; subst h1; exact ⟨_, _, rfl, rfl⟩
  | drop hc => intro d ds he; injection he with h1 h2; subst h1; exact ⟨_, _, rfl, rfl⟩
  | recv cs ho hh hq => intro d ds he; injection he with h1 h2; subst h1; exact ⟨_, _, rfl, rfl⟩
  | close cs hc hh ho hd hq => intro d ds he; injection he with h1 h2; subst h1; exact ⟨_, _, rfl, rfl⟩
  | later c h => intro d ds he; injection he with h1 h2; subst h1; exact ⟨_, _, rfl, rfl⟩

theorem tidy_step {a b : List (Cell S M)} (h : Step a b) : Tidy a → Tidy b := by
  induction h with
  | @push c d m hand cs hc room =>
    rintro ⟨h1, h2, h3⟩
    have hd : d.closed = false := by
      cases hd : d.closed with
      | false => rfl
      | true => have := (h2 hd).2; rw [hc] at this; cases this
    refine ⟨h1, fun h => ?_, ?_⟩
    · have h : d.closed = true := h
      rw [hd] at h; cases h
    · cases cs with
      | nil => intro h; have h : d.closed = true := h; rw [hd] at h; cases h
      | cons e cs =>
        refine ⟨fun h => ?_, h3.2.1, h3.2.2⟩
        have h : d.closed = true := h; rw [hd] at h; cases h
  | @drop c m hand hc => intro h1; exact h1
  | @recv c m q cs ho hh hq =>
    intro h1
    cases cs with
    | nil => intro h; have h : c.closed = true := h; rw [ho] at h; cases h
    | cons d cs =>
      refine ⟨fun h => ?_, fun h => ?_, h1.2.2⟩
      · have h : c.closed = true := h; rw [ho] at h; cases h
      · have := (h1.2.1 h).1; rw [ho] at this; cases this
  | @close c d cs hc hh ho hd hq =>
    rintro ⟨h1, h2, h3⟩
    refine ⟨h1, fun _ => ⟨hc, hh⟩, ?_⟩
    cases cs with
    | nil => intro _; exact hq
    | cons e cs =>
      refine ⟨fun _ => hq, fun h => ?_, h3.2.2⟩
      have := (h3.2.1 h).1; rw [ho] at this; cases this
  | @later cs cs' c hs ih =>
    intro h1
    cases cs with
    | nil => cases hs
    | cons d cs =>
      obtain ⟨d', ds', rfl, hcl⟩ := step_head hs rfl
      exact ⟨h1.1, fun h => h1.2.1 (hcl ▸ h), ih h1.2.2⟩

theorem step_keeps {a b : List (Cell S M)} (h : Step a b) : Tidy a → ∀ ms, eval a ms = eval b ms ∧ work a ms = work b ms + 1 := by
  induction h with
  | @push c d m hand cs hc room =>
    rintro ⟨h1, h2, h3⟩ ms
    have hd : d.closed = false := by
      cases hd : d.closed with
      | false => rfl
      | true => have := (h2 hd).2; rw [hc] at this; cases this
    have e1 : after { c with hand := hand } ms = after c ms := rfl
    have e2 : ∀ x, after { d with queue := d.queue ++ [m] } x = after d (m :: x) := by
      intro x; simp [after, hd]
    constructor
    · simp only [eval, e1, e2, hc, List.cons_append]
    · simp only [work, e1, e2, hc, List.cons_append]
      simp only [hd, Bool.false_eq_true, if_false, List.length_append, List.length_cons, List.length_nil]
      omega
  | @drop c m hand hc =>
    intro _ ms
    have e1 : after { c with hand := hand } ms = after c ms := rfl
    constructor
    · simp only [eval, e1]
    · simp only [work, e1, hc, List.cons_append, List.length_cons]; omega
  | @recv c m q cs ho hh hq =>
    intro h1 ms
    have e1 : after c ms = (feed c.stage c.state (m :: (q ++ ms))) := by simp [after, ho, hq]
    have e2 : after { c with state := (c.stage.recv c.state m).1, hand := (c.stage.recv c.state m).2, queue := q } ms =
        feed c.stage (c.stage.recv c.state m).1 (q ++ ms) := by simp [after, ho]
    constructor
    · simp only [eval, e1, e2, feed, hh, List.nil_append]
    · simp only [work, e1, e2, feed, hh, List.nil_append]
      simp only [ho, hq, List.length_append, List.length_cons, Bool.false_eq_true, if_false]
      omega
  | @close c d cs hc hh ho hd hq =>
    rintro ⟨h1, h2, h3⟩ ms
    have e0 : after c ms = (c.state, []) := by simp [after, hc]
    have e1 : after d [] = d.stage.close d.state := by simp [after, ho, hq, feed]
    have e2 : after { d with state := (d.stage.close d.state).1, hand := (d.stage.close d.state).2, closed := true } [] = ((d.stage.close d.state).1, []) := by
      simp [after]
    constructor
    · simp only [eval, e0, hh, List.append_nil, e1, e2, hd, List.nil_append]
    · simp only [work, e0, hh, List.append_nil, e1, e2]
      simp only [hd, List.nil_append, ho, hq, List.length_nil, Bool.false_eq_true, if_false, if_true, hc, List.append_nil]
      omega
  | @later cs cs' c hs ih =>
    intro h1 ms
    obtain ⟨h2, h3⟩ := ih (tidy_tail h1) (c.hand ++ (after c ms).2)
    constructor
    · simp only [eval, h2]
    · simp only [work, h3]; omega

theorem run_keeps {n : Nat} {a b : List (Cell S M)} (h : Run n a b) (ht : Tidy a) :
    Tidy b ∧ ∀ ms, eval a ms = eval b ms ∧ work a ms = work b ms + n := by
  induction h with
  | refl => exact ⟨ht, fun ms => ⟨rfl, by omega⟩⟩
  | step h s ih =>
    obtain ⟨h1, h2⟩ := ih ht
    refine ⟨tidy_step s h1, fun ms => ?_⟩
    obtain ⟨h3, h4⟩ := h2 ms
    obtain ⟨h5, h6⟩ := step_keeps s h1 ms
    exact ⟨h3.trans h5, by omega⟩

/-! ### Nobody blocks for ever -/

/-- Either some thread can do something or everybody's hands and channels are empty. -/
theorem step_or_empty : ∀ (cs : List (Cell S M)), Tidy cs → (∀ c ∈ cs.tail, 0 < c.cap) → (∃ cs', Step cs cs') ∨ ∀ c ∈ cs, c.queue = [] ∧ c.hand = []
  | [], _, _ => .inr (by simp)
  | [c], ht, _ => by
    cases hh : c.hand with
    | cons m h => exact .inl ⟨_, .drop hh⟩
    | nil =>
      cases hq : c.queue with
      | nil => right; intro d hd; rw [List.mem_singleton] at hd; subst hd; exact ⟨hq, hh⟩
      | cons m q =>
        cases ho : c.closed with
        | true => have := ht ho; rw [hq] at this; cases this
        | false => exact .inl ⟨_, .recv [] ho hh hq⟩
  | c :: d :: cs, ht, hcap => by
    rcases step_or_empty (d :: cs) ht.2.2 (fun x hx => hcap x (List.mem_cons_of_mem _ hx)) with ⟨cs', hs⟩ | hempty
    · exact .inl ⟨_, .later c hs⟩
    · cases hh : c.hand with
      | cons m h =>
        refine .inl ⟨_, .push cs hh ?_⟩
        rw [(hempty d (by simp)).1]
        exact hcap d (by simp)
      | nil =>
        cases hq : c.queue with
        | cons m q =>
          cases ho : c.closed with
          | true => have := ht.1 ho; rw [hq] at this; cases this
          | false => exact .inl ⟨_, .recv _ ho hh hq⟩
        | nil =>
          right
          intro e he
          rcases List.mem_cons.mp he with rfl | he
          · exact ⟨hq, hh⟩
          · exact hempty e he

/-- With empty hands and channels, behind a closed thread, some thread can close or all are closed. -/
theorem close_or_closed : ∀ (cs : List (Cell S M)) (c : Cell S M), c.closed = true → c.hand = [] → (∀ d ∈ cs, d.queue = [] ∧ d.hand = []) →
    (∃ cs', Step (c :: cs) cs') ∨ ∀ d ∈ cs, d.closed = true
  | [], _, _, _, _ => .inr (by simp)
  | d :: cs, c, hc, hh, he => by
    obtain ⟨h1, h2⟩ := he d (by simp)
    cases ho : d.closed with
    | false => exact .inl ⟨_, .close cs hc hh ho h2 h1⟩
    | true =>
      rcases close_or_closed cs d ho h2 (fun e h => he e (by simp [h])) with ⟨cs', hs⟩ | h
      · exact .inl ⟨_, .later c hs⟩
      · right
        intro e hm
        rcases List.mem_cons.mp hm with rfl | hm
        · exact ho
        · exact h e hm

theorem progress {c : Cell S M} {cs : List (Cell S M)} (ht : Tidy (c :: cs)) (hc : c.closed = true) (hcap : ∀ d ∈ cs, 0 < d.cap) :
    (∃ cs', Step (c :: cs) cs') ∨ Finished (c :: cs) := by
  rcases step_or_empty (c :: cs) ht hcap with h | h
  · exact .inl h
  · rcases close_or_closed cs c hc (h c (by simp)).2 (fun d hd => h d (by simp [hd])) with h' | h'
    · exact .inl h'
    · right
      intro d hd
      refine ⟨?_, (h d hd).1, (h d hd).2⟩
      rcases List.mem_cons.mp hd with rfl | hd
      · exact hc
      · exact h' d hd

theorem eval_finished : ∀ (cs : List (Cell S M)) (ms : List M), Finished cs → eval cs ms = cs.map (·.state)
  | [], _, _ => rfl
  | c :: cs, ms, h => by
    have hc := h c (by simp)
    simp only [eval, after, hc.1, if_true, List.map_cons]
    rw [eval_finished cs _ fun d hd => h d (by simp [hd])]

theorem work_finished : ∀ (cs : List (Cell S M)) (ms : List M), Finished cs → work cs ms = 0
  | [], _, _ => rfl
  | c :: cs, ms, h => by
    have hc := h c (by simp)
    simp only [work, after, hc.1, if_true, hc.2.2, List.append_nil, List.length_nil]
    rw [work_finished cs _ fun d hd => h d (by simp [hd])]

/-- One thread after the other, each with all that the one before it sends. -/
def inTurn : List (Stage S M × Nat × S) → List M → List S
  | [], _ => []
  | (st, _, s) :: rest, ms => (feed st s ms).1 :: inTurn rest (feed st s ms).2

theorem eval_fresh : ∀ (l : List (Stage S M × Nat × S)) (ms : List M), eval (l.map fun x => fresh x.1 x.2.1 x.2.2) ms = inTurn l ms
  | [], _ => rfl
  | (st, cap, s) :: rest, ms => by
    simp only [List.map_cons, eval, fresh, after, Bool.false_eq_true, if_false, List.nil_append, inTurn]
    rw [← eval_fresh rest]
    rfl

theorem tidy_fresh : ∀ (l : List (Stage S M × Nat × S)), Tidy (l.map fun x => fresh x.1 x.2.1 x.2.2)
  | [] => trivial
  | [x] => by intro h; cases h
  | x :: y :: l => ⟨fun h => (by cases h), fun h => (by cases h), tidy_fresh (y :: l)⟩

theorem tidy_start (s : S) (ms : List M) (l : List (Stage S M × Nat × S)) : Tidy (source s ms :: l.map fun x => fresh x.1 x.2.1 x.2.2) := by
  cases l with
  | nil => intro _; rfl
  | cons x l => exact ⟨fun _ => rfl, fun h => (by cases h), tidy_fresh (x :: l)⟩

/-- The head stays closed. -/
theorem run_head {n : Nat} {a b : List (Cell S M)} (h : Run n a b) {c : Cell S M} {cs : List (Cell S M)} (ha : a = c :: cs) :
    ∃ c' cs', b = c' :: cs' ∧ c'.closed = c.closed := by
  induction h with
  | refl => exact ⟨c, cs, ha, rfl⟩
  | step h s ih =>
    obtain ⟨d, ds, h1, h2⟩ := ih ha
    obtain ⟨e, es, h3, h4⟩ := step_head s h1
    exact ⟨e, es, h3, h4.trans h2⟩

theorem caps_step {a b : List (Cell S M)} (h : Step a b) : b.map (·.cap) = a.map (·.cap) := by
  induction h with
  | push => rfl
  | drop => rfl
  | recv => rfl
  | close => rfl
  | later c h ih => simp [ih]

theorem caps_run {n : Nat} {a b : List (Cell S M)} (h : Run n a b) : b.map (·.cap) = a.map (·.cap) := by
  induction h with
  | refl => rfl
  | step h s ih => rw [caps_step s, ih]

/-- Every schedule comes to an end after the same number of steps, with the states that one thread after the other would have. -/
theorem schedule (s : S) (ms : List M) (l : List (Stage S M × Nat × S)) (hcap : ∀ x ∈ l, 0 < x.2.1) {n : Nat} {cs : List (Cell S M)}
    (hr : Run n (source s ms :: l.map fun x => fresh x.1 x.2.1 x.2.2) cs) :
    n ≤ work (source s ms :: l.map fun x => fresh x.1 x.2.1 x.2.2) [] ∧
    ((∃ cs', Step cs cs') ∨ Finished cs) ∧
    (Finished cs → cs.map (·.state) = s :: inTurn l ms) := by
  obtain ⟨h1, h2⟩ := run_keeps hr (tidy_start s ms l)
  obtain ⟨h3, h4⟩ := h2 []
  obtain ⟨c, cs', rfl, hc⟩ := run_head hr rfl
  refine ⟨by omega, progress h1 hc ?_, ?_⟩
  · have hcaps := caps_run hr
    simp only [List.map_cons, List.cons.injEq] at hcaps
    intro d hd
    have : d.cap ∈ List.map (fun x => x.cap) (List.map (fun x : Stage S M × Nat × S => fresh x.1 x.2.1 x.2.2) l) := by
      rw [← hcaps.2]; exact List.mem_map.mpr ⟨d, hd, rfl⟩
    rw [List.map_map] at this
    obtain ⟨x, hx, he⟩ := List.mem_map.mp this
    rw [← he]; exact hcap x hx
  · intro hf
    rw [← eval_finished _ [] hf, ← h3]
    simp only [eval, source, after, if_true, List.append_nil]
    rw [eval_fresh]

end NextPlaid.Net
