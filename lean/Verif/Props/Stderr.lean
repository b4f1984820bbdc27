import Verif.Proofs.Stderr

/-!
C101: what running a part of the program with standard error suppressed shows, and what it leaves behind.
-/

namespace NextPlaid.Props

open NextPlaid.Stderr

/-- The usual state: standard error is the terminal, the hook the usual one. -/
def Toy.plain : St := { terminal := true, hook := none, buffer := fun _ => none, next := 0, screen := [] }

/-- A part that writes, catches one panic and is ended by another. -/
def Toy.part : Prog := .say "Context leak detected" (.attempt (.boom "caught") (.say "more" (.boom "out of memory")))

/-- **C101, afterwards.**  If one thread runs alone, then whatever it does, with parts suppressed inside suppressed parts, panics caught or not, and
duplicating the descriptor failing or not, standard error and the panic hook are afterwards what they were before. -/
theorem C101_restored (p : Prog) (s : St) : (exec p s).1.terminal = s.terminal ∧ (exec p s).1.hook = s.hook :=
  ⟨(exec_hook p s).2, (exec_hook p s).1⟩

/-- **C101, panics go on.**  A program panics exactly if a panic leaves it: suppressing a part neither stops one nor makes one. -/
theorem C101_propagates (p : Prog) (s : St) : (exec p s).2 = true ↔ ∃ m, p.escapes = some m := by
  rw [exec_panics, Option.isSome_iff_exists]

/-- **C101, what a suppressed part shows.**  With standard error the terminal, a suppressed part that itself suppresses nothing shows the message of the panic
that leaves it, once, and nothing else. -/
theorem C101_message_partial (body : Prog) (s : St) (hflat : body.flat = true) (ht : s.terminal = true) :
    (exec (.quiet true body .ret) s).1.screen = s.screen ++ body.escapes.toList := by
  have hp := exec_panics body (enter true s).2
  have hn : (exec body (enter true s).2).1.screen = s.screen := exec_null body (enter true s).2 rfl
  have hft : ∀ p, (finish (enter true s).1 p (exec body (enter true s).2).1).terminal = true := fun p => by rw [finish_terminal]; exact ht
  cases he : body.escapes with
  | none =>
    rw [he] at hp
    simp only [exec, hp, Option.isSome_none, Bool.false_eq_true, if_false]
    rw [finish_no_panic, hn]; simp
  | some m =>
    rw [he] at hp
    have hb := exec_flat body (enter true s).2 s.next hflat rfl m he
    simp only [exec, hp, Option.isSome_some, if_true]
    rw [finish_some hb (hft true), hn]; simp

example : Toy.part.flat = true ∧ Toy.part.escapes = some "out of memory" ∧
    (exec (.quiet true Toy.part .ret) Toy.plain).1.screen = ["out of memory"] := by decide +kernel

/-- **C101, if standard error cannot be suppressed** the part runs with it as it is, and the message of the panic that leaves the part comes last;
only the messages of panics that are caught are not shown. -/
theorem C101_not_suppressed (body : Prog) (s : St) (hflat : body.flat = true) (ht : s.terminal = true) :
    (exec (.quiet false body .ret) s).1.screen = s.screen ++ body.said ++ body.escapes.toList := by
  have hp := exec_panics body (enter false s).2
  have ho := exec_flat_screen body (enter false s).2 s.next hflat rfl ht
  have hft : ∀ p, (finish (enter false s).1 p (exec body (enter false s).2).1).terminal = true := fun p => by
    rw [finish_terminal]
    show (exec body (enter false s).2).1.terminal = true
    rw [(exec_hook body _).2]; exact ht
  cases he : body.escapes with
  | none =>
    rw [he] at hp
    simp only [exec, hp, Option.isSome_none, Bool.false_eq_true, if_false]
    rw [finish_no_panic, ho]; simp [enter]
  | some m =>
    rw [he] at hp
    have hb := exec_flat body (enter false s).2 s.next hflat rfl m he
    simp only [exec, hp, Option.isSome_some, if_true]
    rw [finish_some hb (hft true), ho]; simp [enter]

example : (exec (.quiet false Toy.part .ret) Toy.plain).1.screen = ["Context leak detected", "more", "out of memory"] := by decide +kernel

/-- **C101, nothing else is shown.**  Whatever a suppressed part does, at most one message is shown. -/
theorem C101_silent (body : Prog) (s : St) : ∃ m : Option String, (exec (.quiet true body .ret) s).1.screen = s.screen ++ m.toList ∧
    (body.escapes = none → m = none) := by
  have hp := exec_panics body (enter true s).2
  have hn : (exec body (enter true s).2).1.screen = s.screen := exec_null body (enter true s).2 rfl
  cases he : body.escapes with
  | none =>
    rw [he] at hp
    refine ⟨none, ?_, fun _ => rfl⟩
    simp only [exec, hp, Option.isSome_none, Bool.false_eq_true, if_false]
    rw [finish_no_panic, hn]; simp
  | some m =>
    rw [he] at hp
    simp only [exec, hp, Option.isSome_some, if_true]
    cases ht : (finish (enter true s).1 true (exec body (enter true s).2).1).terminal with
    | false => exact ⟨none, by rw [finish_null ht, hn]; simp, fun h => nomatch h⟩
    | true =>
      cases hb : (exec body (enter true s).2).1.buffer (enter true s).1.slot with
      | some m' => exact ⟨some m', by rw [finish_some hb ht, hn]; simp, fun h => nomatch h⟩
      | none =>
        refine ⟨none, ?_, fun h => nomatch h⟩
        unfold finish
        simp only [if_true]
        have : (leave (enter true s).1 (exec body (enter true s).2).1).buffer (enter true s).1.slot = none := hb
        rw [this]
        simp [leave, hn]

/-- **C101, a suppressed part inside another one.**  The message of a panic in the inner part is never shown: the inner call prints it while the outer one
still suppresses, and the outer one has caught nothing. -/
theorem C101_nested (body : Prog) (s : St) : (exec (.quiet true (.quiet true body .ret) .ret) s).1.screen = s.screen ∧
    ((∃ m, body.escapes = some m) → (exec (.quiet true (.quiet true body .ret) .ret) s).2 = true) := by
  refine ⟨?_, fun ⟨m, hm⟩ => by rw [exec_panics]; simp [Prog.escapes, hm]⟩
  have hn : (exec (.quiet true body .ret) (enter true s).2).1.screen = s.screen := exec_null _ (enter true s).2 rfl
  have hbuf : (exec (.quiet true body .ret) (enter true s).2).1.buffer s.next = none := Toy.inner_buffer body (enter true s).2 s.next (by simp [enter]) (Nat.lt_succ_self _)
  cases hp : (exec (.quiet true body .ret) (enter true s).2).2 with
  | false =>
    show (exec (.quiet true (.quiet true body .ret) .ret) s).1.screen = s.screen
    rw [exec]; simp only [hp, Bool.false_eq_true, if_false]
    rw [exec, finish_no_panic, hn]
  | true =>
    rw [exec]; simp only [hp, if_true]
    unfold finish
    simp only [if_true]
    have : (leave (enter true s).1 (exec (.quiet true body .ret) (enter true s).2).1).buffer (enter true s).1.slot = none := hbuf
    rw [this]
    simp [leave, hn]

example : (exec (.quiet true (.quiet true Toy.part .ret) .ret) Toy.plain).1.screen = [] ∧
    (exec (.quiet true (.quiet true Toy.part .ret) .ret) Toy.plain).2 = true := by decide +kernel

/-- **C101, another message.**  If the outer part has caught a panic before, its message is shown for the one that ends the program. -/
theorem C101_wrong_message : ∃ body : Prog, body.escapes = some "b" ∧ (exec (.quiet true body .ret) Toy.plain).1.screen = ["a"] :=
  ⟨.attempt (.boom "a") (.quiet true (.boom "b") .ret), rfl, by decide +kernel⟩

/-- **C101, two threads.**  If two threads suppress standard error at the same time, and the one that began first ends first, then standard error is
/dev/null afterwards and the hook that of the first call: nothing the process writes and no panic is shown any more. -/
theorem C101_two_threads (s : St) (p q : Bool) :
    let a := enter true s
    let b := enter true a.2
    let s' := finish b.1 q (finish a.1 p b.2)
    s'.terminal = false ∧ s'.hook = some s.next ∧ ∀ prog : Prog, (exec prog s').1.screen = s'.screen := by
  dsimp only
  have ht : (finish (enter true (enter true s).2).1 q (finish (enter true s).1 p (enter true (enter true s).2).2)).terminal = false := by
    rw [finish_terminal]; rfl
  exact ⟨ht, finish_hook _ _ _, fun prog => exec_null prog _ ht⟩

/-- **C101, two threads, one inside the other.**  If the one that began last ends first, all is as before. -/
theorem C101_two_threads_nested (s : St) (p q : Bool) :
    let a := enter true s
    let b := enter true a.2
    let s' := finish a.1 p (finish b.1 q b.2)
    s'.terminal = s.terminal ∧ s'.hook = s.hook := by
  dsimp only
  exact ⟨by rw [finish_terminal]; rfl, finish_hook _ _ _⟩

/-- **C101, a panic of another thread** while standard error is suppressed is not shown, also not afterwards, if the suppressed part returns. -/
theorem C101_other_thread (s : St) (m : String) :
    let a := enter true s
    (finish a.1 false (runHook m a.2)).screen = s.screen := by
  dsimp only
  rw [finish_no_panic]; rfl

example : (exec (.boom "shown") Toy.plain).1.screen = ["shown"] := by decide +kernel

end NextPlaid.Props
