import Verif.Proofs.Trace

/-!
C112: with tracing on, each stage of a search writes one line of JSON that says what the stage had.
-/

namespace NextPlaid.Props
open NextPlaid.Spec NextPlaid.Trace NextPlaid.JsonText

/-- A call for one of the stages of a search. -/
def OfSearch (c : Call) : Prop :=
  match c with
  | .ids _ s _ _ _ => ∃ n ∈ idStages, s = n.toList
  | .results _ s _ _ => ∃ n ∈ resultStages, s = n.toList

theorem Toy.plainStage {c : Call} (h : OfSearch c) : PlainName (stageOf c) := by
  cases c with
  | ids q s l sc n =>
    obtain ⟨x, hx, rfl⟩ := h
    have : ∀ n ∈ idStages, ∀ c ∈ n.toList, c ≠ '"' ∧ c ≠ '\\' ∧ 32 ≤ c.toNat := by decide
    exact this x hx
  | results q s l n =>
    obtain ⟨x, hx, rfl⟩ := h
    have : ∀ n ∈ resultStages, ∀ c ∈ n.toList, c ≠ '"' ∧ c ≠ '\\' ∧ 32 ≤ c.toNat := by decide
    exact this x hx

/-- Tracing is on for `1`, `true` and `TRUE` and for nothing else; when it is off nothing is written. -/
theorem C112_off (var : Option String) (calls : List Call) :
    (enabled var = true ↔ var = some "1" ∨ var = some "true" ∨ var = some "TRUE") ∧
    (enabled var = false → calls.flatMap (emit var) = []) := by
  constructor
  · simp [enabled, or_assoc]
  · intro h
    simp [emit, h]

/-- Whatever the queries and file names are — line feeds, quotes and the marker itself included — a reader of the standard error
finds one record for each call, in order, and no other. -/
theorem C112_records (var : Option String) (hv : enabled var = true) (calls : List Call) (h : ∀ c ∈ calls, OfSearch c) :
    records (calls.flatMap (emit var)) = calls.map Call.text := records_calls var hv calls fun c hc => Toy.plainStage (h c hc)

/-- When the scores shown are numbers, each record is JSON and says the stage, the query as it was given, and the first ids with
their scores (or files with their scores), at most the limit. -/
theorem C112_meaning_partial (var : Option String) (hv : enabled var = true) (calls : List Call) (h : ∀ c ∈ calls, OfSearch c)
    (hn : ∀ c ∈ calls, Sayable c) :
    (records (calls.flatMap (emit var))).map (parse sixPlaces) = calls.map fun c => some (meaning c) := by
  rw [C112_records var hv calls h, List.map_map]
  refine List.map_congr_left ?_
  intro c hc
  exact parse_text c (Toy.plainStage (h c hc)) (hn c hc)

/-- Two records with the same text are of the same stage, query and elements. -/
theorem C112_faithful (c c' : Call) (h : OfSearch c) (h' : OfSearch c') (hn : Sayable c) (hn' : Sayable c') (ht : c.text = c'.text) :
    meaning c = meaning c' := by
  have h1 := parse_text c (Toy.plainStage h) hn
  rw [ht, parse_text c' (Toy.plainStage h') hn'] at h1
  exact (Option.some.inj h1).symm

/-- A string written by hand is read back as it was, before any text. -/
theorem C112_string (s rest : List Char) : ∃ t, jsonEscape s = '"' :: t ∧ string none (t ++ rest) = some (s, rest) := by
  refine ⟨_, rfl, ?_⟩
  rw [List.append_assoc]
  exact string_escaped rest s

/-- The full claim fails: a score that is not a number, or infinite, makes the record no JSON. -/
theorem C112_not_finite_refuted :
    ∃ c c' : Call, OfSearch c ∧ OfSearch c' ∧ parse sixPlaces c.text = none ∧ parse sixPlaces c'.text = none := by
  have isNone : ∀ o : Option (J (Bool × Nat)), o.isNone = true → o = none := by intro o h; cases o <;> simp_all
  refine ⟨.ids "q".toList "semantic".toList [3, 4] [.finite false 1500000, .nan] 20, .results "q".toList "final".toList [("a".toList, .inf true)] 30,
    ⟨"semantic", by decide, rfl⟩, ⟨"final", by decide, rfl⟩, isNone _ (by decide +kernel), isNone _ (by decide +kernel)⟩

/-! ### A concrete case -/

namespace ToyTrace

def query : List Char := "a\n__COLGREP_TRACE__ {\"x\u0008\\".toList

def calls : List Call :=
  [.ids query "bm25".toList [3, -1, 9] [.finite false 12345678, .finite true 5] 20,
    .results query "final".toList [("src/\"a\".rs".toList, .finite false 250000), ("b".toList, .nan)] 1]

end ToyTrace

open ToyTrace in
example : enabled (some "1") = true ∧ (∀ c ∈ calls, OfSearch c) ∧ (∀ c ∈ calls, Sayable c) ∧
    calls.flatMap (emit (some "1")) =
      ("__COLGREP_TRACE__ {\"stage\":\"bm25\",\"query\":\"a\\n__COLGREP_TRACE__ {\\\"x\\u0008\\\\\",\"ids\":[3,-1],\"scores\":[12.345678,-0.000005]}\n" ++
       "__COLGREP_TRACE__ {\"stage\":\"final\",\"query\":\"a\\n__COLGREP_TRACE__ {\\\"x\\u0008\\\\\",\"results\":[{\"file\":\"src/\\\"a\\\".rs\",\"score\":0.250000}]}\n").toList := by
  refine ⟨by decide, ?_, ?_, by decide +kernel⟩
  · simp only [calls, List.mem_cons, List.not_mem_nil, or_false, forall_eq_or_imp, forall_eq]
    exact ⟨⟨"bm25", by decide, rfl⟩, ⟨"final", by decide, rfl⟩⟩
  · simp only [calls, List.mem_cons, List.not_mem_nil, or_false, forall_eq_or_imp, forall_eq]
    refine ⟨?_, ?_⟩
    · simp [Sayable, IsNumber]
    · simp [Sayable, IsNumber]

end NextPlaid.Props
