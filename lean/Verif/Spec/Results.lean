import Verif.Model.Results
import Verif.Spec.Fusion

/-! What the results of a search are (C54). -/

namespace NextPlaid.Spec

open NextPlaid.Rank NextPlaid.Fusion

section
variable {K : Type} [LinearOrder K]

/-- The same code unit, but for its lines. -/
def SameUnit (a b : CodeUnit) : Prop :=
  a.id = b.id ∧ a.file = b.file ∧ a.name = b.name ∧ a.isDef = b.isDef ∧ a.isText = b.isText

/-- `h` stands for its file among the candidates: it is the best of the file's candidates, with the lines from the first to the last
one of all the file's candidates. -/
structure StandsFor (pool : List (Hit K)) (h : Hit K) : Prop where
  leader : ∃ u ∈ pool, SameUnit h.unit u.unit ∧ h.score = u.score
  best : ∀ v ∈ pool, v.unit.file = h.unit.file → v.score ≤ h.score
  covers : ∀ v ∈ pool, v.unit.file = h.unit.file → h.unit.line ≤ v.unit.line ∧ v.unit.endLine ≤ h.unit.endLine
  first : ∃ v ∈ pool, v.unit.file = h.unit.file ∧ v.unit.line = h.unit.line
  last : ∃ v ∈ pool, v.unit.file = h.unit.file ∧ v.unit.endLine = h.unit.endLine

/-- `out` shows the `k` best files among the candidates: one result per file, best first, as many as there are up to `k`, and no file
that is left out has a candidate better than a result. -/
structure BestFiles (k : Nat) (pool out : List (Hit K)) : Prop where
  distinct : (out.map (·.unit.file)).Nodup
  ordered : out.Pairwise fun a b => b.score ≤ a.score
  atMost : out.length ≤ k
  each : ∀ h ∈ out, StandsFor pool h
  rest : ∀ v ∈ pool, v.unit.file ∉ out.map (·.unit.file) → out.length = k ∧ ∀ h ∈ out, v.score ≤ h.score

end

section
variable {K : Type} [Field K] [LinearOrder K] [IsStrictOrderedRing K]

/-- The score that fusion gives to an id: the sum of its two weighted relative scores. -/
def FusedScore (r : Rounding K) (alpha : K) (sem kw : List (Int × K)) (id : Int) (s : K) : Prop :=
  (id ∈ sem.map Prod.fst ∨ id ∈ kw.map Prod.fst) ∧
    ∃ x y, ScoreShare r alpha sem id x ∧ ScoreShare r (r.rnd (1 - alpha)) kw id y ∧ s = r.rnd (x + y)

/-- No two candidates have the same fused score. -/
def NoFusedTies (r : Rounding K) (alpha : K) (sem kw : List (Int × K)) : Prop :=
  ∀ a b s, FusedScore r alpha sem kw a s → FusedScore r alpha sem kw b s → a = b

end

end NextPlaid.Spec
