import Verif.Model.Fusion
import Mathlib.Data.List.Perm.Basic

/-!
Specification of ranked results and of fused scores.
-/

namespace NextPlaid.Spec
open NextPlaid.Fusion

/-- `out` is a top-`k` answer for the scored items `all`: it consists of items of `all` (each as often as
there), best first, as many as possible up to `k`, and no item left out beats one that is in. -/
def TopOf {B : Type} [LinearOrder B] (k : Nat) (all out : List (Int × B)) : Prop :=
  ∃ rest, (out ++ rest).Perm all ∧ out.Pairwise (fun a b => b.2 ≤ a.2) ∧
    (∀ o ∈ out, ∀ x ∈ rest, x.2 ≤ o.2) ∧ out.length = min k all.length

variable {K : Type} [Field K] [LinearOrder K] [IsStrictOrderedRing K] (r : Rounding K)

/-- What a ranking gives an id, with weight `w`: `w / (60 + rank)`, ranks counted from 1, every operation
rounded; nothing if the id is not in the ranking. -/
def rankShare (w : K) (ids : List Int) (id : Int) : K :=
  if id ∈ ids then r.rnd (w / r.rnd (r.rnd (60 + r.rnd (ids.idxOf id : K)) + 1)) else 0

/-- A score relative to the range `[lo, hi]`. -/
def relative (lo hi s : K) : K := if r.rnd (hi - lo) = 0 then 1 else r.rnd (r.rnd (s - lo) / r.rnd (hi - lo))

/-- `lo` and `hi` are the least and the greatest of the scores in a list of results. -/
def IsRange (l : List (Int × K)) (lo hi : K) : Prop :=
  (∃ p ∈ l, p.2 = lo) ∧ (∃ p ∈ l, p.2 = hi) ∧ ∀ p ∈ l, lo ≤ p.2 ∧ p.2 ≤ hi

/-- `x` is what a scored list gives an id with weight `w`: the weighted relative score; nothing if the id is
not in the list. -/
def ScoreShare (w : K) (l : List (Int × K)) (id : Int) (x : K) : Prop :=
  (id ∉ l.map Prod.fst ∧ x = 0) ∨
  ∃ s lo hi, (id, s) ∈ l ∧ IsRange l lo hi ∧ x = r.rnd (w * relative r lo hi s)

end NextPlaid.Spec
