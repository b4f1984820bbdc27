import Verif.Model.Basic

/-!
What the compression of embeddings has to give, whoever computes it.
-/

namespace NextPlaid.Spec

variable {γ α : Type}

/-- The scores are numbers. -/
def AllFinite (scores : List (Score α)) : Prop := ∀ s ∈ scores, ∃ a, s = .fin a

/-- Place `k` has a score that is a number, and none is greater. -/
def BestAt [LinearOrder α] (scores : List (Score α)) (k : Nat) : Prop :=
  ∃ a, scores[k]? = some (.fin a) ∧ ∀ b, Score.fin b ∈ scores → b ≤ a

/-- The first of the best places. -/
def FirstBestAt [LinearOrder α] (scores : List (Score α)) (k : Nat) : Prop := BestAt scores k ∧ ∀ j < k, ¬ BestAt scores j

/-- The last of the best places. -/
def LastBestAt [LinearOrder α] (scores : List (Score α)) (k : Nat) : Prop := BestAt scores k ∧ ∀ j, k < j → ¬ BestAt scores j

/-- `r` is `e` minus `c`, component by component. -/
def IsDifference (sub : γ → γ → γ) (e c r : List γ) : Prop :=
  r.length = e.length ∧ ∀ (j : Nat) (x y : γ), e[j]? = some x → c[j]? = some y → r[j]? = some (sub x y)

/-- Every token has a code and a residual: the code is that of a centroid, one with the best score if the scores are numbers, and the residual is the
token minus that centroid. -/
structure Compressed [LinearOrder α] (score : List γ → List γ → Score α) (sub : γ → γ → γ) (cents emb : List (List γ)) (codes : List Nat)
    (residuals : List (List γ)) : Prop where
  codes_len : codes.length = emb.length
  residuals_len : residuals.length = emb.length
  token : ∀ (i : Nat) (e : List γ), emb[i]? = some e → ∃ k c r, codes[i]? = some k ∧ cents[k]? = some c ∧ residuals[i]? = some r ∧
    IsDifference sub e c r ∧ (AllFinite (cents.map (score e)) → BestAt (cents.map (score e)) k)

end NextPlaid.Spec
