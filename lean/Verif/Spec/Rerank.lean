import Verif.Model.Rerank
import Mathlib.Order.Bounds.Basic

/-!
What a user expects of reranking, over the rationals.
-/

namespace NextPlaid.Spec
open NextPlaid.Single NextPlaid.Rerank

/-- The number that 32 bits stand for. -/
def number (bits : Nat) : ℚ := (F32.ofBits bits).val

/-- The dot product of two token embeddings, without rounding. -/
def exactDot (q d : List Nat) : ℚ := (List.zipWith (fun a b => number a * number b) q d).sum

/-- `s` is the MaxSim score, without rounding: the sum over the tokens of the query of the greatest dot product with a token of the document. -/
def IsMaxSim (query doc : List (List Nat)) (s : ℚ) : Prop :=
  ∃ best : List ℚ, List.Forall₂ (fun q b => IsGreatest {x | ∃ d ∈ doc, x = exactDot q d} b) query best ∧ s = best.sum

/-- The dot product in `f32` arithmetic, from left to right. -/
def floatDot (start : F32) (q d : List Nat) : F32 :=
  (List.zipWith (fun a b => F32.mul (F32.ofBits a) (F32.ofBits b)) q d).foldl F32.add start

/-- `s` is the MaxSim score in `f32` arithmetic: the best dot products of the tokens of the query are added from left to right. -/
def IsFloatMaxSim (start : F32) (query doc : List (List Nat)) (s : F32) : Prop :=
  ∃ best : List F32,
    List.Forall₂ (fun q b => (∃ d ∈ doc, b = floatDot start q d) ∧ ∀ d ∈ doc, (floatDot start q d).val ≤ b.val) query best ∧
    s = best.foldl F32.add (.num 0)

/-- Embeddings that can be used: at least one token, at least one column, the same number of columns in each row, finite 32-bit numbers. -/
def Usable (e : List (List Nat)) (dim : Nat) : Prop :=
  e ≠ [] ∧ 0 < dim ∧ ∀ row ∈ e, row.length = dim ∧ ∀ f ∈ row, f < 2 ^ 32 ∧ (F32.ofBits f).isFinite = true

/-- The base64 text of embeddings: the little-endian bytes of the numbers, row after row. -/
def text64 (e : List (List Nat)) : List Char := encode64 (e.flatMap (fun row => row.flatMap (Npy.leBytes 4)))

/-- The request carries the embeddings `e` with `dim` columns: as base64 with their shape, or, unless both fields of base64 are there, as JSON. -/
def Carries (s : Sent) (e : List (List Nat)) (dim : Nat) : Prop :=
  (s.b64 = some (text64 e) ∧ s.shape = some (e.length, dim) ∧ e.length * dim * 4 < 2 ^ 64) ∨
  ((s.b64 = none ∨ s.shape = none) ∧ s.json = some e)

/-- `Iterator::sum` starts at a zero. -/
def IsZero (start : F32) : Prop := start = .num 0 ∨ start = .minusZero

/-- A bound on the rounding error of a score of `tokens` query tokens of `dim` columns with entries between -1 and 1. -/
def rounding (tokens dim : Nat) : ℚ := (tokens * dim * (tokens + dim + 20) : Nat) / 2 ^ 25

/-- All entries are between -1 and 1, as in normalised embeddings. -/
def Unit (e : List (List Nat)) : Prop := ∀ row ∈ e, ∀ f ∈ row, |number f| ≤ 1

end NextPlaid.Spec

namespace NextPlaid.Spec
open NextPlaid.Single NextPlaid.Rerank

/-- The numbers of a request have 32 bits each, as `f32` has. -/
def Words32 (s : Sent) : Prop := ∀ e, s.json = some e → ∀ row ∈ e, ∀ f ∈ row, f < 2 ^ 32

/-- The `f32` arithmetic of a score leaves the finite numbers: in a dot product, or in the sum of the best dot products of the first `k` tokens. -/
def Overflows (start : F32) (query doc : List (List Nat)) : Prop :=
  (∃ q ∈ query, ∃ d ∈ doc, (floatDot start q d).isFinite = false) ∨
  (∃ (k : Nat) (s : F32), IsFloatMaxSim start (query.take k) doc s ∧ s.isFinite = false)

/-- Two requests carry the same usable embeddings. -/
def SameContent (s s' : Sent) : Prop := ∃ e dim, Usable e dim ∧ Carries s e dim ∧ Carries s' e dim

end NextPlaid.Spec
