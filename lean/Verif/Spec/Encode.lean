import Mathlib.Data.List.Basic

/-! What a caller of the encoder relies on, independently of how documents are split into batches. -/

namespace NextPlaid.Spec

/-- One result for each item, in the order of the items. -/
def OneEach {A B : Type} (R : A → B → Prop) (items : List A) (results : List B) : Prop :=
  results.length = items.length ∧ ∀ (i : Nat) (a : A) (b : B), items[i]? = some a → results[i]? = some b → R a b

/-- A part of a stream of results: where it begins, and the results from there on. -/
structure Part (B : Type) where
  start : Nat
  results : List B

/-- The parts, in whatever order, hold each result exactly once and at its place: part by part every result belongs to the item at its place,
every item has its result in some part, and there are as many results as items. -/
def CoversOnce {A B : Type} (R : A → B → Prop) (items : List A) (parts : List (Part B)) : Prop :=
  (∀ p ∈ parts, ∀ (j : Nat) (b : B), p.results[j]? = some b → ∃ a, items[p.start + j]? = some a ∧ R a b) ∧
  (∀ i < items.length, ∃ p ∈ parts, ∃ j b, p.start + j = i ∧ p.results[j]? = some b) ∧
  (parts.map fun p => p.results.length).sum = items.length

end NextPlaid.Spec
