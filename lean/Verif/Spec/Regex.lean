import Verif.Model.Regex
import Mathlib.Logic.Relation

/-! The meaning of regular expressions as relations between places of a text, to check the executable matcher against. -/

namespace NextPlaid.Spec

open NextPlaid.Regex

/-- `Matches f r p q`: `r` matches the text between the places `p` and `q`. -/
def Matches (f : Flags) : Rx → Place → Place → Prop
  | .eps, p, q => p = q
  | .chr c, p, q => ∃ d ds, p.2 = d :: ds ∧ f.fold c = f.fold d ∧ q = (some d, ds)
  | .any, p, q => ∃ d ds, p.2 = d :: ds ∧ d ≠ '\n' ∧ q = (some d, ds)
  | .set neg cs, p, q => ∃ d ds, p.2 = d :: ds ∧ ((∃ c ∈ cs, f.fold c = f.fold d) ↔ neg = false) ∧ q = (some d, ds)
  | .bol, p, q => p = q ∧ (p.1 = none ∨ (f.multi = true ∧ p.1 = some '\n'))
  | .eol, p, q => p = q ∧ (p.2 = [] ∨ (f.multi = true ∧ p.2.head? = some '\n'))
  | .word, p, q => p = q ∧ f.wordy p.1 ≠ f.wordy p.2.head?
  | .cat a b, p, q => ∃ m, Matches f a p m ∧ Matches f b m q
  | .alt a b, p, q => Matches f a p q ∨ Matches f b p q
  | .opt a, p, q => p = q ∨ Matches f a p q
  | .star a, p, q => Relation.ReflTransGen (Matches f a) p q

/-- The place after the first characters `u` of `u ++ v`. -/
def placeAfter (before : Option Char) (u v : List Char) : Place := (u.getLast?.or before, v)

/-- `r` matches somewhere in the text. -/
def Found (f : Flags) (r : Rx) (text : List Char) : Prop := ∃ u v q, text = u ++ v ∧ Matches f r (placeAfter none u v) q

end NextPlaid.Spec
