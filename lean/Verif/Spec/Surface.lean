import Mathlib.Data.List.Basic

/-!
What the documentation of the server says about requests (next-plaid-api/README.md, "API Reference", "Rate Limiting" and
"Environment Variables"), independently of how the routes are put together.
-/

namespace NextPlaid.Spec.Surface

/-- The methods in use. -/
inductive Method where
  | get | post | put | delete
deriving DecidableEq, Repr

/-- A request line: method and path, cut at the slashes (`/indices/a/search` is `["indices", "a", "search"]`). -/
structure Line where
  method : Method
  path : List String
deriving DecidableEq

/-- README, "Rate Limiting": the requests said to be exempt. -/
inductive Exempt : Line → Prop
  | health : Exempt ⟨.get, ["health"]⟩
  | root : Exempt ⟨.get, []⟩
  | list : Exempt ⟨.get, ["indices"]⟩
  | info (n : String) : Exempt ⟨.get, ["indices", n]⟩
  | update (n : String) : Exempt ⟨.post, ["indices", n, "update"]⟩
  | updateEncoding (n : String) : Exempt ⟨.post, ["indices", n, "update_with_encoding"]⟩
  | remove (n : String) : Exempt ⟨.delete, ["indices", n]⟩
  | removeDocuments (n : String) : Exempt ⟨.delete, ["indices", n, "documents"]⟩
  | encode : Exempt ⟨.post, ["encode"]⟩
  | rerank : Exempt ⟨.post, ["rerank"]⟩
  | rerankEncoding : Exempt ⟨.post, ["rerank_with_encoding"]⟩

/-- Times of arrival, in order; the first is at `t` or later. -/
def Ordered : Nat → List Nat → Prop
  | _, [] => True
  | t, a :: as => t ≤ a ∧ Ordered a as

/-- Arrivals, the first at `t` or later, each at least `gap` after the one before. -/
def Spaced (gap : Nat) : Nat → List Nat → Prop
  | _, [] => True
  | t, a :: as => t ≤ a ∧ Spaced gap (a + gap) as

/-- How many of the arrivals in `[a, b]` were let through. -/
def letThrough (a b : Nat) : List Nat → List Bool → Nat
  | t :: ts, ok :: oks => (if ok ∧ a ≤ t ∧ t ≤ b then 1 else 0) + letThrough a b ts oks
  | _, _ => 0

/-- A byte that may stand in a header value read as text: visible ASCII, space or tab. -/
def Printable (b : UInt8) : Prop := (32 ≤ b ∧ b < 127) ∨ b = 9

end NextPlaid.Spec.Surface
