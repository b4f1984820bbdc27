/-! What `colgrep update` promises (C105), in terms of what is installed before and after. -/

namespace NextPlaid.Spec.SelfUpdate

/-- What the user is told at the end. -/
inductive Said where
  /-- "colgrep is already up to date" -/
  | upToDate
  /-- "colgrep has been updated successfully" -/
  | updated
  /-- an error -/
  | failed
  deriving DecidableEq

/-- What is said is true: on success the latest version is installed. -/
def Honest (latest installed : List Char) (said : Said) : Prop := said = .failed ∨ installed = latest

/-- A tag and the version it stands for: the version, with or without a `v` before it. -/
inductive Names : List Char → List Char → Prop
  | withV (version : List Char) : Names ('v' :: version) version
  | bare (version : List Char) (h : version.head? ≠ some 'v') : Names version version

/-- The first place at which a text contains a key: what is before it and what is behind. -/
structure FirstAt (key text before behind : List Char) : Prop where
  split : text = before ++ key ++ behind
  first : ∀ b c, text = b ++ key ++ c → before.length ≤ b.length

end NextPlaid.Spec.SelfUpdate
