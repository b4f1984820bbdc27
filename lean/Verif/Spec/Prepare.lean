import Verif.Spec.Encode

/-! What a caller of the encoder relies on about the tokens of one text, independently of the batch it is encoded in. -/

namespace NextPlaid.Spec

variable {α K : Type}

/-- At most `n` tokens: the first ones and the last one (the separator). -/
def shorten (n : Nat) (l : List α) : List α := if l.length ≤ n then l else l.take (n - 1) ++ l.getLast?.toList

/-- The prefix token comes behind the first token. -/
def withPrefix (pre : α) : List α → List α
  | [] => [pre]
  | a :: l => a :: pre :: l

/-- What the model reads of a text, which is at most `max` tokens. -/
def sequence (max : Nat) (pre : α) (l : List α) : List α := withPrefix pre (shorten (max - 1) l)

/-- Row `i` of a matrix of rows of length `len`, row after row. -/
def rowOf (l : List α) (len i : Nat) : List α := (l.drop (i * len)).take len

/-- The embeddings `e` of the tokens `s`: one vector for each token that is kept, in order, each the vector of its token in `s`. -/
def Embeds (V : List (Nat × Nat) → Nat → List K → Prop) (skip : Nat → Bool) (s : List (Nat × Nat)) (e : List (List K)) : Prop :=
  OneEach (fun j v => V s j v) ((List.range s.length).filter fun j => (s[j]?.map fun t => !skip t.1).getD false) e

/-- What a tokenizer gives for these tokens (ids with types), at least one: the tokens, then padding on the right that is masked out. -/
def RightPadded (tokens : List (Nat × Nat)) (ids masks types : List Nat) : Prop :=
  tokens ≠ [] ∧ ∃ pi pt, ids = tokens.map (·.1) ++ pi ∧ types = tokens.map (·.2) ++ pt ∧
    masks = List.replicate tokens.length 1 ++ List.replicate pi.length 0 ∧ pt.length = pi.length

/-- What is assumed of a forward pass, which takes the size and the length of a batch, ids, mask and types and gives the dimension and all vectors:
an output of the right size, and for each row the vector at a position that is attended to is a vector of that token among those attended to,
whatever is in the other rows and in the padding.  `V s j v` says that `v` is a vector of the `j`-th of the tokens `s`; there may be several,
as rounding depends on the batch. -/
def Attentive {F : Type} (pass : Nat → Nat → List Nat → List Nat → Option (List Nat) → Except F (Nat × List K))
    (V : List (Nat × Nat) → Nat → List K → Prop) : Prop :=
  ∀ size len ids mask types dim out, pass size len ids mask types = .ok (dim, out) → out.length = size * len * dim ∧
    ∀ i < size, ∀ real : List (Nat × Nat), (rowOf ids len i).take real.length = real.map (·.1) →
      (types.elim (List.replicate real.length 0) fun t => (rowOf t len i).take real.length) = real.map (·.2) →
      rowOf mask len i = List.replicate real.length 1 ++ List.replicate (len - real.length) 0 →
      ∀ j < real.length, V real j ((out.drop ((i * len + j) * dim)).take dim)

end NextPlaid.Spec
