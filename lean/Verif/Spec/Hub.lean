import Verif.Model.Hub

/-! Specification of getting the files of a model. -/

namespace NextPlaid.Spec
open NextPlaid NextPlaid.Hub

/-- The files without which a model does not load. -/
def neededFiles : List String :=
  ["model_int8.onnx", "tokenizer.json", "config_sentence_transformers.json", "onnx_config.json"]

/-- The directory of revision `c` holds a model. -/
def CompleteModel (s : Cache) (c : Nat) : Prop := ∀ f ∈ neededFiles, s.has c f = true

/-- During the call the repository does not move: what answers, answers with revision `c`, and the cache knows no other. -/
def OneRevision (net : Net) (s : Cache) (c : Nat) : Prop :=
  (∀ f, net f = none ∨ net f = some c) ∧ (s.ref = none ∨ s.ref = some c)

/-- No request is answered. -/
def Offline (net : Net) : Prop := ∀ f, net f = none

end NextPlaid.Spec
