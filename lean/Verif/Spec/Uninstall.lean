/-!
What belongs to colgrep, in terms of paths and of the environment variables a user sets.
-/

namespace NextPlaid.Spec.Uninstall

/-- A path strictly below a directory. -/
def Below (dir p : List String) : Prop := ∃ rest, rest ≠ [] ∧ p = dir ++ rest

/-- A file of colgrep if `COLGREP_DATA_DIR` is not set: an index, the configuration, the plugin files for Claude Code, or the downloaded runtime. -/
inductive Own (dataHome home : List String) : List String → Prop
  | index (name : String) (rest : List String) : Own dataHome home (dataHome ++ ["colgrep", "indices", name] ++ rest)
  | config : Own dataHome home (dataHome ++ ["colgrep", "config.json"])
  | plugin (rest : List String) : Own dataHome home (dataHome ++ ["colgrep", "claude-marketplace"] ++ rest)
  | runtime (rest : List String) : Own dataHome home (home ++ [".cache", "colgrep", "onnxruntime"] ++ rest)

end NextPlaid.Spec.Uninstall
