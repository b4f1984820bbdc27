import Verif.Proofs.Hub

/-!
Property theorems C111 (getting the files of a model).

`Spec.CompleteModel s c`: the directory of revision `c` in the cache holds a model.  `Spec.OneRevision net s c`: during the call the
repository and the cache agree on one revision.  `Spec.Offline net`: no request is answered.
-/

namespace NextPlaid.Props
open NextPlaid NextPlaid.Spec NextPlaid.Hub

/-- Results in a form that can be compared. -/
def Toy.place (r : Res Place) : Option Place :=
  match r with
  | .ok p => some p
  | .error _ => none

/-- C111: a directory given as the model is used as it is; nothing is asked of the network or changed in the cache. -/
theorem C111_directory (net : Net) (s : Cache) : ensureModel net true s = (.ok .named, s) := rfl

/-- C111 (partial): when the repository does not move during the call, a model that is found is complete: all needed files
are in the one directory that is returned, whatever was in the cache before and whichever requests failed.
Missing: a repository that moves, see `C111_moving_refuted`. -/
theorem C111_complete_partial (net : Net) (s s' : Cache) (c : Nat) (h : OneRevision net s c) (p : Place)
    (he : ensureModel net false s = (.ok p, s')) : p = .revision c ∧ CompleteModel s' c ∧ s'.ref = some c := by
  unfold ensureModel at he
  simp only [Bool.false_eq_true, if_false] at he
  split at he
  · cases he
  · next dir t hg =>
    obtain ⟨h1, h2, h3⟩ := getRequired_one _ _ _ _ _ h (.inl rfl) hg
    rcases h2 with rfl | rfl
    · cases he
    · cases he
      have hc : CompleteModel (getOptional net optionalFiles t) c := by
        intro f hf
        apply getOptional_mono
        apply h3 f
        · simp only [neededFiles, List.mem_cons, List.not_mem_nil, or_false] at hf
          rcases hf with rfl | rfl | rfl | rfl <;> decide
        · simp only [neededFiles, List.mem_cons, List.not_mem_nil, or_false] at hf
          rcases hf with rfl | rfl | rfl | rfl <;> decide
      refine ⟨rfl, hc, ?_⟩
      exact getOptional_ref _ t h1 (getRequired_ref _ _ _ _ _ h (.inr ⟨rfl, by simp⟩) hg)

/-- C111: and it is found when each needed file is either answered or already in the recorded directory. -/
theorem C111_found (net : Net) (s : Cache) (c : Nat) (h : OneRevision net s c)
    (hf : ∀ f ∈ neededFiles, net f = some c ∨ (s.ref = some c ∧ s.has c f = true)) :
    (ensureModel net false s).1 = .ok (.revision c) := by
  obtain ⟨dir, t, hg⟩ := getRequired_succeeds requiredFiles none s h (by
    intro f hm hne
    apply hf f
    simp only [requiredFiles, List.mem_cons, List.not_mem_nil, or_false] at hm
    rcases hm with rfl | rfl | rfl | rfl | rfl
    · decide
    · decide
    · decide
    · exact absurd rfl hne
    · decide)
  obtain ⟨_, h2, _⟩ := getRequired_one _ _ _ _ _ h (.inl rfl) hg
  have hdir : dir ≠ none := by
    intro hd
    subst hd
    -- the first file was found
    rw [requiredFiles, getRequired] at hg
    split at hg
    · next d u hu =>
      have := getRequired_dir net d _ _ _ _ hg
      cases this
    · simp at hg
  rcases h2 with h2 | h2
  · exact absurd h2 hdir
  · subst h2
    unfold ensureModel
    simp only [Bool.false_eq_true, if_false, hg]

/-- C111: whatever the network does, the directory returned holds the quantised network, so that with `--int8` there is a file
to load; the choice of the file is never another than the one asked for. -/
theorem C111_quantised (net : Net) (s s' : Cache) (c : Nat) (he : ensureModel net false s = (.ok (.revision c), s')) :
    selectOnnx (s'.has c) true = .ok "model_int8.onnx" := by
  unfold ensureModel at he
  simp only [Bool.false_eq_true, if_false] at he
  split at he
  · cases he
  · next dir t hg =>
    cases dir with
    | none => cases he
    | some d =>
      cases he
      have hh : t.has c "model_int8.onnx" = true := by
        rw [requiredFiles, getRequired] at hg
        split at hg
        · next d u hu =>
          have hd : c = d := Option.some.inj (getRequired_dir net d _ _ _ _ hg)
          subst hd
          have := getRequired_mono net c "model_int8.onnx"
            ["tokenizer.json", "config_sentence_transformers.json", "config.json", "onnx_config.json"] (Option.none.or (some c)) u
            (get_has net s _ c u hu).1
          rw [hg] at this
          exact this
        · simp at hg
      have := getOptional_mono net c "model_int8.onnx" optionalFiles t hh
      unfold selectOnnx
      rw [if_pos rfl, if_pos this]

/-- C111: the network file chosen is the one asked for, or there is an error; the other one is never loaded instead. -/
theorem C111_no_substitute (present : String → Bool) (quantized : Bool) :
    selectOnnx present quantized =
      (if present (if quantized then "model_int8.onnx" else "model.onnx") then
        .ok (if quantized then "model_int8.onnx" else "model.onnx") else .error .err) := by
  unfold selectOnnx
  cases quantized <;> rfl

/-- C111: without a network a model is found exactly when the recorded directory holds all needed files, and the cache is
not changed. -/
theorem C111_offline (net : Net) (hn : Offline net) (s : Cache) (c : Nat) :
    ((ensureModel net false s).1 = .ok (.revision c) ↔ s.ref = some c ∧ CompleteModel s c) ∧ (ensureModel net false s).2 = s := by
  have hs : (ensureModel net false s).2 = s := by
    have h1 := getRequired_offline hn requiredFiles none s
    unfold ensureModel
    simp only [Bool.false_eq_true, if_false]
    split
    · next hg => rw [hg] at h1; exact h1
    · next dir t hg =>
      rw [hg] at h1
      simp only at h1
      subst h1
      cases dir <;> exact getOptional_offline hn _ t
  refine ⟨⟨fun he => ?_, fun ⟨hr, hc⟩ => ?_⟩, hs⟩
  · cases hr : s.ref with
    | none =>
      exfalso
      unfold ensureModel requiredFiles at he
      simp only [Bool.false_eq_true, if_false] at he
      rw [getRequired, get_offline hn, hr] at he
      simp at he
    | some d =>
      have ho : OneRevision net s d := ⟨fun f => .inl (hn f), .inr hr⟩
      obtain ⟨h1, h2, _⟩ := C111_complete_partial net s s d ho (.revision c) (Prod.ext he hs)
      cases h1
      exact ⟨rfl, h2⟩
  · exact C111_found net s c ⟨fun f => .inl (hn f), .inr hr⟩ fun f hf => .inr ⟨hr, hc f hf⟩

/-- C111: with every file in the recorded directory the network plays no part, whatever revision it would answer with, and nothing
changes. -/
theorem C111_warm (net : Net) (s : Cache) (c : Nat) (hr : s.ref = some c)
    (h : ∀ f ∈ requiredFiles ++ optionalFiles, s.has c f = true) : ensureModel net false s = (.ok (.revision c), s) := by
  unfold ensureModel
  simp only [Bool.false_eq_true, if_false]
  rw [getRequired_warm net s c hr requiredFiles (fun f hf => h f (List.mem_append.2 (.inl hf))) none (by decide) (.inl rfl)]
  have hg : fetch net s "model.onnx" = (some c, s) := by
    unfold fetch
    rw [hr]
    simp only [h "model.onnx" (by decide), if_true]
  simp only [optionalFiles, getOptional, hg]

/-- C111: no call removes a file from the cache. -/
theorem C111_kept (net : Net) (isDir : Bool) (s : Cache) (d : Nat) (g : String) (h : s.has d g = true) :
    (ensureModel net isDir s).2.has d g = true := by
  unfold ensureModel
  split
  · exact h
  · have h1 := getRequired_mono net d g requiredFiles none s h
    split
    · next hg => rw [hg] at h1; exact h1
    · next dir t hg =>
      rw [hg] at h1
      cases dir <;> exact getOptional_mono net d g _ t h1

/-- An empty cache. -/
def Toy.emptyCache : Cache := ⟨none, fun _ _ => false⟩

/-- A first download that breaks off after the network file, and a second call offline and online. -/
example :
    let s1 := (ensureModel (fun f => if f = "model_int8.onnx" then some 1 else none) false Toy.emptyCache)
    Toy.place s1.1 = none ∧ Toy.place (ensureModel (fun _ => none) false s1.2).1 = none ∧
    Toy.place (ensureModel (fun f => if f = "config.json" then none else some 1) false s1.2).1 = some (.revision 1) := by
  decide +kernel

/-- Disagreement with "returns the path to the model directory": after a download that broke off and a new revision upstream, the
call succeeds with a directory that lacks the tokenizer; the other files went to the directory of the new revision. -/
theorem C111_moving_refuted :
    let s1 := (ensureModel (fun f => if f = "model_int8.onnx" then some 1 else none) false Toy.emptyCache).2
    let r := ensureModel (fun _ => some 2) false s1
    Toy.place r.1 = some (.revision 1) ∧ r.2.has 1 "tokenizer.json" = false ∧ r.2.has 2 "tokenizer.json" = true ∧
    r.2.has 2 "model_int8.onnx" = false ∧
    Toy.place (ensureModel (fun _ => some 2) false r.2).1 = some (.revision 2) := by decide +kernel

/-- Disagreement with "a model that was found is found again without a network": the attempt to get the optional file from a new
revision makes that revision the recorded one, and the complete model in the cache is no longer found offline. -/
theorem C111_offline_refuted :
    let s1 := (ensureModel (fun f => if f = "model.onnx" then none else some 1) false Toy.emptyCache)
    let s2 := ensureModel (fun f => if f = "model.onnx" then some 2 else none) false s1.2
    Toy.place s1.1 = some (.revision 1) ∧ Toy.place (ensureModel (fun _ => none) false s1.2).1 = some (.revision 1) ∧
    Toy.place s2.1 = some (.revision 1) ∧ Toy.place (ensureModel (fun _ => none) false s2.2).1 = none := by decide +kernel

/-- Disagreement with "a model that was found can be loaded": the unquantised network may be missing. -/
theorem C111_unquantised_refuted :
    let r := ensureModel (fun f => if f = "model.onnx" then none else some 1) false Toy.emptyCache
    Toy.place r.1 = some (.revision 1) ∧ (selectOnnx (r.2.has 1) false).isOk = false := by decide +kernel

/-! ### The token -/

/-- C111: the token is that of `HF_TOKEN`, else of `HUGGING_FACE_HUB_TOKEN`, else of the token file; a value in the
environment may be bare or in double or single quotes. -/
theorem C111_token (t : List Char) (hne : t ≠ []) (h1 : t.head? ≠ some '"') (h2 : t.getLast? ≠ some '"')
    (h3 : t.head? ≠ some '\'') (h4 : t.getLast? ≠ some '\'') (v : List Char)
    (hv : v = t ∨ v = '"' :: (t ++ ['"']) ∨ v = '\'' :: (t ++ ['\''])) (hub file : Option (List Char)) :
    token (some v) hub file = some t ∧ token none (some v) file = some t ∧ token none none file = file := by
  have key : trimMatches '\'' (trimMatches '"' v) = t := by
    rcases hv with rfl | rfl | rfl
    · rw [trim_bare h1 h2, trim_bare h3 h4]
    · rw [trim_quoted hne h1 h2, trim_bare h3 h4]
    · rw [trim_bare (c := '"'), trim_quoted hne h3 h4]
      · simp
      · rw [← List.cons_append, List.getLast?_concat]; decide
  refine ⟨?_, ?_, rfl⟩
  · show some (trimMatches '\'' (trimMatches '"' v)) = some t
    rw [key]
  · show some (trimMatches '\'' (trimMatches '"' v)) = some t
    rw [key]

example : token (some "'hf_abc'".toList) (some "other".toList) none = some "hf_abc".toList := by decide +kernel

/-- Disagreement with that order of precedence: a variable that is set but empty counts, and hides the other sources. -/
theorem C111_token_refuted (hub file : Option (List Char)) : token (some []) hub file = some [] := rfl

end NextPlaid.Props
