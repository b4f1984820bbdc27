import Verif.Proofs.Nearby

/-!
C114: for a path that does not exist the error names the closest directory that exists and lists it.
-/

namespace NextPlaid.Props
open NextPlaid.Spec NextPlaid.Nearby

/-- A directory is listed exactly when it is the closest path above that exists: the help is never about another one. -/
theorem C114_closest (w : World) (p d : Typed) :
    (∃ lines t, help w p = .listing d lines t) ↔ ClosestTo w p d ∧ ∃ es, w.look d = some (.dir es) := by
  constructor
  · rintro ⟨lines, t, h⟩
    unfold help at h
    dsimp only at h
    split at h
    · rename_i es he
      cases h
      exact ⟨climb_closest w p (by rw [he]; rfl), es, he⟩
    · cases h
  · rintro ⟨hc, es, he⟩
    have := closest_unique hc
    subst this
    refine ⟨sorted ((es.take 30).map lineOf), decide (((es.take 30).map lineOf).length ≥ 30), ?_⟩
    unfold help
    dsimp only
    rw [he]

/-- What is listed: in order, at most thirty lines, each for an entry of the directory; all entries when there are no more than
thirty. -/
theorem C114_lines (w : World) (p d : Typed) (lines : List String) (t : Bool) (es : List (String × Bool))
    (h : help w p = .listing d lines t) (he : w.look d = some (.dir es)) :
    InOrder lines ∧ lines.length = min 30 es.length ∧
    (∀ l ∈ lines, ∃ e ∈ es, l = if e.2 then "  " ++ e.1 ++ "/" else "  " ++ e.1) ∧
    (es.length ≤ 30 → lines.Perm (es.map fun e => if e.2 then "  " ++ e.1 ++ "/" else "  " ++ e.1)) := by
  unfold help at h
  dsimp only at h
  split at h
  · rename_i es' he'
    cases h
    rw [he'] at he
    cases he
    have hp := sorted_perm ((es.take 30).map lineOf)
    refine ⟨sorted_inOrder _, ?_, ?_, ?_⟩
    · rw [hp.length_eq, List.length_map, List.length_take]
    · intro l hl
      obtain ⟨e, hm, rfl⟩ := List.mem_map.1 (hp.mem_iff.1 hl)
      exact ⟨e, List.mem_of_mem_take hm, rfl⟩
    · intro hle
      rw [List.take_of_length_le hle] at hp ⊢
      exact hp
  · cases h

/-- The note that the list is cut is there whenever it is, and not when there are fewer than thirty entries. -/
theorem C114_note_partial (w : World) (p d : Typed) (lines : List String) (t : Bool) (es : List (String × Bool))
    (h : help w p = .listing d lines t) (he : w.look d = some (.dir es)) (hne : es.length ≠ 30) :
    t = true ↔ lines.length < es.length := by
  have hlen := (C114_lines w p d lines t es h he).2.1
  unfold help at h
  dsimp only at h
  split at h
  · rename_i es' he'
    cases h
    rw [he'] at he
    cases he
    simp only [List.length_map, List.length_take, ge_iff_le, decide_eq_true_eq] at hlen ⊢
    omega
  · cases h

/-- For an absolute path there is always a directory to list, unless a file is in the way. -/
theorem C114_absolute (w : World) (rev : List String) (root : List (String × Bool)) (hr : w.look ⟨true, []⟩ = some (.dir root))
    (hf : ∀ r, r <:+ rev → w.look ⟨true, r⟩ ≠ some .file) : help w ⟨true, rev⟩ ≠ .nothing := by
  unfold help
  dsimp only
  split
  · simp
  · rename_i hn
    exfalso
    have key : ∀ l : List String, (w.look ⟨true, climb w true l⟩).isSome = true := by
      intro l
      induction l with
      | nil => unfold climb; rw [hr]; rfl
      | cons c cs ih =>
        unfold climb
        split
        · rename_i h; exact h
        · exact ih
    obtain ⟨k, hk⟩ := Option.isSome_iff_exists.1 (key rev)
    cases k with
    | file => exact hf _ (climb_suffix w true rev) hk
    | dir es => exact hn es hk

/-- A relative path of which not even the first component exists gets no help, whatever is in the current directory. -/
theorem C114_relative_refuted (w : World) (name : String) (rest : List String)
    (h : ∀ r, r <:+ rest ++ [name] → r ≠ [] → w.look ⟨false, r⟩ = none) : help w ⟨false, rest ++ [name]⟩ = .nothing := by
  have key : ∀ l : List String, l <:+ rest ++ [name] → climb w false l = [] := by
    intro l
    induction l with
    | nil => intro _; rfl
    | cons c cs ih =>
      intro hs
      unfold climb
      rw [h _ hs (by simp), if_neg (by simp)]
      exact ih ((List.suffix_cons ..).trans hs)
  unfold help
  dsimp only
  rw [key _ (List.suffix_refl _), w.empty]

/-- With a file in the way (`a.rs/x`) there is no help, although the directory of the file exists. -/
theorem C114_file_refuted (w : World) (p d : Typed) (hc : ClosestTo w p d) (hf : w.look d = some .file) : help w p = .nothing := by
  have := closest_unique hc
  subst this
  unfold help
  dsimp only
  rw [hf]

namespace ToyNearby

/-- A directory `/d` with the given entries, and nothing else below the root. -/
def world (es : List (String × Bool)) : World where
  look p := if p = ⟨true, []⟩ then some (.dir [("d", true)]) else if p = ⟨true, ["d"]⟩ then some (.dir es) else
    if p = ⟨true, ["f", "d"]⟩ then some .file else none
  empty := by simp

def many (n : Nat) : List (String × Bool) := (List.range n).map fun i => (toString i, i % 2 == 0)

end ToyNearby

open ToyNearby in
/-- Thirty entries are all listed, with the note that the list is cut. -/
theorem C114_thirty_refuted : ∃ d lines, help (world (many 30)) ⟨true, ["x", "y", "d"]⟩ = .listing d lines true ∧ lines.length = (many 30).length := by
  refine ⟨⟨true, ["d"]⟩, _, rfl, ?_⟩
  rw [(sorted_perm _).length_eq]
  decide +kernel

open ToyNearby in
/-- Of a larger directory, which entries are listed depends on the order in which the file system gives them. -/
theorem C114_order_refuted : ∃ es es' : List (String × Bool), es.Perm es' ∧
    ∃ d l l', help (world es) ⟨true, ["x", "d"]⟩ = .listing d l true ∧ help (world es') ⟨true, ["x", "d"]⟩ = .listing d l' true ∧
      "  30/" ∈ l' ∧ "  30/" ∉ l := by
  refine ⟨many 31, (many 31).reverse, (List.reverse_perm _).symm, ⟨true, ["d"]⟩, _, _, rfl, rfl, ?_, ?_⟩
  · rw [(sorted_perm _).mem_iff]
    decide +kernel
  · rw [(sorted_perm _).mem_iff]
    decide +kernel

/-! ### A concrete case -/

open ToyNearby in
example : ClosestTo (world [("b", true), ("a", false)]) ⟨true, ["x", "y", "d"]⟩ ⟨true, ["d"]⟩ ∧
    ∃ lines, help (world [("b", true), ("a", false)]) ⟨true, ["x", "y", "d"]⟩ = .listing ⟨true, ["d"]⟩ lines false ∧ lines.Perm ["  b/", "  a"] := by
  refine ⟨climb_closest (world [("b", true), ("a", false)]) ⟨true, ["x", "y", "d"]⟩ rfl, _, rfl, sorted_perm _⟩

open ToyNearby in
example : ClosestTo (world []) ⟨true, ["x", "f", "d"]⟩ ⟨true, ["f", "d"]⟩ ∧ (world []).look ⟨true, ["f", "d"]⟩ = some .file :=
  ⟨climb_closest (world []) ⟨true, ["x", "f", "d"]⟩ rfl, rfl⟩

open ToyNearby in
example : ∀ r, r <:+ ["x"] ++ ["srcc"] → r ≠ [] → (world []).look ⟨false, r⟩ = none := by
  intro r _ _
  simp [world]

end NextPlaid.Props
