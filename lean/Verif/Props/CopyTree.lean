import Verif.Proofs.CopyTree

/-!
C113: the copy of a sibling's index is complete or not there, whenever it is cut short.
-/

namespace NextPlaid.Props
open NextPlaid.Spec NextPlaid.CopyTree

/-- When every link in the source leads to a file, the copy succeeds: the place holds exactly the source, whatever was there and
whatever an earlier attempt has left, and nothing is left of the copying. -/
theorem C113_complete (part : Path → Bytes) (names : List Path) (es : List (String × Node)) (fs : FS) (hl : ListsAll names fs)
    (ht : TidyEntries es) (hf : FollowableEntries es) :
    IsCopy es (run fs (seedOps part names es)) ∧ ∀ r, run fs (seedOps part names es) ("index.tmp" :: r) = none :=
  seed_done part hl ht ((copyEntries_ok part es scratch).2 hf)

/-- Killed after any step, in the middle of a file too: when no index was there, then there is none, or it is the source exactly.
Nothing else has changed. -/
theorem C113_killed (part : Path → Bytes) (names : List Path) (es : List (String × Node)) (fs : FS) (hl : ListsAll names fs)
    (ht : TidyEntries es) (hn : ¬ IndexSeen fs) (k : Nat) :
    let fs' := run fs ((seedOps part names es).take k)
    SameElsewhere fs fs' ∧ (IndexSeen fs' → IsCopy es fs') := seed_killed part hl ht hn k

/-- After any number of attempts, of whatever sources, each killed after any step, a complete copy is the last source exactly: nothing
of the attempts before gets in. -/
theorem C113_again (part : Path → Bytes) (tries : List (List Path × List (String × Node) × Nat)) (names : List Path)
    (es : List (String × Node)) (fs : FS)
    (hl : ListsAll names (tries.foldl (fun fs t => run fs ((seedOps part t.1 t.2.1).take t.2.2)) fs)) (ht : TidyEntries es) (hf : FollowableEntries es) :
    IsCopy es (run (tries.foldl (fun fs t => run fs ((seedOps part t.1 t.2.1).take t.2.2)) fs) (seedOps part names es)) :=
  (C113_complete part names es _ hl ht hf).1

/-- Over any number of attempts that were killed, as long as none has put an index there, there is none; the first index there is the
source of its attempt. -/
theorem C113_attempts (part : Path → Bytes) (tries : List (List Path × List (String × Node) × Nat)) (fs : FS) (hn : ¬ IndexSeen fs)
    (ht : ∀ t ∈ tries, TidyEntries t.2.1)
    (hl : ∀ pre t post, tries = pre ++ t :: post → ListsAll t.1 (pre.foldl (fun fs t => run fs ((seedOps part t.1 t.2.1).take t.2.2)) fs)) :
    ¬ IndexSeen (tries.foldl (fun fs t => run fs ((seedOps part t.1 t.2.1).take t.2.2)) fs) ∨
    ∃ pre t post, tries = pre ++ t :: post ∧ IsCopy t.2.1 ((pre ++ [t]).foldl (fun fs t => run fs ((seedOps part t.1 t.2.1).take t.2.2)) fs) := by
  induction tries generalizing fs with
  | nil => exact Or.inl hn
  | cons t tries ih =>
    have h0 := hl [] t tries rfl
    by_cases hi : IndexSeen (run fs ((seedOps part t.1 t.2.1).take t.2.2))
    · exact Or.inr ⟨[], t, tries, rfl, (seed_killed part h0 (ht t (List.mem_cons_self ..)) hn t.2.2).2 hi⟩
    · rcases ih _ hi (fun x hx => ht x (List.mem_cons_of_mem _ hx)) (fun pre x post h => hl (t :: pre) x post (by rw [h]; rfl)) with h | ⟨pre, x, post, h1, h2⟩
      · exact Or.inl h
      · exact Or.inr ⟨t :: pre, x, post, by rw [h1]; rfl, h2⟩

/-- The copy fails exactly when a link leads nowhere, and then all but the place of the copy is as it was. -/
theorem C113_failed (part : Path → Bytes) (names : List Path) (es : List (String × Node)) (fs : FS) :
    ((copyDirAll part es ["index.tmp"]).2 = true ↔ FollowableEntries es) ∧
    (¬ FollowableEntries es → ∀ q, q.head? ≠ some "index.tmp" → run fs (seedOps part names es) q = fs q) := by
  have h := copyEntries_ok part es scratch
  refine ⟨h, fun hf q hq => seed_failed part names es fs (fun hok => hf (h.1 hok)) q ?_⟩
  rintro ⟨r, rfl⟩
  simp [scratch] at hq

/-- The comment on `copy_dir_all` says that links are copied as they are: a link becomes a file with the contents of its target, and
one link without a target fails the whole copy. -/
theorem C113_links_refuted :
    run (fun _ => none) (seedOps (fun _ => []) [] [("metadata.json", .file [1]), ("l", .link (some [7]))]) ["index", "l"] = some (.file [7]) ∧
    (copyDirAll (fun _ => []) [("metadata.json", .file [1]), ("l", .link none)] ["index.tmp"]).2 = false := by
  refine ⟨by decide +kernel, by decide +kernel⟩

/-! ### A concrete case -/

namespace ToyCopy

def source : List (String × Node) :=
  [("metadata.json", .file [1, 2]), ("db", .dir [("a", .file [3]), ("b", .dir [])]), ("l", .link (some [4]))]

/-- An earlier attempt left a file that the source does not have. -/
def left : FS := fun q => if q = ["index.tmp"] ∨ q = ["index"] then some .dir else if q = ["index.tmp", "old"] then some (.file [9]) else
  if q = ["state.json"] then some (.file [5]) else none

def names : List Path := [["index.tmp", "old"], ["index.tmp"], ["index"], ["state.json"]]

end ToyCopy

open ToyCopy in
example : ListsAll names left ∧ TidyEntries source ∧ FollowableEntries source ∧ ¬ IndexSeen left ∧
    run left (seedOps (fun _ => [0]) names source) ["index", "db", "a"] = some (.file [3]) ∧
    run left (seedOps (fun _ => [0]) names source) ["index", "old"] = none ∧
    run left ((seedOps (fun _ => [0]) names source).take 4) ["index.tmp", "metadata.json"] = some (.file [0]) ∧
    run left (seedOps (fun _ => [0]) names source) ["state.json"] = some (.file [5]) := by
  refine ⟨?_, by simp [TidyEntries, TidyNode, source], by simp [FollowableEntries, FollowableNode, source], by simp [IndexSeen, left], by decide +kernel,
    by decide +kernel, by decide +kernel, by decide +kernel⟩
  intro q hq
  by_contra hm
  simp [names] at hm
  apply hq
  simp [left, hm]

end NextPlaid.Props
