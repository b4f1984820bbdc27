import Verif.Spec.CopyTree

/-!
Proofs about the copy of a directory.
-/

namespace NextPlaid.CopyTree
open NextPlaid.Spec

theorem run_append (fs : FS) (a b : List Op) : run fs (a ++ b) = run (run fs a) b := List.foldl_append ..

theorem run_cons (fs : FS) (o : Op) (l : List Op) : run fs (o :: l) = run (o.apply fs) l := rfl

theorem snoc_prefix_cases {to q : Path} {n : String} : (to ++ [n]) <+: q ↔ ∃ r, q = to ++ n :: r := by
  constructor
  · rintro ⟨r, rfl⟩; exact ⟨r, by simp⟩
  · rintro ⟨r, rfl⟩; exact ⟨r, by simp⟩

mutual

/-- The steps of the copy of an entry change nothing but the paths below its destination. -/
theorem copyNode_outside (part : Path → Bytes) : ∀ (x : Node) (to : Path) (fs : FS) (k : Nat) (q : Path), ¬ to <+: q →
    run fs ((copyNode part to x).1.take k) q = fs q
  | .file b, to, fs, k, q, h => by
    have hq : q ≠ to := by rintro rfl; exact h (List.prefix_refl _)
    match k with
    | 0 => rfl
    | 1 => simp [copyNode, run, Op.apply, hq]
    | k + 2 => simp [copyNode, run, Op.apply, hq]
  | .link (some b), to, fs, k, q, h => by
    have hq : q ≠ to := by rintro rfl; exact h (List.prefix_refl _)
    match k with
    | 0 => rfl
    | 1 => simp [copyNode, run, Op.apply, hq]
    | k + 2 => simp [copyNode, run, Op.apply, hq]
  | .link none, to, fs, k, q, h => by simp [copyNode, run]
  | .dir es, to, fs, k, q, h => by
    have hq : q ≠ to := by rintro rfl; exact h (List.prefix_refl _)
    match k with
    | 0 => rfl
    | k + 1 =>
      unfold copyNode
      rw [List.take_succ_cons, run_cons, copyEntries_outside part es to _ k q (fun n _ r hr => h (by subst hr; exact List.prefix_append ..))]
      simp [Op.apply, hq]

theorem copyEntries_outside (part : Path → Bytes) : ∀ (es : List (String × Node)) (to : Path) (fs : FS) (k : Nat) (q : Path),
    (∀ n ∈ es.map Prod.fst, ∀ r, q ≠ to ++ n :: r) → run fs ((copyEntries part to es).1.take k) q = fs q
  | [], to, fs, k, q, h => by simp [copyEntries, run]
  | (n, x) :: es, to, fs, k, q, h => by
    have h1 : ¬ (to ++ [n]) <+: q := by
      rw [snoc_prefix_cases]; rintro ⟨r, hr⟩; exact h n (by simp) r hr
    have h2 : ∀ m ∈ es.map Prod.fst, ∀ r, q ≠ to ++ m :: r := fun m hm => h m (by simp [hm])
    unfold copyEntries
    split
    · dsimp only
      rw [List.take_append, run_append, copyEntries_outside part es to _ _ q h2, copyNode_outside part x _ _ _ q h1]
    · exact copyNode_outside part x _ _ _ q h1

end

theorem copyNode_outside_all (part : Path → Bytes) (x : Node) (to : Path) (fs : FS) (q : Path) (h : ¬ to <+: q) :
    run fs (copyNode part to x).1 q = fs q := by
  have := copyNode_outside part x to fs (copyNode part to x).1.length q h
  rwa [List.take_length] at this

theorem copyEntries_outside_all (part : Path → Bytes) (es : List (String × Node)) (to : Path) (fs : FS) (q : Path)
    (h : ∀ n ∈ es.map Prod.fst, ∀ r, q ≠ to ++ n :: r) : run fs (copyEntries part to es).1 q = fs q := by
  have := copyEntries_outside part es to fs (copyEntries part to es).1.length q h
  rwa [List.take_length] at this

mutual

/-- A copy to a place where nothing is gives the source. -/
theorem copyNode_same (part : Path → Bytes) : ∀ (x : Node) (to : Path) (fs : FS), TidyNode x → (copyNode part to x).2 = true →
    (∀ r, fs (to ++ r) = none) → ∀ r, run fs (copyNode part to x).1 (to ++ r) = treeAt r x
  | .file b, to, fs, _, _, h, r => by
    cases r with
    | nil => simp [copyNode, run, Op.apply, treeAt]
    | cons m r => have := h (m :: r); simp [copyNode, run, Op.apply, treeAt, this]
  | .link (some b), to, fs, _, _, h, r => by
    cases r with
    | nil => simp [copyNode, run, Op.apply, treeAt]
    | cons m r => have := h (m :: r); simp [copyNode, run, Op.apply, treeAt, this]
  | .link none, to, fs, _, hok, _, _ => by simp [copyNode] at hok
  | .dir es, to, fs, ht, hok, h, r => by
    unfold copyNode at hok ⊢
    unfold TidyNode at ht
    dsimp only at hok ⊢
    rw [run_cons]
    cases r with
    | nil =>
      rw [copyEntries_outside_all part es to _ _ (by intro n _ r hr; simp at hr)]
      have := h []
      rw [List.append_nil] at this ⊢
      simp [Op.apply, treeAt, this]
    | cons m r =>
      have he : ∀ n r, (Op.mkdir to).apply fs (to ++ n :: r) = none := by
        intro n r
        have := h (n :: r)
        simp [Op.apply, this]
      rw [copyEntries_same part es to _ ht hok (fun n _ r => he n r) m r, he]
      rw [show treeAt (m :: r) (.dir es) = (es.find? fun e => e.1 == m).bind fun e => treeAt r e.2 from by conv => { lhs; unfold treeAt }]
      cases es.find? fun e => e.1 == m <;> rfl

theorem copyEntries_same (part : Path → Bytes) : ∀ (es : List (String × Node)) (to : Path) (fs : FS), TidyEntries es →
    (copyEntries part to es).2 = true → (∀ n ∈ es.map Prod.fst, ∀ r, fs (to ++ n :: r) = none) →
    ∀ m r, run fs (copyEntries part to es).1 (to ++ m :: r) =
      match es.find? fun e => e.1 == m with | some e => treeAt r e.2 | none => fs (to ++ m :: r)
  | [], to, fs, _, _, h, m, r => by simp [copyEntries, run]
  | (n, x) :: es, to, fs, ht, hok, h, m, r => by
    unfold TidyEntries at ht
    obtain ⟨hn, hx, hes⟩ := ht
    unfold copyEntries at hok ⊢
    by_cases hc : (copyNode part (to ++ [n]) x).2 = true
    · rw [if_pos hc] at hok ⊢
      dsimp only at hok ⊢
      rw [run_append]
      by_cases hm : n = m
      · subst hm
        rw [copyEntries_outside_all part es to _ _ (by
          intro k hk r' hr'
          obtain ⟨e, he, rfl⟩ := List.mem_map.1 hk
          have := List.append_cancel_left hr'
          rw [List.cons.injEq] at this
          exact hn e he this.1.symm)]
        have := copyNode_same part x (to ++ [n]) fs hx hc (by intro r; have := h n (by simp) r; simpa using this) r
        rw [List.append_assoc, List.singleton_append] at this
        rw [this, List.find?_cons_of_pos (by simp)]
      · have apart : ∀ k r', n ≠ k → run fs (copyNode part (to ++ [n]) x).1 (to ++ k :: r') = fs (to ++ k :: r') := by
          intro k r' hk
          refine copyNode_outside_all part x _ _ _ ?_
          rw [snoc_prefix_cases]
          rintro ⟨r'', hr⟩
          have := List.append_cancel_left hr
          rw [List.cons.injEq] at this
          exact hk this.1.symm
        rw [copyEntries_same part es to _ hes hok (by
          intro k hk r'
          obtain ⟨e, he, rfl⟩ := List.mem_map.1 hk
          rw [apart e.1 r' (hn e he).symm]
          exact h e.1 (by simp; exact Or.inr ⟨_, he⟩) r') m r, apart m r hm, List.find?_cons_of_neg (by simpa using hm)]
    · rw [if_neg hc] at hok
      simp at hok

end

mutual

/-- A copy succeeds when every link leads to a file, and only then. -/
theorem copyNode_ok (part : Path → Bytes) : ∀ (x : Node) (to : Path), (copyNode part to x).2 = true ↔ FollowableNode x
  | .file b, to => by simp [copyNode, FollowableNode]
  | .link (some b), to => by simp [copyNode, FollowableNode]
  | .link none, to => by simp [copyNode, FollowableNode]
  | .dir es, to => by unfold copyNode FollowableNode; exact copyEntries_ok part es to

theorem copyEntries_ok (part : Path → Bytes) : ∀ (es : List (String × Node)) (to : Path), (copyEntries part to es).2 = true ↔ FollowableEntries es
  | [], to => by simp [copyEntries, FollowableEntries]
  | (n, x) :: es, to => by
    unfold copyEntries FollowableEntries
    have h1 := copyNode_ok part x (to ++ [n])
    have h2 := copyEntries_ok part es to
    split
    · rename_i h; simp only; rw [h2]; exact ⟨fun e => ⟨h1.1 h, e⟩, fun e => e.2⟩
    · rename_i h
      constructor
      · intro e; simp at e
      · intro e; exact absurd (h1.2 e.1) h

end

/-! ### Removing -/

theorem run_remove (names : List Path) (fs : FS) (q : Path) : run fs (names.map .remove) q = if q ∈ names then none else fs q := by
  induction names generalizing fs with
  | nil => simp [run]
  | cons p l ih =>
    rw [List.map_cons, run_cons, ih]
    by_cases h : q = p
    · subst h; simp [Op.apply]
    · simp [Op.apply, h]

theorem run_removeAll {names : List Path} {p : Path} {fs : FS} (hl : ∀ q, p <+: q → fs q ≠ none → q ∈ names) (q : Path) :
    run fs (removeAll names p) q = if p <+: q then none else fs q := by
  unfold removeAll
  rw [run_remove]
  by_cases h : p <+: q
  · rw [if_pos h]
    split
    · rfl
    · rename_i hq
      by_contra hne
      exact hq (List.mem_filter.2 ⟨hl q h hne, by simpa using h⟩)
  · rw [if_neg h, if_neg]
    simp [h]

/-! ### Steps that put nothing in the place -/

/-- A step that removes, or puts something into the place of the copy. -/
def Mild : Op → Prop
  | .mkdir p => scratch <+: p
  | .put p _ => scratch <+: p
  | .remove p => scratch <+: p ∨ place <+: p
  | .rename _ _ => False

mutual

theorem copyNode_mild (part : Path → Bytes) : ∀ (x : Node) (to : Path), scratch <+: to → ∀ o ∈ (copyNode part to x).1, Mild o
  | .file b, to, h, o, ho => by
    simp [copyNode] at ho
    rcases ho with rfl | rfl <;> exact h
  | .link (some b), to, h, o, ho => by
    simp [copyNode] at ho
    rcases ho with rfl | rfl <;> exact h
  | .link none, to, h, o, ho => by simp [copyNode] at ho
  | .dir es, to, h, o, ho => by
    unfold copyNode at ho
    rcases List.mem_cons.1 ho with rfl | ho
    · exact h
    · exact copyEntries_mild part es to h o ho

theorem copyEntries_mild (part : Path → Bytes) : ∀ (es : List (String × Node)) (to : Path), scratch <+: to → ∀ o ∈ (copyEntries part to es).1, Mild o
  | [], to, h, o, ho => by simp [copyEntries] at ho
  | (n, x) :: es, to, h, o, ho => by
    have h' : scratch <+: to ++ [n] := h.trans (List.prefix_append ..)
    unfold copyEntries at ho
    split at ho
    · rcases List.mem_append.1 ho with ho | ho
      · exact copyNode_mild part x _ h' o ho
      · exact copyEntries_mild part es to h o ho
    · exact copyNode_mild part x _ h' o ho

end

theorem removeAll_mild {names : List Path} {p : Path} (hp : p = scratch ∨ p = place) : ∀ o ∈ removeAll names p, Mild o := by
  intro o ho
  unfold removeAll at ho
  obtain ⟨q, hq, rfl⟩ := List.mem_map.1 ho
  have := (List.mem_filter.1 hq).2
  simp only [decide_eq_true_eq] at this
  rcases hp with rfl | rfl
  exacts [Or.inl this, Or.inr this]

theorem scratch_place {q : Path} (h : scratch <+: q) : ¬ place <+: q := by
  obtain ⟨r, rfl⟩ := h
  rintro ⟨r', h⟩
  simp [place, scratch] at h

theorem mild_apply {o : Op} (h : Mild o) (fs : FS) (q : Path) (hq : ¬ scratch <+: q) :
    o.apply fs q = fs q ∨ (place <+: q ∧ o.apply fs q = none) := by
  cases o with
  | mkdir p => left; unfold Op.apply; dsimp only; rw [if_neg]; rintro rfl; exact hq h
  | put p b => left; unfold Op.apply; dsimp only; rw [if_neg]; rintro rfl; exact hq h
  | remove p =>
    unfold Op.apply
    dsimp only
    by_cases hp : q = p
    · subst hp
      rcases h with h | h
      · exact absurd h hq
      · right; exact ⟨h, if_pos rfl⟩
    · left; rw [if_neg hp]
  | rename a b => exact absurd h id

theorem mild_run : ∀ (ops : List Op) (fs : FS), (∀ o ∈ ops, Mild o) → ∀ q, ¬ scratch <+: q →
    run fs ops q = fs q ∨ (place <+: q ∧ run fs ops q = none)
  | [], fs, _, q, _ => Or.inl rfl
  | o :: ops, fs, h, q, hq => by
    rw [run_cons]
    rcases mild_run ops (o.apply fs) (fun x hx => h x (List.mem_cons_of_mem _ hx)) q hq with h1 | ⟨h1, h2⟩
    · rw [h1]
      exact mild_apply (h o (List.mem_cons_self ..)) fs q hq
    · exact Or.inr ⟨h1, h2⟩

/-! ### The whole -/

/-- All steps but the last. -/
def before (part : Path → Bytes) (names : List Path) (es : List (String × Node)) : List Op :=
  removeAll names scratch ++ (copyDirAll part es scratch).1 ++ if (copyDirAll part es scratch).2 then removeAll names place else []

theorem before_mild (part : Path → Bytes) (names : List Path) (es : List (String × Node)) : ∀ o ∈ before part names es, Mild o := by
  intro o ho
  unfold before at ho
  rcases List.mem_append.1 ho with ho | ho
  · rcases List.mem_append.1 ho with ho | ho
    · exact removeAll_mild (.inl rfl) o ho
    · exact copyNode_mild part _ _ (List.prefix_refl _) o ho
  · split at ho
    · exact removeAll_mild (.inr rfl) o ho
    · simp at ho

theorem seedOps_ok {part : Path → Bytes} {es : List (String × Node)} (names : List Path) (h : (copyDirAll part es scratch).2 = true) :
    seedOps part names es = before part names es ++ [.rename scratch place] := by
  unfold seedOps before
  rw [if_pos h, if_pos h, List.append_assoc, List.append_assoc, List.append_assoc]

theorem seedOps_fail {part : Path → Bytes} {es : List (String × Node)} (names : List Path) (h : ¬ (copyDirAll part es scratch).2 = true) :
    seedOps part names es = before part names es := by
  unfold seedOps before
  rw [if_neg h, if_neg h]

/-- What is in the place of the copy before it is moved. -/
theorem before_scratch (part : Path → Bytes) {names : List Path} {es : List (String × Node)} {fs : FS} (hl : ListsAll names fs) (ht : TidyEntries es)
    (hok : (copyDirAll part es scratch).2 = true) (r : Path) : run fs (before part names es) (scratch ++ r) = treeAt r (.dir es) := by
  unfold before
  rw [run_append, run_append, if_pos hok]
  have h0 : ∀ r, run fs (removeAll names scratch) (scratch ++ r) = none := by
    intro r
    rw [run_removeAll (fun q _ hq => hl q hq), if_pos (List.prefix_append ..)]
  have h1 := copyNode_same part (.dir es) scratch _ (by unfold TidyNode; exact ht) hok h0 r
  unfold removeAll at *
  rw [run_remove, if_neg]
  · exact h1
  · intro hm
    have := (List.mem_filter.1 hm).2
    simp only [decide_eq_true_eq] at this
    exact scratch_place (List.prefix_append ..) this

theorem seed_done (part : Path → Bytes) {names : List Path} {es : List (String × Node)} {fs : FS} (hl : ListsAll names fs) (ht : TidyEntries es)
    (hok : (copyDirAll part es scratch).2 = true) :
    IsCopy es (run fs (seedOps part names es)) ∧ (∀ r, run fs (seedOps part names es) ("index.tmp" :: r) = none) := by
  rw [seedOps_ok names hok]
  constructor
  · intro q
    rw [run_append]
    have : run (run fs (before part names es)) [.rename scratch place] ("index" :: q) = run fs (before part names es) (scratch ++ q) := by
      simp [run, Op.apply, place]
    rw [this, before_scratch part hl ht hok]
  · intro r
    rw [run_append]
    simp [run, Op.apply, place, scratch]

theorem before_elsewhere (part : Path → Bytes) (names : List Path) (es : List (String × Node)) (fs : FS) (k : Nat) :
    SameElsewhere fs (run fs ((before part names es).take k)) ∧ (¬ IndexSeen fs → ¬ IndexSeen (run fs ((before part names es).take k))) := by
  have hm : ∀ o ∈ (before part names es).take k, Mild o := fun o ho => before_mild part names es o (List.mem_of_mem_take ho)
  constructor
  · intro q h1 h2
    rcases mild_run _ fs hm q (by rintro ⟨r, rfl⟩; simp [scratch] at h2) with h | ⟨⟨r, rfl⟩, _⟩
    · exact h
    · simp [place] at h1
  · intro hn hh
    rcases mild_run _ fs hm ["index", "metadata.json"] (by rintro ⟨r, h⟩; simp [scratch] at h) with h | ⟨_, h⟩
    · exact hn (by unfold IndexSeen; rw [← h]; exact hh)
    · exact hh h

theorem seed_killed (part : Path → Bytes) {names : List Path} {es : List (String × Node)} {fs : FS} (hl : ListsAll names fs) (ht : TidyEntries es)
    (hn : ¬ IndexSeen fs) (k : Nat) :
    SameElsewhere fs (run fs ((seedOps part names es).take k)) ∧
    (IndexSeen (run fs ((seedOps part names es).take k)) → IsCopy es (run fs ((seedOps part names es).take k))) := by
  by_cases hok : (copyDirAll part es scratch).2 = true
  · by_cases hk : k ≤ (before part names es).length
    · have : (seedOps part names es).take k = (before part names es).take k := by
        rw [seedOps_ok names hok, List.take_append_of_le_length hk]
      rw [this]
      obtain ⟨h1, h2⟩ := before_elsewhere part names es fs k
      exact ⟨h1, fun h => absurd h (h2 hn)⟩
    · have : (seedOps part names es).take k = seedOps part names es := by
        refine List.take_of_length_le ?_
        rw [seedOps_ok names hok, List.length_append, List.length_singleton]
        omega
      rw [this]
      refine ⟨?_, fun _ => (seed_done part hl ht hok).1⟩
      intro q h1 h2
      rw [seedOps_ok names hok, run_append]
      have hb := (before_elsewhere part names es fs (before part names es).length).1 q h1 h2
      rw [List.take_length] at hb
      rw [← hb]
      have e1 : ¬ place <+: q := by rintro ⟨r, rfl⟩; simp [place] at h1
      have e2 : ¬ scratch <+: q := by rintro ⟨r, rfl⟩; simp [scratch] at h2
      simp [run, Op.apply, e1, e2]
  · rw [seedOps_fail names hok]
    obtain ⟨h1, h2⟩ := before_elsewhere part names es fs k
    exact ⟨h1, fun h => absurd h (h2 hn)⟩

/-- A copy that failed leaves everything but the place of the copy. -/
theorem seed_failed (part : Path → Bytes) (names : List Path) (es : List (String × Node)) (fs : FS)
    (hok : ¬ (copyDirAll part es scratch).2 = true) (q : Path) (hq : ¬ scratch <+: q) : run fs (seedOps part names es) q = fs q := by
  unfold seedOps
  rw [if_neg hok, List.append_nil, run_append]
  unfold copyDirAll
  rw [copyNode_outside_all part _ _ _ q hq]
  unfold removeAll
  rw [run_remove, if_neg]
  simp [hq]

end NextPlaid.CopyTree
