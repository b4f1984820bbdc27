import Verif.Proofs.Server2

/-! Histories of the server. -/

namespace NextPlaid.Server
open NextPlaid NextPlaid.Index NextPlaid.Db NextPlaid.Spec

variable {E : Env} {S : Sql} {T : TextEnv S}

theorem Clean.served {s : Store E T} {rows} (h : Clean s rows) : ∃ D I, Torn s D I ∧ D.zip I = rows :=
  ⟨_, _, h.torn, zip_maps rows⟩

theorem processBatch_split (hE : E.Lawful) (hS : S.Lawful) {s : Store E T} {D I} (h : Torn s D I)
    {docs : List (List E.Row)} {items : List (Item S)} (hdocs : docs ≠ []) (hlen : items.length = docs.length)
    (htok : ∀ d ∈ docs, d ≠ []) {cfg : Cfg} (hb : 0 < cfg.batchSize) (tk : Tokenizer) (max : Option Nat) :
    ((∃ e, (processBatch s docs items cfg tk max).2 = .error e) ∧ (max ≠ some 0 →
        Clean (final s (processBatch s docs items cfg tk max).1) (D.zip I)) ∨
      (∃ ids, (processBatch s docs items cfg tk max).2 = .ok ids ∧ ids = idRange (D.zip I).length docs.length) ∧
        Clean (final s (processBatch s docs items cfg tk max).1) (newest max (D.zip I ++ docs.zip items))) ∧
    (newest max (D.zip I ++ docs.zip items) = D.zip I ++ docs.zip items →
      ∀ s' ∈ (processBatch s docs items cfg tk max).1,
      Clean s' (D.zip I) ∨ Clean s' (D.zip I ++ docs.zip items) ∨
        (DiskOk s'.disk ((D.zip I).map (·.1) ++ docs) ∧ RepO s'.db ((D.zip I).map (·.2)) ∧ s'.disk.metadata ≠ none ∧
          (s'.db = none → D.zip I = []))) := by
  obtain ⟨tr, b, h1, h2, h3, _⟩ := repair_clean h
  obtain ⟨h4, h5⟩ := batchUpdate_clean hE hS h3 hdocs hlen htok hb tk max
  unfold processBatch
  rw [h1]
  simp only
  rw [final_append]
  refine ⟨h4, ?_⟩
  intro hnew s' hs'
  rcases List.mem_append.1 hs' with hs' | hs'
  · exact .inl (h2 s' hs' ▸ h3)
  · rcases h5 hnew s' hs' with h6 | h6 | ⟨h6, h7, h8⟩
    · exact .inl h6
    · exact .inr (.inl h6)
    · exact .inr (.inr ⟨h6, by rw [h7]; exact h3.db, h8, fun h0 => h3.noDb (by rw [← h7]; exact h0)⟩)

theorem zip_take {α β : Type} : ∀ (l : List (α × β)) (k : Nat), ((l.take k).map (·.1)).zip (l.map (·.2)) = l.take k
  | [], k => by simp
  | p :: l, 0 => by simp
  | p :: l, k + 1 => by
    rw [List.take_succ_cons, List.map_cons, List.map_cons, List.zip_cons_cons, zip_take l k]

theorem zip_zipWith {α β γ : Type} (f : γ → β → β) : ∀ (D : List α) (I : List β) (all : List γ), all.length = I.length →
    D.zip (List.zipWith f all I) = List.zipWith (fun r (p : α × β) => (p.1, f r p.2)) all (D.zip I)
  | [], I, all, _ => by simp
  | d :: D, [], all, _ => by simp
  | d :: D, it :: I, [], h => by simp at h
  | d :: D, it :: I, r :: all, h => by
    simp only [List.zipWith_cons_cons, List.zip_cons_cons]
    rw [zip_zipWith f D I all (by simpa using h)]

theorem served_torn (hE : E.Lawful) (hS : S.Lawful) {s : Store E T} {rows} (h : Served s rows) :
    ∃ D I, Torn s D I ∧ D.zip I = rows := by
  induction h with
  | start => exact ⟨[], [], ⟨.inl ⟨rfl, rfl⟩, rfl, (by intro d hd; cases hd), fun _ => rfl, fun _ => rfl⟩, rfl⟩
  | @updated s rows docs items cfg tk max tr ids _ hdocs hlen htok hb he ih =>
    obtain ⟨D, I, hT, rfl⟩ := ih
    obtain ⟨h1, _⟩ := processBatch_split hE hS hT hdocs hlen htok hb tk max
    rw [he] at h1
    rcases h1 with ⟨⟨e, h1⟩, _⟩ | ⟨_, h1⟩
    · cases h1
    · exact h1.served
  | @refused s rows docs items cfg tk max tr e _ hdocs hlen htok hb hmax he ih =>
    obtain ⟨D, I, hT, rfl⟩ := ih
    obtain ⟨h1, _⟩ := processBatch_split hE hS hT hdocs hlen htok hb tk max
    rw [he] at h1
    rcases h1 with ⟨_, h1⟩ | ⟨⟨_, h1, _⟩, _⟩
    · exact (h1 hmax).served
    · cases h1
  | @stopped s rows docs items cfg tk max s' _ hdocs hlen htok hb hrows hnew hs' ih =>
    obtain ⟨D, I, hT, rfl⟩ := ih
    obtain ⟨_, h2⟩ := processBatch_split hE hS hT hdocs hlen htok hb tk max
    rcases h2 hnew s' hs' with h | h | ⟨h1, h2, h3, h4⟩
    · rw [if_pos (by rw [h.count]; omega)]
      exact h.served
    · rw [if_neg]
      · exact h.served
      · rw [h.count, List.length_append, List.length_zip (l₁ := docs)]
        have := List.length_pos_iff.2 hdocs
        omega
    · rw [if_pos (by rw [count_rep h2, List.length_map]; exact Nat.le_refl _)]
      refine ⟨_, _, ⟨h1, h2, ?_, fun h0 => absurd (h4 h0) hrows, fun h0 => absurd h0 h3⟩, ?_⟩
      · intro d hd
        rcases List.mem_append.1 hd with hd | hd
        · obtain ⟨p, hp, rfl⟩ := List.mem_map.1 hd
          exact hT.tokens p.1 (List.of_mem_zip hp).1
        · exact htok d hd
      · have : ((D.zip I).map (·.1) ++ docs).zip ((D.zip I).map (·.2)) =
            ((D.zip I).map (·.1) ++ docs).zip ((D.zip I).map (·.2) ++ []) := by rw [List.append_nil]
        rw [this, List.zip_append (by simp), zip_maps, List.zip_nil_right, List.append_nil]
  | @deleted s rows conds _ ih =>
    obtain ⟨D, I, hT, rfl⟩ := ih
    exact (processDeleteBatch_clean hS hT conds).served
  | @deleteStopped s rows c k s' _ hk hs' ih =>
    obtain ⟨D, I, hT, rfl⟩ := ih
    rcases processDeleteBatch_moments hS hT c s' hs' with h | ⟨h1, h2, h3, h4⟩
    · split
      · exact h.served
      · next hne =>
        rcases h.disk with ⟨_, h0⟩ | h0
        · have h0' : D.zip I = [] := by simpa using h0
          rw [h0'] at h ⊢
          exact h.served
        · obtain ⟨m, hm, _, hm3⟩ := inv_meta h0
          rw [hm, Option.map_some, hm3, List.length_map] at hne
          exact absurd rfl hne
    · have hrem : (if s'.disk.metadata.map (·.numDocs) = some (D.zip I).length then D.zip I
          else remaining (declaredType s.db) (D.zip I) c) = remaining (declaredType s.db) (D.zip I) c := by
        split
        · next heq =>
          rw [h4, Option.some.injEq] at heq
          rw [hk] at heq ⊢
          rw [List.length_take] at heq
          rw [List.take_of_length_le (by omega)]
        · rfl
      rw [hrem]
      have htok : ∀ d ∈ (remaining (declaredType s.db) (D.zip I) c).map (·.1), d ≠ [] := by
        intro d hd
        obtain ⟨p, hp, rfl⟩ := List.mem_map.1 hd
        rw [hk] at hp
        exact hT.tokens p.1 (List.of_mem_zip (List.mem_of_mem_take hp)).1
      have hmeta : s'.disk.metadata ≠ none := by
        intro h0
        rw [h0] at h4
        cases h4
      have hnone : s'.db = none → (remaining (declaredType s.db) (D.zip I) c).map (·.1) = [] := by
        intro h0
        rw [h3 h0]
        rfl
      rcases h2 with h2 | h2
      · refine ⟨_, _, ⟨h1, h2, htok, hnone, fun h0 => absurd h0 hmeta⟩, ?_⟩
        rw [hk]
        exact zip_take _ k
      · exact ⟨_, _, ⟨h1, h2, htok, hnone, fun h0 => absurd h0 hmeta⟩, zip_maps _⟩
  | @changed s rows all valid sat upd s' n _ hg he ih =>
    obtain ⟨D, I, hT, rfl⟩ := ih
    obtain ⟨t, t', h0, hu, rfl⟩ := change_ok he
    obtain ⟨hr, _⟩ := updateWhere_rep hT.db hg hu
    have hlen : all.length = I.length := by
      obtain ⟨_, out, ho, hl, _⟩ := shows_of_rep hS hT.db
      rw [ho id] at hg
      cases hg
      exact hl
    refine ⟨D, _, ⟨hT.disk, hr, hT.tokens, fun h1 => (by cases h1), fun h1 => ?_⟩, ?_⟩
    · rw [hT.noDisk h1, List.zipWith_nil_right]
    · exact zip_zipWith _ D I all hlen

theorem Clean.paired (hS : S.Lawful) {s : Store E T} {rows} (h : Clean s rows) : Paired s rows :=
  ⟨shows_of_rep hS h.db, h.count, fun hne => by
    obtain ⟨_, x, hx, hh, _⟩ := h.load hne
    exact ⟨x, hx, hh⟩⟩

end NextPlaid.Server
