import Verif.Proofs.JsonText3
import Verif.Proofs.Records
import Verif.Spec.Records

/-! The files of records, whole and torn. -/

namespace NextPlaid.Records
open NextPlaid.JsonText NextPlaid.Spec

variable {R : Type} {F : Reals R}

theorem torn_take {text : List Char} {n : Nat} (h : n < text.length) : Torn text (text.take n) := by
  refine ⟨text.drop n, ?_, (List.take_append_drop n text).symm⟩
  intro h0
  have := congrArg List.length h0
  simp at this
  omega

theorem metadata_load (hF : LawfulReals F) {m : Metadata R} (h : FitsMetadata m) (hr : (F.shows m.avgDoclen).isSome) (doclens) :
    loadMetadata F (some (m.text F)) doclens =
      some { m with numDocuments := if m.numDocuments = 0 then countDocs F doclens m.numChunks else m.numDocuments } := by
  unfold loadMetadata Metadata.text pretty
  refine bind_of rfl ?_
  refine bind_of (parse_render hF _ _ (metadata_writable m h hr) (by rw [metadata_depth]; omega)) ?_
  refine bind_of (metadata_read m h) ?_
  rfl

theorem metadata_torn (hF : LawfulReals F) {m : Metadata R} (h : FitsMetadata m) (hr : (F.shows m.avgDoclen).isSome) {torn} (ht : Torn (m.text F) torn)
    (doclens) : loadMetadata F (some torn) doclens = none := by
  unfold loadMetadata
  have := parse_torn hF (some 0) (v := m.toJ) (Or.inl (by unfold Metadata.toJ Container; trivial)) (metadata_writable m h hr) (by rw [metadata_depth]; omega) ht
  simp [this]

theorem stored_load (hF : LawfulReals F) {c : Stored} (h : FitsStored c) (scratch : Nat) : loadStored F scratch (some (c.text F)) = some c := by
  unfold loadStored Stored.text pretty
  rw [Option.bind_some, parse_render hF _ _ (stored_writable c h) (by rw [stored_depth]; omega), Option.bind_some, stored_read c scratch h]

theorem stored_torn (hF : LawfulReals F) {c : Stored} (h : FitsStored c) {torn} (ht : Torn (c.text F) torn) (scratch : Nat) :
    loadStored F scratch (some torn) = none := by
  unfold loadStored
  rw [Option.bind_some, parse_torn hF (some 0) (v := c.toJ) (Or.inl (by unfold Stored.toJ Container; trivial)) (stored_writable c h)
    (by rw [stored_depth]; omega) ht]
  rfl

theorem fits_stamped {s : State} (h : FitsState s) (version) : (∀ e ∈ (s.stamped version).files, e.2.hash < 2 ^ 64 ∧ e.2.mtime < 2 ^ 64 ∧ e.2.size < 2 ^ 64) ∧
    (s.stamped version).searches < 2 ^ 64 ∧ (s.stamped version).format < 2 ^ 32 := ⟨h.1, h.2, by show 2 < 2 ^ 32; omega⟩

theorem state_load (hF : LawfulReals F) {s : State} (h : FitsState s) (version) :
    loadState F (some (s.text F version)) = some (s.stamped version) := by
  unfold loadState State.text pretty
  dsimp only
  have hd := state_depth (R := R) (s.stamped version)
  rw [parse_render hF _ _ (state_writable _ (fits_stamped h version)) (by omega), Option.bind_some, state_read _ (fits_stamped h version)]

theorem state_torn (hF : LawfulReals F) {s : State} (h : FitsState s) (version) {torn} (ht : Torn (s.text F version) torn) :
    loadState F (some torn) = none := by
  unfold loadState
  dsimp only
  have hd := state_depth (R := R) (s.stamped version)
  rw [parse_torn hF (some 0) (v := (s.stamped version).toJ) (Or.inl (by unfold State.toJ Container; trivial)) (state_writable _ (fits_stamped h version))
    (by omega) ht]
  rfl

theorem project_load (hF : LawfulReals F) (p : Project) : loadProject F (some (p.text F)) = some p := by
  unfold loadProject Project.text pretty
  rw [Option.bind_some, parse_render hF _ _ (project_writable p) (by rw [project_depth]; omega), Option.bind_some, project_read]

theorem project_torn (hF : LawfulReals F) (p : Project) {torn} (ht : Torn (p.text F) torn) : loadProject F (some torn) = none := by
  unfold loadProject
  rw [Option.bind_some, parse_torn hF (some 0) (v := p.toJ) (Or.inl (by unfold Project.toJ Container; trivial)) (project_writable p)
    (by rw [project_depth]; omega) ht]
  rfl

theorem text_pos (c : Stored) : 0 < (c.text F).length := by
  unfold Stored.text pretty Stored.toJ render
  simp

/-- The invariant of the server: the file holds the configuration, the memory holds it or nothing. -/
def Holds (F : Reals R) (s : Conf) (c : Option Stored) : Prop :=
  (∀ d ∈ c, FitsStored d) ∧ s.file = c.map (Stored.text F) ∧ (s.cache = none ∨ s.cache = c)

theorem get_holds (hF : LawfulReals F) (scratch : Nat) {s : Conf} {c : Option Stored} (h : Holds F s c) :
    (s.get F scratch).1 = c ∧ Holds F (s.get F scratch).2 c := by
  obtain ⟨h1, h2, h3⟩ := h
  unfold Conf.get
  cases hc : s.cache with
  | some d =>
    have : c = some d := by
      rcases h3 with h3 | h3
      · rw [hc] at h3; simp at h3
      · rw [← h3, hc]
    exact ⟨this.symm, h1, h2, h3⟩
  | none =>
    cases c with
    | none =>
      have hl : loadStored F scratch s.file = none := by rw [h2]; rfl
      dsimp only
      rw [hl]
      exact ⟨rfl, h1, h2, h3⟩
    | some d =>
      have hl : loadStored F scratch s.file = some d := by rw [h2]; exact stored_load hF (h1 d rfl) scratch
      dsimp only
      rw [hl]
      exact ⟨rfl, h1, h2, Or.inr rfl⟩

theorem step_holds (hF : LawfulReals F) (scratch : Nat) {s : Conf} {c : Option Stored} (h : Holds F s c) (e : ConfStep) (he : FitsStep e) :
    Holds F (s.step F scratch e) (confStep c e) := by
  cases e with
  | declare d => exact ⟨by intro d' hd; cases hd; exact he, rfl, Or.inr rfl⟩
  | look => exact (get_holds hF scratch h).2
  | restart => exact ⟨h.1, h.2.1, Or.inl rfl⟩
  | put m =>
    obtain ⟨hg, hh⟩ := get_holds hF scratch h
    show Holds F (s.put F scratch m).2 (c.map fun c => { c with maxDocuments := m })
    unfold Conf.put
    cases hget : s.get F scratch with
    | mk o s' =>
      rw [hget] at hg hh
      dsimp only at hg hh
      subst hg
      cases o with
      | none => exact hh
      | some d =>
        have := h.1 d rfl
        exact ⟨by intro d' hd'; cases hd'; exact ⟨this.1, this.2.1, this.2.2.1, this.2.2.2.1, he⟩, rfl, Or.inr rfl⟩

theorem steps_hold (hF : LawfulReals F) (scratch : Nat) : ∀ (l : List ConfStep) {s : Conf} {c : Option Stored}, Holds F s c → (∀ e ∈ l, FitsStep e) →
    Holds F (l.foldl (Conf.step F scratch) s) (l.foldl confStep c)
  | [], _, _, h, _ => h
  | e :: l, _, _, h, hl => steps_hold hF scratch l (step_holds hF scratch h e (hl e (by simp))) (fun e he => hl e (by simp [he]))

theorem killed_file (hF : LawfulReals F) {old : Option (List Char)} {c : Stored} (hc : FitsStored c) (scratch n : Nat) :
    loadStored F scratch (overwritten old (c.text F) n) =
      if n = 0 then loadStored F scratch old else if (c.text F).length < n then some c else none := by
  cases n with
  | zero => rfl
  | succ n =>
    rw [if_neg (by omega)]
    show loadStored F scratch (some ((c.text F).take n)) = _
    by_cases hn : (c.text F).length < n + 1
    · rw [if_pos hn, List.take_of_length_le (by omega), stored_load hF hc]
    · rw [if_neg hn, stored_torn hF hc (torn_take (by omega))]

end NextPlaid.Records
