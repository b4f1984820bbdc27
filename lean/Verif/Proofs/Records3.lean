import Verif.Spec.Records

/-! Which members of an object a record is read from. -/

namespace NextPlaid.Records
open NextPlaid.JsonText NextPlaid.Spec

variable {R : Type}

theorem filter_nil_iff (l : List (List Char × J R)) (key : String) :
    l.filter (fun e => e.1 == key.toList) = [] ↔ LacksMember l key := by
  rw [List.filter_eq_nil_iff]
  unfold LacksMember
  constructor
  · intro h e he heq
    exact h e he (by simpa using heq)
  · intro h e he heq
    exact h e he (by simpa using heq)

theorem filter_one_iff (key : String) (v : J R) : ∀ l : List (List Char × J R),
    (∃ e, l.filter (fun e => e.1 == key.toList) = [e] ∧ e.2 = v) ↔ HasMember l key v
  | [] => by
    constructor
    · rintro ⟨e, h, _⟩; simp at h
    · rintro ⟨a, b, h, _⟩; simp at h
  | x :: l => by
    rw [List.filter_cons]
    by_cases hx : x.1 = key.toList
    · rw [if_pos (by simpa using hx)]
      constructor
      · rintro ⟨e, h, rfl⟩
        rw [List.cons.injEq] at h
        obtain ⟨rfl, h⟩ := h
        refine ⟨[], l, by rw [← hx]; rfl, ?_⟩
        exact (filter_nil_iff l key).1 h
      · rintro ⟨a, b, h, hn⟩
        cases a with
        | nil =>
          rw [List.nil_append, List.cons.injEq] at h
          obtain ⟨rfl, rfl⟩ := h
          refine ⟨_, by rw [(filter_nil_iff l key).2 (by simpa [LacksMember] using hn)], rfl⟩
        | cons y a =>
          rw [List.cons_append, List.cons.injEq] at h
          obtain ⟨rfl, rfl⟩ := h
          exact absurd hx (hn x (by simp))
    · rw [if_neg (by simpa using hx), filter_one_iff key v l]
      constructor
      · rintro ⟨a, b, rfl, hn⟩
        refine ⟨x :: a, b, rfl, ?_⟩
        intro e he
        rcases List.mem_cons.1 he with rfl | he
        · exact hx
        · exact hn e he
      · rintro ⟨a, b, h, hn⟩
        cases a with
        | nil =>
          rw [List.nil_append, List.cons.injEq] at h
          exact absurd (by rw [h.1]) hx
        | cons y a =>
          rw [List.cons_append, List.cons.injEq] at h
          obtain ⟨rfl, rfl⟩ := h
          exact ⟨a, b, rfl, fun e he => hn e (by simp only [List.cons_append, List.mem_cons]; exact .inr he)⟩

theorem field_iff {α : Type} (key : String) (read : J R → Option α) (missing : Option α) (l : List (List Char × J R)) (a : α) :
    field key read missing l = some a ↔ (LacksMember l key ∧ missing = some a) ∨ ∃ v, HasMember l key v ∧ read v = some a := by
  have h0 := filter_nil_iff l key
  have h1 := fun v => filter_one_iff key v l
  unfold field
  split
  · next h =>
    rw [h] at h0
    constructor
    · intro hm; exact .inl ⟨h0.1 rfl, hm⟩
    · rintro (h2 | ⟨v, h2, _⟩)
      · exact h2.2
      · obtain ⟨e, he, _⟩ := (h1 v).2 h2
        rw [h] at he
        cases he
  · next e h =>
    constructor
    · intro hr; exact .inr ⟨e.2, (h1 _).1 ⟨e, h, rfl⟩, hr⟩
    · rintro (h2 | ⟨v, h2, hr⟩)
      · rw [h] at h0
        exact absurd (h0.2 h2.1) (by simp)
      · obtain ⟨e', he, rfl⟩ := (h1 v).2 h2
        rw [h] at he
        cases he
        exact hr
  · next hn1 hn2 =>
    constructor
    · intro h; cases h
    · rintro (h2 | ⟨v, h2, hr⟩)
      · exact absurd (h0.2 h2.1) hn1
      · obtain ⟨e', he, rfl⟩ := (h1 v).2 h2
        exact absurd he (hn2 e')

theorem readNat_iff (v : J R) (n : Nat) : readNat v = some n ↔ n < 2 ^ 64 ∧ v = .int n := by
  unfold readNat
  split
  · next i =>
    constructor
    · intro h
      split at h
      · next hi =>
        rw [Option.some.injEq] at h
        subst h
        refine ⟨by omega, ?_⟩
        rw [Int.toNat_of_nonneg hi.1]
      · cases h
    · rintro ⟨h1, h2⟩
      cases h2
      rw [if_pos (by omega)]
      rfl
  · next h =>
    constructor
    · intro h; cases h
    · rintro ⟨_, rfl⟩; exact absurd rfl (h _)

theorem readNat32_iff (v : J R) (n : Nat) : readNat32 v = some n ↔ n < 2 ^ 32 ∧ v = .int n := by
  unfold readNat32
  split
  · next i =>
    constructor
    · intro h
      split at h
      · next hi =>
        rw [Option.some.injEq] at h
        subst h
        refine ⟨by omega, ?_⟩
        rw [Int.toNat_of_nonneg hi.1]
      · cases h
    · rintro ⟨h1, h2⟩
      cases h2
      rw [if_pos (by omega)]
      rfl
  · next h =>
    constructor
    · intro h; cases h
    · rintro ⟨_, rfl⟩; exact absurd rfl (h _)

theorem readStr_iff (v : J R) (s : List Char) : readStr v = some s ↔ v = .str s := by
  unfold readStr
  split
  · next t => constructor <;> intro h <;> cases h <;> rfl
  · next h =>
    constructor
    · intro h; cases h
    · rintro rfl; exact absurd rfl (h _)

theorem readBool_iff (v : J R) (b : Bool) : readBool v = some b ↔ v = .bool b := by
  unfold readBool
  split
  · next t => constructor <;> intro h <;> cases h <;> rfl
  · next h =>
    constructor
    · intro h; cases h
    · rintro rfl; exact absurd rfl (h _)

theorem readOpt_nat_iff (v : J R) (o : Option Nat) :
    readOpt readNat v = some o ↔ (v = .null ∧ o = none) ∨ ∃ n, o = some n ∧ n < 2 ^ 64 ∧ v = .int n := by
  unfold readOpt
  split
  · constructor
    · intro h; cases h; exact .inl ⟨rfl, rfl⟩
    · rintro (⟨_, rfl⟩ | ⟨n, _, _, h⟩)
      · rfl
      · cases h
  · next hn =>
    rw [Option.map_eq_some_iff]
    constructor
    · rintro ⟨n, hr, rfl⟩
      exact .inr ⟨n, rfl, (readNat_iff v n).1 hr⟩
    · rintro (⟨h, _⟩ | ⟨n, rfl, h⟩)
      · exact absurd h hn
      · exact ⟨n, (readNat_iff v n).2 h, rfl⟩

theorem readOpt_str_iff (v : J R) (o : Option (List Char)) :
    readOpt readStr v = some o ↔ (v = .null ∧ o = none) ∨ ∃ s, o = some s ∧ v = .str s := by
  unfold readOpt
  split
  · constructor
    · intro h; cases h; exact .inl ⟨rfl, rfl⟩
    · rintro (⟨_, rfl⟩ | ⟨n, _, h⟩)
      · rfl
      · cases h
  · next hn =>
    rw [Option.map_eq_some_iff]
    constructor
    · rintro ⟨n, hr, rfl⟩
      exact .inr ⟨n, rfl, (readStr_iff v n).1 hr⟩
    · rintro (⟨h, _⟩ | ⟨n, rfl, h⟩)
      · exact absurd h hn
      · exact ⟨n, (readStr_iff v n).2 h, rfl⟩

/-- A number that must be there. -/
theorem field_nat (key : String) (l : List (List Char × J R)) (n : Nat) :
    field key readNat none l = some n ↔ HasNumber l key n := by
  rw [field_iff]
  constructor
  · rintro (⟨_, h⟩ | ⟨v, hv, h⟩)
    · cases h
    · obtain ⟨hl, rfl⟩ := (readNat_iff v n).1 h
      exact ⟨hl, hv⟩
  · rintro ⟨h, hv⟩
    exact .inr ⟨_, hv, (readNat_iff _ n).2 ⟨h, rfl⟩⟩

/-- A number with a default. -/
theorem field_nat_default (key : String) (l : List (List Char × J R)) (d n : Nat) :
    field key readNat (some d) l = some n ↔ (LacksMember l key ∧ n = d) ∨ HasNumber l key n := by
  rw [field_iff]
  constructor
  · rintro (⟨h, h1⟩ | ⟨v, hv, h⟩)
    · exact .inl ⟨h, (Option.some.inj h1).symm⟩
    · obtain ⟨hl, rfl⟩ := (readNat_iff v n).1 h
      exact .inr ⟨hl, hv⟩
  · rintro (⟨h, rfl⟩ | ⟨h, hv⟩)
    · exact .inl ⟨h, rfl⟩
    · exact .inr ⟨_, hv, (readNat_iff _ n).2 ⟨h, rfl⟩⟩

/-- A number that may be missing. -/
theorem field_opt_nat (key : String) (l : List (List Char × J R)) (o : Option Nat) :
    field key (readOpt readNat) (some none) l = some o ↔ MayHaveNumber l key o := by
  rw [field_iff]
  unfold MayHaveNumber
  constructor
  · rintro (⟨h, h1⟩ | ⟨v, hv, h⟩)
    · cases Option.some.inj h1
      exact .inl h
    · rcases (readOpt_nat_iff v o).1 h with ⟨rfl, rfl⟩ | ⟨n, rfl, hl, rfl⟩
      · exact .inr hv
      · exact ⟨hl, hv⟩
  · cases o with
    | none =>
      rintro (h | h)
      · exact .inl ⟨h, rfl⟩
      · exact .inr ⟨_, h, rfl⟩
    | some n =>
      rintro ⟨h, hv⟩
      exact .inr ⟨_, hv, (readOpt_nat_iff _ _).2 (.inr ⟨n, rfl, h, rfl⟩)⟩

/-- A text with a default. -/
theorem field_str_default (key : String) (l : List (List Char × J R)) (d s : List Char) :
    field key readStr (some d) l = some s ↔ (LacksMember l key ∧ s = d) ∨ HasMember l key (.str s) := by
  rw [field_iff]
  constructor
  · rintro (⟨h, h1⟩ | ⟨v, hv, h⟩)
    · exact .inl ⟨h, (Option.some.inj h1).symm⟩
    · rw [(readStr_iff v s).1 h] at hv
      exact .inr hv
  · rintro (⟨h, rfl⟩ | hv)
    · exact .inl ⟨h, rfl⟩
    · exact .inr ⟨_, hv, rfl⟩

/-- A truth value with a default. -/
theorem field_bool_default (key : String) (l : List (List Char × J R)) (d b : Bool) :
    field key readBool (some d) l = some b ↔ (LacksMember l key ∧ b = d) ∨ HasMember l key (.bool b) := by
  rw [field_iff]
  constructor
  · rintro (⟨h, h1⟩ | ⟨v, hv, h⟩)
    · exact .inl ⟨h, (Option.some.inj h1).symm⟩
    · rw [(readBool_iff v b).1 h] at hv
      exact .inr hv
  · rintro (⟨h, rfl⟩ | hv)
    · exact .inl ⟨h, rfl⟩
    · exact .inr ⟨_, hv, rfl⟩

theorem readAll_str_iff : ∀ (l : List (J R)) (r : List (List Char)), readAll readStr l = some r ↔ l = r.map .str
  | [], r => by
    unfold readAll
    cases r <;> simp
  | v :: l, r => by
    unfold readAll
    rw [Option.bind_eq_some_iff]
    constructor
    · rintro ⟨a, ha, h⟩
      obtain ⟨r', hr, rfl⟩ := Option.map_eq_some_iff.1 h
      rw [(readStr_iff v a).1 ha, (readAll_str_iff l r').1 hr]
      rfl
    · intro h
      cases r with
      | nil => simp at h
      | cons a r =>
        rw [List.map_cons, List.cons.injEq] at h
        exact ⟨a, (readStr_iff v a).2 h.1, Option.map_eq_some_iff.2 ⟨r, (readAll_str_iff l r).2 h.2, rfl⟩⟩

theorem readList_str_iff (v : J R) (r : List (List Char)) : readList readStr v = some r ↔ v = .arr (r.map .str) := by
  unfold readList
  split
  · next l =>
    rw [readAll_str_iff]
    constructor
    · rintro rfl; rfl
    · intro h; cases h; rfl
  · next h =>
    constructor
    · intro h; cases h
    · rintro rfl; exact absurd rfl (h _)

theorem readStored_iff (scratch : Nat) (l : List (List Char × J R)) (c : Stored) :
    readStored scratch (.obj l) = some c ↔ StoredIn scratch l c := by
  unfold StoredIn
  rw [← field_nat, ← field_nat, ← field_opt_nat, ← field_nat_default, ← field_opt_nat, ← field_str_default]
  unfold readStored
  simp only [fields, Option.bind_eq_bind, Option.bind_some, Option.bind_eq_some_iff]
  constructor
  · rintro ⟨a1, h1, a2, h2, a3, h3, a4, h4, a5, h5, a6, h6, h⟩
    cases h
    exact ⟨h1, h2, h3, h4, h5, h6⟩
  · rintro ⟨h1, h2, h3, h4, h5, h6⟩
    exact ⟨_, h1, _, h2, _, h3, _, h4, _, h5, _, h6, rfl⟩

theorem readInfo_iff (l : List (List Char × J R)) (i : Info) :
    readInfo (.obj l) = some i ↔ InfoIn l i := by
  unfold InfoIn
  rw [← field_nat, ← field_nat, ← field_nat_default]
  unfold readInfo
  simp only [fields, Option.bind_eq_bind, Option.bind_some, Option.bind_eq_some_iff]
  constructor
  · rintro ⟨a1, h1, a2, h2, a3, h3, h⟩
    cases h
    exact ⟨h1, h2, h3⟩
  · rintro ⟨h1, h2, h3⟩
    exact ⟨_, h1, _, h2, _, h3, rfl⟩

theorem readEntries_iff : ∀ (l : List (List Char × J R)) (r : List (List Char × Info)),
    readEntries readInfo l = some r ↔ FilesIn l r
  | [], r => by
    unfold readEntries
    constructor
    · intro h; cases h; exact .nil
    · intro h; cases h; rfl
  | (k, v) :: l, r => by
    unfold readEntries
    rw [Option.bind_eq_some_iff]
    constructor
    · rintro ⟨a, ha, h⟩
      obtain ⟨r', hr, rfl⟩ := Option.map_eq_some_iff.1 h
      cases v with
      | obj m => exact .cons ((readInfo_iff m a).1 ha) ((readEntries_iff l r').1 hr)
      | _ => simp [readInfo, fields] at ha
    · intro h
      cases h with
      | @cons _ m i _ r hm hr =>
        exact ⟨i, (readInfo_iff m i).2 hm, Option.map_eq_some_iff.2 ⟨r, (readEntries_iff l r).2 hr, rfl⟩⟩

theorem readState_iff (l : List (List Char × J R)) (s : State) :
    readState (.obj l) = some s ↔ StateIn l s := by
  unfold StateIn
  have e2 : field "index_format_version" readNat32 (some 0) l = some s.format ↔
      ((LacksMember l "index_format_version" ∧ s.format = 0) ∨ (s.format < 2 ^ 32 ∧ HasMember l "index_format_version" (.int s.format))) := by
    rw [field_iff]
    constructor
    · rintro (⟨h, h1⟩ | ⟨v, hv, h⟩)
      · exact .inl ⟨h, (Option.some.inj h1).symm⟩
      · obtain ⟨hl, hv'⟩ := (readNat32_iff v _).1 h
        exact .inr ⟨hl, hv' ▸ hv⟩
    · rintro (⟨h, h1⟩ | ⟨h, hv⟩)
      · exact .inl ⟨h, by rw [h1]⟩
      · exact .inr ⟨_, hv, (readNat32_iff _ _).2 ⟨h, rfl⟩⟩
  have e3 : field "files" (readMap readInfo) none l = some s.files ↔ ∃ m, HasMember l "files" (.obj m) ∧ FilesIn m s.files := by
    rw [field_iff]
    constructor
    · rintro (⟨_, h⟩ | ⟨v, hv, h⟩)
      · cases h
      · cases v with
        | obj m => exact ⟨m, hv, (readEntries_iff m _).1 h⟩
        | _ => cases h
    · rintro ⟨m, hm, h⟩
      exact .inr ⟨_, hm, (readEntries_iff m _).2 h⟩
  have e4 : field "ignored_files" (readList readStr) (some []) l = some s.ignored ↔
      ((LacksMember l "ignored_files" ∧ s.ignored = []) ∨ HasMember l "ignored_files" (.arr (s.ignored.map .str))) := by
    rw [field_iff]
    constructor
    · rintro (⟨h, h1⟩ | ⟨v, hv, h⟩)
      · exact .inl ⟨h, (Option.some.inj h1).symm⟩
      · rw [(readList_str_iff v _).1 h] at hv
        exact .inr hv
    · rintro (⟨h, h1⟩ | hv)
      · exact .inl ⟨h, by rw [h1]⟩
      · exact .inr ⟨_, hv, (readList_str_iff _ _).2 rfl⟩
  rw [← field_str_default, ← e2, ← e3, ← e4, ← field_nat_default, ← field_bool_default]
  unfold readState
  simp only [fields, Option.bind_eq_bind, Option.bind_some, Option.bind_eq_some_iff]
  constructor
  · rintro ⟨a1, h1, a2, h2, a3, h3, a4, h4, a5, h5, a6, h6, h⟩
    cases h
    exact ⟨h1, h2, h3, h4, h5, h6⟩
  · rintro ⟨h1, h2, h3, h4, h5, h6⟩
    exact ⟨_, h1, _, h2, _, h3, _, h4, _, h5, _, h6, rfl⟩

theorem readMetadata_iff (F : Reals R) (l : List (List Char × J R)) (m : Metadata R) :
    readMetadata F (.obj l) = some m ↔ MetadataIn F l m := by
  unfold MetadataIn
  have e5 : field "avg_doclen" (readReal F) none l = some m.avgDoclen ↔
      (HasMember l "avg_doclen" (.real m.avgDoclen) ∨ ∃ i, HasMember l "avg_doclen" (.int i) ∧ F.ofInt i = m.avgDoclen) := by
    rw [field_iff]
    constructor
    · rintro (⟨_, h⟩ | ⟨v, hv, h⟩)
      · cases h
      · cases v with
        | int i => exact .inr ⟨i, hv, Option.some.inj h⟩
        | real r => cases Option.some.inj h; exact .inl hv
        | _ => cases h
    · rintro (h | ⟨i, h, hi⟩)
      · exact .inr ⟨_, h, rfl⟩
      · exact .inr ⟨_, h, by rw [readReal, hi]⟩
  rw [← field_nat, ← field_nat, ← field_nat, ← field_nat, ← e5, ← field_nat_default, ← field_nat_default, ← field_bool_default]
  unfold readMetadata
  simp only [fields, Option.bind_eq_bind, Option.bind_some, Option.bind_eq_some_iff]
  constructor
  · rintro ⟨a1, h1, a2, h2, a3, h3, a4, h4, a5, h5, a6, h6, a7, h7, a8, h8, h⟩
    cases h
    exact ⟨h1, h2, h3, h4, h5, h6, h7, h8⟩
  · rintro ⟨h1, h2, h3, h4, h5, h6, h7, h8⟩
    exact ⟨_, h1, _, h2, _, h3, _, h4, _, h5, _, h6, _, h7, _, h8, rfl⟩

theorem readProject_iff (l : List (List Char × J R)) (p : Project) :
    readProject (.obj l) = some p ↔ ProjectIn l p := by
  unfold ProjectIn
  have hs : ∀ (key : String) (s : List Char), field key readStr none l = some s ↔ HasMember l key (.str s) := by
    intro key s
    rw [field_iff]
    constructor
    · rintro (⟨_, h⟩ | ⟨v, hv, h⟩)
      · cases h
      · rw [(readStr_iff v s).1 h] at hv; exact hv
    · intro hv; exact .inr ⟨_, hv, rfl⟩
  have ho : field "model" (readOpt readStr) (some none) l = some p.model ↔ MayHaveText l "model" p.model := by
    unfold MayHaveText
    rw [field_iff]
    constructor
    · rintro (⟨h, h1⟩ | ⟨v, hv, h⟩)
      · rw [← Option.some.inj h1]
        exact .inl h
      · rcases (readOpt_str_iff v _).1 h with ⟨rfl, hm⟩ | ⟨n, hm, rfl⟩
        · rw [hm]; exact .inr hv
        · rw [hm]; exact hv
    · cases p.model with
      | none =>
        rintro (h | h)
        · exact .inl ⟨h, rfl⟩
        · exact .inr ⟨_, h, rfl⟩
      | some n =>
        intro hv
        exact .inr ⟨_, hv, rfl⟩
  rw [← hs, ← hs, ← ho]
  unfold readProject
  simp only [fields, Option.bind_eq_bind, Option.bind_some, Option.bind_eq_some_iff]
  constructor
  · rintro ⟨a1, h1, a2, h2, a3, h3, h⟩
    cases h
    exact ⟨h1, h2, h3⟩
  · rintro ⟨h1, h2, h3⟩
    exact ⟨_, h1, _, h2, _, h3, rfl⟩

end NextPlaid.Records
