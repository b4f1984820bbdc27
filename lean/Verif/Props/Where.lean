import Verif.Proofs.Where
import Verif.Props.Condition
import Verif.Props.Db

/-!
C88: a filter selects exactly the rows for which its condition is true.

The condition is the reading of its text in the documented grammar (there is only one, `C25_one_reading`), its truth
is SQL's (`Spec/Where.lean`), and the rows are those of the listing. `plan` is any order in which SQLite visits rows
and `conn` any state of the connection.
-/

namespace NextPlaid.Props
open NextPlaid NextPlaid.Db NextPlaid.Condition NextPlaid.Spec NextPlaid.Where NextPlaid.Proofs.Condition

section
variable {S : Sql} {U : Uni} {t : Tables S} {rows : List (Item S)} {text : List Char} {c : Cond}

/-- C88: a condition without `REGEXP` that is accepted, with one value per placeholder, selects exactly the rows of
the listing where it is true. The column names must differ by more than case. -/
theorem C88_plain (hS : S.Lawful) (hA : U.Ascii) (h : Kept (some t) rows) (hg : GoodNames (columns (some t)))
    (hasc : IsAscii text) (hw : WellFormedCondition U (("_subset_" :: columns (some t)).map String.toList) text c)
    (hv : validateCondition U (("_subset_" :: columns (some t)).map String.toList) text = .ok ())
    (hno : c.regexps = []) (e : Engine S) (rx : S.V → S.V → Option Bool) (ps : List S.V) (hl : ps.length = c.width) :
    ∃ all, get id (some t) none none = .ok all ∧ ∀ conn plan, (∀ l, (plan l).Perm l) →
      Answers (Where.whereCondition U e conn plan (some t) text c ps) (trueAt e rx c ps all) := by
  obtain ⟨P, hP, rfl⟩ := kept_rep hS h
  refine ⟨_, get_all hP id, fun conn plan hplan => ?_⟩
  have hq := query_answers hA e conn plan hplan hP (kept_colsOk h t rfl) hg
    (fun n hn => validName_ascii (kept_names h t rfl n hn)) hasc hw ps hl rx (by simp [hno]) (by simp [hno])
  have hv' : validateCondition U (schemaColumns t) text = .ok () := hv
  unfold Where.whereCondition
  simp only [hv']
  exact hq

/-- C88, partial: the same for a condition with `REGEXP`, provided that every pattern is the first parameter and that
the columns tested are text in every row. Missing: other patterns (`C88_other_patterns`), other places for the
pattern (`C88_first_parameter`), and rows without text (`C88_no_text`). -/
theorem C88_regexp_partial (hS : S.Lawful) (hA : U.Ascii) (h : Kept (some t) rows) (hg : GoodNames (columns (some t)))
    (hasc : IsAscii text) (hw : WellFormedCondition U (("_subset_" :: columns (some t)).map String.toList) text c)
    (hv : validateCondition U (("_subset_" :: columns (some t)).map String.toList) text = .ok ())
    (e : Engine S) (compile : Compile) (p : S.V) (ps : List S.V) (hl : (p :: ps).length = c.width)
    {s : List Char} {hit : List Char → Bool} (hs : e.text p = some s) (hc : compile s = some hit)
    (hpat : ∀ q ∈ c.patterns (p :: ps), q = p) :
    ∃ all, get id (some t) none none = .ok all ∧ ((∀ r ∈ all, ∀ n ∈ c.regexps, (e.text (r.at e n)).isSome) →
      ∀ conn plan, (∀ l, (plan l).Perm l) →
        Answers (whereConditionRegexp U e compile conn plan (some t) text c (p :: ps)).2
          (trueAt e (regexpTruth e compile) c (p :: ps) all)) := by
  obtain ⟨P, hP, rfl⟩ := kept_rep hS h
  refine ⟨_, get_all hP id, fun htext conn plan hplan => ?_⟩
  have hq := query_answers hA e (some hit) plan hplan hP (kept_colsOk h t rfl) hg
    (fun n hn => validName_ascii (kept_names h t rfl n hn)) hasc hw (p :: ps) hl (regexpTruth e compile) (fun _ => rfl) (by
      intro r hr n hn q hq
      obtain ⟨x, hx⟩ := Option.isSome_iff_exists.1 (htext r hr n hn)
      rw [hpat q hq]
      unfold callRegexp regexpTruth
      rw [hs, hx, Option.bind_some, hc])
  have hv' : validateCondition U (schemaColumns t) text = .ok () := hv
  unfold whereConditionRegexp
  simp only [List.head?_cons, Option.bind_some, hs, hc, hv']
  exact hq

/-- C88 fails: only the first parameter counts as a pattern. Two calls whose values differ only in other patterns get
the same answer. -/
theorem C88_other_patterns (U : Uni) (e : Engine S) (compile : Compile) (conn : Conn) (plan) (db : Option (Tables S))
    (text : List Char) (c : Cond) (p : S.V) (ps qs : List S.V) (hl : ps.length = qs.length)
    (h : c.SameButPatterns e (p :: ps) (p :: qs)) :
    whereConditionRegexp U e compile conn plan db text c (p :: ps) = whereConditionRegexp U e compile conn plan db text c (p :: qs) := by
  unfold whereConditionRegexp
  cases db with
  | none => rfl
  | some t =>
    simp only [List.head?_cons, Option.bind_some]
    cases (e.text p).bind compile with
    | none => rfl
    | some hit =>
      simp only
      rw [query_patterns U e (some hit) plan t text c (p :: ps) (p :: qs) (by simp [hl]) h]

/-- C88 fails: the pattern stays behind on the connection. When a query with `REGEXP` has been answered, the plain
function answers the same condition with any other patterns in the same way, whatever plain queries are made in
between. -/
theorem C88_pattern_stays (U : Uni) (e : Engine S) (compile : Compile) (conn : Conn) (plan) (db : Option (Tables S))
    (text : List Char) (c : Cond) (ps qs : List S.V) (ids : List Int)
    (h1 : (whereConditionRegexp U e compile conn plan db text c ps).2 = .ok ids)
    (between : List (Call S)) (hb : ∀ k ∈ between, ∃ text c ps, k = .plain text c ps)
    (hl : ps.length = qs.length) (h : c.SameButPatterns e ps qs) :
    Where.whereCondition U e (between.foldl (step U e compile plan db) (step U e compile plan db conn (.regexp text c ps)))
      plan db text c qs = .ok ids := by
  have hbet : ∀ k : Conn, between.foldl (step U e compile plan db) k = k := by
    intro k
    induction between with
    | nil => rfl
    | cons b bs ih =>
      rw [List.foldl_cons]
      obtain ⟨_, _, _, rfl⟩ := hb b List.mem_cons_self
      exact ih fun k hk => hb k (List.mem_cons_of_mem _ hk)
  rw [hbet]
  unfold step
  simp only
  unfold whereConditionRegexp at h1 ⊢
  cases db with
  | none => cases h1
  | some t =>
    simp only at h1 ⊢
    cases hh : (ps.head?.bind e.text).bind compile with
    | none => rw [hh] at h1; cases h1
    | some hit =>
      rw [hh] at h1
      simp only at h1 ⊢
      unfold Where.whereCondition
      simp only
      cases hv : validateCondition U (schemaColumns t) text with
      | error f => rw [hv] at h1; cases h1
      | ok u =>
        rw [hv] at h1
        simp only at h1 ⊢
        rw [← query_patterns U e (some hit) plan t text c ps qs hl h]
        exact h1

/-- C88 fails: on a connection where no query with `REGEXP` was made, the plain function accepts no condition with
`REGEXP`. -/
theorem C88_unregistered (U : Uni) (e : Engine S) (plan) (db : Option (Tables S)) (text : List Char) (c : Cond)
    (ps : List S.V) (h : c.regexps ≠ []) : (Where.whereCondition U e none plan db text c ps).isOk = false := by
  unfold Where.whereCondition
  cases db with
  | none => rfl
  | some t =>
    simp only
    cases validateCondition U (schemaColumns t) text with
    | error f => rfl
    | ok u =>
      simp only
      unfold query
      generalize (if mentionsFat U t text = true then joinSource e t else thinSource e t) = src
      unfold select
      split
      · rfl
      · rw [if_pos]
        · rfl
        · rw [(callsRegexp_iff c).2 h]
          rfl

/-- C88 fails: one row whose column is not text makes the query fail, although the test is merely not true there. -/
theorem C88_no_text (hS : S.Lawful) (hA : U.Ascii) (h : Kept (some t) rows) (hg : GoodNames (columns (some t)))
    (hasc : IsAscii text) {neg : Bool} {n : List Char}
    (hw : WellFormedCondition U (("_subset_" :: columns (some t)).map String.toList) text (.test (.regexp neg n)))
    (e : Engine S) (compile : Compile) (conn : Conn) (plan) (hplan : ∀ l, (plan l).Perm l) (ps : List S.V)
    {all : List (OutRow S)} (hall : get id (some t) none none = .ok all) (hr : ∃ r ∈ all, e.text (r.at e n) = none) :
    (whereConditionRegexp U e compile conn plan (some t) text (.test (.regexp neg n)) ps).2.isOk = false := by
  obtain ⟨P, hP, rfl⟩ := kept_rep hS h
  rw [get_all hP id] at hall
  cases hall
  obtain ⟨src, h1, h2, h3⟩ := query_source hA e hP (kept_colsOk h t rfl) hg
    (fun n hn => validName_ascii (kept_names h t rfl n hn)) hasc hw
  unfold whereConditionRegexp
  simp only
  cases (ps.head?.bind e.text).bind compile with
  | none => rfl
  | some hit =>
    simp only
    cases validateCondition U (schemaColumns t) text with
    | error f => rfl
    | ok u =>
      simp only
      rw [h1]
      unfold select
      split
      · rfl
      · split
        · rfl
        · split
          · rfl
          · refine selectRows_fails e _ _ _ _ ?_
            obtain ⟨r, hr, hn⟩ := hr
            obtain ⟨row, hrow, hst⟩ := forall₂_mem_right h3 r hr
            refine ⟨row, (hplan _).mem_iff.2 hrow, ?_⟩
            have := hst.2 n (by simp [Cond.columns, Test.column])
            cases ps with
            | nil => rfl
            | cons p ps =>
              simp only [eval, evalTest, next, bind, Except.bind]
              unfold callRegexp
              rw [this, hn]
              cases e.text p <;> rfl

/-- C88: the number of values must be the number of placeholders. -/
theorem C88_count (U : Uni) (e : Engine S) (conn : Conn) (plan) (db : Option (Tables S)) (text : List Char) (c : Cond)
    (ps : List S.V) (h : ps.length ≠ c.width) : (Where.whereCondition U e conn plan db text c ps).isOk = false := by
  unfold Where.whereCondition
  cases db with
  | none => rfl
  | some t =>
    simp only
    cases validateCondition U (schemaColumns t) text with
    | error f => rfl
    | ok u =>
      simp only
      unfold query
      generalize (if mentionsFat U t text = true then joinSource e t else thinSource e t) = src
      unfold select
      split
      · rfl
      · split
        · rfl
        · rw [if_pos (by rw [placeholders_eq]; exact h)]
          rfl

/-- C88: a refused condition is an error, and an index without metadata has no rows to select. -/
theorem C88_refused (U : Uni) (e : Engine S) (conn : Conn) (plan) (text : List Char) (c : Cond) (ps : List S.V) :
    (Where.whereCondition U e conn plan (none : Option (Tables S)) text c ps).isOk = false ∧
    ∀ t : Tables S, (validateCondition U (("_subset_" :: columns (some t)).map String.toList) text).isOk = false →
      (Where.whereCondition U e conn plan (some t) text c ps).isOk = false := by
  refine ⟨rfl, fun t h => ?_⟩
  unfold Where.whereCondition
  simp only
  have : (validateCondition U (schemaColumns t) text).isOk = false := h
  cases hv : validateCondition U (schemaColumns t) text with
  | error f => rfl
  | ok u => rw [hv] at this; cases this

/-- C88 fails: the store accepts two columns whose names differ only in case; no condition on them can be
evaluated. -/
theorem C88_case_twins (hA : U.Ascii) (h : Kept (some t) rows) {a b : String}
    (ha : a ∈ columns (some t)) (hb : b ∈ columns (some t)) (hne : a ≠ b) (hab : SameName a b)
    (hasc : IsAscii text) (hw : WellFormedCondition U (("_subset_" :: columns (some t)).map String.toList) text c)
    {n : List Char} (hn : n ∈ c.columns) (hna : SameColumn a.toList n) (e : Engine S) (conn : Conn) (plan) (ps : List S.V) :
    (Where.whereCondition U e conn plan (some t) text c ps).isOk = false := by
  have hnb : SameColumn b.toList n := hab.symm.trans hna
  obtain ⟨ts, hsp, hsay, _⟩ := hw
  have hcont := spells_contains hsp n (columns_ident hsay n hn)
  have hasci : ∀ x ∈ columns (some t), IsAscii x.toList := fun x hx => validName_ascii (kept_names h t rfl x hx)
  unfold Where.whereCondition
  simp only
  cases validateCondition U (schemaColumns t) text with
  | error f => rfl
  | ok u =>
    simp only
    unfold query
    have key : ∀ src : Source S, resolves src.cols n = false → (select e conn plan src c ps).isOk = false := by
      intro src hr
      unfold select
      rw [if_pos]
      · rfl
      · rw [Bool.not_eq_true', List.all_eq_false]
        exact ⟨n, hn, by simp [hr]⟩
    by_cases hm : mentionsFat U t text = true
    · rw [if_pos hm]
      refine key _ (resolves_twins (a := a) (b := b) ?_ ?_ hne hna hnb)
      · unfold joinSource
        rcases List.mem_append.1 ha with h | h <;> simp only [List.cons_append, List.mem_cons, List.mem_append, h] <;> simp
      · unfold joinSource
        rcases List.mem_append.1 hb with h | h <;> simp only [List.cons_append, List.mem_cons, List.mem_append, h] <;> simp
    · rw [if_neg hm]
      have hthin : ∀ x ∈ columns (some t), SameColumn x.toList n → x ∈ t.thinCols.map (·.1) := by
        intro x hx hs
        rcases List.mem_append.1 hx with h' | h'
        · exact h'
        · exact absurd (mentionsFat_of hA hasc hcont h' (hasci x hx) hs) hm
      refine key _ (resolves_twins (a := a) (b := b) ?_ ?_ hne hna hnb)
      · exact List.mem_cons_of_mem _ (List.mem_cons_of_mem _ (hthin a ha hna))
      · exact List.mem_cons_of_mem _ (List.mem_cons_of_mem _ (hthin b hb hnb))

end

/-! ### A concrete store -/

namespace ToyWhere

/-- Values are texts or NULL. -/
@[reducible] def TextSql : Sql where
  V := Option (List Char)
  null := none
  isNull := Option.isNone
  Ty := Unit
  text := ()
  infer := fun _ => ()
  cell := fun _ v => v

theorem textSql_lawful : TextSql.Lawful := ⟨fun _ => rfl⟩

/-- Equality of texts, and everything else unknown; ids are shown by their length. -/
@[reducible] def engine : Engine TextSql where
  int := fun i => some (List.replicate i.toNat 'I')
  compare := fun _ op x y => match op, x, y with
    | .eq, some a, some b => some (a == b)
    | .ne, some a, some b => some (a != b)
    | _, _, _ => none
  like := fun _ _ => none
  text := id

/-- A pattern matches the texts that contain it. -/
@[reducible] def compile : Compile := fun p => some fun x => containsSub p x

def items : List (Item TextSql) :=
  [some [("name", some ['f']), ("code", some ['x', 'f'])], some [("name", some ['g']), ("code", some ['f'])],
    some [("name", none), ("code", some ['y'])]]

def store : Option (Tables TextSql) := (okVal (create items (idsFrom 0 3)) (by decide +kernel)).1

def tables : Tables TextSql := store.getD ⟨[], [], [], []⟩

theorem kept : Kept (some tables) items := Kept.create (n := 3) (by
  show create items (idsFrom 0 3) = .ok (some tables, 3)
  rfl)

theorem good : GoodNames (columns (some tables)) := by
  have : columns (some tables) = ["name", "code"] := rfl
  rw [this]
  unfold GoodNames SameName
  decide +kernel

/-- `Name = ?` -/
def plainText : List Char := ['N', 'a', 'm', 'e', ' ', '=', ' ', '?']

def plainCond : Cond := .test (.compare ['N', 'a', 'm', 'e'] .eq)

/-- `name = ? AND code REGEXP ?` -/
def mixedText : List Char := ['n', 'a', 'm', 'e', ' ', '=', ' ', '?', ' ', 'A', 'N', 'D', ' ', 'c', 'o', 'd', 'e', ' ', 'R', 'E', 'G', 'E', 'X', 'P', ' ', '?']

def mixedCond : Cond := .conj (.test (.compare ['n', 'a', 'm', 'e'] .eq)) (.test (.regexp false ['c', 'o', 'd', 'e']))

/-- `code REGEXP ?` -/
def regexpText : List Char := ['c', 'o', 'd', 'e', ' ', 'R', 'E', 'G', 'E', 'X', 'P', ' ', '?']

def regexpCond : Cond := .test (.regexp false ['c', 'o', 'd', 'e'])

/-- `name REGEXP ?` -/
def nameText : List Char := ['n', 'a', 'm', 'e', ' ', 'R', 'E', 'G', 'E', 'X', 'P', ' ', '?']

def nameCond : Cond := .test (.regexp false ['n', 'a', 'm', 'e'])

theorem spells {text : List Char} {ts : List Token} (h : tokenize asciiUni text = .ok (ts ++ [.eof])) : Spells asciiUni text ts := by
  obtain ⟨us, e, hs⟩ := tokenizeFrom_sound asciiUni_lawful _ _ _ h
  have : ts = us := by simpa using e
  rw [this]
  exact hs

theorem cols_eq : ("_subset_" :: columns (some tables)).map String.toList =
    ["_subset_".toList, ['n', 'a', 'm', 'e'], ['c', 'o', 'd', 'e']] := by decide +kernel

theorem plain_wf : WellFormedCondition asciiUni (("_subset_" :: columns (some tables)).map String.toList) plainText plainCond := by
  refine ⟨[.ident ['N', 'a', 'm', 'e'], .eq, .placeholder], spells (by decide +kernel),
    .single (.one (.plain (.test (.compare ['N', 'a', 'm', 'e'] .eq)))), ?_⟩
  rw [cols_eq]
  unfold Named
  decide +kernel

theorem regexp_wf : WellFormedCondition asciiUni (("_subset_" :: columns (some tables)).map String.toList) regexpText regexpCond := by
  refine ⟨[.ident ['c', 'o', 'd', 'e'], .regexp, .placeholder], spells (by decide +kernel),
    .single (.one (.plain (.test (.regexp false ['c', 'o', 'd', 'e'])))), ?_⟩
  rw [cols_eq]
  unfold Named
  decide +kernel

theorem name_wf : WellFormedCondition asciiUni (("_subset_" :: columns (some tables)).map String.toList) nameText nameCond := by
  refine ⟨[.ident ['n', 'a', 'm', 'e'], .regexp, .placeholder], spells (by decide +kernel),
    .single (.one (.plain (.test (.regexp false ['n', 'a', 'm', 'e'])))), ?_⟩
  rw [cols_eq]
  unfold Named
  decide +kernel

theorem mixed_wf : WellFormedCondition asciiUni (("_subset_" :: columns (some tables)).map String.toList) mixedText mixedCond := by
  refine ⟨[.ident ['n', 'a', 'm', 'e'], .eq, .placeholder] ++ .and :: [.ident ['c', 'o', 'd', 'e'], .regexp, .placeholder],
    spells (by decide +kernel),
    .single (.and (.plain (.test (.compare ['n', 'a', 'm', 'e'] .eq))) (.one (.plain (.test (.regexp false ['c', 'o', 'd', 'e']))))), ?_⟩
  rw [cols_eq]
  unfold Named
  decide +kernel

/-- `Name = ?` with the value `f` selects row 0, which holds its name under `name`. -/
example : Answers (Where.whereCondition asciiUni engine none id (some tables) plainText plainCond [some ['f']]) [0] := by
  obtain ⟨all, h1, h2⟩ := C88_plain textSql_lawful asciiUni_ascii kept good (by unfold IsAscii; decide +kernel) plain_wf
    (by rw [cols_eq]; decide +kernel) rfl engine (fun _ _ => none) [some ['f']] rfl
  have := h2 none id (fun l => .refl l)
  cases h1
  exact this

/-- `code REGEXP ?` with the value `f` selects rows 0 and 1. -/
example : Answers (whereConditionRegexp asciiUni engine compile none id (some tables) regexpText regexpCond [some ['f']]).2 [0, 1] := by
  obtain ⟨all, h1, h2⟩ := C88_regexp_partial textSql_lawful asciiUni_ascii kept good (by unfold IsAscii; decide +kernel) regexp_wf
    (by rw [cols_eq]; decide +kernel) engine compile (some ['f']) [] rfl (s := ['f']) rfl rfl (by
      intro q hq
      exact List.mem_singleton.1 hq)
  have := h2
  cases h1
  exact this (by decide +kernel) none id fun l => .refl l

/-- The name is NULL in row 2: `name REGEXP ?` fails. -/
example : (whereConditionRegexp asciiUni engine compile none id (some tables) nameText nameCond [some ['f']]).2.isOk = false :=
  C88_no_text textSql_lawful asciiUni_ascii kept good (by unfold IsAscii; decide +kernel) name_wf engine compile none id
    (fun l => .refl l) [some ['f']] rfl (by decide +kernel)

/-- The pattern `f` stays: `code REGEXP ?` with `y`, asked of the plain function, selects the rows with `f`. -/
example : Where.whereCondition asciiUni engine (step asciiUni engine compile id (some tables) none
    (.regexp regexpText regexpCond [some ['f']])) id (some tables) regexpText regexpCond [some ['y']] = .ok [0, 1] :=
  C88_pattern_stays asciiUni engine compile none id (some tables) regexpText regexpCond [some ['f']] [some ['y']] [0, 1]
    (by decide +kernel) [] (by simp) rfl ⟨rfl, rfl⟩

end ToyWhere

open ToyWhere in
/-- C88 fails: with `name = ? AND code REGEXP ?` the value given for the name is the pattern, so a row is selected
whose code does not match the pattern given for it. -/
theorem C88_first_parameter : ∃ ps : List TextSql.V, ∃ all, get id (some tables) none none = .ok all ∧
    WellFormedCondition asciiUni (("_subset_" :: columns (some tables)).map String.toList) mixedText mixedCond ∧
    (whereConditionRegexp asciiUni engine compile none id (some tables) mixedText mixedCond ps).2 = .ok [0] ∧
    trueAt engine (regexpTruth engine compile) mixedCond ps all = [] :=
  ⟨[some ['f'], some ['z']], _, rfl, mixed_wf, by decide +kernel, by decide +kernel⟩

namespace ToyWhere

def twinItems : List (Item TextSql) := [some [("file", some ['a']), ("File", some ['b'])]]

def twins : Tables TextSql := ((okVal (create twinItems (idsFrom 0 1)) (by decide +kernel)).1).getD ⟨[], [], [], []⟩

theorem twins_kept : Kept (some twins) twinItems := Kept.create (n := 1) (by
  show create twinItems (idsFrom 0 1) = .ok (some twins, 1)
  rfl)

/-- `file = ?` fails when there are columns `file` and `File`. -/
example : (Where.whereCondition asciiUni engine none id (some twins) ['f', 'i', 'l', 'e', ' ', '=', ' ', '?']
    (.test (.compare ['f', 'i', 'l', 'e'] .eq)) [some ['a']]).isOk = false := by
  refine C88_case_twins (a := "file") (b := "File") asciiUni_ascii twins_kept (by decide +kernel) (by decide +kernel) (by decide)
    (by unfold SameName; decide +kernel) (by unfold IsAscii; decide +kernel) ?_ (n := ['f', 'i', 'l', 'e']) (by simp [Cond.columns, Test.column])
    (by decide +kernel) engine none id _
  refine ⟨[.ident ['f', 'i', 'l', 'e'], .eq, .placeholder], spells (by decide +kernel),
    .single (.one (.plain (.test (.compare ['f', 'i', 'l', 'e'] .eq)))), ?_⟩
  have : ("_subset_" :: columns (some twins)).map String.toList = ["_subset_".toList, ['f', 'i', 'l', 'e'], ['F', 'i', 'l', 'e']] := by
    decide +kernel
  rw [this]
  unfold Named
  decide +kernel

end ToyWhere

end NextPlaid.Props
