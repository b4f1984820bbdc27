import Verif.Proofs.Words
import Verif.Props.Store

/-!
Property theorems C91: the words by which a metadata value is found, when it is added and after the keyword index has been filled from the
tables again.

`valueWords A N all v`: the words of the texts, numbers and Booleans in `v` and, if `all`, also the words of the keys of objects and `null`.
`(env A N).parts v` is what is indexed for a value that is added, `(env A N).colParts ((sql N).cell ty v)` what is indexed for it when it is
read from its column of type `ty`.
-/

namespace NextPlaid.Props
open NextPlaid NextPlaid.Index NextPlaid.Spec NextPlaid.Db NextPlaid.Words
open NextPlaid.JsonText (J)

namespace ToyWords

/-- ASCII only. -/
def letters : Letters := ⟨fun _ => false, fun _ => none⟩

/-- A number in tenths, printed with its fraction. -/
def shows (r : Int) : List Char := JsonText.showInt (r / 10) ++ '.' :: JsonText.showInt (r % 10)

/-- A text of digits as a number. -/
def digits (s : List Char) : Option (Int ⊕ Int) :=
  if s ≠ [] ∧ s.all Char.isDigit = true then some (.inl (s.foldl (fun n c => 10 * n + (c.toNat - 48 : Nat)) 0)) else none

/-- Numbers are counted in tenths; `f64::to_string` prints a whole number without a fraction. -/
@[reducible] def nums : Numbers Int where
  real := ⟨fun r => some (shows r), fun _ => none, fun i => 10 * i⟩
  lite := { ofInt := fun i => 10 * i, asInt := fun r => if r % 10 = 0 then some (r / 10) else none, finite := fun _ => true
            showReal := shows, showInt := JsonText.showInt, parse := digits }
  display := fun r => if r % 10 = 0 then JsonText.showInt (r / 10) else shows r

theorem digits_none {c : Char} (h : c.isDigit = false) (s : List Char) : digits (c :: s) = none := by
  unfold digits
  rw [if_neg]
  rintro ⟨_, h'⟩
  rw [List.all_cons, h] at h'
  cases h'

theorem lawful : LawfulNumbers nums where
  noNumber := fun s => ⟨digits_none (c := '[') rfl s, digits_none (c := '{') rfl s⟩
  decimal := fun _ => rfl
  exact := by
    intro i _ _
    refine ⟨rfl, ?_⟩
    show (if (10 * i) % 10 = 0 then JsonText.showInt (10 * i / 10) else _) = _
    rw [if_pos (by omega)]
    congr 1
    omega

/-- A text. -/
abbrev t (s : String) : J Int := .str s.toList

/-- The words of a value that is added, as strings. -/
def added (v : J Int) : List String := ((env letters nums).parts v).map String.ofList

/-- The words of a value that is read from a column. -/
def reread (ty : Json.Ty) (v : J Int) : List String := ((env letters nums).colParts ((sql nums).cell ty v)).map String.ofList

/-- A store. -/
abbrev St := Store Toy (env letters nums)

/-- The postings, as strings. -/
def postings (s : St) : Option (List (Int × String)) := s.fts.map fun f => f.index.map fun p => (p.1, String.ofList p.2)

theorem ok_pair {α : Type} (r : St × Res α) (h : r.2.isOk = true) : r = (r.1, .ok (okVal r.2 h)) :=
  Prod.ext rfl (okVal_eq r.2 h)

end ToyWords

variable {R : Type} {A : Letters} {N : Numbers R}

/-! ### One value -/

/-- The words of parts that are joined by spaces are the words of the parts (this is what makes a word a part of the model). -/
theorem C91_joined (A : Letters) (ps : List (List Char)) : words A ([' '].intercalate ps) = ps.flatMap (words A) := words_join A ps

example : words ToyWords.letters "Parse_request(2)".toList = ["parse".toList, "request".toList, "2".toList] := by decide +kernel

/-- C91: a value that is added is found by the words of its texts, numbers and Booleans, at any depth, and by nothing else. -/
theorem C91_added (A : Letters) (N : Numbers R) (v : J R) : words A (metadataText N v) = valueWords A N false v := added_words A N v

example : ToyWords.added (.obj [("k".toList, .arr [ToyWords.t "Foo bar", .int (-7), .null]), ("b".toList, .bool true)]) =
    ["foo", "bar", "7", "true"] := by decide +kernel

/-- C91: an array or object without control characters, read from its column of any type, is found by these words, by the words of its
keys, and by `null` where it has a null. -/
theorem C91_reread (hN : LawfulNumbers N) (ty : Json.Ty) {v : J R} (hv : Tree v) (h1 : OneLine v) :
    (env A N).colParts ((sql N).cell ty v) = valueWords A N true v := tree_words A N hN ty hv h1

example : ToyWords.reread .blob (.obj [("k".toList, .arr [ToyWords.t "Foo \"bar\"", .int (-7), .null]), ("b".toList, .bool true)]) =
    ["k", "foo", "bar", "7", "null", "b", "true"] := by decide +kernel

/-- C91: so it loses no word, and the others keep their order. -/
theorem C91_nothing_lost (hN : LawfulNumbers N) (ty : Json.Ty) {v : J R} (hv : Tree v) (h1 : OneLine v) :
    (words A (metadataText N v)).Sublist ((env A N).colParts ((sql N).cell ty v)) := by
  rw [C91_added, C91_reread hN ty hv h1]
  exact value_sublist A N v

/-- C91: a steady value (see the specification) is found by the same words, in the same order, whatever column it was stored in. -/
theorem C91_steady (hN : LawfulNumbers N) (ty : Json.Ty) {v : J R} (h : Steady A N v) :
    (env A N).colParts ((sql N).cell ty v) = words A (metadataText N v) := steady_words A N hN ty h

example : Steady ToyWords.letters ToyWords.nums (.arr [ToyWords.t "a b", .arr [.int 3, .bool false], ToyWords.t "say \"c\""]) ∧
    Steady ToyWords.letters ToyWords.nums (ToyWords.t "line one\nline two") ∧ Steady ToyWords.letters ToyWords.nums (.real 15) ∧
    ToyWords.reread .integer (.arr [ToyWords.t "a b", .arr [.int 3, .bool false], ToyWords.t "say \"c\""]) =
      ["a", "b", "3", "false", "say", "c"] := by
  refine ⟨⟨by simp [NoKeysItems, NoKeys], ?_⟩, ToyWords.digits_none (c := 'l') rfl "ine one\nline two".toList, ?_, by decide +kernel⟩
  · simp only [OneLineItems, OneLine]
    decide +kernel
  · exact ⟨rfl, by decide +kernel, _, rfl, by decide +kernel, by decide +kernel⟩

/-! ### Disagreements -/

/-- A Boolean is indexed as `true` or `false`, and as `1` or `0` once it is read from its column
(/repo/next-plaid/src/text_search.rs:283 and 651-660). -/
theorem C91_bool (b : Bool) (hN : LawfulNumbers N) (ty : Json.Ty) :
    words A (metadataText N (.bool b)) = [if b then ['t', 'r', 'u', 'e'] else ['f', 'a', 'l', 's', 'e']] ∧
    (env A N).colParts ((sql N).cell ty (.bool b)) = [[if b then '1' else '0']] := by
  constructor
  · rw [C91_added]
    cases b <;> rfl
  · have e : (sql N).cell ty (.bool b) = (sql N).cell ty (.int (if b then 1 else 0)) := by
      cases b <;> cases ty <;> rfl
    rw [e, int_words A N hN ty (by cases b <;> decide) (by cases b <;> decide)]
    cases b <;> rfl

/-- A line break inside an array or object becomes the two characters `\n` in the column: the word after it is no longer found, and a
word that is not in the value is. -/
theorem C91_line_break : ToyWords.added (.arr [ToyWords.t "one\ntwo"]) = ["one", "two"] ∧
    ToyWords.reread .blob (.arr [ToyWords.t "one\ntwo"]) = ["one", "ntwo"] := by decide +kernel

/-- A key of a nested object is not indexed when the row is added, and is once it is read. -/
theorem C91_key : ToyWords.added (.obj [("author".toList, ToyWords.t "kim")]) = ["kim"] ∧
    ToyWords.reread .blob (.obj [("author".toList, ToyWords.t "kim")]) = ["author", "kim"] := by decide +kernel

/-- A floating point number without a fraction loses its last digit, and a text of digits in a column of integers its leading zeros. -/
theorem C91_digits : ToyWords.added (.real 20) = ["2", "0"] ∧ ToyWords.reread .real (.real 20) = ["2"] ∧
    ToyWords.added (ToyWords.t "007") = ["007"] ∧ ToyWords.reread .integer (ToyWords.t "007") = ["7"] := by decide +kernel

/-! ### Histories -/

/-- C91, for rows of steady values and the `unicode61` tokenizer: after every history of additions, deletions and conditional changes a
word finds document `i` exactly when it is a word of a text, number or Boolean in the current metadata of document `i`.  Without `steady`
the property fails: see the theorems above. -/
theorem C91_history_partial {E : Env} (hE : E.Lawful) (hN : LawfulNumbers N) {s : Store E (env A N)} {rows}
    (h : Together (· = .unicode61) (SteadyRow A N) s rows) (id : Int) (w : List Char) :
    (∃ g, s.fts = some g ∧ (id, w) ∈ g.index) ↔
      ∃ (i : Nat) (doc : List E.Row) (it : Item (sql N)), id = i ∧ rows[i]? = some (doc, it) ∧
        ∃ key v, (key, v) ∈ it.getD [] ∧ w ∈ valueWords A N false v := by
  rw [C42_word_search_partial hE (sql_lawful N) (env_lawful A N) (tk := .unicode61) (by decide) (by intro ps w; simp)
    (together_plain A N hN h)]
  have e : ∀ v, (∃ p ∈ (env A N).parts v, w ∈ (env A N).toks .unicode61 [p]) ↔ w ∈ valueWords A N false v := by
    intro v
    rw [← added_words]
    simp
  constructor
  · rintro ⟨i, doc, it, h1, h2, key, v, h3, h4⟩
    exact ⟨i, doc, it, h1, h2, key, v, h3, (e v).1 h4⟩
  · rintro ⟨i, doc, it, h1, h2, key, v, h3, h4⟩
    exact ⟨i, doc, it, h1, h2, key, v, h3, (e v).2 h4⟩

/-- C91: documents that are added to an open index with `update_with_metadata` are not found by any word, although they are in the index
and in the metadata: whatever the history, the keyword index stays as it was (/repo/next-plaid/src/index.rs:1604-1630). -/
theorem C91_extended_not_found {E : Env} (hE : E.Lawful) (hN : LawfulNumbers N) {s s' : Store E (env A N)} {rows}
    (h : Together (· = .unicode61) (SteadyRow A N) s rows) {docs items cfg out} (hdocs : docs ≠ []) (hb : 0 < cfg.batchSize)
    (he : Store.extend s docs items cfg = (s', .ok out)) :
    out = idsFrom rows.length docs.length ∧ ∀ id ∈ out, ∀ w, ¬ ∃ g, s'.fts = some g ∧ (id, w) ∈ g.index := by
  obtain ⟨h1, _⟩ := together_inv hE (sql_lawful N) h
  obtain ⟨hf, ho⟩ := extend_ok hE h1 hdocs hb he
  rw [List.length_map] at ho
  refine ⟨ho, ?_⟩
  intro id hid w hw
  rw [hf, C91_history_partial hE hN h] at hw
  obtain ⟨i, doc, it, rfl, hi, _⟩ := hw
  have := (List.getElem?_eq_some_iff.1 hi).1
  rw [ho] at hid
  obtain ⟨j, _, hj⟩ := List.mem_map.1 hid
  omega

namespace ToyWords

/-- Two rows with a text, an integer and an array; the first is deleted, so the keyword index is filled again. -/
def r1 : Item (sql nums) := some [("a", t "Old one"), ("n", .int 1)]
def r2 : Item (sql nums) := some [("a", t "New one"), ("n", .int 42), ("tags", .arr [t "x y", .int 3])]
def s1 : St × Res (List Int) := Store.add {} [[1], [2]] [r1, r2] toyCfg .unicode61
def s2 : St × Res Nat := s1.1.delete [0]
def s3 : St × Res (List Int) := Store.extend s2.1 [[4]] [some [("a", t "late")]] toyCfg

theorem steadyRows : ∀ it ∈ [r1, r2], SteadyRow letters nums it := by
  intro it hit
  simp only [List.mem_cons, List.not_mem_nil, or_false] at hit
  rcases hit with rfl | rfl
  · refine ⟨by decide, ?_⟩
    intro p hp
    simp only [r1, Option.getD_some, List.mem_cons, List.not_mem_nil, or_false] at hp
    rcases hp with rfl | rfl
    · exact digits_none (c := 'O') rfl "ld one".toList
    · exact ⟨by decide, by decide⟩
  · refine ⟨by decide, ?_⟩
    intro p hp
    simp only [r2, Option.getD_some, List.mem_cons, List.not_mem_nil, or_false] at hp
    rcases hp with rfl | rfl | rfl
    · exact digits_none (c := 'N') rfl "ew one".toList
    · exact ⟨by decide, by decide⟩
    · exact ⟨by simp [NoKeysItems, NoKeys], by simp only [OneLineItems, OneLine]; decide +kernel⟩

theorem history : Together (E := Toy) (· = .unicode61) (SteadyRow letters nums) s2.1
    (deleteIds [0] ([] ++ ([[1], [2]] : List (List Nat)).zip [r1, r2])) := by
  refine .delete (.add .start ?_ ?_ rfl steadyRows (ok_pair s1 (by decide +kernel))) ?_ (ok_pair s2 (by decide +kernel))
  · decide
  · decide
  · decide

end ToyWords

example : (ToyWords.postings ToyWords.s2.1).map (·.Perm [(0, "new"), (0, "one"), (0, "42"), (0, "x"), (0, "y"), (0, "3")]) = some True := by
  have e : ToyWords.postings ToyWords.s2.1 = some [(0, "new"), (0, "one"), (0, "42"), (0, "x"), (0, "y"), (0, "3")] := by decide +kernel
  rw [e]
  simp

/-- The hypotheses of `C91_extended_not_found` are met. -/
example : ∃ out, Store.extend ToyWords.s2.1 [[4]] [some [("a", ToyWords.t "late")]] toyCfg = (ToyWords.s3.1, .ok out) ∧ out = [1] ∧
    ToyWords.postings ToyWords.s3.1 = ToyWords.postings ToyWords.s2.1 :=
  ⟨_, ToyWords.ok_pair ToyWords.s3 (by decide +kernel), by decide +kernel, by decide +kernel⟩

end NextPlaid.Props
