import Verif.Proofs.Fts2
import Verif.Props.Db
import Verif.Props.Index

/-!
Property theorems C24 and C42 (index, metadata and keyword index together).

`Spec.Together use good s rows`: the directory `s` results from successful add, delete and conditional
update calls with metadata on an empty directory; the same calls on a plain list of pairs
(document, metadata row) give `rows`.
-/

namespace NextPlaid.Props
open NextPlaid NextPlaid.Index NextPlaid.Spec NextPlaid.Db

variable {E : Env} {S : Sql} {T : TextEnv S}

/-! ### A concrete instance -/

/-- The text of a value is its remainder modulo 9, so it does not depend on the column type; the value
50 plays the part of `true`, whose text differs when read back.  `prep` adds sub-words. -/
@[reducible] def ToyText : TextEnv ToySql where
  Part := Int
  Tok := Int
  decTok := inferInstance
  parts := fun (v : Int) => if v = 0 then [] else if v = 50 then [77] else [v % 9]
  colParts := fun (v : Int) => if v = 0 then [] else [v % 9]
  toks := fun _ ps => ps
  prep := fun ps => ps ++ ps.map (· + 100)

theorem toyText_lawful : ToyText.Lawful where
  null_parts := rfl

/-- The state after a call. -/
abbrev ToyStore := Store Toy ToyText

/-- What a caller sees of a store: documents, metadata rows, keyword postings. -/
def toyStore (s : ToyStore) : Option (Nat × List (Option (List Nat))) ×
    Option (List (Int × List (String × Int))) × Option (List (Int × Int)) :=
  (toyShow (.ok s.disk), toyRows (get id s.db none none), s.fts.map (·.index))

/-- A call that succeeds, as a pair. -/
theorem pair_ok {α : Type} (r : ToyStore × Res α) (h : r.2.isOk = true) : r = (r.1, .ok (okVal r.2 h)) :=
  Prod.ext rfl (okVal_eq r.2 h)

/-! ### C24 -/

/-- C24: after any history of successful calls, with any tokenizers and any metadata rows, the index
holds exactly the documents of the list of pairs, in order, the metadata store lists exactly its
metadata rows, in order, and so document `i` and row `i` belong to the same pair; both stores hold the
same number of entries. -/
theorem C24_rows_belong_together (hE : E.Lawful) (hS : S.Lawful) {use good} {s : Store E T} {rows}
    (h : Together use good s rows) :
    Shows s.db (rows.map (·.2)) ∧ count s.db = rows.length ∧
    ((rows.map (·.1)).flatten ≠ [] →
      ∃ x, load s.disk = .ok x ∧ Holds x (rows.map (·.1)) ∧ x.numDocuments = count s.db) := by
  obtain ⟨h1, h2⟩ := together_inv hE hS h
  have hc : count s.db = rows.length := by
    revert h2
    cases s.db with
    | none =>
      intro h2
      have : rows.map (·.2) = [] := h2
      have : rows = [] := by simpa using this
      subst this
      rfl
    | some t =>
      rintro ⟨P, hP, hPe⟩
      show t.thin.length = _
      rw [hP.thin, thinFrom_length]
      simpa using congrArg List.length hPe
  refine ⟨shows_of_rep hS h2, hc, fun htok => ?_⟩
  rcases h1 with ⟨_, hd⟩ | hd
  · rw [hd] at htok; exact absurd rfl htok
  · obtain ⟨x, hx, hh, _⟩ := Idx.load hd.1 htok
    exact ⟨x, hx, hh, by rw [hh.1, hc, List.length_map]⟩

/-- C24: an addition returns the ids under which both stores then show the new pairs. -/
theorem C24_returned_ids (hE : E.Lawful) (hS : S.Lawful) {use good} {s : Store E T} {rows}
    (h : Together use good s rows) {docs items cfg tk s' ids} (hdocs : docs ≠ []) (hb : 0 < cfg.batchSize)
    (he : s.add docs items cfg tk = (s', .ok ids)) :
    ids = idsFrom rows.length docs.length ∧ items.length = docs.length := by
  obtain ⟨h1, _⟩ := together_inv hE hS h
  obtain ⟨hl, h2, _⟩ := add_ok hE h1 hdocs hb he
  rw [List.length_map] at h2
  exact ⟨h2, hl⟩

/-- C24: a deletion returns the number of pairs removed. -/
theorem C24_deleted_count (hE : E.Lawful) (hS : S.Lawful) {use good} {s : Store E T} {rows}
    (h : Together use good s rows) {ids s' n} (hid : ∀ x ∈ ids, 0 ≤ x) (he : s.delete ids = (s', .ok n)) :
    n = rows.length - (deleteIds ids rows).length := by
  obtain ⟨h1, _⟩ := together_inv hE hS h
  obtain ⟨d, _, h2, _⟩ := delete_ok h1 hid he
  rw [h2, deleteIds_map]
  simp

/-- The two adds, one delete from the middle and one conditional update of the example below. -/
def toyS1 : ToyStore × Res (List Int) :=
  Store.add {} [[1], [2, 2], [3]] [some [("a", 1)], some [("a", 2), ("b", 4)], some [("file", 5)]] toyCfg .unicode61
def toyS2 : ToyStore × Res Nat := toyS1.1.delete [0]
def toyS3 : ToyStore × Res (List Int) := toyS2.1.add [[4]] [some [("a", 6)]] toyCfg .unicode61
def toyS4 : ToyStore × Res Nat := toyS3.1.change true (fun r => r.value "a" == 2) [("b", 8)]

theorem toy_reread (ty : Nat) (v : Int) :
    (if (if ty = 1 then v else v * 10) = 0 then [] else [(if ty = 1 then v else v * 10) % 9]) =
    (if v = 0 then [] else [v % 9]) := by
  by_cases ht : ty = 1
  · rw [if_pos ht]
  · rw [if_neg ht]
    by_cases h0 : v = 0
    · rw [h0]; rfl
    · rw [if_neg h0, if_neg (by omega)]
      congr 1
      omega

theorem toy_plain (it : Item ToySql) (hn : ((it.getD []).map (·.1)).Nodup) (h : ∀ p ∈ it.getD [], p.2 ≠ 50) :
    PlainRow ToyText it := by
  refine ⟨hn, ?_⟩
  intro p hp ty
  have h50 := h p hp
  show (if (if ty = 1 then p.2 else p.2 * 10) = 0 then [] else [(if ty = 1 then p.2 else p.2 * 10) % 9]) =
    (if p.2 = 0 then [] else if p.2 = 50 then [77] else [p.2 % 9])
  rw [if_neg h50]
  exact toy_reread ty p.2

theorem toy_together : Together (E := Toy) (T := ToyText) (· = .unicode61) (PlainRow ToyText) toyS4.1
    (List.zipWith (fun r p => (p.1, if (r.value "a" == 2) && !([("b", (8 : Int))] : List (String × Int)).isEmpty
        then overwrite (S := ToySql) [("b", 8)] p.2 else p.2))
      (okVal (get id toyS3.1.db none none) (by decide +kernel))
      (deleteIds [0] ([] ++ ([[1], [2, 2], [3]] : List (List Nat)).zip
        ([some [("a", 1)], some [("a", 2), ("b", 4)], some [("file", 5)]] : List (Item ToySql))) ++
        ([[4]] : List (List Nat)).zip ([some [("a", 6)]] : List (Item ToySql)))) := by
  refine .change (.add (.delete (.add .start ?_ ?_ rfl ?_ (pair_ok toyS1 (by decide +kernel))) ?_
    (pair_ok toyS2 (by decide +kernel))) ?_ ?_ rfl ?_ (pair_ok toyS3 (by decide +kernel)))
    (okVal_eq _ (by decide +kernel)) ?_ (pair_ok toyS4 (by decide +kernel))
  · decide
  · decide
  · intro it hit
    simp only [List.mem_cons, List.not_mem_nil, or_false] at hit
    rcases hit with rfl | rfl | rfl <;> exact toy_plain _ (by decide) (by decide)
  · decide
  · decide
  · decide
  · intro it hit
    simp only [List.mem_cons, List.not_mem_nil, or_false] at hit
    rcases hit with rfl
    exact toy_plain _ (by decide) (by decide)
  · rintro it ⟨h1, h2⟩
    refine ⟨?_, ?_⟩
    · unfold overwrite
      simp only [Option.getD_some, List.map_append, List.map_cons, List.map_nil, List.singleton_append,
        List.nodup_cons]
      refine ⟨?_, h1.sublist (List.filter_sublist.map _)⟩
      intro hm
      obtain ⟨p, hp, he⟩ := List.mem_map.1 hm
      have := (List.mem_filter.1 hp).2
      simp [he] at this
    · intro p hp ty
      unfold overwrite at hp
      rw [Option.getD_some] at hp
      rcases List.mem_append.1 hp with hp | hp
      · simp only [List.mem_cons, List.not_mem_nil, or_false] at hp
        subst hp
        exact (toy_plain (some [("b", 8)]) (by decide) (by decide)).2 ("b", 8) (by simp) ty
      · exact h2 p (List.mem_filter.1 hp).1 ty

example : (toyStore toyS4.1).1 = some (3, [some [2, 2], some [3], some [4]]) ∧
    (toyStore toyS4.1).2.1 = some [(0, [("file", 0), ("a", 2), ("b", 8)]), (1, [("file", 5), ("a", 0), ("b", 0)]),
      (2, [("file", 0), ("a", 6), ("b", 0)])] ∧
    (toyStore toyS4.1).2.2 = some [(1, 5), (2, 6), (0, 2), (0, 8)] := by decide +kernel

/-- Disagreement: the calls are not atomic.  An addition whose metadata is refused (here a column name
that is not allowed) returns an error, but its documents stay in the index, and every later document is
shifted against its metadata row (/repo/next-plaid/src/index.rs:1737-1758). -/
theorem C24_refused_metadata_misaligns :
    let s1 : ToyStore × Res (List Int) := Store.add {} [[1]] [some [("a", 1)]] toyCfg .unicode61
    let s2 := s1.1.add [[2]] [some [("bad name", 2)]] toyCfg .unicode61
    let s3 := s2.1.add [[3]] [some [("a", 3)]] toyCfg .unicode61
    s1.2.isOk = true ∧ s2.2.isOk = false ∧ s3.2.isOk = true ∧
    (toyStore s3.1).1 = some (3, [some [1], some [2], some [3]]) ∧
    (toyStore s3.1).2.1 = some [(0, [("a", 1)]), (2, [("a", 3)])] := by
  decide +kernel

/-! ### C42 -/

/-- C42: with the `unicode61` or the `trigram` tokenizer (the same for all calls) and metadata rows whose
text survives a round trip through the database, after every history of additions, deletions and
conditional updates the keyword index has postings exactly for the current documents, and those of
document `i` are the tokens of the current metadata of document `i`. -/
theorem C42_keywords_follow_partial (hE : E.Lawful) (hS : S.Lawful) (hT : T.Lawful) {tk : Tokenizer}
    (htk : tk ≠ .identifierAware) {s : Store E T} {rows} (h : Together (· = tk) (PlainRow T) s rows) :
    KeywordsFollow s.fts tk (rows.map (·.2)) :=
  followO_keywords (together_fts hE hS hT htk h).1

/-- C42, for a tokenizer that works word by word: a word finds document `i` exactly when it is a word of
one of the current metadata values of document `i`. -/
theorem C42_word_search_partial (hE : E.Lawful) (hS : S.Lawful) (hT : T.Lawful) {tk : Tokenizer}
    (htk : tk ≠ .identifierAware) (hword : ∀ ps w, w ∈ T.toks tk ps ↔ ∃ p ∈ ps, w ∈ T.toks tk [p])
    {s : Store E T} {rows} (h : Together (· = tk) (PlainRow T) s rows) (id : Int) (w : T.Tok) :
    (∃ g, s.fts = some g ∧ (id, w) ∈ g.index) ↔
      ∃ (i : Nat) (doc : List E.Row) (it : Item S), id = i ∧ rows[i]? = some (doc, it) ∧
        ∃ key v, (key, v) ∈ it.getD [] ∧ ∃ p ∈ T.parts v, w ∈ T.toks tk [p] := by
  obtain ⟨texts, hl, h1, h2⟩ := C42_keywords_follow_partial hE hS hT htk h
  rw [List.length_map] at hl
  have hparts : ∀ (it : Item S), w ∈ T.toks tk (itemParts T it) ↔
      ∃ key v, (key, v) ∈ it.getD [] ∧ ∃ p ∈ T.parts v, w ∈ T.toks tk [p] := by
    intro it
    rw [hword]
    unfold itemParts
    simp only [List.mem_flatMap]
    constructor
    · rintro ⟨p, ⟨kv, hkv, hp⟩, hw⟩
      exact ⟨kv.1, kv.2, hkv, p, hp, hw⟩
    · rintro ⟨k, v, hkv, p, hp, hw⟩
      exact ⟨p, ⟨(k, v), hkv, hp⟩, hw⟩
  have hperm : ∀ {a b : List T.Part}, a.Perm b → (w ∈ T.toks tk a ↔ w ∈ T.toks tk b) := by
    intro a b hab
    rw [hword a, hword b]
    constructor <;> rintro ⟨p, hp, hw⟩
    · exact ⟨p, hab.mem_iff.1 hp, hw⟩
    · exact ⟨p, hab.mem_iff.2 hp, hw⟩
  rw [h2]
  constructor
  · rintro ⟨i, text, rfl, ht, hw⟩
    have hi : i < rows.length := by
      have := (List.getElem?_eq_some_iff.1 ht).1
      omega
    have hr : rows[i]? = some rows[i] := List.getElem?_eq_getElem hi
    refine ⟨i, rows[i].1, rows[i].2, rfl, hr, ?_⟩
    rw [← hparts, ← hperm (h1 i rows[i].2 text (by rw [List.getElem?_map, hr]; rfl) ht)]
    exact hw
  · rintro ⟨i, doc, it, rfl, hr, hw⟩
    have hi := (List.getElem?_eq_some_iff.1 hr).1
    have ht : texts[i]? = some texts[i] := List.getElem?_eq_getElem (by omega)
    refine ⟨i, texts[i], rfl, ht, ?_⟩
    rw [hperm (h1 i it texts[i] (by rw [List.getElem?_map, hr]; rfl) ht), hparts]
    exact hw

example : KeywordsFollow toyS4.1.fts .unicode61 [some [("b", 8), ("a", 2)], some [("file", 5)], some [("a", 6)]] := by
  have h := C42_keywords_follow_partial toy_lawful toySql_lawful toyText_lawful (by decide) toy_together
  have e : (List.zipWith (fun (r : OutRow ToySql) (p : List Nat × Item ToySql) =>
        (p.1, if (r.value "a" == 2) && !([("b", (8 : Int))] : List (String × Int)).isEmpty
        then overwrite (S := ToySql) [("b", 8)] p.2 else p.2))
      (okVal (get id toyS3.1.db none none) (by decide +kernel))
      (deleteIds [0] ([] ++ ([[1], [2, 2], [3]] : List (List Nat)).zip
        ([some [("a", 1)], some [("a", 2), ("b", 4)], some [("file", 5)]] : List (Item ToySql))) ++
        ([[4]] : List (List Nat)).zip ([some [("a", 6)]] : List (Item ToySql)))).map (·.2) =
      [some [("b", 8), ("a", 2)], some [("file", 5)], some [("a", 6)]] := by decide +kernel
  rw [← e]
  exact h

/-- Why `unicode61`/`trigram` only: with the identifier-aware tokenizer the text that was indexed is the
prepared one, but the delete command is given the raw one, so the sub-words of a deleted document stay
in the index, and a document added later under that id is found by them
(/repo/next-plaid/src/text_search.rs:421-431, 546-562). -/
theorem C42_identifier_ghosts :
    let s1 : ToyStore × Res (List Int) := Store.add {} [[1], [2]] [some [("a", 1)], some [("a", 2)]] toyCfg .identifierAware
    let s2 := s1.1.delete [1]
    let s3 := s2.1.add [[3]] [some [("a", 3)]] toyCfg .identifierAware
    s1.2.isOk = true ∧ s2.2.isOk = true ∧ s3.2.isOk = true ∧
    (toyStore s2.1).2.2 = some [(0, 1), (0, 101), (1, 102)] ∧
    (toyStore s3.1).2.2 = some [(0, 1), (0, 101), (1, 102), (1, 3), (1, 103)] := by
  decide +kernel

/-- Also with the identifier-aware tokenizer: a deletion that is not a suffix rebuilds the index from raw
text, and the survivors lose their sub-words (/repo/next-plaid/src/text_search.rs:839-935). -/
theorem C42_identifier_rebuild_loses :
    let s1 : ToyStore × Res (List Int) := Store.add {} [[1], [2]] [some [("a", 1)], some [("a", 2)]] toyCfg .identifierAware
    let s2 := s1.1.delete [0]
    s1.2.isOk = true ∧ s2.2.isOk = true ∧
    (toyStore s1.1).2.2 = some [(0, 1), (0, 101), (1, 2), (1, 102)] ∧ (toyStore s2.1).2.2 = some [(0, 2)] := by
  decide +kernel

/-- Why the text must survive a round trip: a value whose text differs when read back (a Boolean: `true`
is stored as 1) changes the words of a document when an unrelated document is deleted
(/repo/next-plaid/src/text_search.rs:275-296, 895-905). -/
theorem C42_reread_changes_words :
    let s1 : ToyStore × Res (List Int) := Store.add {} [[1], [2]] [some [("a", 1)], some [("a", 50)]] toyCfg .unicode61
    let s2 := s1.1.delete [0]
    s1.2.isOk = true ∧ s2.2.isOk = true ∧
    (toyStore s1.1).2.2 = some [(0, 1), (1, 77)] ∧ (toyStore s2.1).2.2 = some [(0, 5)] := by
  decide +kernel

/-- Why one tokenizer: adding with another one drops the postings of all earlier documents
(/repo/next-plaid/src/text_search.rs:306-388). -/
theorem C42_tokenizer_change_drops :
    let s1 : ToyStore × Res (List Int) := Store.add {} [[1], [2]] [some [("a", 1)], some [("a", 2)]] toyCfg .unicode61
    let s2 := s1.1.add [[3]] [some [("a", 3)]] toyCfg .trigram
    s1.2.isOk = true ∧ s2.2.isOk = true ∧
    (toyStore s2.1).1 = some (3, [some [1], some [2], some [3]]) ∧ (toyStore s2.1).2.2 = some [(2, 3)] := by
  decide +kernel

end NextPlaid.Props
