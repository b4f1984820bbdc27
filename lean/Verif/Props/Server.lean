import Verif.Proofs.Server3
import Verif.Props.Store

/-!
Property theorems C32, C33 and C45 (updates, eviction, deletions and the repair, as the server performs them on one
index).  `Spec.Served s rows`: the directory `s` results from a history of batches, refused batches, killed processes,
deletions and metadata updates; the same history on a plain list of pairs (document, metadata row) gives `rows`.
-/

namespace NextPlaid.Props
open NextPlaid NextPlaid.Index NextPlaid.Spec NextPlaid.Db NextPlaid.Server

variable {E : Env} {S : Sql} {T : TextEnv S}

/-! ### C32 -/

/-- C32: after a successful update with limit `max`, the two stores hold the newest `max` of the old pairs followed by the
new ones, in order; without a limit they hold all of them. -/
theorem C32_newest_kept (hE : E.Lawful) (hS : S.Lawful) {s : Store E T} {rows} (h : Served s rows)
    {docs : List (List E.Row)} {items : List (Item S)} (hdocs : docs ≠ []) (hlen : items.length = docs.length)
    (htok : ∀ d ∈ docs, d ≠ []) {cfg : Cfg} (hb : 0 < cfg.batchSize) {tk : Tokenizer} {max : Option Nat} {tr ids}
    (he : processBatch s docs items cfg tk max = (tr, .ok ids)) :
    Paired (final s tr) (newest max (rows ++ docs.zip items)) := by
  obtain ⟨D, I, hT, rfl⟩ := served_torn hE hS h
  obtain ⟨h1, _⟩ := processBatch_split hE hS hT hdocs hlen htok hb tk max
  rw [he] at h1
  rcases h1 with ⟨⟨e, h1⟩, _⟩ | ⟨_, h1⟩
  · cases h1
  · exact h1.paired hS

/-- C32: nothing is evicted unless the limit is exceeded, and then exactly the excess. -/
theorem C32_count (hE : E.Lawful) (hS : S.Lawful) {s : Store E T} {rows} (h : Served s rows)
    {docs : List (List E.Row)} {items : List (Item S)} (hdocs : docs ≠ []) (hlen : items.length = docs.length)
    (htok : ∀ d ∈ docs, d ≠ []) {cfg : Cfg} (hb : 0 < cfg.batchSize) {tk : Tokenizer} {m : Nat} {tr ids}
    (he : processBatch s docs items cfg tk (some m) = (tr, .ok ids)) :
    count (final s tr).db = min m (rows.length + docs.length) := by
  have := (C32_newest_kept hE hS h hdocs hlen htok hb he).2.1
  rw [this]
  simp only [newest, List.length_drop, List.length_append, List.length_zip]
  omega

/-! ### C33 -/

/-- C33, for histories in which every kill in a batch happens on a populated index and before eviction, and every kill
in a deletion happens while the last documents are deleted: the repair that precedes the next operation succeeds, and
then both stores hold the same number of entries, every document beside its own metadata.  A batch that was interrupted
is there entirely or not at all. -/
theorem C33_repair_partial (hE : E.Lawful) (hS : S.Lawful) {s : Store E T} {rows} (h : Served s rows) :
    ∃ tr b, repair s = (tr, .ok b) ∧ Paired (final s tr) rows := by
  obtain ⟨D, I, hT, rfl⟩ := served_torn hE hS h
  obtain ⟨tr, b, h1, _, h3, _⟩ := repair_clean hT
  exact ⟨tr, b, h1, h3.paired hS⟩

/-- C33: the repair itself can be interrupted and repeated. -/
theorem C33_repair_again (hE : E.Lawful) (hS : S.Lawful) {s : Store E T} {rows} (h : Served s rows) :
    ∀ s' ∈ (repair s).1, repair s' = ([], .ok false) := by
  obtain ⟨D, I, hT, rfl⟩ := served_torn hE hS h
  obtain ⟨tr, b, h1, h2, h3, _⟩ := repair_clean hT
  rw [h1]
  intro s' hs'
  rw [h2 s' hs']
  unfold repair
  split
  · rfl
  · next hm =>
    split
    · rfl
    · have hinv : Inv (final s tr).disk ((D.zip I).map (·.1)) := by
        rcases h3.disk with ⟨h0, _⟩ | h0
        · rw [h0] at hm; exact absurd rfl hm
        · exact h0
      obtain ⟨m, _, hm2, hm3⟩ := inv_meta hinv
      rw [hm2]
      simp only [hm3, h3.count, List.length_map, if_true]

/-! ### C45 -/

/-- C45: a batch of deletions, whatever its conditions, leaves exactly the pairs that satisfy none of them, each
condition being judged on what the previous ones left; order and pairing are kept. -/
theorem C45_delete_batch (hE : E.Lawful) (hS : S.Lawful) {s : Store E T} {rows} (h : Served s rows)
    (conds : List (Cond S)) :
    Paired (final s (processDeleteBatch s conds).1) (conds.foldl (remaining (declaredType s.db)) rows) := by
  obtain ⟨D, I, hT, rfl⟩ := served_torn hE hS h
  exact (processDeleteBatch_clean hS hT conds).paired hS

/-- C45, for conditions on the metadata only (not on the row number): the batch removes exactly the pairs that satisfy one
of the conditions, so batching and the order of the conditions do not matter. -/
theorem C45_any_order (ty : String → S.Ty) (conds : List (Cond S))
    (hc : ∀ c ∈ conds, ∀ i j v, c.holds i v = c.holds j v) (rows : List (List E.Row × Item S)) :
    conds.foldl (remaining ty) rows =
      rows.filter fun p => !(conds.any fun c => c.valid && c.holds 0 fun col => S.cell (ty col) (p.2.value col)) := by
  have one : ∀ (c : Cond S), (∀ i j v, c.holds i v = c.holds j v) → ∀ (l : List (List E.Row × Item S)) (b : Nat),
      ((l.zipIdx b).filter fun p => !(c.valid && c.holds (p.2 : Int) fun col => S.cell (ty col) (p.1.2.value col))).map (·.1) =
        l.filter fun p => !(c.valid && c.holds 0 fun col => S.cell (ty col) (p.2.value col)) := by
    intro c hci l
    induction l with
    | nil => intro b; rfl
    | cons p l ih =>
      intro b
      rw [List.zipIdx_cons, List.filter_cons, List.filter_cons, hci b 0]
      split
      · rw [List.map_cons, ih]
      · rw [ih]
  induction conds generalizing rows with
  | nil => simp
  | cons c cs ih =>
    rw [List.foldl_cons, ih (fun c' hc' => hc c' (by simp [hc']))]
    unfold remaining
    rw [one c (hc c (by simp)) rows 0, List.filter_filter]
    apply List.filter_congr
    intro p _
    simp only [List.any_cons, Bool.not_or]
    rw [Bool.and_comm]

/-! ### A concrete history -/

/-- A populated index. -/
def srv1 : List ToyStore × Res (List Int) :=
  processBatch {} [[1], [2, 2], [3]] [some [("a", 1)], some [("a", 2)], some [("a", 3)]] toyCfg .unicode61 none
def srvS1 : ToyStore := final {} srv1.1
/-- A batch of which only the index part is written. -/
def srv2 : List ToyStore × Res (List Int) := processBatch srvS1 [[4]] [some [("a", 4)]] toyCfg .unicode61 none
def srvS2 : ToyStore := (srv2.1[0]?).getD {}
/-- A batch whose metadata is refused. -/
def srv3 : List ToyStore × Res (List Int) := processBatch srvS2 [[5]] [some [("bad name", 5)]] toyCfg .unicode61 none
def srvS3 : ToyStore := final srvS2 srv3.1
/-- An update with a limit of three documents. -/
def srv4 : List ToyStore × Res (List Int) :=
  processBatch srvS3 [[6], [7, 8]] [some [("a", 6)], some [("a", 7)]] toyCfg .unicode61 (some 3)
def srvS4 : ToyStore := final srvS3 srv4.1
/-- A deletion. -/
def srvCond : Cond ToySql := ⟨true, fun _ v => v "a" == 6⟩
def srvS5 : ToyStore := final srvS4 (processDeleteBatch srvS4 [srvCond]).1

theorem toy_res {α : Type} (r : List ToyStore × Res α) (h : r.2.isOk = true) : r = (r.1, .ok (okVal r.2 h)) :=
  Prod.ext rfl (okVal_eq r.2 h)

theorem srvS2_mem : srvS2 ∈ srv2.1 := by
  have h : (srv2.1[0]?).isSome = true := by decide +kernel
  obtain ⟨x, hx⟩ := Option.isSome_iff_exists.mp h
  have : srvS2 = x := by unfold srvS2; rw [hx]; rfl
  rw [this]
  exact List.mem_of_getElem? hx

theorem srv3_err : srv3 = (srv3.1, .error .err) := by
  have h : (match srv3.2 with | .error .err => true | _ => false) = true := by decide +kernel
  refine Prod.ext rfl ?_
  revert h
  cases srv3.2 with
  | error e => cases e <;> simp
  | ok v => simp

theorem srv2_count : count srvS2.db = 3 := by decide +kernel

theorem toy_served : Served srvS4
    (newest (some 3) ([([1], some [("a", 1)]), ([2, 2], some [("a", 2)]), ([3], some [("a", 3)])] ++
      [([6], some [("a", 6)]), ([7, 8], some [("a", 7)])])) := by
  have h1 : Served srvS1 [([1], some [("a", 1)]), ([2, 2], some [("a", 2)]), ([3], some [("a", 3)])] :=
    .updated .start (by decide) (by decide) (by decide) (by decide) (toy_res srv1 (by decide +kernel))
  have h2 := Served.stopped (s := srvS1) (docs := ([[4]] : List (List Nat))) (items := [some [("a", (4 : Int))]])
    (cfg := toyCfg) (tk := .unicode61) (max := none) h1 (by decide) (by decide) (by decide) (by decide) (by simp) rfl srvS2_mem
  rw [if_pos (by rw [srv2_count]; simp)] at h2
  have h3 := Served.refused (max := none) h2 (by decide) (by decide) (by decide) (by decide) (by simp) srv3_err
  exact .updated h3 (by decide) (by decide) (by decide) (by decide) (toy_res srv4 (by decide +kernel))

/-- The theorems apply to this history. -/
example : ∃ rows, Paired (final srvS4 (processDeleteBatch srvS4 [srvCond]).1)
    ([srvCond].foldl (remaining (declaredType srvS4.db)) rows) :=
  ⟨_, C45_delete_batch toy_lawful toySql_lawful toy_served [srvCond]⟩
example : ∃ rows tr b, repair srvS4 = (tr, .ok b) ∧ Paired (final srvS4 tr) rows :=
  ⟨_, C33_repair_partial toy_lawful toySql_lawful toy_served⟩

set_option synthInstance.maxHeartbeats 200000 in
set_option synthInstance.maxSize 1000 in
/-- The kill left four documents and three rows; the refused batch left nothing; the limit kept the three newest. -/
example : (toyStore srvS2).1 = some (4, [some [1], some [2, 2], some [3], some [4]]) ∧
    (toyStore srvS2).2.1 = some [(0, [("a", 1)]), (1, [("a", 2)]), (2, [("a", 3)])] ∧
    (toyStore srvS3).1 = some (3, [some [1], some [2, 2], some [3]]) ∧
    (toyStore srvS4).1 = some (3, [some [3], some [6], some [7, 8]]) ∧
    (toyStore srvS4).2.1 = some [(0, [("a", 3)]), (1, [("a", 6)]), (2, [("a", 7)])] ∧
    (toyStore srvS5).1 = some (2, [some [3], some [7, 8]]) ∧
    (toyStore srvS5).2.1 = some [(0, [("a", 3)]), (1, [("a", 7)])] := by decide +kernel

/-! ### Where C33 fails -/

set_option synthInstance.maxHeartbeats 200000 in
set_option synthInstance.maxSize 1000 in
/-- Disagreement: a kill between the two parts of the first batch is not repaired, because the repair does nothing when
there is no database yet.  The next batch creates the database with the ids of its own documents; the repair after that
deletes the newest documents, and the first document stands beside the metadata of another
(documents.rs:124-129, 464-470). -/
theorem C33_first_batch_misaligned :
    let tr1 : List ToyStore := (processBatch ({} : ToyStore) [[1]] [some [("a", 1)]] toyCfg .unicode61 none).1
    let s1 : ToyStore := (tr1[0]?).getD {}
    let r2 := processBatch s1 [[2]] [some [("a", 2)]] toyCfg .unicode61 none
    let s2 := final s1 r2.1
    let s3 := final s2 (repair s2).1
    r2.2.isOk = true ∧ (toyStore s2).1 = some (2, [some [1], some [2]]) ∧ (toyStore s2).2.1 = some [(1, [("a", 2)])] ∧
      (toyStore s3).1 = some (1, [some [1]]) ∧ (toyStore s3).2.1 = some [(1, [("a", 2)])] := by
  decide +kernel

set_option synthInstance.maxHeartbeats 200000 in
set_option synthInstance.maxSize 1000 in
/-- Disagreement: a kill during eviction (or any deletion that is not of the last documents) between the two stores.
The repair removes the last metadata rows, so every remaining document stands beside the metadata of an older one
(documents.rs:145-152). -/
theorem C33_eviction_misaligned :
    let r : List ToyStore × Res (List Int) := processBatch srvS1 [[4]] [some [("a", 4)]] toyCfg .unicode61 (some 3)
    let s1 : ToyStore := (r.1[3]?).getD {}
    let s2 := final s1 (repair s1).1
    (repair s1).2.isOk = true ∧ (toyStore s1).1 = some (3, [some [2, 2], some [3], some [4]]) ∧
      (toyStore s1).2.1 = some [(0, [("a", 1)]), (1, [("a", 2)]), (2, [("a", 3)]), (3, [("a", 4)])] ∧
      (toyStore s2).1 = some (3, [some [2, 2], some [3], some [4]]) ∧
      (toyStore s2).2.1 = some [(0, [("a", 1)]), (1, [("a", 2)]), (2, [("a", 3)])] := by
  decide +kernel

set_option synthInstance.maxHeartbeats 200000 in
set_option synthInstance.maxSize 1000 in
/-- Disagreement: an index whose first batch has refused metadata is unusable: the rollback leaves an index without
documents, which cannot be opened, so every later batch fails (documents.rs:475-486, index.rs `load`). -/
theorem C33_refused_first_batch_unusable :
    let r1 : List ToyStore × Res (List Int) := processBatch {} [[1]] [some [("bad name", 1)]] toyCfg .unicode61 none
    let s1 := final {} r1.1
    let r2 := processBatch s1 [[2]] [some [("a", 2)]] toyCfg .unicode61 none
    r1.2.isOk = false ∧ r2.2.isOk = false ∧ (toyStore (final s1 r2.1)).1 = none := by
  decide +kernel

set_option synthInstance.maxHeartbeats 200000 in
set_option synthInstance.maxSize 1000 in
/-- Disagreement: after a kill in a deletion of the last documents the repair removes their metadata but not their
keywords, which then find documents that do not exist (documents.rs:145-152 calls `filtering::delete` only). -/
theorem C33_keywords_not_repaired :
    let tr : List ToyStore := (processDeleteBatch srvS1 [⟨true, fun _ v => v "a" == 3⟩]).1
    let s1 : ToyStore := (tr[0]?).getD {}
    let s2 := final s1 (repair s1).1
    (toyStore s2).1 = some (2, [some [1], some [2, 2]]) ∧ (toyStore s2).2.1 = some [(0, [("a", 1)]), (1, [("a", 2)])] ∧
      (toyStore s2).2.2 = some [(0, 1), (1, 2), (2, 3)] := by
  decide +kernel

end NextPlaid.Props
