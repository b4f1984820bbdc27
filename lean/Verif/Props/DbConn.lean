import Verif.Proofs.DbConn
import Verif.Props.Server

/-!
Property theorems C76 (reads of metadata see the database that is there).  A process keeps an open connection per path
(`DbConn.World`); the specification is one database per path (`Spec.Ideal`).
-/

namespace NextPlaid.Props
open NextPlaid NextPlaid.Spec NextPlaid.DbConn

variable {P D : Type} [DecidableEq P]

/-- C76, for histories in which a database is created while nobody reads it, and the directory of a database that the process
has read is neither removed nor renamed: every read, however it overlaps with other reads and with writes, gives what is at
its path at that moment. -/
theorem C76_reads_partial {w : World P D} (h : Started w) {l : List (Op P D)} (hc : AllQuiet (found w) l) :
    (run w l).2 = (found w).answers l :=
  (run_matches l (started_matches h) hc).2

/-- Disagreement: the server's `DELETE /indices/{name}` removes the directory.  If the process has read the metadata of the
index before, and the index is then declared and filled again, all reads of metadata give the rows of the index that was
deleted, for ever: whatever is written to the new database, as long as its file stays where it is. -/
theorem C76_deleted_index_stale {w : World P D} (h : Started w) {l : List (Op P D)} (hc : AllQuiet (found w) l) {p : P}
    (hs : ((found w).after l).seen p = true) (hr : ∀ r, ((found w).after l).reading r ≠ some p) (d : D) {l' : List (Op P D)}
    (hl : ∀ o ∈ l', Stays p o) :
    ∃ old, ((found w).after l).disk p = some old ∧
      (∀ a ∈ (run (run w (l ++ [.remove p, .create p (some d)])).1 l').2, a.1 = p → a.2 = some old) ∧
      ∀ r, (run (run w (l ++ [.remove p, .create p (some d)] ++ l')).1 [.start r p, .finish r]).2 = [(p, some old)] := by
  obtain ⟨i, old, h1, h2⟩ := calm_cached h hc hs hr
  have h3 := cached_removed h2 d
  refine ⟨old, h1, ?_, fun r => ?_⟩
  · rw [run_append]
    exact (stale_run l' h3 hl).2
  · rw [run_append, run_append]
    exact stale_read (stale_run l' h3 hl).1 r

/-- Disagreement: the same after the rebuild of colgrep, which builds the index in another directory and renames it. -/
theorem C76_rebuilt_stale {w : World P D} (h : Started w) {l : List (Op P D)} (hc : AllQuiet (found w) l) {p : P}
    (hs : ((found w).after l).seen p = true) (hr : ∀ r, ((found w).after l).reading r ≠ some p) (d : D) {tmp aside : P}
    (h1 : tmp ≠ p) (h2 : aside ≠ p) (h3 : tmp ≠ aside) (ha : ((found w).after l).disk aside = none) {l' : List (Op P D)}
    (hl : ∀ o ∈ l', Stays p o) :
    ∃ old, ((found w).after l).disk p = some old ∧
      ∀ r, (run (run w (l ++ [.create tmp (some d), .rename p aside, .rename tmp p, .remove aside] ++ l')).1
        [.start r p, .finish r]).2 = [(p, some old)] := by
  obtain ⟨i, old, h4, h5⟩ := calm_cached h hc hs hr
  have hn : (run w l).1.node aside = none := by
    have := (run_matches l (started_matches h) hc).1.disk aside
    rw [ha] at this
    cases hw : (run w l).1.node aside with
    | none => rfl
    | some k => rw [hw] at this; cases this
  have h6 := cached_rebuilt h5 d h1 h2 h3 hn
  refine ⟨old, h4, fun r => ?_⟩
  rw [run_append, run_append]
  exact stale_read (stale_run l' h6 hl).1 r

/-- Disagreement: the same if a database is created over one that is there, while a first read is between the opening of its
connection and its entry into the cache. -/
theorem C76_race_stale {w : World P D} (h : Started w) {p : P} {old : D} (hd : (found w).disk p = some old) (d : D) (r : Nat)
    {l' : List (Op P D)} (hl : ∀ o ∈ l', Stays p o) :
    (∀ a ∈ (run (run w [.start r p, .create p (some d), .finish r]).1 l').2, a.1 = p → a.2 = some old) ∧
    ∀ r', (run (run w ([.start r p, .create p (some d), .finish r] ++ l')).1 [.start r' p, .finish r']).2 = [(p, some old)] := by
  obtain ⟨i, h1, _⟩ := raced h hd d r
  refine ⟨(stale_run l' h1 hl).2, fun r' => ?_⟩
  rw [run_append]
  exact stale_read (stale_run l' h1 hl).1 r'

/-- C76: creating the database again while it is there ends this. -/
theorem C76_create_refreshes {w : World P D} (h : Started w) {l : List (Op P D)} (hc : AllQuiet (found w) l) {p : P}
    (hs : ((found w).after l).seen p = true) (hr : ∀ r, ((found w).after l).reading r ≠ some p) (d : D) {l' : List (Op P D)}
    (hl : ∀ o ∈ l', Stays p o) (d' : D) (r : Nat) :
    (run (run w (l ++ [.remove p, .create p (some d)] ++ l')).1 [.create p (some d'), .start r p, .finish r]).2 = [(p, some d')] := by
  obtain ⟨i, old, _, h2⟩ := calm_cached h hc hs hr
  rw [run_append, run_append]
  exact stale_created (stale_run l' (cached_removed h2 d) hl).1 d' r

/-! ### What the server makes of it -/

section
open NextPlaid.Server NextPlaid.Index NextPlaid.Db

variable {E : Env} {S : Sql} {T : TextEnv S}

/-- C76: with a count from the database that is there, the repair below is the repair of C33. -/
theorem C76_repair_live (s : Store E T) : repairBy (fun s => count s.db) s = repair s := repairBy_live s

/-- Disagreement: an index with `k` rows of metadata is deleted and declared again, and gets more than `k` documents.  The
two stores agree.  Before the next batch the repair counts `k` rows, deletes all documents after the first `k` from the
vector index, and reports success; their metadata stay. -/
theorem C76_repair_loses (hE : E.Lawful) (hS : S.Lawful) {w : World P (Tables S)} (h : Started w) {l : List (Op P (Tables S))}
    (hc : AllQuiet (found w) l) {p : P} {old : Tables S} (hs : ((found w).after l).seen p = true)
    (hr : ∀ r, ((found w).after l).reading r ≠ some p) (hd : ((found w).after l).disk p = some old) (t : Tables S)
    {l' : List (Op P (Tables S))} (hl : ∀ o ∈ l', Stays p o) {w' : World P (Tables S)}
    (hw : w' = (run w (l ++ [.remove p, .create p (some t)] ++ l')).1)
    {s : Store E T} {rows} (hsv : Served s rows) (hdb : s.db = (w'.node p).map w'.data) (hsync : repair s = ([], .ok false))
    (hk : 0 < count (some old)) (hlt : count (some old) < rows.length) :
    count ((w'.node p).map w'.data) = rows.length ∧
    ∃ d x, repairBy (fun _ => countAt w' p) s = ([{ s with disk := d }], .ok true) ∧ load d = .ok x ∧
      Holds x ((rows.map (·.1)).take (count (some old))) := by
  obtain ⟨D, I, hT, rfl⟩ := served_torn hE hS hsv
  have hcount : countAt w' p = count (some old) := by
    obtain ⟨i, old', h1, h2⟩ := calm_cached h hc hs hr
    rw [hd] at h1
    cases h1
    rw [hw, run_append, run_append]
    exact countAt_stale (stale_run l' (cached_removed h2 t) hl).1
  constructor
  · have hp := (C33_repair_partial hE hS hsv)
    obtain ⟨tr, b, h1, h2⟩ := hp
    rw [hsync] at h1
    cases h1
    rw [← hdb]
    exact h2.2.1
  · rw [hcount]
    exact repairBy_small hS hT hsync hk hlt

/-- Disagreement: an index with more than `n` rows of metadata is deleted and declared again, and gets `n` documents.  The two
stores agree; the repair before every further batch fails, and leaves the stores as they are. -/
theorem C76_repair_refuses (hE : E.Lawful) (hS : S.Lawful) {w : World P (Tables S)} (h : Started w) {l : List (Op P (Tables S))}
    (hc : AllQuiet (found w) l) {p : P} {old : Tables S} (hs : ((found w).after l).seen p = true)
    (hr : ∀ r, ((found w).after l).reading r ≠ some p) (hd : ((found w).after l).disk p = some old) (t : Tables S)
    {l' : List (Op P (Tables S))} (hl : ∀ o ∈ l', Stays p o) {s : Store E T} {rows} (hsv : Served s rows) (hne : rows ≠ [])
    (hsync : repair s = ([], .ok false)) (hlt : rows.length < count (some old)) :
    ∃ s', repairBy (fun _ => countAt (run w (l ++ [.remove p, .create p (some t)] ++ l')).1 p) s = ([s'], .error .err) ∧
      repair s' = ([], .ok false) ∧ Paired s' rows := by
  obtain ⟨D, I, hT, rfl⟩ := served_torn hE hS hsv
  have hcount : countAt (run w (l ++ [.remove p, .create p (some t)] ++ l')).1 p = count (some old) := by
    obtain ⟨i, old', h1, h2⟩ := calm_cached h hc hs hr
    rw [hd] at h1
    cases h1
    rw [run_append, run_append]
    exact countAt_stale (stale_run l' (cached_removed h2 t) hl).1
  rw [hcount]
  obtain ⟨db, h1, h2, h3⟩ := repairBy_large hT hsync hne hlt
  refine ⟨_, h1, h3, ?_⟩
  obtain ⟨tr, b, h4, _, h5, _⟩ := repair_clean h2
  rw [h3] at h4
  cases h4
  exact h5.paired hS

end

/-! ### Concrete cases -/

/-- Databases are numbers, paths are 0, 1, 2; there is a database with content 5 at path 0. -/
def dbWorld : World (Fin 3) Nat := ⟨fun p => if p = 0 then some 0 else none, fun _ => 5, 1, fun _ => none, fun _ => none⟩

theorem dbWorld_started : Started dbWorld := by
  refine ⟨fun _ => rfl, fun _ => rfl, fun p q i hp hq => ?_, fun p i hp => ?_⟩
  · simp only [dbWorld] at hp hq
    split at hp <;> split at hq <;> simp_all
  · simp only [dbWorld] at hp
    split at hp
    · cases hp; exact Nat.zero_lt_one
    · cases hp

/-- Two overlapping reads and a write; a second database is created, read, and created again; a third one is removed. -/
def dbCalm : List (Op (Fin 3) Nat) :=
  [.start 0 0, .start 1 0, .finish 1, .write 0 (· + 1), .finish 0, .create 1 (some 8), .start 0 1, .finish 0, .create 1 none, .start 0 1,
    .create 1 (some 9), .start 0 1, .finish 0, .create 2 (some 3), .remove 2, .start 0 2]

example : (found dbWorld).answers dbCalm = [(0, some 5), (0, some 6), (1, some 8), (1, none), (1, some 9), (2, none)] ∧
    (run dbWorld dbCalm).2 = (found dbWorld).answers dbCalm := by
  refine ⟨by decide, C76_reads_partial dbWorld_started ?_⟩
  simp [dbCalm, AllQuiet, Quiet, Ideal.next, found, dbWorld]
  refine ⟨fun r h1 h2 => by simp [h1, h2], fun r h1 => ⟨h1, fun _ h2 => by simp [h1, h2]⟩, fun r h1 => ?_⟩
  simp only [h1, if_false]
  by_cases h2 : r = 1 <;> simp [h2]

/-- A read, a deletion, a new database with content 7, a write: the read gives the old content. -/
example : (run dbWorld [.start 0 0, .finish 0, .remove 0, .create 0 (some 7), .write 0 (· + 1), .start 0 0, .finish 0]).2 =
    [(0, some 5), (0, some 5)] := by decide

example : ∃ old, ((found dbWorld).after [.start 0 0, .finish 0]).disk 0 = some old ∧
    (∀ a ∈ (run (run dbWorld ([.start 0 0, .finish 0] ++ [.remove 0, .create 0 (some 7)])).1 [.write 0 (· + 1), .start 0 0]).2, a.1 = 0 → a.2 = some old) ∧
      ∀ r, (run (run dbWorld ([.start 0 0, .finish 0] ++ [.remove 0, .create 0 (some 7)] ++ [.write 0 (· + 1), .start 0 0])).1
        [.start r 0, .finish r]).2 = [(0, some old)] := by
  refine C76_deleted_index_stale dbWorld_started ?_ (by decide) ?_ 7 ?_
  · simp [AllQuiet, Quiet, found]
  · intro r; simp [Ideal.after, Ideal.next, found, dbWorld]
  · simp [Stays]

/-- The rebuild. -/
example : (run dbWorld [.start 0 0, .finish 0, .create 1 (some 7), .rename 0 2, .rename 1 0, .remove 2, .start 0 0, .finish 0]).2 =
    [(0, some 5), (0, some 5)] := by decide

/-- The race. -/
example : (run dbWorld [.start 0 0, .create 0 (some 7), .finish 0, .start 0 0, .finish 0]).2 = [(0, some 5), (0, some 5)] := by decide

section
open NextPlaid.Server NextPlaid.Index NextPlaid.Db

/-- An index with one document, which is deleted. -/
def dbOld : ToyStore := final {} (processBatch ({} : ToyStore) [[9]] [some [("a", 9)]] toyCfg .unicode61 none).1

theorem dbOld_some : dbOld.db.isSome = true := by decide +kernel
theorem srvS1_some : srvS1.db.isSome = true := by decide +kernel

/-- The process before it reads. -/
def dbServer : World Unit (Tables ToySql) := ⟨fun _ => some 0, fun _ => dbOld.db.get dbOld_some, 1, fun _ => none, fun _ => none⟩

theorem dbServer_started : Started dbServer :=
  ⟨fun _ => rfl, fun _ => rfl, fun _ _ _ _ _ => rfl, fun _ i hi => by cases hi; exact Nat.zero_lt_one⟩

/-- The new index has three documents; after the repair it has one. -/
example : ∃ d x, repairBy (fun _ => countAt (run dbServer ([.start 0 (), .finish 0] ++ [.remove (), .create () (some (srvS1.db.get srvS1_some))] ++ [])).1 ()) srvS1 =
      ([{ srvS1 with disk := d }], .ok true) ∧ load d = .ok x ∧ Holds x [[1]] := by
  have h1 : Served srvS1 [([1], some [("a", 1)]), ([2, 2], some [("a", 2)]), ([3], some [("a", 3)])] :=
    .updated .start (by decide) (by decide) (by decide) (by decide) (toy_res srv1 (by decide +kernel))
  have hk : count (some (dbOld.db.get dbOld_some)) = 1 := by decide +kernel
  obtain ⟨_, d, x, h2, h3, h4⟩ := C76_repair_loses (p := ()) (l := [.start 0 (), .finish 0]) (l' := []) toy_lawful toySql_lawful dbServer_started
    (by simp [AllQuiet, Quiet, found]) (old := dbOld.db.get dbOld_some) rfl
    (by
      intro r
      show (if r = 0 then none else if r = 0 then some () else none) ≠ some ()
      by_cases h : r = 0 <;> simp [h]) rfl
    (srvS1.db.get srvS1_some) (by simp) rfl h1 (by
      show srvS1.db = some (srvS1.db.get srvS1_some)
      simp)
    (by
      obtain ⟨tr, b, e1, e2⟩ := C33_repair_partial toy_lawful toySql_lawful h1
      have e3 : (repair srvS1).1.length = 0 ∧ (match (repair srvS1).2 with | .ok false => true | _ => false) = true := by decide +kernel
      refine Prod.ext (List.eq_nil_of_length_eq_zero e3.1) ?_
      have := e3.2
      revert this
      cases (repair srvS1).2 with
      | error e => simp
      | ok b => cases b <;> simp)
    (by rw [hk]; exact Nat.zero_lt_one) (by rw [hk]; decide)
  rw [hk] at h4
  exact ⟨d, x, h2, h3, h4⟩

end

end NextPlaid.Props
