import Verif.Model.Catalogue

/-!
What C83 says of requests one after another: the server answers as one that only has the files, and
what the files are.  A catalogue is a function from names to directories.
-/

namespace NextPlaid.Spec.Catalogue

open NextPlaid.Catalogue

abbrev Cat := Name → Option Entry

/-- The configuration of `n`, if it has a readable one. -/
def Conf (f : Cat) (n : Name) (c : Cfg) : Prop := ∃ i, f n = some ⟨.good c, i⟩

/-- There is a `config.json` or a `metadata.json`. -/
def Present (f : Cat) (n : Name) : Prop := ∃ e, f n = some e ∧ (e.config ≠ .absent ∨ e.index = true)

/-- `g` is `f` with `e` for `n`. -/
def With (f : Cat) (n : Name) (e : Option Entry) (g : Cat) : Prop := g n = e ∧ ∀ m, m ≠ n → g m = f m

/-- The configuration asked for: what is left out is 4 bits, batches of 50000, no seed, `dss` documents
below which an index is built again, no limit on documents, the tokenizer `unicode61`. -/
def asked (dss : Nat) (r : CfgReq) : Cfg where
  nbits := match r.nbits with | some b => b | none => 4
  batchSize := match r.batchSize with | some b => b | none => 50000
  seed := r.seed
  startFromScratch := match r.startFromScratch with | some b => b | none => dss
  maxDocuments := r.maxDocuments
  tokenizer := match r.tokenizer with | some b => b | none => "unicode61".toList

/-- A request, its answer, and the catalogue after it. -/
inductive Answer (dss : Nat) (f : Cat) : Req → Resp → Cat → Prop
  | createUnnamed (r) : Answer dss f (.create [] r) .badRequest f
  | createExisting {n} (r) (hn : n ≠ []) (h : Present f n) : Answer dss f (.create n r) .conflict f
  | created {n} (r) {g} (hn : n ≠ []) (h : ¬ Present f n) (hg : With f n (some ⟨.good (asked dss r), false⟩) g) :
      Answer dss f (.create n r) (.created (asked dss r)) g
  | setMaxNone {n} (m) (h : ∀ c, ¬ Conf f n c) : Answer dss f (.setMax n m) .notFound f
  | setMax {n} (m) {c i g} (h : f n = some ⟨.good c, i⟩) (hg : With f n (some ⟨.good { c with maxDocuments := m }, i⟩) g) :
      Answer dss f (.setMax n m) (.config { c with maxDocuments := m }) g
  | delete {n g} (hg : With f n none g) : Answer dss f (.delete n) .deleted g
  | populateNone {n} (h : ∀ c, ¬ Conf f n c) : Answer dss f (.populate n) .failed f
  | populate {n c i g} (h : f n = some ⟨.good c, i⟩) (hg : With f n (some ⟨.good c, true⟩) g) :
      Answer dss f (.populate n) (.populated c) g
  | list {l} (hs : l.Pairwise (· < ·)) (hm : ∀ n, n ∈ l ↔ Present f n) : Answer dss f .list (.names l) f
  | infoNone {n} (h : ∀ e, f n = some e → e.index = false) : Answer dss f (.info n) .notFound f
  | info {n c} (h : f n = some ⟨.good c, true⟩) : Answer dss f (.info n) (.info c.maxDocuments) f
  | infoBare {n e} (h : f n = some e) (hi : e.index = true) (hc : ∀ c, ¬ Conf f n c) : Answer dss f (.info n) (.info none) f
  | summary {n c} (h : f n = some ⟨.good c, true⟩) : Answer dss f (.summary n) (.summary true none c.maxDocuments) f
  | summaryBare {n e} (h : f n = some e) (hi : e.index = true) (hc : ∀ c, ¬ Conf f n c) :
      Answer dss f (.summary n) (.summary true none none) f
  | summaryEmpty {n c} (h : f n = some ⟨.good c, false⟩) : Answer dss f (.summary n) (.summary false (some c.nbits) c.maxDocuments) f
  | summaryNone {n} (hi : ∀ e, f n = some e → e.index = false) (hc : ∀ c, ¬ Conf f n c) :
      Answer dss f (.summary n) (.summary false (some 4) none) f
  | restart : Answer dss f .restart .none f

/-- Requests one after another. -/
inductive Answers (dss : Nat) : Cat → List Req → List Resp → Cat → Prop
  | nil {f} : Answers dss f [] [] f
  | cons {f g h r a rs as} (h1 : Answer dss f r a g) (h2 : Answers dss g rs as h) : Answers dss f (r :: rs) (a :: as) h

/-- The limit on documents after `rs`, beginning with `m`: the last one asked for. -/
def lastMax (n : Name) : List Req → Option Nat → Option Nat
  | [], m => m
  | .setMax k m' :: rs, m => lastMax n rs (if k = n then m' else m)
  | _ :: rs, m => lastMax n rs m

end NextPlaid.Spec.Catalogue
