import Verif.Model.Stats
import Verif.Proofs.Colgrep4

namespace NextPlaid.Stats

open NextPlaid.Colgrep

variable {P C U H : Type} [DecidableEq P] [DecidableEq H]

/-- The files at the runs of a history. -/
def disksOf : List (Event P C) → List (Disk P C)
  | [] => []
  | .run d :: es => d :: disksOf es
  | .search :: es => disksOf es
  | .reset :: es => disksOf es

omit [DecidableEq H] in
theorem after_searches {L : Lang P C U H} {seen : List (Disk P C)} {disk : Disk P C} {d : Persist P U H} (n : Nat) (h : After L seen disk d) :
    After L seen disk { d with state := { d.state with searches := n } } :=
  ⟨h.dirty, h.building, h.aligned, h.current, h.absent, h.complete, h.ignored, h.recorded, h.skipped⟩

omit [DecidableEq H] in
theorem mismatch_current {k : Kept P U H} (h : k.format = current) : mismatch k = false := by simp [mismatch, h]

theorem run_ok {L : Lang P C U H} (hL : L.Lawful) (hinj : Function.Injective L.hash) {seen : List (Disk P C)} {last disk : Disk P C}
    (hlast : (last.map (·.1)).Nodup) (hc : Spec.Calm L.parse seen last disk) {k : Kept P U H} (hm : mismatch k = false) (ha : After L seen last k.dir) :
    ∃ k', run L disk .never k = .ok k' ∧ After L (disk :: seen) disk k'.dir ∧ k'.format = current := by
  obtain ⟨l, e, h⟩ := index_ok L hL hinj seen last disk hlast hc ⟨k.dir, []⟩ ha
  exact ⟨⟨l.now, current⟩, by simp only [run, hm, Bool.false_eq_true, if_false, e]; rfl, h, rfl⟩

theorem history_ok {L : Lang P C U H} (hL : L.Lawful) (hinj : Function.Injective L.hash) : ∀ (es : List (Event P C)) (seen : List (Disk P C)) (last : Disk P C),
    (last.map (·.1)).Nodup → Spec.CalmFrom L.parse seen last (disksOf es) → ∀ k : Kept P U H, mismatch k = false → After L seen last k.dir →
    ∃ k', history L es k = .ok k' ∧ After L ((disksOf es).reverse ++ seen) ((disksOf es).getLast?.getD last) k'.dir ∧
      ((((disksOf es).getLast?.getD last).map (·.1)).Nodup)
  | [], seen, last, hn, _, k, _, ha => ⟨k, rfl, ha, hn⟩
  | .run disk :: es, seen, last, hn, hc, k, hm, ha => by
    obtain ⟨k1, e1, h1, f1⟩ := run_ok hL hinj hn hc.1 hm ha
    obtain ⟨k2, e2, h2, n2⟩ := history_ok hL hinj es (disk :: seen) disk hc.1.names hc.2 k1 (mismatch_current f1) h1
    have : ((disksOf (.run disk :: es)).getLast?).getD last = (disksOf es).getLast?.getD disk := by
      simp only [disksOf]; rw [List.getLast?_cons]; rfl
    refine ⟨k2, by simp only [history, e1, Except.bind, e2], ?_, by rw [this]; exact n2⟩
    rw [this]
    simpa [disksOf] using h2
  | .search :: es, seen, last, hn, hc, k, hm, ha =>
    history_ok hL hinj es seen last hn hc (count k) (mismatch_current rfl) (after_searches (k.dir.state.searches + 1) ha)
  | .reset :: es, seen, last, hn, hc, k, hm, ha =>
    history_ok hL hinj es seen last hn hc (reset k) (mismatch_current rfl) (after_searches 0 ha)

end NextPlaid.Stats
