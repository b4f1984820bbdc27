import Verif.Spec.Where
import Verif.Spec.Json
import Verif.Proofs.Fts2
import Verif.Proofs.Condition
import Verif.Proofs.Json
import Verif.Proofs.Condition2

/-! Lemmas about selecting rows with a condition. -/

namespace NextPlaid.Where
open NextPlaid NextPlaid.Db NextPlaid.Condition NextPlaid.Spec NextPlaid.Proofs.Condition

variable {S : Sql}

/-! ### The evaluator computes the truth -/

theorem sqlNot_eq (x : Option Bool) : sqlNot x = not3 x := by
  rcases x with _ | _ | _ <;> rfl

theorem sqlAnd_eq (x y : Option Bool) : sqlAnd x y = and3 x y := by
  rcases x with _ | _ | _ <;> rcases y with _ | _ | _ <;> rfl

theorem sqlOr_eq (x y : Option Bool) : sqlOr x y = or3 x y := by
  rcases x with _ | _ | _ <;> rcases y with _ | _ | _ <;> rfl

theorem flip_eq (neg : Bool) (x : Option Bool) : flip neg x = negate3 neg x := by
  cases neg
  · rfl
  · exact sqlNot_eq x

theorem placeholders_eq : ∀ c : Cond, placeholders c = c.width
  | .test t => by cases t <;> rfl
  | .neg c => placeholders_eq c
  | .conj a b => by rw [placeholders, placeholders_eq a, placeholders_eq b, Cond.width]
  | .disj a b => by rw [placeholders, placeholders_eq a, placeholders_eq b, Cond.width]

theorem callsRegexp_iff : ∀ c : Cond, callsRegexp c = true ↔ c.regexps ≠ []
  | .test t => by cases t <;> simp [callsRegexp, Cond.regexps]
  | .neg c => callsRegexp_iff c
  | .conj a b => by
    rw [callsRegexp, Bool.or_eq_true_iff, callsRegexp_iff a, callsRegexp_iff b, Cond.regexps]
    simp only [ne_eq, List.append_eq_nil_iff]
    tauto
  | .disj a b => by
    rw [callsRegexp, Bool.or_eq_true_iff, callsRegexp_iff a, callsRegexp_iff b, Cond.regexps]
    simp only [ne_eq, List.append_eq_nil_iff]
    tauto

theorem evalIn_ok (e : Engine S) (n : List Char) (x : S.V) : ∀ (k : Nat) (ps : List S.V), k ≤ ps.length →
    evalIn e n x k ps = .ok (((ps.take k).map fun p => e.compare n .eq x p).foldr or3 (some false), ps.drop k)
  | 0, ps, _ => by simp [evalIn]
  | k + 1, [], h => by simp at h
  | k + 1, p :: ps, h => by
    rw [List.length_cons] at h
    rw [evalIn]
    simp only [next, bind, Except.bind]
    rw [evalIn_ok e n x k ps (by omega)]
    simp only [pure, Except.pure, List.take_succ_cons, List.map_cons, List.foldr_cons, List.drop_succ_cons, sqlOr_eq]

theorem evalTest_ok (e : Engine S) (conn : Conn) (cells : List (String × S.V)) (rx : S.V → S.V → Option Bool)
    (t : Test) (ps : List S.V) (hl : t.width ≤ ps.length)
    (hrx : ∀ n ∈ (Cond.test t).regexps, ∀ p ∈ (Cond.test t).patterns ps,
      callRegexp e conn p (lookup cells n) = .ok (rx (lookup cells n) p)) :
    evalTest e conn cells ps t = .ok (t.truth e rx (lookup cells) ps, ps.drop t.width) := by
  cases t with
  | compare n op =>
    rcases ps with _ | ⟨p, ps⟩
    · simp [Test.width] at hl
    · rfl
  | like neg n =>
    rcases ps with _ | ⟨p, ps⟩
    · simp [Test.width] at hl
    · simp [evalTest, next, bind, Except.bind, pure, Except.pure, Test.truth, Test.width, param, flip_eq]
  | regexp neg n =>
    rcases ps with _ | ⟨p, ps⟩
    · simp [Test.width] at hl
    · have := hrx n (by simp [Cond.regexps]) p (by simp [Cond.patterns, param])
      simp [evalTest, next, bind, Except.bind, pure, Except.pure, Test.truth, Test.width, param, flip_eq, this]
  | isNull neg n => simp [evalTest, pure, Except.pure, Test.truth, Test.width, flip_eq]
  | between neg n =>
    rcases ps with _ | ⟨p, _ | ⟨q, ps⟩⟩
    · simp [Test.width] at hl
    · simp [Test.width] at hl
    · simp [evalTest, next, bind, Except.bind, pure, Except.pure, Test.truth, Test.width, param, flip_eq, sqlAnd_eq]
  | isIn neg n more =>
    rw [evalTest, evalIn_ok e n (lookup cells n) (more + 1) ps hl]
    simp [bind, Except.bind, pure, Except.pure, Test.truth, Test.width, flip_eq]

theorem eval_ok (e : Engine S) (conn : Conn) (cells : List (String × S.V)) (rx : S.V → S.V → Option Bool) :
    ∀ (c : Cond) (ps : List S.V), c.width ≤ ps.length →
    (∀ n ∈ c.regexps, ∀ p ∈ c.patterns ps, callRegexp e conn p (lookup cells n) = .ok (rx (lookup cells n) p)) →
    eval e conn cells c ps = .ok (c.truth e rx (lookup cells) ps, ps.drop c.width)
  | .test t, ps, hl, hrx => evalTest_ok e conn cells rx t ps hl hrx
  | .neg c, ps, hl, hrx => by
    rw [eval, eval_ok e conn cells rx c ps hl hrx]
    simp only [bind, Except.bind, pure, Except.pure, sqlNot_eq]
    rfl
  | .conj a b, ps, hl, hrx => by
    rw [Cond.width] at hl
    rw [eval, eval_ok e conn cells rx a ps (by omega)
      (fun n hn p hp => hrx n (List.mem_append_left _ hn) p (List.mem_append_left _ hp))]
    simp only [bind, Except.bind]
    rw [eval_ok e conn cells rx b (ps.drop a.width) (by rw [List.length_drop]; omega)
      (fun n hn p hp => hrx n (List.mem_append_right _ hn) p (List.mem_append_right _ hp))]
    simp only [pure, Except.pure, sqlAnd_eq, List.drop_drop]
    rfl
  | .disj a b, ps, hl, hrx => by
    rw [Cond.width] at hl
    rw [eval, eval_ok e conn cells rx a ps (by omega)
      (fun n hn p hp => hrx n (List.mem_append_left _ hn) p (List.mem_append_left _ hp))]
    simp only [bind, Except.bind]
    rw [eval_ok e conn cells rx b (ps.drop a.width) (by rw [List.length_drop]; omega)
      (fun n hn p hp => hrx n (List.mem_append_right _ hn) p (List.mem_append_right _ hp))]
    simp only [pure, Except.pure, sqlOr_eq, List.drop_drop]
    rfl

theorem truth_congr (e : Engine S) (rx : S.V → S.V → Option Bool) {f g : List Char → S.V} :
    ∀ (c : Cond) (ps : List S.V), (∀ n ∈ c.columns, f n = g n) → c.truth e rx f ps = c.truth e rx g ps
  | .test t, ps, h => by
    have h1 : f t.column = g t.column := h _ (by simp [Cond.columns])
    cases t <;> simp only [Test.column] at h1 <;> simp only [Cond.truth, Test.truth, h1]
  | .neg c, ps, h => by rw [Cond.truth, Cond.truth, truth_congr e rx c ps h]
  | .conj a b, ps, h => by
    rw [Cond.truth, Cond.truth, truth_congr e rx a ps fun n hn => h n (List.mem_append_left _ hn),
      truth_congr e rx b _ fun n hn => h n (List.mem_append_right _ hn)]
  | .disj a b, ps, h => by
    rw [Cond.truth, Cond.truth, truth_congr e rx a ps fun n hn => h n (List.mem_append_left _ hn),
      truth_congr e rx b _ fun n hn => h n (List.mem_append_right _ hn)]

theorem regexps_columns : ∀ (c : Cond), ∀ n ∈ c.regexps, n ∈ c.columns
  | .test t, n, h => by cases t <;> simp_all [Cond.regexps, Cond.columns, Test.column]
  | .neg c, n, h => regexps_columns c n h
  | .conj a b, n, h => by
    rcases List.mem_append.1 h with h | h
    · exact List.mem_append_left _ (regexps_columns a n h)
    · exact List.mem_append_right _ (regexps_columns b n h)
  | .disj a b, n, h => by
    rcases List.mem_append.1 h with h | h
    · exact List.mem_append_left _ (regexps_columns a n h)
    · exact List.mem_append_right _ (regexps_columns b n h)

/-! ### Patterns do not matter -/

theorem callRegexp_text (e : Engine S) (conn : Conn) (p q x : S.V) (hp : (e.text p).isSome) (hq : (e.text q).isSome) :
    callRegexp e conn p x = callRegexp e conn q x := by
  obtain ⟨a, ha⟩ := Option.isSome_iff_exists.1 hp
  obtain ⟨b, hb⟩ := Option.isSome_iff_exists.1 hq
  unfold callRegexp
  rw [ha, hb]
  cases conn <;> cases e.text x <;> rfl

theorem take_cons_one {α : Type} {p q : α} {ps qs : List α} {k : Nat} (h : (p :: ps).take (k + 1) = (q :: qs).take (k + 1)) :
    p = q ∧ ps.take k = qs.take k := by
  simpa using h

theorem eval_patterns (e : Engine S) (conn : Conn) (cells : List (String × S.V)) :
    ∀ (c : Cond) (ps qs : List S.V), c.width ≤ ps.length → c.width ≤ qs.length → c.SameButPatterns e ps qs →
    ∃ r : Res (Option Bool), eval e conn cells c ps = r.map (·, ps.drop c.width) ∧
      eval e conn cells c qs = r.map (·, qs.drop c.width)
  | .test t, ps, qs, hp, hq, h => by
    have key : ∀ t : Test, (∀ neg n, t ≠ .regexp neg n) → t.width ≤ ps.length → t.width ≤ qs.length →
        ps.take t.width = qs.take t.width → ∃ r : Res (Option Bool),
          evalTest e conn cells ps t = r.map (·, ps.drop t.width) ∧ evalTest e conn cells qs t = r.map (·, qs.drop t.width) := by
      intro t ht hp hq h
      have hno : ∀ ps : List S.V, ∀ n ∈ (Cond.test t).regexps, ∀ p ∈ (Cond.test t).patterns ps,
          callRegexp e conn p (lookup cells n) = .ok ((fun _ _ => none) (lookup cells n) p) := by
        intro ps n hn
        cases t <;> simp_all [Cond.regexps]
      refine ⟨.ok (t.truth e (fun _ _ => none) (lookup cells) ps), evalTest_ok e conn cells _ t ps hp (hno ps), ?_⟩
      rw [evalTest_ok e conn cells (fun _ _ => none) t qs hq (hno qs)]
      have : t.truth e (fun _ _ => none) (lookup cells) qs = t.truth e (fun _ _ => none) (lookup cells) ps := by
        have hpar : ∀ i < t.width, param ps i = param qs i := by
          intro i hi
          have := congrArg (fun l => l[i]?) h
          simp only [List.getElem?_take, if_pos hi] at this
          unfold param
          rw [List.getD_eq_getElem?_getD, List.getD_eq_getElem?_getD, this]
        cases t with
        | compare n op => simp only [Test.truth, hpar 0 (by simp [Test.width])]
        | like neg n => simp only [Test.truth, hpar 0 (by simp [Test.width])]
        | regexp neg n => exact absurd rfl (ht neg n)
        | isNull neg n => rfl
        | between neg n => simp only [Test.truth, hpar 0 (by simp [Test.width]), hpar 1 (by simp [Test.width])]
        | isIn neg n more =>
          simp only [Test.truth]
          simp only [Test.width] at h
          rw [h]
      rw [this]
      rfl
    cases t with
    | regexp neg n =>
      obtain ⟨h1, h2⟩ := h
      rcases ps with _ | ⟨p, ps⟩
      · simp [Cond.width, Test.width] at hp
      rcases qs with _ | ⟨q, qs⟩
      · simp [Cond.width, Test.width] at hq
      refine ⟨(callRegexp e conn p (lookup cells n)).map (flip neg), ?_, ?_⟩
      · simp only [eval, evalTest, next, bind, Except.bind, pure, Except.pure]
        cases callRegexp e conn p (lookup cells n) <;> rfl
      · simp only [eval, evalTest, next, bind, Except.bind, pure, Except.pure]
        rw [callRegexp_text e conn p q _ h1 h2]
        cases callRegexp e conn q (lookup cells n) <;> rfl
    | compare n op => exact key _ (by simp) hp hq h
    | like neg n => exact key _ (by simp) hp hq h
    | isNull neg n => exact key _ (by simp) hp hq h
    | between neg n => exact key _ (by simp) hp hq h
    | isIn neg n more => exact key _ (by simp) hp hq h
  | .neg c, ps, qs, hp, hq, h => by
    obtain ⟨r, h1, h2⟩ := eval_patterns e conn cells c ps qs hp hq h
    refine ⟨r.map sqlNot, ?_, ?_⟩
    · rw [eval, h1]; cases r <;> rfl
    · rw [eval, h2]; cases r <;> rfl
  | .conj a b, ps, qs, hp, hq, h => by
    rw [Cond.width] at hp hq
    obtain ⟨r, h1, h2⟩ := eval_patterns e conn cells a ps qs (by omega) (by omega) h.1
    obtain ⟨r', h3, h4⟩ := eval_patterns e conn cells b (ps.drop a.width) (qs.drop a.width)
      (by rw [List.length_drop]; omega) (by rw [List.length_drop]; omega) h.2
    refine ⟨r.bind fun x => r'.map fun y => sqlAnd x y, ?_, ?_⟩
    · rw [eval, h1]
      cases r with
      | error f => rfl
      | ok x =>
        simp only [bind, Except.bind, Except.map]
        rw [h3]
        cases r' with
        | error f => rfl
        | ok y => simp only [Except.map, pure, Except.pure, Cond.width, List.drop_drop]
    · rw [eval, h2]
      cases r with
      | error f => rfl
      | ok x =>
        simp only [bind, Except.bind, Except.map]
        rw [h4]
        cases r' with
        | error f => rfl
        | ok y => simp only [Except.map, pure, Except.pure, Cond.width, List.drop_drop]
  | .disj a b, ps, qs, hp, hq, h => by
    rw [Cond.width] at hp hq
    obtain ⟨r, h1, h2⟩ := eval_patterns e conn cells a ps qs (by omega) (by omega) h.1
    obtain ⟨r', h3, h4⟩ := eval_patterns e conn cells b (ps.drop a.width) (qs.drop a.width)
      (by rw [List.length_drop]; omega) (by rw [List.length_drop]; omega) h.2
    refine ⟨r.bind fun x => r'.map fun y => sqlOr x y, ?_, ?_⟩
    · rw [eval, h1]
      cases r with
      | error f => rfl
      | ok x =>
        simp only [bind, Except.bind, Except.map]
        rw [h3]
        cases r' with
        | error f => rfl
        | ok y => simp only [Except.map, pure, Except.pure, Cond.width, List.drop_drop]
    · rw [eval, h2]
      cases r with
      | error f => rfl
      | ok x =>
        simp only [bind, Except.bind, Except.map]
        rw [h4]
        cases r' with
        | error f => rfl
        | ok y => simp only [Except.map, pure, Except.pure, Cond.width, List.drop_drop]

theorem selectRows_patterns (e : Engine S) (conn : Conn) (c : Cond) (ps qs : List S.V) (hp : c.width ≤ ps.length)
    (hq : c.width ≤ qs.length) (h : c.SameButPatterns e ps qs) :
    ∀ rows, selectRows e conn c ps rows = selectRows e conn c qs rows
  | [] => rfl
  | r :: rs => by
    obtain ⟨x, h1, h2⟩ := eval_patterns e conn r.2 c ps qs hp hq h
    rw [selectRows, selectRows, h1, h2, selectRows_patterns e conn c ps qs hp hq h rs]
    cases x <;> rfl

theorem query_patterns (U : Uni) (e : Engine S) (conn : Conn) (plan) (t : Tables S) (text : List Char) (c : Cond)
    (ps qs : List S.V) (hl : ps.length = qs.length) (h : c.SameButPatterns e ps qs) :
    query U e conn plan t text c ps = query U e conn plan t text c qs := by
  unfold query select
  by_cases hw : ps.length = placeholders c
  · have hw' := hw
    rw [placeholders_eq] at hw'
    rw [selectRows_patterns e conn c ps qs (by omega) (by omega) h, hl]
  · rw [hl] at hw ⊢
    simp only [ne_eq, hw, not_false_eq_true, if_true]

/-! ### Rows -/

theorem selectRows_ok (e : Engine S) (conn : Conn) (c : Cond) (ps : List S.V) (rx : S.V → S.V → Option Bool)
    (hl : c.width ≤ ps.length) : ∀ rows : List (Int × List (String × S.V)),
    (∀ r ∈ rows, ∀ n ∈ c.regexps, ∀ p ∈ c.patterns ps, callRegexp e conn p (lookup r.2 n) = .ok (rx (lookup r.2 n) p)) →
    selectRows e conn c ps rows =
      .ok ((rows.filter fun r => decide (c.truth e rx (lookup r.2) ps = some true)).map (·.1))
  | [], _ => rfl
  | r :: rs, h => by
    rw [selectRows, eval_ok e conn r.2 rx c ps hl (h r List.mem_cons_self),
      selectRows_ok e conn c ps rx hl rs fun r hr => h r (List.mem_cons_of_mem _ hr)]
    simp only [bind, Except.bind, pure, Except.pure]
    by_cases ht : c.truth e rx (lookup r.2) ps = some true
    · rw [List.filter_cons_of_pos (by simpa using ht), ht]
      rfl
    · rw [List.filter_cons_of_neg (by simpa using ht)]
      have : (c.truth e rx (lookup r.2) ps == some true) = false := by simpa using ht
      rw [this]
      rfl

/-- A row of the source stands for a row of the listing, as far as the given names go. -/
def Stands (e : Engine S) (names : List (List Char)) (row : Int × List (String × S.V)) (r : OutRow S) : Prop :=
  row.1 = r.subset ∧ ∀ n ∈ names, lookup row.2 n = r.at e n

theorem trueAt_of_stands (e : Engine S) (rx : S.V → S.V → Option Bool) (c : Cond) (ps : List S.V) {rows : List (Int × List (String × S.V))}
    {all : List (OutRow S)} (h : List.Forall₂ (Stands e c.columns) rows all) :
    (rows.filter fun r => decide (c.truth e rx (lookup r.2) ps = some true)).map (·.1) = trueAt e rx c ps all := by
  unfold trueAt
  induction h with
  | nil => rfl
  | @cons row r rows all h1 _ ih =>
    have e1 : c.truth e rx (lookup row.2) ps = c.truth e rx (r.at e) ps := truth_congr e rx c ps h1.2
    by_cases ht : c.truth e rx (r.at e) ps = some true
    · rw [List.filter_cons_of_pos (by simpa [e1] using ht), List.filter_cons_of_pos (by simpa using ht), List.map_cons,
        List.map_cons, ih, h1.1]
    · rw [List.filter_cons_of_neg (by simpa [e1] using ht), List.filter_cons_of_neg (by simpa using ht), ih]

theorem select_answers (e : Engine S) (conn : Conn) (plan) (hplan : ∀ l, (plan l).Perm l) (src : Source S) (c : Cond)
    (ps : List S.V) (rx : S.V → S.V → Option Bool) {all : List (OutRow S)}
    (hr : ∀ n ∈ c.columns, resolves src.cols n = true) (hc : c.regexps ≠ [] → conn.isSome) (hl : ps.length = c.width)
    (hst : List.Forall₂ (Stands e c.columns) src.rows all)
    (hrx : ∀ r ∈ all, ∀ n ∈ c.regexps, ∀ p ∈ c.patterns ps, callRegexp e conn p (r.at e n) = .ok (rx (r.at e n) p)) :
    Answers (select e conn plan src c ps) (trueAt e rx c ps all) := by
  have hrx' : ∀ r ∈ src.rows, ∀ n ∈ c.regexps, ∀ p ∈ c.patterns ps,
      callRegexp e conn p (lookup r.2 n) = .ok (rx (lookup r.2 n) p) := by
    intro r hm n hn p hp
    have : ∃ o ∈ all, Stands e c.columns r o := by
      clear hrx
      generalize src.rows = l at hst hm
      induction hst with
      | nil => simp at hm
      | @cons row o rows all h1 _ ih =>
        rcases List.mem_cons.1 hm with rfl | hm
        · exact ⟨o, List.mem_cons_self, h1⟩
        · obtain ⟨o', ho, hs⟩ := ih hm
          exact ⟨o', List.mem_cons_of_mem _ ho, hs⟩
    obtain ⟨o, ho, hs⟩ := this
    rw [hs.2 n (regexps_columns c n hn)]
    exact hrx o ho n hn p hp
  unfold select
  rw [if_neg (by simpa [List.all_eq_true] using hr), if_neg, if_neg (by rw [placeholders_eq]; simpa using hl),
    selectRows_ok e conn c ps rx (by omega) _ fun r hm => hrx' r ((hplan _).mem_iff.1 hm)]
  · refine ⟨_, rfl, ?_⟩
    rw [← trueAt_of_stands e rx c ps hst]
    exact ((hplan _).filter _).map _
  · rw [Bool.and_eq_true_iff, callsRegexp_iff]
    rintro ⟨h1, h2⟩
    have := hc h1
    cases conn <;> simp_all

/-! ### Names -/

theorem sameCol_iff (a : String) (n : List Char) : sameCol a n = true ↔ SameColumn a.toList n := by
  unfold sameCol SameColumn
  exact beq_iff_eq

theorem sameCol_false (a : String) (n : List Char) : sameCol a n = false ↔ ¬ SameColumn a.toList n := by
  rw [← sameCol_iff, Bool.not_eq_true]

theorem filter_single {l : List String} {n : List Char} (hp : l.Pairwise fun a b => ¬ SameName a b)
    (h : ∃ c ∈ l, SameColumn c.toList n) : (l.filter fun c => sameCol c n).length = 1 := by
  induction l with
  | nil => simp at h
  | cons a l ih =>
    rw [List.pairwise_cons] at hp
    by_cases ha : SameColumn a.toList n
    · rw [List.filter_cons_of_pos (by exact (sameCol_iff _ _).2 ha)]
      have : l.filter (fun c => sameCol c n) = [] := by
        rw [List.filter_eq_nil_iff]
        intro b hb hs
        refine hp.1 b hb ?_
        exact ha.trans ((sameCol_iff _ _).1 hs).symm
      rw [this]
      rfl
    · rw [List.filter_cons_of_neg (by exact fun hs => ha ((sameCol_iff _ _).1 hs))]
      obtain ⟨c, hc, hs⟩ := h
      rcases List.mem_cons.1 hc with rfl | hc
      · exact absurd hs ha
      · exact ih hp.2 ⟨c, hc, hs⟩

theorem find_skip (cells : List (String × S.V)) (p : String × S.V) (n : List Char) (h : ¬ SameColumn p.1.toList n) :
    (p :: cells).find? (fun q => sameCol q.1 n) = cells.find? fun q => sameCol q.1 n := by
  rw [List.find?_cons_of_neg]
  intro hs
  exact h ((sameCol_iff _ _).1 hs)

theorem at_eq (e : Engine S) (r : OutRow S) (n : List Char) :
    r.at e n = lookup (("_subset_", e.int r.subset) :: r.cols) n := by
  unfold OutRow.at lookup
  by_cases h : SameColumn "_subset_".toList n
  · rw [if_pos h, List.find?_cons_of_pos (by exact (sameCol_iff _ _).2 h)]
    rfl
  · rw [if_neg h, find_skip _ _ _ h]
    have : (fun p : String × S.V => decide (SameColumn p.1.toList n)) = fun q => sameCol q.1 n := by
      funext p
      rw [Bool.eq_iff_iff, decide_eq_true_iff, sameCol_iff]
    rw [this]

theorem find_zip_some {cols : List String} {vals : List S.V} (hl : cols.length = vals.length) {n : List Char}
    (h : ∃ c ∈ cols, SameColumn c.toList n) : ((cols.zip vals).find? fun q => sameCol q.1 n).isSome := by
  rw [List.find?_isSome]
  obtain ⟨c, hc, hs⟩ := h
  obtain ⟨i, hi, rfl⟩ := List.getElem_of_mem hc
  exact ⟨(cols[i], vals[i]), by
    rw [List.mem_iff_getElem]
    exact ⟨i, by simp [hi, ← hl], by simp⟩, (sameCol_iff _ _).2 hs⟩

/-- In the table without contents. -/
theorem thin_stands (e : Engine S) {t : Tables S} {names : List (List Char)}
    (hn : ∀ n ∈ names, ¬ SameColumn "_content_id_".toList n ∧
      (SameColumn "_subset_".toList n ∨ ∃ c ∈ t.thinCols.map (·.1), SameColumn c.toList n)) :
    ∀ (Q : List (Int × Item S)) (b : Int), List.Forall₂ (Stands e names)
      ((thinFrom t.thinCols b Q).map fun r => (r.subset, ("_subset_", e.int r.subset) :: ("_content_id_", e.int r.cid) ::
        (t.thinCols.map (·.1)).zip r.vals)) (outFrom t b (Q.map (·.2)))
  | [], b => .nil
  | p :: Q, b => by
    rw [thinFrom, List.map_cons, List.map_cons, outFrom]
    refine .cons ⟨rfl, ?_⟩ (thin_stands e hn Q (b + 1))
    intro n hnm
    obtain ⟨h1, h2⟩ := hn n hnm
    rw [at_eq]
    unfold lookup
    by_cases h : SameColumn "_subset_".toList n
    · rw [List.find?_cons_of_pos (by exact (sameCol_iff _ _).2 h), List.find?_cons_of_pos (by exact (sameCol_iff _ _).2 h)]
      rfl
    · rw [find_skip _ _ _ h, find_skip _ _ _ h1, find_skip _ _ _ h]
      have hf := find_zip_some (S := S) (cols := t.thinCols.map (·.1)) (vals := rowVals t.thinCols p.2) (by simp [rowVals])
        (h2.resolve_left h)
      obtain ⟨x, hx⟩ := Option.isSome_iff_exists.1 hf
      unfold outRow
      simp only
      rw [List.find?_append, hx]
      rfl

/-- In the join. -/
theorem join_stands (e : Engine S) {t : Tables S} {P} (h : Rep t P) {names : List (List Char)}
    (hn : ∀ n ∈ names, ¬ SameColumn "_content_id_".toList n) :
    ∀ (Q : List (Int × Item S)) (b : Int), (∀ p ∈ Q, p ∈ P) → List.Forall₂ (Stands e names)
      ((thinFrom t.thinCols b Q).flatMap fun r => (t.fat.filter fun f => f.cid == r.cid).map fun f =>
        (r.subset, ("_subset_", e.int r.subset) :: ("_content_id_", e.int r.cid) :: (t.thinCols.map (·.1)).zip r.vals ++
          ("_content_id_", e.int f.cid) :: (t.fatCols.map (·.1)).zip f.vals)) (outFrom t b (Q.map (·.2)))
  | [], b, _ => .nil
  | p :: Q, b, hQ => by
    rw [thinFrom, List.flatMap_cons,
      h.fat, filter_key_single (fun p : Int × Item S => (⟨p.1, rowVals t.fatCols p.2⟩ : FatRow S)) (·.cid)
        (fun _ => rfl) P h.nodup p (hQ p (by simp)), List.map_cons, List.map_cons, outFrom]
    refine .cons ⟨rfl, ?_⟩ ?_
    · intro n hnm
      have h1 := hn n hnm
      rw [at_eq]
      unfold lookup outRow
      simp only
      rw [List.cons_append, List.cons_append]
      by_cases hs : SameColumn "_subset_".toList n
      · rw [List.find?_cons_of_pos (by exact (sameCol_iff _ _).2 hs), List.find?_cons_of_pos (by exact (sameCol_iff _ _).2 hs)]
      · rw [find_skip _ _ _ hs, find_skip _ _ _ h1, find_skip _ _ _ hs, List.find?_append, List.find?_append,
          find_skip _ _ _ h1]
    · have := join_stands e h hn Q (b + 1) (fun q hq => hQ q (List.mem_cons_of_mem _ hq))
      rw [h.fat] at this
      exact this

/-! ### Columns of a store -/

theorem kept_colsOk {db : Option (Tables S)} {rows} (h : Kept db rows) : ∀ t, db = some t → ColsOk t := by
  induction h with
  | create h => exact create_cols h
  | update _ h ih => exact update_cols ih h
  | delete ids _ ih => exact delete_cols ids ih
  | change _ _ h ih => exact updateWhere_cols ih h

/-- Every column name was checked when it was added. -/
def NamesOk (t : Tables S) : Prop := ∀ n ∈ t.thinCols.map (·.1) ++ t.fatCols.map (·.1), validName n = true

theorem NamesOk.of_eq {t t' : Tables S} (h : NamesOk t) (h1 : t'.thinCols = t.thinCols) (h2 : t'.fatCols = t.fatCols) :
    NamesOk t' := by
  unfold NamesOk
  rw [h1, h2]
  exact h

theorem split_names {cols : List (String × S.Ty)} (h : ∀ c ∈ cols, validName c.1 = true) (n : String)
    (hn : n ∈ (cols.filter fun c => isThin c.1).map (·.1) ++ (cols.filter fun c => !isThin c.1).map (·.1)) :
    validName n = true := by
  rcases List.mem_append.1 hn with hn | hn <;> obtain ⟨c, hc, rfl⟩ := List.mem_map.1 hn <;>
    exact h c (List.mem_filter.1 hc).1

theorem createTables_names {cols : List (String × S.Ty)} {t} (h : createTables cols = .ok t)
    (hv : ∀ c ∈ cols, validName c.1 = true) : NamesOk t := by
  rw [createTables_ok h]
  exact fun n hn => split_names hv n hn

theorem tryFixed_names {items : List (Item S)} {cols} (h : tryFixed items = .ok (some cols)) :
    ∀ c ∈ cols, validName c.1 = true := by
  unfold tryFixed at h
  split at h
  · split at h
    · next hv =>
      split at h
      · cases h
        intro c hc
        obtain ⟨p, hp, rfl⟩ := List.mem_map.1 hc
        exact List.all_eq_true.1 hv p hp
      · cases h
    · cases h
  · cases h

theorem create_names {items : List (Item S)} {ids db n} (h : create items ids = .ok (db, n)) :
    ∀ t, db = some t → NamesOk t := by
  intro t ht
  subst ht
  unfold create at h
  split at h
  · cases h
  · split at h
    · cases h
    · rcases hf : tryFixed items with e | fixed
      · rw [hf] at h; simp [bind, Except.bind] at h
      · rw [hf] at h
        simp only [bind, Except.bind] at h
        rcases hc : createWith fixed items ids with e | t1
        · rw [hc] at h; cases h
        · rw [hc] at h
          cases h
          cases fixed with
          | some cols =>
            rw [createWith] at hc
            unfold createFixed at hc
            rcases hct : createTables cols with e | t0
            · rw [hct] at hc; simp [bind, Except.bind] at hc
            · rw [hct] at hc
              simp only [bind, Except.bind] at hc
              split at hc
              · obtain ⟨e1, e2⟩ := Db.insertRows_cols _ _ _ hc
                exact (createTables_names hct (tryFixed_names hf)).of_eq e1 e2
              · cases hc
          | none =>
            rw [createWith] at hc
            unfold createGeneral at hc
            rcases hs : scanKeys [] (allKeys items) [] with e | new
            · rw [hs] at hc; simp [bind, Except.bind] at hc
            · rw [hs] at hc
              simp only [bind, Except.bind] at hc
              rcases hct : createTables (new.map fun c => (c, colType items c)) with e | t0
              · rw [hct] at hc; cases hc
              · rw [hct] at hc
                simp only at hc
                obtain ⟨e1, e2⟩ := Db.insertRows_cols _ _ _ hc
                refine (createTables_names hct ?_).of_eq e1 e2
                intro c hc
                obtain ⟨k, hk, rfl⟩ := List.mem_map.1 hc
                rcases (Json.scanKeys_new _ _ _ _ hs).1 k hk with h | h
                · simp at h
                · exact h.2.2

theorem update_names {db db' : Option (Tables S)} {items : List (Item S)} {ids n}
    (hdb : ∀ t, db = some t → NamesOk t) (h : update db items ids = .ok (db', n)) :
    ∀ t, db' = some t → NamesOk t := by
  unfold update at h
  split at h
  · cases h; exact hdb
  · split at h
    · cases h
    · cases db with
      | none => cases h
      | some t0 =>
        have h0 := hdb t0 rfl
        simp only [bind, Except.bind] at h
        rcases hu : updateV2 t0 items ids with e | t1
        · rw [hu] at h; cases h
        · rw [hu] at h
          cases h
          intro t ht
          cases ht
          unfold updateV2 at hu
          simp only [bind, Except.bind] at hu
          rcases hs : scanKeys (t0.thinCols.map (·.1) ++ t0.fatCols.map (·.1)) (allKeys items) [] with e | new
          · rw [hs] at hu; cases hu
          · rw [hs] at hu
            simp only at hu
            split at hu
            · cases hu
            · obtain ⟨e1, e2⟩ := Db.insertRows_cols _ _ _ hu
              have hnew : ∀ c ∈ new.map fun c => (c, colType items c), validName c.1 = true := by
                intro c hc
                obtain ⟨k, hk, rfl⟩ := List.mem_map.1 hc
                rcases (Json.scanKeys_new _ _ _ _ hs).1 k hk with h | h
                · simp at h
                · exact h.2.2
              intro n hn
              rw [e1, e2] at hn
              unfold addCols at hn
              simp only [List.map_append] at hn
              rcases List.mem_append.1 hn with hn | hn <;> rcases List.mem_append.1 hn with hn | hn
              · exact h0 n (List.mem_append_left _ hn)
              · exact split_names hnew n (List.mem_append_left _ hn)
              · exact h0 n (List.mem_append_right _ hn)
              · exact split_names hnew n (List.mem_append_right _ hn)

theorem kept_names {db : Option (Tables S)} {rows} (h : Kept db rows) : ∀ t, db = some t → NamesOk t := by
  induction h with
  | create h => exact create_names h
  | update _ h ih => exact update_names ih h
  | @delete db rows ids _ ih =>
    intro t' ht'
    unfold delete at ht'
    split at ht'
    · exact ih t' ht'
    · cases db with
      | none => cases ht'
      | some t => cases ht'; exact ih t rfl
  | @change db rows all valid sat upd db' n _ _ hu ih =>
    intro t' ht'
    subst ht'
    cases db with
    | none => cases hu
    | some t =>
      unfold updateWhere at hu
      simp only at hu
      split at hu
      · cases hu; exact ih _ rfl
      · split at hu
        · cases hu
        · split at hu
          · cases hu
          · cases hu; exact (ih t rfl).of_eq rfl rfl

theorem validName_ascii {n : String} (h : validName n = true) : IsAscii n.toList := by
  unfold validName at h
  intro x hx
  split at h
  · cases h
  · next c cs e =>
    rw [e] at hx
    rw [Bool.and_eq_true_iff] at h
    refine alnum_ascii x ?_
    rcases List.mem_cons.1 hx with rfl | hx
    · have := h.1
      simp only [Bool.or_eq_true, beq_iff_eq] at this
      refine this.imp ?_ id
      intro ha
      rw [Char.isAlphanum, ha]
      rfl
    · have := List.all_eq_true.1 h.2 x hx
      simpa using this

theorem spells_contains {U : Uni} {text : List Char} {ts : List Token} (h : Spells U text ts) :
    ∀ n, Token.ident n ∈ ts → Contains text n := by
  induction h with
  | nil => intro n hn; simp at hn
  | @space c cs ts _ _ ih =>
    intro n hn
    obtain ⟨a, b, rfl⟩ := ih n hn
    exact ⟨c :: a, b, rfl⟩
  | @sign t s cs ts hs _ ih =>
    intro n hn
    rcases List.mem_cons.1 hn with rfl | hn
    · cases hs
    · obtain ⟨a, b, rfl⟩ := ih n hn
      exact ⟨s ++ a, b, by simp⟩
  | @lt cs ts _ _ _ ih =>
    intro n hn
    rcases List.mem_cons.1 hn with h | hn
    · cases h
    · obtain ⟨a, b, rfl⟩ := ih n hn
      exact ⟨'<' :: a, b, rfl⟩
  | @gt cs ts _ _ ih =>
    intro n hn
    rcases List.mem_cons.1 hn with h | hn
    · cases h
    · obtain ⟨a, b, rfl⟩ := ih n hn
      exact ⟨'>' :: a, b, rfl⟩
  | @keyword t k w cs ts hk _ _ _ _ ih =>
    intro n hn
    rcases List.mem_cons.1 hn with rfl | hn
    · cases hk
    · obtain ⟨a, b, rfl⟩ := ih n hn
      exact ⟨w ++ a, b, by simp⟩
  | @column w cs ts _ _ _ _ ih =>
    intro n hn
    rcases List.mem_cons.1 hn with h | hn
    · cases h
      exact ⟨[], cs, rfl⟩
    · obtain ⟨a, b, rfl⟩ := ih n hn
      exact ⟨w ++ a, b, by simp⟩
  | @quoted w cs ts _ _ ih =>
    intro n hn
    rcases List.mem_cons.1 hn with h | hn
    · cases h
      exact ⟨['"'], '"' :: cs, by simp⟩
    · obtain ⟨a, b, rfl⟩ := ih n hn
      exact ⟨'"' :: (w ++ '"' :: a), b, by simp⟩

theorem columns_ident {l : Level} {ts : List Token} {c : Cond} (h : Says l ts c) : ∀ n ∈ c.columns, Token.ident n ∈ ts := by
  induction h with
  | single _ ih => exact ih
  | or _ _ ih1 ih2 =>
    intro n hn
    rcases List.mem_append.1 hn with hn | hn
    · exact List.mem_append_left _ (ih1 n hn)
    · exact List.mem_append_right _ (List.mem_cons_of_mem _ (ih2 n hn))
  | one _ ih => exact ih
  | and _ _ ih1 ih2 =>
    intro n hn
    rcases List.mem_append.1 hn with hn | hn
    · exact List.mem_append_left _ (ih1 n hn)
    · exact List.mem_append_right _ (List.mem_cons_of_mem _ (ih2 n hn))
  | plain _ ih => exact ih
  | not _ ih => exact fun n hn => List.mem_cons_of_mem _ (ih n hn)
  | paren _ ih => exact fun n hn => List.mem_cons_of_mem _ (List.mem_append_left _ (ih n hn))
  | test t =>
    intro n hn
    rw [Cond.columns, List.mem_singleton] at hn
    subst hn
    obtain ⟨us, hu⟩ := signs_head t
    rw [hu]
    exact List.mem_cons_self

theorem upper_same {a b : List Char} (ha : IsAscii a) (hb : IsAscii b) (h : SameColumn a b) :
    a.map Char.toUpper = b.map Char.toUpper := by
  have h1 : (a.map Char.toLower).map Char.toUpper = a.map Char.toUpper := by
    rw [List.map_map]
    exact List.map_congr_left fun x hx => upper_lower x (ha x hx)
  have h2 : (b.map Char.toLower).map Char.toUpper = b.map Char.toUpper := by
    rw [List.map_map]
    exact List.map_congr_left fun x hx => upper_lower x (hb x hx)
  have h3 : a.map Char.toLower = b.map Char.toLower := h
  rw [← h1, ← h2, h3]

theorem mentionsFat_of {U : Uni} (hA : U.Ascii) {t : Tables S} {text n : List Char} (hasc : IsAscii text)
    (hn : Contains text n) {col : String} (hcol : col ∈ t.fatCols.map (·.1)) (hc : IsAscii col.toList)
    (hs : SameColumn col.toList n) : mentionsFat U t text = true := by
  obtain ⟨a, b, rfl⟩ := hn
  have hna : IsAscii n := fun x hx => hasc x (by simp [hx])
  obtain ⟨p, hp, rfl⟩ := List.mem_map.1 hcol
  unfold mentionsFat
  rw [List.any_eq_true]
  refine ⟨p, hp, ?_⟩
  rw [hA.upper _ hc, hA.upper _ hasc, upper_same hc hna hs]
  by_cases he : n = []
  · subst he
    cases (a ++ [] ++ b).map Char.toUpper <;> rfl
  · exact containsSub_of (by simpa using he) ⟨a.map Char.toUpper, b.map Char.toUpper, by simp⟩

/-- What the columns of a store must be. -/
theorem pairwise_cols {t : Tables S} (hok : ColsOk t) (hg : GoodNames (columns (some t))) :
    ("_subset_" :: (t.thinCols.map (·.1) ++ t.fatCols.map (·.1))).Pairwise fun a b => ¬ SameName a b := by
  rw [List.pairwise_cons]
  refine ⟨fun b hb hs => (hg.1 b hb).1 (Eq.symm hs), ?_⟩
  refine List.Pairwise.imp_of_mem ?_ hok.nodup
  intro a b ha hb hne hs
  exact hne (hg.2 a ha b hb hs)

/-- The source of a query: every name stands for one of its columns, and its rows are those of the listing. -/
theorem query_source {U : Uni} (hA : U.Ascii) (e : Engine S)
    {t : Tables S} {P} (hP : Rep t P) (hok : ColsOk t) (hg : GoodNames (columns (some t)))
    (hca : ∀ n ∈ columns (some t), IsAscii n.toList) {text : List Char} (hasc : IsAscii text) {c : Cond}
    (hw : WellFormedCondition U (schemaColumns t) text c) :
    ∃ src : Source S, (∀ conn plan ps, query U e conn plan t text c ps = select e conn plan src c ps) ∧
      (∀ n ∈ c.columns, resolves src.cols n = true) ∧
      List.Forall₂ (Stands e c.columns) src.rows (outFrom t 0 (P.map (·.2))) := by
  obtain ⟨ts, hsp, hsay, hnm⟩ := hw
  have hcont : ∀ n ∈ c.columns, Contains text n := fun n hn => spells_contains hsp n (columns_ident hsay n hn)
  have hnamed : ∀ n ∈ c.columns, ∃ col ∈ "_subset_" :: (t.thinCols.map (·.1) ++ t.fatCols.map (·.1)), SameColumn col.toList n := by
    intro n hn
    obtain ⟨k, hk, hlow⟩ := hnm n hn
    unfold schemaColumns at hk
    obtain ⟨col, hcol, rfl⟩ := List.mem_map.1 hk
    rw [List.cons_append] at hcol
    refine ⟨col, hcol, ?_⟩
    have h1 : IsAscii col.toList := by
      rcases List.mem_cons.1 hcol with rfl | hm
      · intro x hx
        revert x
        decide
      · exact hca col hm
    have h2 : IsAscii n := by
      obtain ⟨a, b, rfl⟩ := hcont n hn
      exact fun x hx => hasc x (by simp [hx])
    rw [hA.lower _ h1, hA.lower _ h2] at hlow
    exact hlow
  have hcid : ∀ n ∈ c.columns, ¬ SameColumn "_content_id_".toList n := by
    intro n hn hs
    obtain ⟨col, hcol, hsc⟩ := hnamed n hn
    have hb : SameName col "_content_id_" := hsc.trans hs.symm
    rcases List.mem_cons.1 hcol with rfl | hm
    · revert hb; unfold SameName; decide
    · exact (hg.1 col hm).2 hb
  have hpw := pairwise_cols hok hg
  have hskip : ∀ n ∈ c.columns, sameCol "_content_id_" n = false := fun n hn => (sameCol_false _ _).2 (hcid n hn)
  by_cases hm : mentionsFat U t text = true
  · refine ⟨joinSource e t, fun conn plan ps => by unfold query; rw [if_pos hm], ?_, ?_⟩
    · intro n hn
      unfold resolves joinSource
      simp only
      have : (("_subset_" :: "_content_id_" :: t.thinCols.map (·.1)) ++ "_content_id_" :: t.fatCols.map (·.1)).filter
          (fun c => sameCol c n) = ("_subset_" :: (t.thinCols.map (·.1) ++ t.fatCols.map (·.1))).filter fun c => sameCol c n := by
        rw [List.cons_append, List.cons_append, List.filter_cons, List.filter_cons (x := "_content_id_"), hskip n hn,
          List.filter_append, List.filter_cons (x := "_content_id_"), hskip n hn, List.filter_cons, List.filter_append]
        rfl
      rw [this, filter_single hpw (hnamed n hn)]
      rfl
    · have := join_stands e hP hcid P 0 fun _ h => h
      rw [← hP.thin] at this
      exact this
  · have hthin : ∀ n ∈ c.columns, SameColumn "_subset_".toList n ∨ ∃ c ∈ t.thinCols.map (·.1), SameColumn c.toList n := by
      intro n hn
      obtain ⟨col, hcol, hs⟩ := hnamed n hn
      rcases List.mem_cons.1 hcol with rfl | hcol
      · exact .inl hs
      · rcases List.mem_append.1 hcol with h | h
        · exact .inr ⟨col, h, hs⟩
        · exact absurd (mentionsFat_of hA hasc (hcont n hn) h (hca col (List.mem_append_right _ h)) hs) hm
    refine ⟨thinSource e t, fun conn plan ps => by unfold query; rw [if_neg hm], ?_, ?_⟩
    · intro n hn
      unfold resolves thinSource
      simp only
      have : ("_subset_" :: "_content_id_" :: t.thinCols.map (·.1)).filter
          (fun c => sameCol c n) = ("_subset_" :: t.thinCols.map (·.1)).filter fun c => sameCol c n := by
        rw [List.filter_cons, List.filter_cons (x := "_content_id_"), hskip n hn, List.filter_cons]
        rfl
      rw [this, filter_single (hpw.sublist (List.Sublist.cons_cons _ (List.sublist_append_left _ _)))]
      · rfl
      · rcases hthin n hn with h | ⟨col, hcol, h⟩
        · exact ⟨_, List.mem_cons_self, h⟩
        · exact ⟨col, List.mem_cons_of_mem _ hcol, h⟩
    · have := thin_stands e (fun n hn => ⟨hcid n hn, hthin n hn⟩) P 0
      rw [← hP.thin] at this
      exact this

theorem query_answers {U : Uni} (hA : U.Ascii) (e : Engine S) (conn : Conn) (plan) (hplan : ∀ l, (plan l).Perm l)
    {t : Tables S} {P} (hP : Rep t P) (hok : ColsOk t) (hg : GoodNames (columns (some t)))
    (hca : ∀ n ∈ columns (some t), IsAscii n.toList) {text : List Char} (hasc : IsAscii text) {c : Cond}
    (hw : WellFormedCondition U (schemaColumns t) text c) (ps : List S.V) (hl : ps.length = c.width)
    (rx : S.V → S.V → Option Bool) (hc : c.regexps ≠ [] → conn.isSome)
    (hrx : ∀ r ∈ outFrom t 0 (P.map (·.2)), ∀ n ∈ c.regexps, ∀ p ∈ c.patterns ps,
      callRegexp e conn p (r.at e n) = .ok (rx (r.at e n) p)) :
    Answers (query U e conn plan t text c ps) (trueAt e rx c ps (outFrom t 0 (P.map (·.2)))) := by
  obtain ⟨src, h1, h2, h3⟩ := query_source hA e hP hok hg hca hasc hw
  rw [h1]
  exact select_answers e conn plan hplan src c ps rx h2 hc hl h3 hrx

theorem selectRows_fails (e : Engine S) (conn : Conn) (c : Cond) (ps : List S.V) : ∀ rows : List (Int × List (String × S.V)),
    (∃ r ∈ rows, (eval e conn r.2 c ps).isOk = false) → (selectRows e conn c ps rows).isOk = false
  | [], h => by simp at h
  | r :: rs, h => by
    rw [selectRows]
    cases hr : eval e conn r.2 c ps with
    | error f => rfl
    | ok x =>
      simp only [bind, Except.bind]
      have : ∃ r ∈ rs, (eval e conn r.2 c ps).isOk = false := by
        obtain ⟨q, hq, hf⟩ := h
        rcases List.mem_cons.1 hq with rfl | hq
        · rw [hr] at hf; cases hf
        · exact ⟨q, hq, hf⟩
      have := selectRows_fails e conn c ps rs this
      cases hs : selectRows e conn c ps rs with
      | error f => rfl
      | ok l => rw [hs] at this; cases this

theorem forall₂_mem_right {α β : Type} {R : α → β → Prop} {l : List α} {m : List β} (h : List.Forall₂ R l m) :
    ∀ b ∈ m, ∃ a ∈ l, R a b := by
  induction h with
  | nil => simp
  | @cons a b l m h _ ih =>
    intro x hx
    rcases List.mem_cons.1 hx with rfl | hx
    · exact ⟨a, List.mem_cons_self, h⟩
    · obtain ⟨y, hy, hR⟩ := ih x hx
      exact ⟨y, List.mem_cons_of_mem _ hy, hR⟩

/-- Two names for one column make the statement ambiguous. -/
theorem resolves_twins {cols : List String} {a b : String} {n : List Char} (ha : a ∈ cols) (hb : b ∈ cols) (hne : a ≠ b)
    (h1 : SameColumn a.toList n) (h2 : SameColumn b.toList n) : resolves cols n = false := by
  unfold resolves
  have hma : a ∈ cols.filter fun c => sameCol c n := List.mem_filter.2 ⟨ha, (sameCol_iff _ _).2 h1⟩
  have hmb : b ∈ cols.filter fun c => sameCol c n := List.mem_filter.2 ⟨hb, (sameCol_iff _ _).2 h2⟩
  rcases hl : cols.filter (fun c => sameCol c n) with _ | ⟨x, _ | ⟨y, l⟩⟩
  · rw [hl] at hma; simp at hma
  · rw [hl] at hma hmb
    rw [List.mem_singleton] at hma hmb
    exact absurd (hma.trans hmb.symm) hne
  · rfl

end NextPlaid.Where
