import Mathlib.Data.List.Induction
import Verif.Spec.Progress

/-! Lemmas on the progress report. -/

namespace NextPlaid.Progress
open NextPlaid NextPlaid.Spec

def keys (m : Map) : List String := m.map (·.1)

theorem find_cons (e : String × Progress) (m : Map) (n : String) :
    find (e :: m) n = if e.1 = n then some e.2 else find m n := by
  unfold find
  rw [List.find?_cons]
  by_cases h : e.1 = n
  · simp [h]
  · have : (e.1 == n) = false := by simpa using h
    rw [this, if_neg h]

theorem find_nil (n : String) : find [] n = none := rfl

theorem find_append (m : Map) (e : String × Progress) (n : String) :
    find (m ++ [e]) n = (find m n).or (if e.1 = n then some e.2 else none) := by
  induction m with
  | nil => rw [List.nil_append, find_cons, find_nil]; simp
  | cons a m ih =>
    rw [List.cons_append, find_cons, find_cons, ih]
    split <;> simp

theorem find_map (m : Map) (name : String) (f : Progress → Progress) (n : String) :
    find (m.map fun e => if e.1 == name then (e.1, f e.2) else e) n =
      if n = name then (find m n).map f else find m n := by
  induction m with
  | nil => simp [find_nil]
  | cons a m ih =>
    rw [List.map_cons, find_cons, find_cons, ih]
    by_cases h1 : a.1 = name <;> by_cases h2 : n = name <;> by_cases h3 : a.1 = n <;> simp_all

theorem find_change (m : Map) (name : String) (fresh : Progress) (f : Progress → Progress) (n : String) :
    find (change m name fresh f) n =
      if n = name then some (f ((find m name).getD fresh)) else find m n := by
  unfold change
  split
  · next h =>
    rw [find_append]
    by_cases hn : n = name
    · subst hn; simp [h]
    · rw [if_neg hn, if_neg (fun h => hn h.symm)]; simp
  · next p h =>
    rw [find_map]
    by_cases hn : n = name
    · subst hn; simp [h]
    · rw [if_neg hn, if_neg hn]

theorem mem_keys_find (m : Map) (n : String) : n ∈ keys m ↔ (find m n).isSome := by
  induction m with
  | nil => simp [keys, find_nil]
  | cons a m ih =>
    rw [find_cons]
    have hk : n ∈ keys (a :: m) ↔ n = a.1 ∨ n ∈ keys m := List.mem_cons
    rw [hk, ih]
    by_cases h : a.1 = n
    · simp [h]
    · rw [if_neg h]
      exact ⟨fun h' => h'.resolve_left fun h' => h h'.symm, .inr⟩

theorem find_head_none {a : String × Progress} {m : Map} (h : (keys (a :: m)).Nodup) {n : String} (ha : a.1 = n) :
    find m n = none := by
  have h1 : a.1 ∉ keys m := (List.nodup_cons.1 h).1
  rw [ha] at h1
  simpa using (mem_keys_find m n).not.1 h1

theorem keys_change (m : Map) (name : String) (fresh : Progress) (f : Progress → Progress) (h : (keys m).Nodup) :
    (keys (change m name fresh f)).Nodup := by
  unfold change
  split
  · next hn =>
    rw [keys, List.map_append, List.nodup_append]
    refine ⟨h, by simp, ?_⟩
    intro a ha b hb hab
    simp only [List.map_cons, List.map_nil, List.mem_singleton] at hb
    have := (mem_keys_find m a).1 ha
    rw [hab, hb, hn] at this
    simp at this
  · rw [keys, List.map_map]
    have : ((fun e : String × Progress => e.1) ∘ fun e => if e.1 == name then (e.1, f e.2) else e) = fun e => e.1 := by
      funext e; simp only [Function.comp]; split <;> rfl
    rw [this]; exact h

theorem keys_prune (m : Map) (now : Int) (h : (keys m).Nodup) : (keys (prune m now)).Nodup :=
  List.Sublist.nodup (List.Sublist.map _ List.filter_sublist) h

theorem find_prune (m : Map) (now : Int) (n : String) (h : (keys m).Nodup) :
    find (prune m now) n = (find m n).filter fun p => visible p now := by
  induction m with
  | nil => rfl
  | cons a m ih =>
    have h' : (keys m).Nodup := (List.nodup_cons.1 h).2
    have ih := ih h'
    unfold prune at ih ⊢
    rw [List.filter_cons, find_cons]
    by_cases ha : a.1 = n
    · rw [if_pos ha]
      by_cases hv : visible a.2 now = true
      · rw [if_pos hv, find_cons, if_pos ha, Option.filter_some, if_pos hv]
      · rw [if_neg hv, ih]
        rw [find_head_none h ha, Option.filter_some, if_neg hv]; rfl
    · rw [if_neg ha]
      split
      · rw [find_cons, if_neg ha, ih]
      · exact ih

/-- The entry of an index after one of its own events. -/
def next (o : Option Progress) (now : Int) : Event → Progress
  | .queued n message =>
    match o with
    | some p => requeue now n message p
    | none => { status := .queued, stage := "queued", queued := some n, started := now, updated := now, message := some message }
  | .stage stage message =>
    { o.getD { status := .running, stage := stage, started := now, updated := now } with
      status := .running, stage := stage, updated := now, message := some message, error := none }
  | .complete n message =>
    { o.getD { status := .complete, stage := "complete", queued := some n, started := now, updated := now } with
      status := .complete, stage := "complete", processed := some n, updated := now, message := some message, error := none }
  | .failed error =>
    { o.getD { status := .failed, stage := "failed", started := now, updated := now } with
      status := .failed, stage := "failed", updated := now, message := some "update failed", error := some error }

theorem find_record (m : Map) (now : Int) (name : String) (e : Event) (n : String) (h : (keys m).Nodup) :
    find (record m now name e) n =
      if n = name then some (next ((find m name).filter fun p => visible p now) now e)
      else (find m n).filter fun p => visible p now := by
  have hp := find_prune m now name h
  have hq := find_prune m now n h
  cases e with
  | queued k message =>
    simp only [record, recordQueued]
    split
    · next p hs =>
      rw [find_change, hq]
      rw [hp] at hs
      simp only [next, hs, hp, Option.getD_some]
    · next hs =>
      rw [find_append, hq]
      rw [hp] at hs
      simp only [next, hs]
      by_cases hn : n = name
      · subst hn; rw [hs]; simp
      · rw [if_neg hn, if_neg (fun h => hn h.symm)]; simp
  | stage a b => simp only [record, recordStage, find_change, hq, hp, next]
  | complete a b => simp only [record, recordComplete, find_change, hq, hp, next]
  | failed a => simp only [record, recordFailed, find_change, hq, hp, next]

theorem keys_record (m : Map) (now : Int) (name : String) (e : Event) (h : (keys m).Nodup) :
    (keys (record m now name e)).Nodup := by
  have hp := keys_prune m now h
  cases e with
  | queued k message =>
    simp only [record, recordQueued]
    split
    · exact keys_change _ _ _ _ hp
    · next hs =>
      rw [keys, List.map_append, List.nodup_append]
      refine ⟨hp, by simp, ?_⟩
      intro a ha b hb hab
      simp only [List.map_cons, List.map_nil, List.mem_singleton] at hb
      have := (mem_keys_find _ a).1 ha
      rw [hab, hb, hs] at this
      simp at this
  | stage a b => simp only [record, recordStage]; exact keys_change _ _ _ _ hp
  | complete a b => simp only [record, recordComplete]; exact keys_change _ _ _ _ hp
  | failed a => simp only [record, recordFailed]; exact keys_change _ _ _ _ hp

theorem runCalls_append (m : Map) (a b : List Call) : runCalls m (a ++ b) = runCalls (runCalls m a) b := by
  simp [runCalls]

theorem keys_run (m : Map) (calls : List Call) (h : (keys m).Nodup) : (keys (runCalls m calls)).Nodup := by
  induction calls generalizing m with
  | nil => exact h
  | cons c cs ih => exact ih _ (keys_record _ _ _ _ h)

theorem keys_run_nil (calls : List Call) : (keys (runCalls [] calls)).Nodup := keys_run [] calls (by simp [keys])

theorem sinceEnd_append (es : List Event) (e : Event) :
    sinceEnd (es ++ [e]) = if ends e then [] else sinceEnd es ++ [e] := by
  unfold sinceEnd
  rw [List.reverse_append, List.reverse_singleton, List.singleton_append, List.takeWhile_cons]
  cases ends e <;> simp

theorem eventsOf_append (calls : List Call) (c : Call) (name : String) :
    eventsOf (calls ++ [c]) name = if c.2.1 = name then eventsOf calls name ++ [c.2.2] else eventsOf calls name := by
  unfold eventsOf
  rw [List.filter_append, List.map_append]
  by_cases h : c.2.1 = name <;> simp [h]

/-- What the entry of an index must look like. -/
def Good (es : List Event) (o : Option Progress) : Prop :=
  (sinceEnd es ≠ [] → ∃ p, o = some p ∧ p.status = if startsWork (sinceEnd es) then .running else .queued) ∧
  (sinceEnd es = [] → ∀ p, o = some p → p.status = .complete ∨ p.status = .failed) ∧
  (es = [] → o = none)

theorem visible_active {p : Progress} {now : Int} (h : p.status = .queued ∨ p.status = .running) : visible p now = true := by
  unfold visible; rcases h with h | h <;> simp [h]

theorem Good.filter {es o} (h : Good es o) (now : Int) : Good es (o.filter fun p => visible p now) := by
  refine ⟨fun h1 => ?_, fun h1 p hp => ?_, fun h1 => ?_⟩
  · obtain ⟨p, rfl, hp⟩ := h.1 h1
    refine ⟨p, ?_, hp⟩
    have : visible p now = true := visible_active (by rw [hp]; split <;> simp)
    simp [this]
  · exact h.2.1 h1 p (by
      rw [Option.filter_eq_some_iff] at hp; exact hp.1)
  · rw [h.2.2 h1]; rfl

theorem startsWork_append (es : List Event) (e : Event) :
    startsWork (es ++ [e]) = (startsWork es || (match e with | .stage _ _ => true | _ => false)) := by
  unfold startsWork
  rw [List.any_append]
  congr 1
  cases e <;> rfl

theorem Good.next {es o} (h : Good es o) (now : Int) (e : Event) : Good (es ++ [e]) (some (next o now e)) := by
  unfold Good
  rw [sinceEnd_append]
  cases e with
  | queued n message =>
    refine ⟨fun _ => ⟨_, rfl, ?_⟩, fun h1 => by simp [ends] at h1, fun h1 => by simp at h1⟩
    rw [show ends (.queued n message) = false from rfl, if_neg (by decide : ¬ (false = true)), startsWork_append, Bool.or_false]
    by_cases hs : sinceEnd es = []
    · rw [hs]
      cases o with
      | none => rfl
      | some p =>
        have := h.2.1 hs p rfl
        simp only [Progress.next, requeue]
        rw [if_neg (by rcases this with h | h <;> rw [h] <;> decide)]
        rfl
    · obtain ⟨p, rfl, hp⟩ := h.1 hs
      simp only [Progress.next, requeue]
      by_cases hw : startsWork (sinceEnd es) = true
      · rw [hw, if_pos rfl] at hp
        rw [if_pos hp, hw, if_pos rfl]; exact hp
      · rw [if_neg hw] at hp
        rw [if_neg (by rw [hp]; decide), if_neg hw]
  | stage a b =>
    refine ⟨fun _ => ⟨_, rfl, ?_⟩, fun h1 => by simp [ends] at h1, fun h1 => by simp at h1⟩
    rw [show ends (.stage a b) = false from rfl, if_neg (by decide : ¬ (false = true)), startsWork_append]
    simp [Progress.next]
  | complete a b =>
    refine ⟨fun h1 => by simp [ends] at h1, fun _ p hp => ?_, fun h1 => by simp at h1⟩
    cases hp; exact .inl rfl
  | failed a =>
    refine ⟨fun h1 => by simp [ends] at h1, fun _ p hp => ?_, fun h1 => by simp at h1⟩
    cases hp; exact .inr rfl

theorem good_run (calls : List Call) (name : String) : Good (eventsOf calls name) (find (runCalls [] calls) name) := by
  induction calls using List.reverseRecOn with
  | nil => exact ⟨fun h => absurd rfl h, fun _ p hp => (by cases hp), fun _ => rfl⟩
  | append_singleton cs c ih =>
    rw [runCalls_append]
    show Good _ (find (record (runCalls [] cs) c.1 c.2.1 c.2.2) name)
    rw [find_record _ _ _ _ _ (keys_run_nil cs), eventsOf_append]
    by_cases hn : name = c.2.1
    · rw [if_pos hn, if_pos hn.symm, ← hn]
      exact (ih.filter c.1).next c.1 c.2.2
    · rw [if_neg hn, if_neg (fun h => hn h.symm)]
      exact ih.filter c.1

theorem find_mem {m : Map} (h : (keys m).Nodup) {n : String} {p : Progress} : (n, p) ∈ m ↔ find m n = some p := by
  induction m with
  | nil => simp [find_nil]
  | cons a m ih =>
    have ih := ih (List.nodup_cons.1 h).2
    rw [find_cons, List.mem_cons]
    by_cases ha : a.1 = n
    · rw [if_pos ha]
      rw [ih, find_head_none h ha]
      constructor
      · rintro (rfl | h)
        · rfl
        · cases h
      · intro h
        cases h
        exact .inl (by rw [← ha])
    · rw [if_neg ha, ← ih]
      constructor
      · rintro (rfl | h)
        · exact absurd rfl ha
        · exact h
      · exact .inr

theorem mem_report {m : Map} (h : (keys m).Nodup) {now : Int} {r : Row} :
    r ∈ report m now ↔ ∃ n p, find m n = some p ∧ visible p now = true ∧ r = row n p now := by
  unfold report
  rw [List.mem_mergeSort, List.mem_map]
  constructor
  · rintro ⟨⟨n, p⟩, he, rfl⟩
    rw [List.mem_filter] at he
    exact ⟨n, p, (find_mem h).1 he.1, he.2, rfl⟩
  · rintro ⟨n, p, h1, h2, rfl⟩
    exact ⟨(n, p), List.mem_filter.2 ⟨(find_mem h).2 h1, h2⟩, rfl⟩

/-- Calls for other indices leave an entry or drop it. -/
theorem find_others (m : Map) (h : (keys m).Nodup) (name : String) (after : List Call)
    (ho : ∀ c ∈ after, c.2.1 ≠ name) :
    find (runCalls m after) name = (find m name).filter fun p => after.all fun c => visible p c.1 := by
  induction after generalizing m with
  | nil =>
    show find m name = _
    cases find m name <;> rfl
  | cons c cs ih =>
    show find (runCalls (record m c.1 c.2.1 c.2.2) cs) name = _
    rw [ih _ (keys_record _ _ _ _ h) (fun c' hc' => ho c' (List.mem_cons_of_mem _ hc')),
      find_record _ _ _ _ _ h, if_neg (fun h => ho c (by simp) h.symm)]
    cases find m name with
    | none => rfl
    | some p =>
      rw [Option.filter_filter]
      congr 1

/-! ### The number of queued documents -/

theorem documentsQueued_append (es : List Event) (e : Event) :
    documentsQueued (es ++ [e]) = documentsQueued es + (match e with | .queued n _ => n | _ => 0) := by
  induction es with
  | nil => cases e <;> simp [documentsQueued]
  | cons a es ih => cases a <;> simp only [List.cons_append, documentsQueued, ih] <;> omega

theorem sinceEnd_all (es : List Event) (h : ∀ e ∈ es, ends e = false) : sinceEnd es = es := by
  unfold sinceEnd
  have : es.reverse.takeWhile (fun e => !ends e) = es.reverse := by
    have hr : ∀ l : List Event, (∀ e ∈ l, ends e = false) → l.takeWhile (fun e => !ends e) = l := by
      intro l
      induction l with
      | nil => intro _; rfl
      | cons a l ih => intro hl; simp [hl a (by simp), ih fun e he => hl e (by simp [he])]
    exact hr _ fun e he => h e (List.mem_reverse.1 he)
  rw [this, List.reverse_reverse]

def Counted (es : List Event) (o : Option Progress) : Prop :=
  (∀ e ∈ es, ends e = false) → documentsQueued es ≤ usizeMax →
    ∀ p, o = some p → p.queued = if (es.any fun e => match e with | .queued _ _ => true | _ => false) then some (documentsQueued es) else none

theorem counted_run (calls : List Call) (name : String) : Counted (eventsOf calls name) (find (runCalls [] calls) name) := by
  induction calls using List.reverseRecOn with
  | nil => intro _ _ p hp; cases hp
  | append_singleton cs c ih =>
    have hgood := good_run cs name
    rw [runCalls_append]
    show Counted _ (find (record (runCalls [] cs) c.1 c.2.1 c.2.2) name)
    rw [find_record _ _ _ _ _ (keys_run_nil cs), eventsOf_append]
    by_cases hn : name = c.2.1
    · rw [if_pos hn, if_pos hn.symm, ← hn]
      intro hno hmax p hp
      rw [documentsQueued_append] at hmax
      have hno' : ∀ e ∈ eventsOf cs name, ends e = false := fun e he => hno e (List.mem_append_left _ he)
      have hc := ih hno' (by omega)
      have hg := hgood.filter c.1
      generalize hes : eventsOf cs name = es at *
      generalize find (runCalls [] cs) name = o at *
      have hany : (es ++ [c.2.2]).any (fun e => match e with | .queued _ _ => true | _ => false) =
        (es.any (fun e => match e with | .queued _ _ => true | _ => false) || (match c.2.2 with | .queued _ _ => true | _ => false)) := by
        simp
      rw [hany, documentsQueued_append]
      by_cases hnil : es = []
      · have ho := hg.2.2 hnil
        rw [ho] at hp
        subst hnil
        cases hp
        cases hev : c.2.2 with
        | queued n m => simp [next, documentsQueued]
        | stage a b => simp [next]
        | complete a b => have := hno c.2.2 (by simp); rw [hev] at this; simp [ends] at this
        | failed a => have := hno c.2.2 (by simp); rw [hev] at this; simp [ends] at this
      · obtain ⟨q, hq, hs⟩ := hg.1 (by rw [sinceEnd_all es hno']; exact hnil)
        rw [hq] at hp
        have hcq := hc q (by rw [Option.filter_eq_some_iff] at hq; exact hq.1)
        cases hp
        cases hev : c.2.2 with
        | queued n m =>
          rw [hev] at hmax
          simp only at hmax
          have hqd : q.queued.getD 0 = documentsQueued es := by
            rw [hcq]
            split
            · rfl
            · next hz =>
              have : ∀ es : List Event, ¬ (es.any (fun e => match e with | .queued _ _ => true | _ => false) = true) →
                  documentsQueued es = 0 := by
                intro es
                induction es with
                | nil => intro _; rfl
                | cons a es ih => cases a <;> simp [documentsQueued] <;> simpa using ih
              rw [this es hz]; rfl
          have hr : (requeue c.1 n m q).queued = some (min (q.queued.getD 0 + n) usizeMax) := by
            unfold requeue; dsimp only; split <;> rfl
          simp only [next, Bool.or_true, if_true]
          rw [hr, hqd, Nat.min_eq_left hmax]
        | stage a b => simp only [next, Bool.or_false, Nat.add_zero]; exact hcq
        | complete a b => have := hno c.2.2 (by simp); rw [hev] at this; simp [ends] at this
        | failed a => have := hno c.2.2 (by simp); rw [hev] at this; simp [ends] at this
    · rw [if_neg hn, if_neg (fun h => hn h.symm)]
      intro hno hmax p hp
      exact ih hno hmax p (by rw [Option.filter_eq_some_iff] at hp; exact hp.1)

end NextPlaid.Progress
