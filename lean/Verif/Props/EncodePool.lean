import Verif.Proofs.EncodePool3

/-!
C60: the pool of workers that encode texts.
-/

namespace NextPlaid.Props

open NextPlaid.EncodePool NextPlaid.Spec

variable {T E : Type}

/-- In every schedule, with any number of workers: the embeddings a client gets are those of its own texts, one for each, in order, for the kind of
text and the pool factor it asked for. -/
theorem C60_own (c : Setup T E) (Enc : Input → Option Nat → T → E → Prop) (hs : SoundModel c Enc) (ho : ∀ l, (c.order l).Perm l) (size : Nat)
    (es : List (Event T)) (s : State T E) (h : run c (initial size) es = some s) (item : Item T) (embeddings : List E)
    (ha : (item, .embeddings embeddings) ∈ s.answers) :
    OneEach (Enc item.input (match item.input with | .query => none | .document => item.factor)) item.texts embeddings := by
  rcases (run_inv hs ho es _ s (initial_inv c Enc size) h).fair _ ha with h1 | ⟨w, ⟨es', h1, h2⟩ | ⟨h1, _⟩⟩
  · cases h1
  · simp only [Answer.embeddings.injEq] at h1
    subst h1
    exact h2
  · cases h1

/-- A client is told of a failure only if a model reported one for texts among which were the client's. -/
theorem C60_failed (c : Setup T E) (Enc : Input → Option Nat → T → E → Prop) (hs : SoundModel c Enc) (ho : ∀ l, (c.order l).Perm l) (size : Nat)
    (es : List (Event T)) (s : State T E) (h : run c (initial size) es = some s) (item : Item T) (ha : (item, .failed) ∈ s.answers) :
    ∃ w ts, (∀ t ∈ item.texts, t ∈ ts) ∧
      c.encode w item.input (match item.input with | .query => none | .document => item.factor) ts = .error .err := by
  rcases (run_inv hs ho es _ s (initial_inv c Enc size) h).fair _ ha with h1 | ⟨w, ⟨es', h1, h2⟩ | ⟨_, ts, h1, h2⟩⟩
  · cases h1
  · cases h1
  · exact ⟨w, ts, h1, h2⟩

/-- No request is answered twice, none that was not accepted; and when the workers can do nothing any more, every accepted request has its answer. -/
theorem C60_once (c : Setup T E) (Enc : Input → Option Nat → T → E → Prop) (hs : SoundModel c Enc) (ho : ∀ l, (c.order l).Perm l) (size : Nat)
    (es : List (Event T)) (s : State T E) (h : run c (initial size) es = some s) :
    (∃ rest, s.accepted.Perm (rest ++ s.answers.map Prod.fst)) ∧
    ((∀ e, (∀ item, e ≠ .request item) → step c s e = none) → s.accepted.Perm (s.answers.map Prod.fst)) := by
  have hi := run_inv hs ho es _ s (initial_inv c Enc size) h
  refine ⟨⟨_, hi.all⟩, ?_⟩
  intro hstill
  obtain ⟨h1, h2⟩ := still hi hstill
  have := hi.all
  rwa [h1, h2] at this

/-- The workers come to that point: there is a bound on the number of their steps, whatever the deadlines. -/
theorem C60_ends (c : Setup T E) (s s' : State T E) (es : List (Event T)) (he : ∀ e ∈ es, ∀ item, e ≠ .request item) (h : run c s es = some s') :
    es.length ≤ 5 * s.queue.length + 3 * s.workers.length :=
  Nat.le_trans (run_fuel es s s' he h) (fuel_bound s)

/-- If no model panics and all models can be built, then every accepted request gets embeddings or the error of a model, and a request is accepted
whenever there is room in the queue. -/
theorem C60_no_request_dropped (c : Setup T E) (Enc : Input → Option Nat → T → E → Prop) (hs : SoundModel c Enc) (ho : ∀ l, (c.order l).Perm l)
    (hp : ∀ w k f ts, c.encode w k f ts ≠ .error .panic) (size : Nat) (hsize : 0 < size) (es : List (Event T)) (hstart : ∀ w, Event.start w false ∉ es)
    (s : State T E) (h : run c (initial size) es = some s) :
    (∀ x ∈ s.answers, x.2 ≠ .dropped) ∧
    ∀ item, s.queue.length < c.capacity → ∃ s', step c s (.request item) = some s' ∧ s'.accepted = s.accepted ++ [item] := by
  have hp' : ∀ w, ¬ Panics c w := by
    rintro w ⟨k, f, ts, h⟩
    exact hp w k f ts h
  obtain ⟨h1, h2, h3⟩ := run_alive hs ho hp' es (initial size) s hstart
    ⟨fun v hv => by rw [(List.mem_replicate.mp hv).2]; rfl, by simp [initial]⟩ h
  refine ⟨h2, ?_⟩
  intro item hq
  have hlen : 0 < s.workers.length := by rw [h3]; simpa [initial] using hsize
  have hlive : s.workers.any Worker.alive = true :=
    List.any_eq_true.mpr ⟨s.workers[0], List.getElem_mem _, h1 _ (List.getElem_mem _)⟩
  refine ⟨{ s with queue := s.queue ++ [item], accepted := s.accepted ++ [item] }, ?_, rfl⟩
  simp only [step]
  rw [if_pos ⟨hlive, hq⟩]

/-- The queue never holds more than its capacity; a worker takes no more requests than the one that fills its batch; no two workers collect requests
at the same time. -/
theorem C60_bounded (c : Setup T E) (Enc : Input → Option Nat → T → E → Prop) (hs : SoundModel c Enc) (ho : ∀ l, (c.order l).Perm l) (size : Nat)
    (es : List (Event T)) (s : State T E) (h : run c (initial size) es = some s) :
    s.queue.length ≤ c.capacity ∧
    (∀ (w : Nat) (items : List (Item T)), s.workers[w]? = some (.working items) → items.length ≤ 1 ∨ (items.dropLast.map fun i => i.texts.length).sum < c.maxTexts) ∧
    ∀ (w w' : Nat) (items items' : List (Item T)), s.workers[w]? = some (.collecting items) → s.workers[w']? = some (.collecting items') → w = w' := by
  have hi := run_inv hs ho es _ s (initial_inv c Enc size) h
  refine ⟨hi.full, ?_, ?_⟩
  · intro w items hw
    have := run_inTime es (initial size) s (fun v hv => by rw [(List.mem_replicate.mp hv).2]; exact Or.inl (Nat.zero_le _)) h _ (List.mem_of_getElem? hw)
    exact this
  · intro w w' items items' hw hw'
    have h1 := (hi.lock w _ hw).mp rfl
    have h2 := (hi.lock w' _ hw').mp rfl
    rw [h1, Option.some.injEq] at h2
    exact h2

/-! ### Where it goes wrong -/

/-- A request on which the models panic ends one worker for good; as many of them as there are workers end the pool: from then on every request is
refused.  This is so for every pool. -/
theorem C60_pool_lost (c : Setup T E) (ho : ∀ l, (c.order l).Perm l) (hcap : 0 < c.capacity) (item : Item T)
    (hp : ∀ w, c.encode w item.input (match item.input with | .query => none | .document => item.factor) item.texts = .error .panic) (size : Nat) :
    ∃ (es : List (Event T)) (s : State T E), run c (initial size) es = some s ∧ s.accepted = List.replicate size item ∧
      ∀ (later : List (Event T)) (s' : State T E), run c s later = some s' → s' = s := by
  obtain ⟨es, h⟩ := all_lost ho hcap item hp size 0 [] []
  refine ⟨es, _, h, rfl, ?_⟩
  intro later s' hl
  refine run_lost later _ s' ?_ hl
  intro v hv
  simp only [Nat.zero_add] at hv
  rw [(List.mem_replicate.mp hv).2]
  rfl

/-- Texts are numbers, whose embedding is the number itself, for a query ten times the number.  The model refuses the text 13 and panics on 99. -/
@[reducible] def toyPool : Setup Nat Nat where
  maxTexts := 3
  capacity := 4
  encode := fun _ k f ts =>
    if 99 ∈ ts then .error .panic
    else if 13 ∈ ts then .error .err
    else .ok (ts.map fun t => match k with | .query => 10 * t | .document => t + f.getD 0)
  order := fun l => l

theorem toyPool_sound : SoundModel toyPool fun k f t e => e = match k with | .query => 10 * t | .document => t + f.getD 0 := by
  intro w k f ts es h
  simp only at h
  split at h
  · cases h
  · split at h
    · cases h
    · simp only [Except.ok.injEq] at h
      subst h
      refine ⟨by simp, ?_⟩
      intro i a b ha hb
      rw [List.getElem?_map, ha] at hb
      cases k <;> simpa [eq_comm] using hb

/-- A client whose texts alone would be encoded is told of a failure because of the text of another client in the same batch. -/
theorem C60_not_isolated : ∃ (es : List (Event Nat)) (s : State Nat Nat) (a b : Item Nat), run toyPool (initial 1) es = some s ∧ a.client ≠ b.client ∧
    toyPool.encode 0 a.input a.factor a.texts = .ok [1] ∧ toyPool.encode 0 b.input b.factor b.texts = .error .err ∧
    s.answers = [(a, .failed), (b, .failed)] :=
  ⟨[.start 0 true, .request ⟨0, [1], .document, none⟩, .request ⟨1, [13], .document, none⟩, .acquire 0, .recv 0, .recv 0, .stop 0, .finish 0],
    ⟨[], [.waiting], none, [(⟨0, [1], .document, none⟩, .failed), (⟨1, [13], .document, none⟩, .failed)],
      [⟨0, [1], .document, none⟩, ⟨1, [13], .document, none⟩]⟩,
    ⟨0, [1], .document, none⟩, ⟨1, [13], .document, none⟩, by rfl, by decide, by rfl, by rfl, by rfl⟩

/-! ### Examples -/

/-- Two workers; queries and documents with two pool factors in one batch. -/
def toyPoolRun : List (Event Nat) :=
  [.start 0 true, .start 1 true, .request ⟨0, [1], .query, some 5⟩, .request ⟨1, [2], .document, none⟩, .acquire 1, .recv 1,
    .recv 1, .request ⟨2, [4], .document, some 2⟩, .recv 1, .stop 1, .request ⟨3, [13, 5], .query, none⟩, .acquire 0, .recv 0, .stop 0, .finish 0, .finish 1]

example : (run toyPool (initial 2) toyPoolRun).map (fun s => s.answers) =
    some [(⟨3, [13, 5], .query, none⟩, .failed), (⟨0, [1], .query, some 5⟩, .embeddings [10]),
      (⟨1, [2], .document, none⟩, .embeddings [2]), (⟨2, [4], .document, some 2⟩, .embeddings [6])] := by decide +kernel

example : (∀ l, (toyPool.order l).Perm l) ∧ toyPool.encode 0 .query none [99] = .error .panic := ⟨fun l => .refl l, rfl⟩

end NextPlaid.Props
