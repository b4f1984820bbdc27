import Verif.Spec.Surface

/-!
The surface of the server: routes, rate limit, limit of concurrent requests, time limit, body limit, request ids.
/repo/next-plaid-api/src/main.rs:240-258 (`rate_limit_error`), 290-505 (`build_router`),
/repo/next-plaid-api/src/tracing_middleware.rs:61-90 (`trace_request`).

Taken from the documentation of the libraries (axum 0.8, tower 0.5, tower_governor 0.8), not modelled from their source:
`Router::layer` wraps what was added before it, so that later layers are outside; a layer's own answer passes only the
layers outside it; `merge` keeps the layers of each part; `per_second(n)` of `GovernorConfigBuilder` sets the interval
after which one element of the quota is replenished to `n` seconds; `finish` returns `None` for a zero interval or burst; the
limiter is a token bucket for each peer address.  The routes of Swagger UI, answers 404 and 405, preflight requests and the
wording of logs are left out.
-/

namespace NextPlaid.Surface
open NextPlaid.Spec.Surface

/-- The six routers that are merged: main.rs:321-332, 335-351, 354-376, 379-401, 404-426, 429-487. -/
inductive Group where
  | health | info | update | encode | delete | api
deriving DecidableEq, Repr

/-- The handlers. -/
inductive Handler where
  | health | listIndices | getIndexInfo | updateIndex | updateIndexWithEncoding | encode | rerank | rerankWithEncoding
  | deleteIndex | deleteDocuments | createIndex | addDocuments | updateIndexConfig | search | searchFiltered
  | searchWithEncoding | searchFilteredWithEncoding | getAllMetadata | getMetadataCount | checkMetadata | queryMetadata
  | getMetadata | updateMetadata
deriving DecidableEq, Repr

/-- A piece of a route: literal, or `{name}`. -/
inductive Seg where
  | lit (s : String)
  | name
deriving DecidableEq, Repr

structure Route where
  group : Group
  method : Method
  path : List Seg
  handler : Handler
deriving DecidableEq, Repr

/-- `/indices/{name}/…` -/
def ofIndex (rest : List String) : List Seg := .lit "indices" :: .name :: rest.map .lit

/-- The routes: main.rs:321-487, in the order of the calls of `merge` and `route`. -/
def table : List Route :=
  [⟨.health, .get, [.lit "health"], .health⟩,
   ⟨.health, .get, [], .health⟩,
   ⟨.info, .get, [.lit "indices"], .listIndices⟩,
   ⟨.info, .get, ofIndex [], .getIndexInfo⟩,
   ⟨.update, .post, ofIndex ["update"], .updateIndex⟩,
   ⟨.update, .post, ofIndex ["update_with_encoding"], .updateIndexWithEncoding⟩,
   ⟨.encode, .post, [.lit "encode"], .encode⟩,
   ⟨.encode, .post, [.lit "rerank"], .rerank⟩,
   ⟨.encode, .post, [.lit "rerank_with_encoding"], .rerankWithEncoding⟩,
   ⟨.delete, .delete, ofIndex [], .deleteIndex⟩,
   ⟨.delete, .delete, ofIndex ["documents"], .deleteDocuments⟩,
   ⟨.api, .post, [.lit "indices"], .createIndex⟩,
   ⟨.api, .post, ofIndex ["documents"], .addDocuments⟩,
   ⟨.api, .put, ofIndex ["config"], .updateIndexConfig⟩,
   ⟨.api, .post, ofIndex ["search"], .search⟩,
   ⟨.api, .post, ofIndex ["search", "filtered"], .searchFiltered⟩,
   ⟨.api, .post, ofIndex ["search_with_encoding"], .searchWithEncoding⟩,
   ⟨.api, .post, ofIndex ["search", "filtered_with_encoding"], .searchFilteredWithEncoding⟩,
   ⟨.api, .get, ofIndex ["metadata"], .getAllMetadata⟩,
   ⟨.api, .get, ofIndex ["metadata", "count"], .getMetadataCount⟩,
   ⟨.api, .post, ofIndex ["metadata", "check"], .checkMetadata⟩,
   ⟨.api, .post, ofIndex ["metadata", "query"], .queryMetadata⟩,
   ⟨.api, .post, ofIndex ["metadata", "get"], .getMetadata⟩,
   ⟨.api, .post, ofIndex ["metadata", "update"], .updateMetadata⟩]

/-- Does a path fit a route.  `{name}` fits one piece that is not empty. -/
def fits : List Seg → List String → Bool
  | [], [] => true
  | .lit s :: r, p :: ps => s == p && fits r ps
  | .name :: r, p :: ps => p != "" && fits r ps
  | _, _ => false

/-- The route of a request. -/
def route (l : Line) : Option Route := table.find? fun r => r.method == l.method && fits r.path l.path

/-! ### Settings -/

/-- What the environment sets: main.rs:292-308.  A value that is not a number counts as absent. -/
structure Env where
  /-- RATE_LIMIT_ENABLED, in small letters -/
  enabled : Option String := none
  perSecond : Option Nat := none
  burst : Option Nat := none
  concurrency : Option Nat := none

structure Cfg where
  limited : Bool
  perSecond : Nat
  burst : Nat
  concurrency : Nat
deriving DecidableEq

/-- main.rs:292-308. -/
def settings (e : Env) : Cfg where
  limited := (e.enabled.map fun v => v == "true" || v == "1" || v == "yes").getD false
  perSecond := e.perSecond.getD 50
  burst := e.burst.getD 100
  concurrency := e.concurrency.getD 100

/-- Does the server start: main.rs:467-471, `finish` and `expect`. -/
def starts (c : Cfg) : Bool := !c.limited || (c.perSecond != 0 && c.burst != 0)

/-! ### Layers -/

inductive Layer where
  /-- `trace_request` -/
  | requestId
  /-- `TraceLayer`, only logs -/
  | log
  | timeout (seconds : Nat)
  | cors
  | governor
  | concurrency
  | bodyLimit (bytes : Nat)
deriving DecidableEq, Repr

/-- The layers of a router, from the inside: main.rs:324-331, 339-350, 361-375, 386-400, 412-425, 456-487. -/
def layers (c : Cfg) : Group → List Layer
  | .health => [.requestId, .log, .timeout 30]
  | .info => [.requestId, .log, .timeout 30, .cors]
  | .update => [.requestId, .log, .timeout 300, .cors, .concurrency, .bodyLimit (100 * 1024 * 1024)]
  | .encode => [.requestId, .log, .timeout 300, .cors, .concurrency, .bodyLimit (100 * 1024 * 1024)]
  | .delete => [.requestId, .log, .timeout 300, .cors, .concurrency]
  | .api => [.requestId, .log, .timeout 300, .cors] ++ (if c.limited then [.governor] else []) ++
      [.concurrency, .bodyLimit (100 * 1024 * 1024)]

/-- Is a request to this router counted by the rate limiter. -/
def governed (c : Cfg) (g : Group) : Bool := (layers c g).contains .governor

/-- Who answers. -/
inductive Origin where
  | handler
  /-- 408 -/
  | timeout
  /-- 429, main.rs:240-258 -/
  | governor
deriving DecidableEq, Repr

/-- Is this the layer that gave the answer. -/
def Layer.isOrigin : Layer → Origin → Bool
  | .timeout _, .timeout => true
  | .governor, .governor => true
  | _, _ => false

/-- The layers an answer passes on its way out. -/
def passes (c : Cfg) (g : Group) : Origin → List Layer
  | .handler => layers c g
  | o => ((layers c g).dropWhile fun l => !l.isOrigin o).drop 1

/-! ### Request ids -/

/-- `HeaderValue::to_str` succeeds. -/
def readable (b : UInt8) : Bool := (32 ≤ b && b < 127) || b == 9

/-- The id of a request: tracing_middleware.rs:69-74.  `fresh` is the id made up. -/
def requestId (header : Option (List UInt8)) (fresh : List UInt8) : List UInt8 :=
  match header with
  | some v => if v.all readable then v else fresh
  | none => fresh

/-- `HeaderValue::from_str` accepts it: tracing_middleware.rs:83. -/
def headerOk (v : List UInt8) : Bool := v.all fun b => (32 ≤ b && b != 127) || b == 9

/-- The `x-request-id` of an answer: tracing_middleware.rs:80-88. -/
def answerId (c : Cfg) (g : Group) (o : Origin) (header : Option (List UInt8)) (fresh : List UInt8) : Option (List UInt8) :=
  if (passes c g o).contains .requestId ∧ headerOk (requestId header fresh) then some (requestId header fresh) else none

/-- May a page of any origin read the answer. -/
def readableByPages (c : Cfg) (g : Group) (o : Origin) : Bool := (passes c g o).contains .cors

/-! ### Bodies -/

/-- The largest body read: the limit set, or the default of axum, 2 MiB. -/
def bodyLimit (c : Cfg) (g : Group) : Nat :=
  ((layers c g).findSome? fun | .bodyLimit n => some n | _ => none).getD (2 * 1024 * 1024)

/-! ### Rate limit -/

/-- The bucket of one client: credit in seconds, full at `burst * interval`; one request costs `interval`. -/
structure Bucket where
  credit : Nat
  last : Nat
deriving DecidableEq

/-- The interval of replenishment in seconds: main.rs:468. -/
def interval (c : Cfg) : Nat := c.perSecond

/-- A bucket when its client is first seen. -/
def full (c : Cfg) (now : Nat) : Bucket := ⟨c.burst * interval c, now⟩

/-- One request at `now`. -/
def take (c : Cfg) (b : Bucket) (now : Nat) : Bool × Bucket :=
  let credit := min (c.burst * interval c) (b.credit + (now - b.last))
  if interval c ≤ credit then (true, ⟨credit - interval c, now⟩) else (false, ⟨credit, now⟩)

/-- The requests of one client, as counted by the limiter. -/
def admitted (c : Cfg) : Bucket → List Nat → List Bool
  | _, [] => []
  | b, t :: ts => (take c b t).1 :: admitted c (take c b t).2 ts

/-- The answers of the limiter, with a bucket for every peer address (main.rs:467-472): requests to other routers are let
through. -/
def serveLines {K : Type} [DecidableEq K] (c : Cfg) : (K → Bucket) → List (K × Nat × Route) → List Bool
  | _, [] => []
  | m, (k, t, r) :: rest =>
    if governed c r.group then (take c (m k) t).1 :: serveLines c (Function.update m k (take c (m k) t).2) rest
    else true :: serveLines c m rest

/-! ### Concurrency -/

/-- Is the number of requests of this router limited. -/
def counted (c : Cfg) (g : Group) : Bool := (layers c g).contains .concurrency

/-- Requests being served and waiting.  Each `ConcurrencyLimitLayer::new` makes its own semaphore (main.rs:374, 399, 425,
484); `slot` says which semaphore a route uses. -/
structure Load (σ : Type) where
  running : List Route := []
  waiting : List Route := []

inductive Act where
  | arrive (r : Route)
  /-- the `i`-th running request is answered -/
  | answer (i : Nat)
  /-- the `i`-th waiting request gets a permit -/
  | admit (i : Nat)

/-- Permits of a semaphore in use. -/
def inUse {σ : Type} [DecidableEq σ] (c : Cfg) (slot : Route → σ) (running : List Route) (x : σ) : Nat :=
  (running.filter fun r => counted c r.group && slot r == x).length

/-- One step. -/
def act {σ : Type} [DecidableEq σ] (c : Cfg) (slot : Route → σ) (s : Load σ) : Act → Option (Load σ)
  | .arrive r =>
    if counted c r.group ∧ c.concurrency ≤ inUse c slot s.running (slot r) then some { s with waiting := s.waiting ++ [r] }
    else some { s with running := s.running ++ [r] }
  | .answer i => if i < s.running.length then some { s with running := s.running.eraseIdx i } else none
  | .admit i =>
    match s.waiting[i]? with
    | none => none
    | some r =>
      if c.concurrency ≤ inUse c slot s.running (slot r) then none
      else some ⟨s.running ++ [r], s.waiting.eraseIdx i⟩

/-- A schedule. -/
def acts {σ : Type} [DecidableEq σ] (c : Cfg) (slot : Route → σ) : Load σ → List Act → Option (Load σ)
  | s, [] => some s
  | s, a :: as => (act c slot s a).bind fun s' => acts c slot s' as

/-! ### Time limit -/

/-- The time limit of a router. -/
def limit (c : Cfg) (g : Group) : Nat :=
  ((layers c g).findSome? fun | .timeout n => some n | _ => none).getD 0

/-- Is the clock of the time limit started only once the request holds its permit: the time limit is inside. -/
def clockAfterPermit (c : Cfg) (g : Group) : Bool :=
  ((layers c g).dropWhile fun | .timeout _ => false | _ => true).contains .concurrency

/-- When and by whom a request is answered that arrived at `arrival`, got its permit at `permit` and whose handler needs
`work` seconds. -/
def answered (c : Cfg) (g : Group) (arrival permit work : Nat) : Nat × Origin :=
  let start := if clockAfterPermit c g then permit else arrival
  if work ≤ limit c g then (start + work, .handler) else (start + limit c g, .timeout)

end NextPlaid.Surface
