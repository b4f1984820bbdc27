/-!
Model of the timestamp formatting in /repo/next-plaid-api/src/state.rs:78-104.
`i64` is `Int` (no overflow); Rust's integer division rounds towards zero (`Int.tdiv`, `Int.tmod`).
-/

namespace NextPlaid.Calendar

/-- `civil_from_days`: /repo/next-plaid-api/src/state.rs:92-104. -/
def civilFromDays (days : Int) : Int × Int × Int :=
  let z := days + 719468
  let era := (if z ≥ 0 then z else z - 146096).tdiv 146097
  let doe := z - era * 146097
  let yoe := (doe - doe.tdiv 1460 + doe.tdiv 36524 - doe.tdiv 146096).tdiv 365
  let year := yoe + era * 400
  let doy := doe - (365 * yoe + yoe.tdiv 4 - yoe.tdiv 100)
  let mp := (5 * doy + 2).tdiv 153
  let day := doy - (153 * mp + 2).tdiv 5 + 1
  let month := mp + if mp < 10 then 3 else -9
  (year + if month ≤ 2 then 1 else 0, month, day)

/-- `{x:0w}` for a non-negative number: /repo/next-plaid-api/src/state.rs:89. -/
def padded (w : Nat) (x : Int) : List Char :=
  List.replicate (w - (Nat.toDigits 10 x.toNat).length) '0' ++ Nat.toDigits 10 x.toNat

/-- `system_time_to_rfc3339`: /repo/next-plaid-api/src/state.rs:78-90.  `sinceEpoch` is the time in whole
seconds relative to the epoch; times before the epoch become the epoch (`unwrap_or_default`). -/
def rfc3339 (sinceEpoch : Int) : List Char :=
  let seconds := if sinceEpoch < 0 then 0 else sinceEpoch
  let days := seconds / 86400
  let secondsOfDay := seconds % 86400
  let (year, month, day) := civilFromDays days
  let hour := secondsOfDay.tdiv 3600
  let minute := (secondsOfDay.tmod 3600).tdiv 60
  let second := secondsOfDay.tmod 60
  padded 4 year ++ ['-'] ++ padded 2 month ++ ['-'] ++ padded 2 day ++ ['T'] ++ padded 2 hour ++ [':'] ++
    padded 2 minute ++ [':'] ++ padded 2 second ++ ['Z']

end NextPlaid.Calendar
