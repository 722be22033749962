import Verif.Model.Bits
import Verif.Model.Double

/-!
# Model of the time stamp estimator (dronecan/driver/timestamp_estimator.py)

Times are exact numbers; the rounding of floats and of `decimal` (28 digits) is not modelled here.
-/

namespace Dronecan
namespace Timestamps

/-- `SourceTimeResolver` (timestamp_estimator.py:14-45). -/
structure Resolver where
  time : Option Rat := none
  prevSource : Rat := 0
  prevTarget : Rat := 0
deriving DecidableEq

/-- The parameters of `TimestampEstimator`. -/
structure Config where
  period : Option Rat
  rate : Rat
  fixedDelay : Rat
  maxPhase : Rat
deriving DecidableEq

/-- A falsy argument is replaced by the default. -/
def orElse (x : Option Rat) (default : Rat) : Rat :=
  match x with
  | none => default
  | some x => if x = 0 then default else x

/-- The constructors (timestamp_estimator.py:24-35, 92-128). -/
def mkConfig (rate period fixedDelay maxPhase : Option Rat) : Except Err Config :=
  let r := orElse rate (200 / 1000000)
  let d := orElse fixedDelay 0
  let m := orElse maxPhase 1
  if r < 0 then .error .valueError
  else if d < 0 then .error .valueError
  else if m ≤ 0 then .error .valueError
  else
    match period with
    | none => .ok ⟨none, r, d, m⟩
    | some p => if p = 0 then .ok ⟨none, r, d, m⟩ else if p ≤ 0 then .error .valueError else .ok ⟨some p, r, d, m⟩

/-- `SourceTimeResolver.update` (timestamp_estimator.py:47-79). -/
def resolve (period : Option Rat) (r : Resolver) (source target : Rat) : Except Err Rat × Resolver :=
  match r.time, period with
  | some time, some period =>
    let tgtDelta := target - r.prevTarget
    if tgtDelta < 0 then (.error .assertionError, { r with prevTarget := target })
    else
      let srcDelta := source - r.prevSource
      let cycles := roundHalfEven ((tgtDelta - srcDelta) / period)
      let time' := time + (cycles : Rat) * period + srcDelta
      (.ok time', ⟨some time', source, target⟩)
  | _, _ => (.ok source, ⟨some source, source, target⟩)

/-- `TimestampEstimator` (timestamp_estimator.py:124-131); `pq` is `_p` and `_q`. -/
structure Estimator where
  resolver : Resolver := {}
  pq : Option (Rat × Rat) := none
  delay : Rat := 0
  resyncs : Nat := 0
deriving DecidableEq

/-- The end of `update` (timestamp_estimator.py:159-173). -/
def estimate (cfg : Config) (s : Estimator) (p q pi qi : Rat) : Except Err Rat × Estimator :=
  if pi < p then (.error .assertionError, { s with pq := some (p, q) })
  else
    let offset := p - q - cfg.rate * (pi - p) - cfg.fixedDelay
    let new := pi - qi - cfg.fixedDelay
    if offset ≤ new then (.ok (pi - new), { s with pq := some (pi, qi) })
    else (.ok (pi - offset), { s with pq := some (p, q) })

/-- `TimestampEstimator.update` (timestamp_estimator.py:133-173). -/
def update (cfg : Config) (s : Estimator) (source target : Rat) : Except Err Rat × Estimator :=
  match resolve cfg.period s.resolver source target with
  | (.error e, r) => (.error e, { s with resolver := r })
  | (.ok pi, r) =>
    let (p, q) := s.pq.getD (pi, target)
    let delay := ((pi - p) - (target - q)).abs
    if cfg.maxPhase < delay then
      match resolve cfg.period {} source target with
      | (.error e, r) => (.error e, { s with
          resolver := r
          pq := some (p, q)
          delay := delay
          resyncs := s.resyncs + 1 })
      | (.ok pi, r) => estimate cfg { s with
          resolver := r
          delay := delay
          resyncs := s.resyncs + 1 } pi target pi target
    else estimate cfg { s with
        resolver := r
        delay := delay } p q pi target

/-- A history of samples of the source and the target clock. -/
def run (cfg : Config) (s : Estimator) : List (Rat × Rat) → List (Except Err Rat) × Estimator
  | [] => ([], s)
  | x :: xs =>
    let (t, s) := update cfg s x.1 x.2
    let (ts, s) := run cfg s xs
    (t :: ts, s)

/-- The resolver alone. -/
def resolveAll (period : Option Rat) (r : Resolver) : List (Rat × Rat) → List (Except Err Rat)
  | [] => []
  | x :: xs =>
    let (t, r) := resolve period r x.1 x.2
    t :: resolveAll period r xs

end Timestamps
end Dronecan
