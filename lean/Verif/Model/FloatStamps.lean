import Verif.Model.Timestamps

/-!
# Model of the time stamp estimator with the rounding of floats (dronecan/driver/timestamp_estimator.py)

As Model/Timestamps, but every operation on floats is rounded, in the order in which Python evaluates them. What the `decimal` module makes of a sum
or a product is a parameter (`dec`); the conversion of a float to `Decimal` is exact. Infinities and subnormal numbers are left out.
-/

namespace Dronecan
namespace FloatStamps
open Timestamps (Resolver Estimator Config)

/-- `SourceTimeResolver.update` (timestamp_estimator.py:47-79). -/
def resolve (dec : Rat → Rat) (period : Option Rat) (r : Resolver) (source target : Rat) : Except Err Rat × Resolver :=
  match r.time, period with
  | some time, some period =>
    let tgtDelta := fl (target - r.prevTarget)
    if tgtDelta < 0 then (.error .assertionError, { r with prevTarget := target })
    else
      let srcDelta := fl (source - r.prevSource)
      let cycles := roundHalfEven (fl (fl (tgtDelta - srcDelta) / fl period))
      let time' := dec (dec (time + dec ((cycles : Rat) * period)) + srcDelta)
      (.ok time', ⟨some time', source, target⟩)
  | _, _ => (.ok source, ⟨some source, source, target⟩)

/-- The first option for the offset (timestamp_estimator.py:161). -/
def offset (cfg : Config) (p q pi : Rat) : Rat := fl (fl (fl (p - q) - fl (cfg.rate * fl (pi - p))) - cfg.fixedDelay)

/-- The second one (timestamp_estimator.py:162). -/
def newOffset (cfg : Config) (pi qi : Rat) : Rat := fl (fl (pi - qi) - cfg.fixedDelay)

/-- The end of `update` (timestamp_estimator.py:159-173). -/
def estimate (cfg : Config) (s : Estimator) (p q pi qi : Rat) : Except Err Rat × Estimator :=
  if pi < p then (.error .assertionError, { s with pq := some (p, q) })
  else if offset cfg p q pi ≤ newOffset cfg pi qi then (.ok (fl (pi - newOffset cfg pi qi)), { s with pq := some (pi, qi) })
  else (.ok (fl (pi - offset cfg p q pi)), { s with pq := some (p, q) })

/-- `TimestampEstimator.update` (timestamp_estimator.py:133-173). -/
def update (dec : Rat → Rat) (cfg : Config) (s : Estimator) (source target : Rat) : Except Err Rat × Estimator :=
  match resolve dec cfg.period s.resolver source target with
  | (.error e, r) => (.error e, { s with resolver := r })
  | (.ok time, r) =>
    let pi := fl time
    let (p, q) := s.pq.getD (pi, target)
    let delay := (fl (fl (pi - p) - fl (target - q))).abs
    if cfg.maxPhase < delay then
      match resolve dec cfg.period {} source target with
      | (.error e, r) => (.error e, { s with
          resolver := r
          pq := some (p, q)
          delay := delay
          resyncs := s.resyncs + 1 })
      | (.ok time, r) => estimate cfg { s with
          resolver := r
          delay := delay
          resyncs := s.resyncs + 1 } (fl time) target (fl time) target
    else estimate cfg { s with
        resolver := r
        delay := delay } p q pi target

/-- A history of samples of the source and the target clock. -/
def run (dec : Rat → Rat) (cfg : Config) (s : Estimator) : List (Rat × Rat) → List (Except Err Rat) × Estimator
  | [] => ([], s)
  | x :: xs =>
    let (t, s) := update dec cfg s x.1 x.2
    let (ts, s) := run dec cfg s xs
    (t :: ts, s)

end FloatStamps
end Dronecan
