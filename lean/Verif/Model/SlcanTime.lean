import Verif.Model.Timestamps
import Verif.Model.Slcan

/-!
# Time stamps of the frames from an SLCAN adapter

Model of the part of `RxWorker._process_slcan_line` that concerns time (slcan.py:273-283), with the estimators as they are set up by `_io_process`
(slcan.py:595-609). The rest of the function is `Slcan.parseLine`. Simplification: numbers are exact, as in `Timestamps`.
-/

namespace Dronecan
namespace SlcanTime
open Timestamps

/-- The parameters of the estimators (slcan.py:595-608) for the options of the driver. -/
def config (ppm fixedDelay resync : Option Rat) : Except Err Config :=
  let rate := match ppm with
    | none => 200 / 1000000
    | some x => x / 1000000
  let fixedDelay := match fixedDelay with
    | none => 2 / 10000
    | some x => x
  mkConfig (some rate) (some 60) (some fixedDelay) (some (orElse resync (1 / 10)))

/-- A line that has been parsed: the time stamp of the adapter in milliseconds if it has one, and the time when it was read, by the monotonic and the
real-time clock. -/
structure Line where
  hw : Option Int
  mono : Rat
  real : Rat

/-- `ts_estimator_mono` and `ts_estimator_real` (slcan.py:605-609). -/
structure Est where
  mono : Estimator := {}
  real : Estimator := {}

/-- The time stamps of the frame (slcan.py:273-283). `none`: an estimator raises, the exception is swallowed (slcan.py:288-291) and the frame is lost. -/
def stamp (cfg : Config) (s : Est) (l : Line) : Option (Rat × Rat) × Est :=
  match l.hw with
  | none => (some (l.mono, l.real), s)
  | some hw =>
    match update cfg s.mono ((hw : Rat) / 1000) l.mono with
    | (.error _, m) => (none, { s with mono := m })
    | (.ok mono, m) =>
      match update cfg s.real ((hw : Rat) / 1000) l.real with
      | (.error _, r) => (none, ⟨m, r⟩)
      | (.ok real, r) => (some (mono, real), ⟨m, r⟩)

/-- Line after line. -/
def run (cfg : Config) (s : Est) : List Line → List (Option (Rat × Rat)) × Est
  | [] => ([], s)
  | l :: ls =>
    let (t, s) := stamp cfg s l
    let (ts, s) := run cfg s ls
    (t :: ts, s)

/-- The worker with its estimators (slcan.py:616-621). -/
def env (cfg : Config) (utf8 : List Byte → Bool) : Slcan.REnv Est where
  update s hw ts := stamp cfg s ⟨some hw, ts.1, ts.2⟩
  utf8 := utf8

end SlcanTime
end Dronecan
