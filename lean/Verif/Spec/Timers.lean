import Verif.Model.Node

/-!
# Specification of timers, in terms of the history only

From a history (timers armed, run and cancelled, in order) one can tell which timers are pending, when each of them is
due, and in which order equal deadlines are to be served.
-/

namespace Dronecan

/-- Every entry of the history satisfies `P`, which may look at what happened before. -/
def HistAll (P : List Ev → Ev → Prop) (tr : List Ev) : Prop := ∀ pre x post, tr = pre ++ x :: post → P pre x

/-- The user timer that a scheduler event belongs to. -/
def Action.timer? : Action → Option Nat
  | .once i => some i
  | .every i _ => some i
  | _ => none

namespace Timers

/-- How a timer was armed: when, with which delay (or period), and whether it is periodic. -/
def armedInfo (i : Nat) : Ev → Option (Int × Int × Bool)
  | .armed j now delay per => if j = i then some (now, delay, per) else none
  | _ => none

/-- `info tr i`: how timer `i` was armed. -/
def info (tr : List Ev) (i : Nat) : Option (Int × Int × Bool) := tr.findSome? (armedInfo i)

/-- Is this a run of timer `i`? -/
def isRun (i : Nat) : Ev → Bool
  | .fired e _ _ => e.action.timer? == some i
  | _ => false

/-- Number of runs of timer `i` so far. -/
def runs (tr : List Ev) (i : Nat) : Nat := tr.countP (isRun i)

/-- Is this a successful cancellation of timer `i`? -/
def isCancel (i : Nat) : Ev → Bool
  | .cancelled j ok => j == i && ok
  | _ => false

/-- Timer `i` was cancelled. -/
def cancelled (tr : List Ev) (i : Nat) : Bool := tr.any (isCancel i)

/-- Timer `i` is waiting: armed, not cancelled, and, if it is a one-shot timer, not run yet. -/
def pending (tr : List Ev) (i : Nat) : Bool :=
  match info tr i with
  | none => false
  | some (_, _, per) => !cancelled tr i && (per || runs tr i == 0)

/-- The next deadline of timer `i`: `t0 + d` for a one-shot timer, `t0 + k * d` for the `k`-th run of a periodic
timer. -/
def deadline (tr : List Ev) (i : Nat) : Int :=
  match info tr i with
  | none => 0
  | some (t0, d, per) => if per then t0 + (runs tr i + 1) * d else t0 + d

/-- Periodic timers go first. -/
def rank (tr : List Ev) (i : Nat) : Nat :=
  match info tr i with
  | some (_, _, true) => 0
  | _ => 1

/-- Does this entry put timer `i` into the queue (armed, or run and armed again)? -/
def touches (i : Nat) : Ev → Bool
  | .armed j _ _ _ => j == i
  | .fired e _ _ => e.action.timer? == some i
  | _ => false

/-- Position in the history at which timer `i` entered the queue last. -/
def entered (tr : List Ev) (i : Nat) : Nat := tr.length - tr.reverse.findIdx (touches i)

/-- The order in which timers `i` and `j` are to be served: by deadline, periodic before one-shot, then by the order of
registration. -/
def servedBefore (tr : List Ev) (i j : Nat) : Prop :=
  deadline tr i < deadline tr j ∨
    deadline tr i = deadline tr j ∧ (rank tr i < rank tr j ∨ rank tr i = rank tr j ∧ entered tr i < entered tr j)

/-- What it means for one entry of the history to be right. -/
def EntryOk (pre : List Ev) : Ev → Prop
  | .fired e now q =>
    e.time ≤ now ∧ e ∈ q ∧ (∀ e' ∈ q, e' ≠ e → e.before e' = true) ∧
    (∀ j, pending pre j = true ↔ ∃ e' ∈ q, e'.action.timer? = some j) ∧
    ∀ i, e.action.timer? = some i →
      pending pre i = true ∧ e.time = deadline pre i ∧ ∀ j, pending pre j = true → j ≠ i → servedBefore pre i j
  | .cancelled i ok => ok = pending pre i
  | .armed i _ _ _ => info pre i = none
  | _ => True

end Timers
end Dronecan
