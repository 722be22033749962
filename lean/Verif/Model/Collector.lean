import Verif.Model.Dict
import Verif.Model.PyM

/-!
# The message collector (dronecan/app/message_collector.py)

The clock is `time.monotonic()`: every read returns the previous value plus an arbitrary non-negative advance
(`adv n` before read number `n`). Times are integers (microseconds); Python uses floats.
-/

namespace Dronecan

/-- The monotonic clock: the last value read and the number of reads. -/
structure Clock where
  now : Int
  reads : Nat := 0
  deriving DecidableEq

/-- One call of `time.monotonic()`. -/
def Clock.tick (adv : Nat → Nat) (c : Clock) : Clock := { now := c.now + adv c.reads, reads := c.reads + 1 }

/-- A collected `TransferEvent`: `transfer.ts_monotonic` and what identifies the event. -/
structure Msg where
  ts : Int
  val : Nat
  deriving DecidableEq

/-- `MessageCollector`, message_collector.py:25-70: the attribute `_storage` and the clock. -/
structure Coll (κ : Type) where
  storage : Dict κ Msg := []
  clock : Clock

namespace Coll
open PyM
variable {κ : Type} [DecidableEq κ] (adv : Nat → Nat) (timeout : Option Int)

/-- The subscription callback, message_collector.py:47. `key` is what the key function returns for this event, or the
exception it raises. -/
def receive (key : Except Err κ) (m : Msg) : PyM (Coll κ) Unit :=
  match key with
  | .ok k => modify fun s => { s with storage := s.storage.set k m }
  | .error e => raise e

/-- `self._storage[key]` -/
def lookup (k : κ) : PyM (Coll κ) Msg := fun s =>
  match s.storage.get? k with
  | some m => (.ok m, s)
  | none => (.error .keyError, s)

/-- The removal of an outdated entry, message_collector.py:56-58. -/
def purge (k : κ) : PyM (Coll κ) Unit :=
  match timeout with
  | none => PyM.pure ()
  | some t => lookup k >>- fun m => fun s =>
    let c := s.clock.tick adv
    if m.ts + t < c.now then (.ok (), { s with storage := s.storage.del k, clock := c })
    else (.ok (), { s with clock := c })

/-- `__getitem__`, message_collector.py:55-59. -/
def getitem (k : κ) : PyM (Coll κ) Msg := purge adv timeout k >>- fun _ => lookup k

/-- `try: self[x]  except KeyError: pass`, message_collector.py:63-66. (`self[x]` raises nothing else.) -/
def touch (k : κ) : PyM (Coll κ) Unit := tryCatch (getitem adv timeout k >>- fun _ => PyM.pure ()) fun _ => PyM.pure ()

/-- `__iter__`, message_collector.py:61-67: the keys that the returned iterator yields. -/
def iter : PyM (Coll κ) (List κ) :=
  get >>- fun s => forEach s.storage.keys (touch adv timeout) >>- fun _ => get >>- fun s => PyM.pure s.storage.keys

/-- `__len__`, message_collector.py:69-70. -/
def len : PyM (Coll κ) Nat := get >>- fun s => PyM.pure s.storage.length

/-- `__contains__` of `collections.abc.Mapping` (Python library): `try: self[key]  except KeyError: return False`. -/
def contains (k : κ) : PyM (Coll κ) Bool :=
  tryCatch (getitem adv timeout k >>- fun _ => PyM.pure true) fun _ => PyM.pure false

/-- An operation on the collector. -/
inductive Op (κ : Type)
  | receive (key : Except Err κ) (m : Msg)
  | getitem (k : κ)
  | contains (k : κ)
  | iter
  | len

/-- Perform an operation; whatever it returns or raises, the program continues. -/
def step (s : Coll κ) : Op κ → Coll κ
  | .receive key m => (receive key m s).2
  | .getitem k => (getitem adv timeout k s).2
  | .contains k => (contains adv timeout k s).2
  | .iter => (iter adv timeout s).2
  | .len => (len s).2

/-- A history of the collector. -/
def run (s : Coll κ) (ops : List (Op κ)) : Coll κ := ops.foldl (step adv timeout) s

end Coll
end Dronecan
