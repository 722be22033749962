import Verif.Model.Prim

/-!
# Model of the commands of examples/hobbywing_esc.py (lines 30-215)

The definitions of the messages are not part of the repository: the types of their fields and the values of their constants are parameters. An argument of
the command line is what `int` makes of it, `none` if it raises. What replies do, fields that are not assigned, and arrays that are longer than their
capacity are left out.
-/

namespace Dronecan
namespace Hobbywing

/-- The keys of `commands` (hobbywing_esc.py:202-215). -/
inductive Command where
  | setBaud | getEscId | getInfo | getMaintenance | getMajorConfig | setId | setLed | setAngle | selfTest | setReportingFrequency | setDirection | rawCommand
deriving DecidableEq, Repr

/-- What the definitions say. `fields` are the types of the fields that a command assigns, in this order; of an array, its elements. -/
structure Definitions where
  fields : Command → List PrimTy
  /-- BAUD_1MBPS, BAUD_500KBPS, BAUD_250KBPS, BAUD_200KBPS, BAUD_100KBPS, BAUD_50KBPS -/
  baud : Nat → Int
  /-- OPTION_WRITE -/
  write : Int
  /-- RATE_500HZ, RATE_250HZ, RATE_200HZ, RATE_100HZ, RATE_50HZ, RATE_20HZ, RATE_10HZ, RATE_1HZ -/
  rate : Nat → Int

/-- What comes of a command. -/
inductive Outcome where
  /-- how to use it is printed -/
  | usage
  /-- the valid values are printed -/
  | invalid (valid : List Int)
  /-- a request is sent to the target node -/
  | request (c : Command) (fields : List Bits)
  /-- a message is broadcast; by RawCommand again and again -/
  | broadcast (c : Command) (items : List Bits)
  | raised (e : Err)
deriving DecidableEq, Repr

/-- How many arguments there must be (the conditions of the form `len(arguments) < n`). -/
def needed : Command → Nat
  | .selfTest => 0
  | .setId | .setAngle | .setReportingFrequency => 2
  | .setLed => 3
  | _ => 1

/-- Assignments one after another, each of the number that `int` returns. -/
def assign : List PrimTy → List (Option Int) → Except Err (List Bits)
  | p :: ps, x :: xs =>
    match x with
    | none => .error .valueError
    | some n =>
      match setInt p n with
      | .error e => .error e
      | .ok b =>
        match assign ps xs with
        | .error e => .error e
        | .ok bs => .ok (b :: bs)
  | _, _ => .ok []

/-- The numbers of a list, made by a list comprehension (hobbywing_esc.py:166; for GetESCId 102), and then appended to the array. -/
def items (p : PrimTy) (xs : List (Option Int)) : Except Err (List Bits) :=
  if none ∈ xs then .error .valueError else assign (xs.map fun _ => p) xs

/-- `bmap` (hobbywing_esc.py:33-40). -/
def bauds : List Int := [1000000, 500000, 250000, 200000, 100000, 50000]

/-- `rmap` (hobbywing_esc.py:185-194). -/
def rates : List Int := [500, 250, 200, 100, 50, 20, 10, 1]

def send (f : List Bits → Outcome) : Except Err (List Bits) → Outcome
  | .ok bs => f bs
  | .error e => .raised e

/-- A command with its arguments. `','.join` of integers raises `TypeError` (hobbywing_esc.py:46, 197). -/
def run (d : Definitions) (c : Command) (args : List (Option Int)) : Outcome :=
  if args.length < needed c then .usage
  else match c with
    | .setBaud =>
      match args.headD none with
      | none => .raised .valueError
      | some b => if b ∈ bauds then send (.request c) (assign (d.fields c) [some (d.baud (bauds.idxOf b))]) else .raised .typeError
    | .setReportingFrequency =>
      match assign (d.fields c) [some d.write, args.headD none] with
      | .error e => .raised e
      | .ok _ =>
        match args.tail.headD none with
        | none => .raised .valueError
        | some r => if r ∈ rates then send (.request c) (assign (d.fields c) [some d.write, args.headD none, some (d.rate (rates.idxOf r))])
          else .raised .typeError
    | .getEscId => send (.broadcast c) (items ((d.fields c).headD ⟨.unsigned, 8, false⟩) (args.take 1))
    | .rawCommand => send (.broadcast c) (items ((d.fields c).headD ⟨.unsigned, 8, false⟩) args)
    | _ => send (.request c) (assign (d.fields c) (args.take (needed c)))

end Hobbywing
end Dronecan
