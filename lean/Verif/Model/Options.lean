import Verif.Model.Parser

/-!
# Model of the keyword arguments of `make_node` (dronecan/node.py, dronecan/driver)

`make_node` hands its keyword arguments both to the driver and to the node. Modelled is how Python binds them to parameters and what the
constructors make of them; the choice of the driver is in `MakeDriver`, what the drivers do in the models of the drivers. Numbers are exact (the division of the rate error
by 10^6 rounds in the code), and `True` and `False` are the numbers 1 and 0, as they are in Python.
-/

namespace Dronecan
namespace Options
open Parser Text

/-- An argument: `None`, a number, a string or another object, which is taken to be true. -/
inductive Val where
  | none
  | num (q : Rat)
  | str (s : Str)
  | obj (i : Nat)
deriving DecidableEq

/-- A dictionary of keyword arguments. -/
abbrev Kwargs := List (Str × Val)

/-- `kwargs.get(k)`, with `none` if there is no such key. -/
def get? (kw : Kwargs) (k : Str) : Option Val := List.lookup k kw

/-- `k in kwargs`. -/
def has (kw : Kwargs) (k : Str) : Bool := kw.any fun p => p.1 == k

/-- `kwargs[k] = v`. -/
def put (k : Str) (v : Val) (kw : Kwargs) : Kwargs := (kw.filter fun p => p.1 != k) ++ [(k, v)]

/-- A parameter with its default. -/
abbrev Param := Str × Option Val

/-- A parameter that is not among the positional arguments. -/
def fill (kw : Kwargs) : List Param → Except Err Kwargs
  | [] => .ok []
  | (n, d) :: ps =>
    match get? kw n, d with
    | some v, _ => (fill kw ps).map ((n, v) :: ·)
    | Option.none, some v => (fill kw ps).map ((n, v) :: ·)
    | Option.none, Option.none => .error .typeError

/-- A call `f(*pos, **kw)` of a function with these parameters, with or without `**kwargs`: the values of the parameters and the
remaining keyword arguments. -/
def bind (params : List Param) (varkw : Bool) (pos : List Val) (kw : Kwargs) : Except Err (Kwargs × Kwargs) :=
  if params.length < pos.length then .error .typeError
  else
    let taken := (params.take pos.length).map Prod.fst
    let rest := params.drop pos.length
    if taken.any fun n => has kw n then .error .typeError
    else
      let extra := kw.filter fun p => !rest.any fun q => q.1 == p.1
      if !varkw && !extra.isEmpty then .error .typeError
      else (fill kw rest).map fun l => (taken.zip pos ++ l, extra)

/-- `bool(v)`. -/
def truthy : Val → Bool
  | .none => false
  | .num q => q != 0
  | .str s => !s.isEmpty
  | .obj _ => true

/-- `v or d`. -/
def orElse (v d : Val) : Val := if truthy v then v else d

/-- An operand of arithmetic or of a comparison with a number. -/
def number : Val → Except Err Rat
  | .num q => .ok q
  | _ => .error .typeError

/-- The parameters of `_io_process` (slcan.py:553-563). -/
def ioParams : List Param :=
  [(lit "device", none), (lit "tx_queue", none), (lit "rx_queue", none), (lit "log_queue", none), (lit "parent_pid", none), (lit "bitrate", some .none),
   (lit "baudrate", some .none), (lit "max_adapter_clock_rate_error_ppm", some .none), (lit "fixed_rx_delay", some .none),
   (lit "max_estimated_rx_delay_to_resync", some .none), (lit "auto_reopen", some (.num 1))]

/-- What the I/O process of SLCAN works with. -/
structure Slcan where
  device : Val
  baudrate : Val
  /-- `bitrate if bitrate is not None else DEFAULT_BITRATE` (slcan.py:492) -/
  bitrate : Val
  rateError : Rat
  fixedDelay : Rat
  resync : Rat
  autoReopen : Bool
deriving DecidableEq

/-- The value of a parameter. -/
def arg (env : Kwargs) (n : String) : Val := (get? env (lit n)).getD .none

/-- `x if x is not None else d`. -/
def ifNone (v d : Val) : Val := if v = .none then d else v

/-- The constructor of the estimator (timestamp_estimator.py:111-122): the rate error, the fixed delay and the limit for resynchronisation. -/
def estimator (rate : Rat) (delay resync : Val) : Except Err (Rat × Rat × Rat) := do
  let rate := if rate = 0 then 200 / 1000000 else rate
  let delay ← number (orElse delay (.num 0))
  let resync ← number (orElse resync (.num 1))
  if rate < 0 then .error .valueError
  else if delay < 0 then .error .valueError
  else if resync ≤ 0 then .error .valueError
  else .ok (rate, delay, resync)

/-- `_io_process` until the port is opened (slcan.py:594-634): its arguments. -/
def ioProcess (env : Kwargs) : Except Err Slcan := do
  let rate ← number (ifNone (arg env "max_adapter_clock_rate_error_ppm") (.num 200))
  let delay := ifNone (arg env "fixed_rx_delay") (.num (2 / 10000))
  let resync := orElse (arg env "max_estimated_rx_delay_to_resync") (.num (1 / 10))
  let (r, d, s) ← estimator (rate / 1000000) delay resync
  .ok { device := arg env "device", baudrate := orElse (arg env "baudrate") (.num 3000000), bitrate := ifNone (arg env "bitrate") (.num 1000000),
        rateError := r, fixedDelay := d, resync := s, autoReopen := truthy (arg env "auto_reopen") }

/-- `SLCAN(name, **kwargs)` (slcan.py:702-758). An exception in the new process before the port is opened ends that process, and the constructor raises DriverError when
the time for the initialisation is over (C132). -/
def slcan (name : Str) (kw : Kwargs) : Except Err Slcan :=
  match bind [(lit "self", none), (lit "device_name", none)] true [.obj 0, .str name] kw with
  | .error e => .error e
  | .ok (_, extra) =>
    let kept := extra.filter fun p => ioParams.any fun q => q.1 == p.1
    let kept := put (lit "parent_pid") (.obj 4) (put (lit "log_queue") (.obj 3) (put (lit "tx_queue") (.obj 2) (put (lit "rx_queue") (.obj 1) kept)))
    match bind ioParams false [.str name] kept with
    | .error _ => .error .driverError
    | .ok (env, _) =>
      match ioProcess env with
      | .error _ => .error .driverError
      | .ok c => .ok c

/-- What MAVCAN works with (mavcan.py:202-217). -/
structure Mavcan where
  url : Val
  bus : Rat
  targetSystem : Val
  baudrate : Val
deriving DecidableEq

/-- `MAVCAN(url, **kwargs)` (mavcan.py:202-217). -/
def mavcan (url : Str) (kw : Kwargs) : Except Err Mavcan := do
  let (_, extra) ← bind [(lit "self", none), (lit "url", none)] true [.obj 0, .str url] kw
  let bus ← number ((get? extra (lit "bus_number")).getD (.num 1))
  .ok { url := .str url, bus := bus - 1, targetSystem := (get? extra (lit "mavlink_target_system")).getD (.num 0),
        baudrate := (get? extra (lit "baudrate")).getD (.num 115200) }

/-- What the node works with (node.py:264-293). `nodeInfo` is `none` for an empty response. -/
structure Node where
  driver : Val
  nodeId : Val
  interval : Val
  mode : Val
  nodeInfo : Val
  catchExceptions : Val
  canfd : Val
deriving DecidableEq

/-- The parameters of `Node.__init__` (node.py:240-243). -/
def nodeParams : List Param :=
  [(lit "self", none), (lit "can_driver", none), (lit "node_id", some .none), (lit "node_status_interval", some .none), (lit "mode", some .none),
   (lit "node_info", some .none), (lit "catch_handler_exceptions", some (.num 1)), (lit "send_canfd", some (.num 0))]

/-- `Node(can, **kwargs)` (node.py:240-293). `MODE_INITIALIZATION` is 1 in the standard. -/
def node (can : Val) (kw : Kwargs) : Except Err Node := do
  let (env, _) ← bind nodeParams true [.obj 0, can] kw
  .ok { driver := can, nodeId := arg env "node_id", interval := orElse (arg env "node_status_interval") (.num 1), mode := ifNone (arg env "mode") (.num 1),
        nodeInfo := if truthy (arg env "node_info") then arg env "node_info" else .none, catchExceptions := arg env "catch_handler_exceptions",
        canfd := arg env "send_canfd" }

/-- `make_node(name, **kwargs)` (node.py:549-556) and `make_driver` (driver/__init__.py:37) for a name of an SLCAN device; the driver object is `obj 10`. -/
def makeNode (name : Str) (kw : Kwargs) : Except Err (Slcan × Node) := do
  let (_, kw) ← bind [(lit "can_device_name", none)] true [.str name] kw
  let (_, extra) ← bind [(lit "device_name", none)] true [.str name] kw
  let c ← slcan name extra
  let n ← node (.obj 10) kw
  .ok (c, n)

end Options
end Dronecan
