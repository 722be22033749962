# Formal model of pydronecan: design

The subject is the Python source in `/repo` (dronecan/pydronecan at the pinned commit).
The code is read as text; nothing is executed. The model and proofs are Lean 4 (with
Mathlib lemmas only) in `/verif/lean`.

## Trusted base

* Lean 4.33.0's kernel. Theorems may depend only on the axioms `propext`,
  `Classical.choice` and `Quot.sound`. No axioms are added, there is no `sorry`,
  no `native_decide`, no `bv_decide`.
* The transcription of Python into Lean definitions. Every definition in
  `Verif/Model/*.lean` cites the file and lines it models, and says where it simplifies.
* The small specifications in `Verif/Spec/*.lean` and the statements in `Verif/Props/*.lean`.

### Layout

* `Verif/Model/*.lean`  - the transcription of the code, function by function.
* `Verif/Spec/*.lean`   - independent specifications used by theorem statements.
* `Verif/Proofs/*.lean` - helper lemmas.
* `Verif/Props/*.lean`  - the property theorems, named after the property (`C01_...`),
  each followed by `example`s meeting its hypotheses.

### General modelling conventions

* Bytes are `BitVec 8` (or `Nat < 256` where noted), bit strings (Python `'0'/'1'` strings) are `List Bool`,
  Python integers are `Int`/`Nat`, exceptions are values (`Except`), mutable objects are
  state passed explicitly, callbacks are data (what the callback does when called) and
  every observable effect (callback invocation, frame sent) is appended to a trace.
* Clock readings and deadlines are exact numbers (`Int` or `Rat`), not IEEE doubles.
  `time.monotonic()` values are inputs of the transition system, non-decreasing where
  a theorem says so.
* Threads and processes with their queues are modelled as interleavings of atomic steps: the SocketCAN reader and writer
  threads, the multicast, MAVLink and SLCAN I/O processes and the python-can writer. An operation on a queue, a variable or
  a socket is one step.
* Not modelled at all: the implementation of queues, processes, sockets and serial ports (they are abstract, with the
  behaviour described beside each model), GUI tools, logging, sqlite itself (a table is a list of rows), the operating
  system, Python's memory model, `repr`/`str` output except where stated.

### The node model (`Model/Scheduler.lean`, `Model/Node.lean`)

* `Scheduler` inherits Python's `sched.scheduler`. The heap is a list sorted by
  `(time, priority, sequence)`, the tie-breaking of Python 3.10 and later.
* A callback is a script: a list of API calls or `raise` statements, each either guarded by
  `try/except` or not, and a return value. The environment chooses the script from the whole
  current state and from what is being called, so theorems hold for every such callback.
  Callbacks cannot call `spin` re-entrantly. Nesting of callbacks is bounded by the parameter
  `lim` (Python's recursion limit).
* The clock is an integer. It advances by arbitrary non-negative amounts: before each reading in
  the scheduler's loop, while `receive` waits, and at explicit `tick` steps of the program and of
  callbacks.
* The driver is the list of frames it delivers per round and an arbitrary predicate saying which
  transmissions raise. Everything observable goes to `Node.trace`.

### The application layer (`Model/Collector.lean`, `Model/Monitor.lean`, `Model/Allocator.lean`)

* The clock advances by arbitrary non-negative amounts before every reading.
* `Monitor`: messages are reduced to the fields the monitor looks at; update callbacks are an arbitrary
  predicate saying which events they raise on; entries carry a serial number to tell re-created
  entries apart (the identity of the Python object).
* `Alloc`: the sqlite table is a list of rows with the node ID as key. `ORDER BY ts DESC LIMIT 1` picks an
  arbitrary row among those with the latest timestamp. Whether the monitor has discovered all nodes is an
  input of each message. `node.broadcast` may raise after sending. A first part longer than the 16 bytes
  the type allows is accepted (the real code would raise when copying it into the response).

* `Files`: POSIX only; Python's `posixpath` functions are modelled on character lists. `isfile` and the content
  of files are arbitrary functions of the path string. Being inside a directory is lexical (no symbolic links).
* `Serial`: deliveries, outcomes of broadcasts and clock readings come from a script. A broadcast either
  sends the whole message or raises (a raise in the middle of a multi-frame transfer is not distinguished).

### The drivers (`Model/Can.lean`, `Model/Slcan.lean`, `Model/LogFile.lean`, `Model/Packet.lean`)

* `Slcan`: the RX worker's loop body as a function of the bytes read, the time stamps, one clock reading and the
  commands queued. The time stamp estimator (which may raise; the actual one: `SlcanTime`) and UTF-8 validity are arbitrary functions. The limit on successive
  errors is not modelled. `int(s, 16)` on bytes includes Python's white space, sign, `0x` and underscore rules.
  Observed, not a claim: data shorter than the DLC says (an even number of digits) is accepted as a shorter frame.
* `LogFile`: the content of a file being read does not change. Here floats matter: they are rationals rounded to
  53 bits, ties to even (`Model/Double.lean`; no overflow, no subnormal numbers). A `ts_monotonic` of zero
  is replaced by the clock, as `CANFrame` does. Observed: the CRC does not cover the header; a log cut off inside the data
  of a frame cannot be opened at all, one cut off inside a header can.
* `Packet`: packets are delivered unchanged between sending and receiving, except where a theorem alters them.
  The byte order of SocketCAN's `=` formats is a parameter.
* `Writer`: the main thread and the writer thread of the SocketCAN driver as an interleaving of atomic queue operations; the time stamps
  written into frames are left out.
* `Mcast`: the loop of the multicast driver; what its sockets do is an input, `getsockname` does not fail, the reception queue is never full.
* `Mavcan`: the I/O process of the MAVLink driver as steps that take one item or wait for one message; what the connection and the clock do is an input; the MAVLink library and the packet loss message are not modelled, the reception queue is never full.
* `Display`: `to_json_compatible_object` and `to_yaml` on values with all their bits set by the API; `os.linesep` is a line feed; `'%.4f'` etc. round the exact value of the float half to even; `repr` and `decode` only for the characters that the code passes them. `Spec/Yaml` is a reader for the part of YAML 1.2 that is needed (core schema, block and flow collections, quoted scalars, comments on one line) and refuses everything else.
* `SlcanDriver`: the two workers and the application interleave in steps: one call of the API, one iteration of a worker's loop (taking from the queue and writing are separate steps). Queues between processes are FIFO; the TX queue is bounded, the RX queue is not. `SlcanInit`: the adapter takes lines apart, obeys C, O and S0–S8, answers or not, sends anything of its own accord, all arbitrary; every operation on the port may raise; bytes arrive with arbitrary delay. Left out: the operating system's output buffer, the lock of `RetrySerial` (one thread).
* `PythonCan`: the main and the writer thread interleave in steps (a call of the API; taking from the queue, `Bus.send`, `Bus.flush_tx_buffer`, putting into the feedback queue). The library python-can is environment: `send` and `flush_tx_buffer` succeed or raise, arbitrarily; `recv` waits as documented, in seconds; with a negative timeout, which is not documented, it raises or looks once (a parameter of the theorems). Left out: time stamps of the frames, `close` joining the thread.
* `IoHooks`: what a hook does when called is an arbitrary function of the whole state: it adds and removes hooks, lets frames pass the driver, raises, each inside or outside of a `try`. Python's recursion limit is a parameter; a loop over a list that the hooks keep extending is cut off with `diverge`.
* `QueueApi`: a round of the loop in `receive` has two steps (`get`, reading the clock); the clock may jump; a frame may be on the way in a `multiprocessing.Queue` and not be seen. `close` and other reasons for the death of the process are left out.
* `Closing`: registrations as numbered handles; that the node calls a registration only while it exists is C27, C34 and C92. What callbacks do is left out except the requests of the node monitor.
* `SocketReceive`: what arrives at the socket, when, and the readings of the clocks are inputs; the layout of the messages of the kernel is specified after linux/can.h. Error messages of the kernel are passed on only on request and left out. Without native SocketCAN support (`ctypes`), see `LegacySocket`. Time stamps are exact rationals; rounding is in `FloatClocks`.
* `FloatField`: `struct` packs floats as IEEE 754 prescribes (nearest, ties to even; OverflowError for singles out of range); `float(int)` likewise; comparisons of integers and floats are exact. The payload of NaNs is not modelled.
* `Attributes`: objects as trees, where Python shares them; nothing is assigned to a namespace after its publication. `DATATYPES` and `TYPENAMES` are in `Namespaces`.
* `MakeDriver`: device names are strings; the machine (libraries, platform, which ports send MAVLink) is a parameter; a driver is the call of its constructor.
* `SlcanProcess`: of an iteration of a worker only the outcome (returns, raises, has not returned) is modelled; the time it takes, and `close` killing the process after 10 s, are left out.
* `MonitorUse`: callbacks call `get` of the monitor only, catch `KeyError`, and do not change the list of callbacks; the recursion limit is a parameter that counts nested calls of `get`.
* `AllocMonitor`: the events that one operation of the monitor reports reach the server in their order, after the operation (the server's callback does not touch the monitor); the server's callback does not raise (the database works).
* `McastUrl`: calls of the sockets succeed if their arguments are sound; the address is looked up only as four decimal numbers.
* `Utf8`: the codec of CPython is modelled by the table of well-formed byte sequences of the Unicode standard; it is not part of the repository.
* `LogMonitor`: the DSDL definition of LogMessage is not part of the repository; its shape is taken from the standard, capacities and cast modes are arbitrary. Formatting and handing the record to `logging` do not fail.
* `FileWire`: the DSDL definitions of file.Read and file.GetInfo are not part of the repository; their shapes are taken from the standard, capacities and cast modes are arbitrary. Loss, duplication and reordering on the bus are not part of `C125_exchange`: it says what the frames handed to the driver bring about when they arrive.
* `AllocWire`: the DSDL definition of dynamic_node_id.Allocation is not part of the repository; its shape (uint7, bool, uint8[<=16]) is taken from the standard, cast modes are arbitrary. The device is not part of the code; its frames are given by the specification `deviceFrame`. Loss, duplication and other devices on the bus are not part of `C126_exchange` (several devices: C39).
* `MonitorWire`: the DSDL definitions of NodeStatus and GetNodeInfo are not part of the repository; their shape is taken from the standard, cast modes and the capacities of the dynamic arrays are arbitrary. The versions, which the monitor only formats, are left out. `_fill_node_status` computes with exact microseconds where the code has floats (`FloatClocks`). Update callbacks do not call the node.
* `SerialWire`: the DSDL definition of tunnel.Targetted is not part of the repository; its shape is taken from the standard, cast modes and the value of OPTION_LOCK_PORT are arbitrary.
* `DriverClose`: the capacity of the pipe of a queue is an arbitrary number of frames; that a process which has put items waits at its end until they are written is documented behaviour of Python's multiprocessing.Queue.
* `MsgidDecode`: one argument that is no option; `optparse` is left out.
* `TcpLink`: the socket is abstract, with any outcome of `recv` and `send`; the counters, what is printed and the making of the connection are left out; the log file is as if there always was one.
* `Names`: constants are integers; the attributes of the class itself, which begin with `_`, are left out; floating-point fields cannot be written, as in `Compound`.
* `SlcanTime`: times are exact numbers, as in `Timestamps`. `Slcan.REnv.update` may raise; `NoneLost` in C100 and C115 says that it does not, `C142_none_lost` when.
* `ConstExpr`: `eval` of Python is modelled for literals only; every other expression evaluates to an arbitrary value or fails.
* `Equality`: the objects in a list are numbers, texts, message objects or something that equals none of these; elements of arrays of messages are message objects.
* `Enumeration`: the example runs on a node that does what C24 and C26 say; callbacks, messages and the end of `spin` come in any order.
* `FirmwareUpdate`: as `Enumeration`; time passes in any steps; what the target does with the file is not modelled (the file server is, C44, C45, C125).
* `Options`: keyword arguments are None, numbers, strings or other objects that are true; arithmetic is exact; only names of SLCAN and MAVLink devices.
* `Extract`: time stamps of frames left out; `message.data` is a function of the payload; what was written before an exception is in the file.
* `Threads`: a step is one access to the dictionary of transfer IDs or one frame handed to the driver; hooks are left out.
* `Tunnel`: the encoding of `Targetted` is a parameter; `sendall` writes all or nothing; the periodic status is a list of broadcasts of the other thread.
* `FirmwareFile`: `zlib.crc32` is any function of the path.
* `GnssTools`: `handle_fix2` of examples/fix2_gap.py and `handle_RTCM` of examples/rtcm_dump.py. The RTCM decoder, which is not part of the project, is any machine that reads bytes. The formatting of what is printed is left out.
* `Actuators`: the periodic functions of examples/servo_control.py and examples/esc_control.py, and the setter of integer fields for floats. The sine is any number from -1 to 1.
* `LegacySocket`: the class CANSocket that socketcan.py uses if Python's socket module does not know CAN. What `read` and `write` of the C library do is an input; opening the socket is not modelled.
* `FloatStamps`, `FloatTimers`: the time stamp estimator, periodic timers and the deadlines of `spin` once more, with every operation on floats rounded. Of the decimal module only the precision of 28 digits is assumed. A timer is looked at alone; that the scheduler takes the events in order is C33.
* `FloatClocks`: the uptime and `_convert_real_to_monotonic` once more, with every operation on floats rounded.
* `Hobbywing`: the commands of examples/hobbywing_esc.py. The definitions of the messages are parameters. Replies, and waiting for nodes, are left out.
* `RequestThreads`: `Node.request` called by any number of threads while another runs `spin`, in steps between which threads can be interrupted (shared accesses). Timers may run at any time; callbacks raise nothing and do not use the node; what the driver does is one step.
* `Simulators`: the functions that examples/sim_servo.py, sim_rangefinder.py and sim_battery.py call periodically. The sine is any number from -1 to 1.
* `InfoLoop`: the loop of examples/get_nodeinfo.py with the timers of its requests. Times are integers; exceptions of the driver and other messages are left out.
* `MonitorThreads`: `get`, `_on_node_status`, `_on_info_response` and `_remove_stale` of the node monitor, interleaved between any two accesses to shared data. Of an entry only its time is modelled; its update is one step; handlers of events raise nothing.
* `FloatTimeouts`: the comparisons of timeouts in the node monitor, message collector, transfer manager, allocation server and `spin`, with rounding.
* `FrameText`: `CANFrame.__str__` without its time stamps.
* `Bridge`: the drivers are abstract, `receive` and `send_frame` are atomic steps with any outcome; the thread that prints rates is left out.
* `Reentrant`: what callbacks do is a finite tree of frames received, requests made and timeouts; reassembly is an arbitrary machine, handlers do not change and raise nothing themselves; hooks, other timers are left out.
* `DeepCopy`: integers, nested structures and arrays of structures; the rest of Python's `copy` module is as described in its comment.
* `LiveIter`: CPython's dictionary (3.8 and later): an array of slots, holes after deletions, which may be closed by an insertion (when, is left open), and an iterator with position, size and count. That is how Python behaves, not code of the repository; it is part of what is trusted.
* `RetrySerial`: the adapter obeys and answers at once and the bus is silent; a line is written completely or not at all; a thread acts in the steps named in `Phase`; unplugging closes the channel of the adapter.
* `HandlerClass`: application code called by handlers does not add or remove handlers (`Node` has that, for functions); `inspect.isclass` and attribute lookup are Python's.
* `SlcanOpen`: the queues are not full; that `serial.Serial` has no attribute `select_read` is a fact about PySerial.
* `Timestamps`: times are exact rationals (rounding is in `FloatStamps`).

### The DSDL front end (`Model/Text.lean`, `Model/Parser.lean`, `Model/Namespaces.lean`, `Model/Signature.lean`)

* Text is a list of characters. White space and line boundaries are those of Python's `str.split` and `str.splitlines`
  within ASCII plus the Unicode ones listed in `Model/Text.lean`; digits are ASCII only; `$` matches at the very end only.
* Every failure is a `DsdlException` (other exceptions are wrapped into one by the code). `eval` of constant expressions is
  an arbitrary function. The depth of nested types is bounded by a parameter (Python's recursion limit).
* Left out: the overflow of the float division in `bitlen_to_bytelen`, which makes the log message fail for definitions with
  astronomically large arrays; and the log messages themselves.
* `Namespaces`: the parser is an arbitrary function from file names to results; the directory walk is the list of files.
* Observed, not claims: `void3[4]` is accepted without a name; `bool1`..`bool99` are accepted as `bool`; void fields may be named;
  `saturated void8` ignores the cast mode; a data type ID of 0 is accepted but never registered (C67).

### Half-precision floats (`Model/Float16.lean`)

* A Python float is a rational with a sign, an infinity, or a NaN (with its sign; the payload is not modelled). `struct.pack('=f')` rounds to the
  nearest binary32 number, ties to even, and raises `OverflowError` for numbers that are too large. Observed, outside the claim: a double that
  is not a binary32 number is rounded twice and may miss the nearest half (`C59_double_rounding`).

### Introspection (`Model/Introspect.lean`)

* `value_to_constant_name` for numeric fields; `repr` of numbers is an arbitrary function. Observed: a float of 1 or more without a name raises
  `TypeError` (`C60_float_raises`).

## What is modelled and how each property is proved

| Property | Model | Proof |
|---|---|---|
| C01 | `bits_from_bytes`, `bytes_from_bits` on `List Bool`/`List Byte` | induction over the byte list / chunks of 8 |
| C02 | `be_from_le_bits`, `le_from_be_bits` | strong induction on length in steps of 8 |
| C03, C04 | `cast`, `PrimitiveValue.value` setter/getter, `type_limits` | arithmetic; binary representation lemmas. C04 is false of the code for saturated widths 54..64 (float division): partial theorem for exact limits + proved counterexample |
| C05 | `PrimitiveValue._pack` via `le_from_be_bits` | induction over the bytes |
| C06-C09 | deep embedding of DSDL types (`Ty`) and values (`Val`); `pack`, `unpack`, min/max bit length | structural induction over types and values. C09 is false: counterexample + partial theorem (static arrays; decoding of encoder output) |
| C10 | `ArrayValue` operations as state transitions | refinement to plain lists by induction over the operation list |
| C11 | `CompoundValue` union access | invariant by induction over access list |
| C12 | `Transfer.message_id` getter/setter on `Nat` with shifts and masks | bit-vector/arith lemmas over all headers and all 2^29 identifiers |
| C13, C14, C16 | `Transfer.to_frames`, `from_frames` | induction over the chunking recursion |
| C15 | same + `datalength_roundup` | arithmetic on total length mod 63; false when total length is a multiple of 63: counterexample + exact characterisation |
| C17, C19 | validation loop of `from_frames` | equivalence with an independent specification |
| C18 | `crc16_from_bytes` | linearity over xor, polynomial division argument by induction |
| C20-C22 | `TransferManager` | projection/simulation by induction over frame history. C22 is false (dict mutated while iterating): counterexample + partial |
| C23-C27, C29-C31 | `Node` as transition system | invariants by induction over histories. C31 false for priority 0: counterexample + partial |
| C28, C62 | same | the loops over handlers/hooks equal a plain loop over the list, if the callbacks leave the list alone |
| C32 | same | induction over the reads. False for `spin(timeout)`: counterexample + partial |
| C63-C65 | `HandlerDispatcher`, `spin`, status publisher | case analysis; induction over the rounds; invariant by induction over histories |
| C33-C35 | `Scheduler` over Python's `sched` | invariants by induction over histories |
| C36-C38 | `NodeMonitor` | invariants by induction over histories. C38 false when a callback raises: counterexample + partial |
| C39-C42 | `CentralizedServer` + `AllocationTable` | invariants by induction over histories. C40, C41 false: counterexamples + partial |
| C68 | `NodeMonitor` | the entry is the fold of what was heard, by induction over histories; attempts used up were made |
| C69 | `AllocationTable` | the rows are the last calls, by induction over the calls |
| C43 | `MessageCollector` | refinement to "latest message per key" |
| C44, C66 | `FileServer._read`, client loop, hit counters | induction over file length; over histories |
| C45 | `_try_resolve_relative_path` over an abstract set of existing paths | false: counterexamples + the exact set of safe requests |
| C46, C70 | `DroneCANSerial` | induction over chunks and histories; invariant relating the state to a ghost log of broadcasts and clock readings |
| C47, C48 | SLCAN line codec and line splitter | character-level round trip; chunking invariance by induction. C47 false for standard frames, C48 around command-line mode: counterexamples + partial |
| C73, C74 | `_process_slcan_line` on any line; the command queue of `RxWorker.run` | case analysis; invariant by induction over the reads, over a ghost log of the lines taken for command output |
| C49, C50 | log file codec | invariant by induction over the calls of `receive`, for every cut; rounding error bound. C49 false for the last microsecond of time stamps, C50 false: counterexamples + partial |
| C71, C72 | log reader on any content; pacing | invariant by induction over the calls; error bound of the float operations |
| C51, C52 | packet codecs, DLC tables | round trip; finite tables over the whole domain |
| C53, C54 | `SourceTimeResolver`, `TimestampEstimator` over `Rat` | invariants by induction over samples. C54 false with a fixed delay (added, should be subtracted): counterexample + partial |
| C55 | `Signature` | induction; CRC linearity |
| C56, C67 | `ensure_unique_dtid` fold, `load_dsdl` tables | induction over the list. C67 false for ID 0: counterexample + partial |
| C57, C58 | `_tokenize`, `_parse_array_type` on `List Char` | induction over text |
| C75-C77, C79 | `Parser.parse` over an arbitrary file system | invariants by induction over the lines and the depth of nesting. C76 false: counterexamples + partial |
| C78 | normalised text, parsed again | the printed lines are parsed back word by word; induction over the fields |
| C80, C83, C84 | file names and search directories | text lemmas. C83, C84 false: counterexamples + partial |
| C81, C82 | references between files | monotonicity in the depth of nesting; induction over chains of references |
| C85 | grammar of the lines as inductive relations | both directions of every parser function; induction over the lines |
| C86, C87 | signatures | refinement of the bit loop to a polynomial step; injectivity of the last mixing. C87 false: counterexample + partial |
| C59 | `f16_from_f32`, `f32_from_f16` on bit patterns | arithmetic: the encoder's result is between the middles of neighbouring halves, for every binary32 number |
| C60 | `value_to_constant_name` | case analysis, bit lemmas |
| C61 | heap model of `CompoundValue` assignment | false (shallow copy): counterexample + partial |
| C88 | writer thread and queues of `SocketCAN` | invariant by induction over interleavings |
| C89, C90 | loop of the multicast driver | invariant by induction over histories. C89 false: counterexamples + partial |
| C91, C92 | transfers from node to node; handlers called in a history | invariant over histories (reassembly state explained by frames read), composition of C13, C14, C21, C26, C28, C62 |
| C93 | requests and responses, from node to node | invariant on the dictionary of outstanding requests over all histories, composed with C63 and C91. False in full: counterexample + partial |
| C94, C95, C96, C97 | I/O process of the MAVLink driver | one invariant over all histories relating every event to the history before it. C96, C97 false: counterexamples + partial |
| C98, C99 | JSON and YAML representations | structural induction over types and values; for YAML against a reader of the lines of the text, written independently. Both false: counterexamples + partial, with exact conditions |
| C100, C101 | the whole SLCAN driver: constructor, API, both workers, receive with callbacks that call the driver again | invariant over all interleavings, with ghost logs of what was reported, asked and written. C100 (clock set back) and C101 false: counterexamples + partial |
| C102, C103 | `_init_adapter` and `RetrySerial` against any adapter | symbolic execution of the script by a count of the answers not yet read; induction over attempts and retries. Both false: counterexamples + partial |
| C104, C105 | the python-can driver: both threads, both queues, `Bus` as environment | invariant over all interleavings with a list of the frames dealt with and the number of copies of each. Both false: counterexamples + partial |
| C106 | the I/O hooks of a driver: registration, removal, the loop over the live list, hooks that act on the driver | the events of each frame as an inductive relation between states, by induction on the recursion depth and on the loop. False: counterexample + partial |
| C107 | `send_frame` and `receive` of the MAVLink and multicast drivers, with both queues and their limits | invariant over all interleavings of application, process and clock. False: counterexample + partial |
| C108 | what the application classes register with the node, and `close` | invariant on the handles of all objects. False: counterexample + partial |
| C109 | `SocketCAN.receive` and the messages of the kernel | invariant over histories of both threads; parsing of `can_frame` and `canfd_frame`. False: counterexample + partial |
| C110 | time stamps of received frames | invariant on the reference of the estimator. False: counterexample + partial |
| C111 | float fields: `cast`, setter and getter | rounding to a binary format proved nearest for all rational numbers, by sections of equal spacing. False: counterexample + partial |
| C112 | copying values of float fields | packing inverts unpacking for all patterns. False: counterexample + partial |
| C113 | the namespaces built by `load_dsdl` and their publication in the module | invariant of trees of namespaces, induction over paths and calls. False: counterexample + partial |
| C114 | the direction of the transfers that service handlers are called with | from C92. False: counterexample + partial |
| C115 | from node to node through each driver | composition of C91 with C47, C48, C51, C89, C94, C95, C105, C109. SLCAN with CAN FD: counterexample + partial |
| C116 | make_driver | classification of names; case analysis. Missing `bitrate` with python-can: counterexample + partial |
| C117 | life of the SLCAN I/O process | invariant over all interleavings; bound on the iterations left. Lost port, traffic after the RX worker's end: counterexample + partial |
| C118 | replay of any log to its end | exact characterisation of the logs that open; invariant over all calls; measure for the end; monotone rounding for the progress |
| C119 | node monitor used by its own callbacks | induction over the histories, the callbacks and the snapshot of the sweep; look-ups at OFFLINE: counterexamples + partial |
| C120 | node IDs in use are not handed out | composition of the models of the monitor and the server, invariant over the histories of both; conflicts and unreadable transfers: counterexamples + partial |
| C121 | closing the SocketCAN and python-can drivers | invariants over the interleavings of the two threads; waiting frames are lost: counterexample + partial |
| C122 | the URL of the multicast driver | model of connect and of the reading of addresses, induction over strings and histories; other names are not refused: counterexample + partial |
| C123 | text fields read back | model of Python's UTF-8 codec, proved equal to RFC 3629 by arithmetic for all code points; induction over strings; composition with C06; int8 and texts too long: counterexamples + partial |
| C124 | log messages are logged | composition of C123 and C06 with the handler; unused levels and invalid UTF-8: counterexamples + partial |
| C125 | files can be read over the bus | composition of the file server (C44), text fields (C123), the codec (C06) and requests between nodes (C91, C93); induction over the reads; invalid UTF-8: counterexample + partial |
| C126 | a device gets its node ID over the bus | composition of the allocator (C39), the table (C40), the codec (C06), framing (C11) and dispatch; lowest ID of the range: counterexample + partial |
| C127 | nodes find each other over the bus | composition of the monitor (C36, C37), the codec (C06), framing (C11), dispatch and remote procedure calls (C93) |
| C128 | the serial tunnel works over the bus | composition of the port (C46, C70), the codec (C06) and dispatch (C115); devices are mixed up: counterexample + partial |
| C129 | closing the drivers that have an I/O process | transition systems with invariants and progress arguments; deadlocks, queue.Full, and no effect at all: counterexamples + partial |
| C130 | types loaded from definition files work over the bus | normal form of the definition decides layout and signature; tables; end-to-end theorem |
| C131 | nodes with different definitions of a type | CRC is injective in its initial value; counterexamples + partial |
| C132 | opening an SLCAN device | transition system with invariants and a rank argument; frames lost at the start, no reception without auto_reopen: counterexamples + partial |
| C133 | handlers that are classes | big-step specification, induction over registrations and transfers; sniffed responses: counterexample + partial |
| C134 | two threads share the serial port | transition system of two threads, invariants, potential function; interference: counterexamples + partial |
| C135 | going through the nodes while they come and go | model of CPython's dictionary iterator, invariants over interleavings; counterexamples + partial |
| C136 | deep copies are independent | heap model of `__deepcopy__` with memo, bisimulation, frame property |
| C137 | spin called from callbacks | scripts as trees, relations closed under nesting; order, repeated responses: counterexamples + partial |
| C138 | The bridge tool forwards once, in order, to all other ports | invariant over interleavings; exceptions: counterexample + partial |
| C140 | The identifier tool tells the truth | digit grammar + identifier layout; bare decimal-looking numbers and anonymous messages: counterexamples + partial |
| C139 | The TCP tool loses nothing | invariant on the model of the tunnelled serial port; partial sends: counterexample + partial |
| C141 | Keyword arguments reach the message | lookup of names over the model of objects; undeclared names: counterexample + partial |
| C142 | No SLCAN frame is lost for its time stamp | composition of the estimators (C54) with the worker (C48); clock set back: counterexample + partial |
| C143 | A DSDL constant has the value that is written | grammar of literals = readers; exact rounding; fractions in integer types: counterexample + partial |
| C144 | Arrays are equal just if they say the same | exact values of numbers; injectivity of encodings; NaN, zeros, texts, copies: counterexamples + partial |
| C145 | Each ESC gets an index of its own | invariant of the conversation; round by round; other nodes: counterexample + partial |
| C146 | A firmware update is requested until it begins and awaited until it is over | invariant over the history of messages; independence of other nodes; time-outs: counterexample + partial |
| C147 | The options of make_node take effect | how Python binds arguments; lookups in filtered and updated dictionaries; zeros and names: counterexamples + partial |
| C148 | Extracting the data of a message type from a log | the program as a fold over the frames of the log, with C21 and C118; unknown transfers: counterexample + partial |
| C149 | Threads that broadcast through one node | small steps of threads, any schedule; invariant on the frames of each thread, with C12-C14 and C21; same type in two threads: counterexample + partial |
| C150 | The MAVLink tunnel example | fold over events, with C149 for the two threads; second client: counterexample + partial |
| C151 | The firmware is served under the name that the device is told | base64 against RFC 4648 as a number in base 64; invariant of the server, with C125 |
| C152 | A transfer that was logged arrives when the log is replayed | what is written is a log in the sense of C118, then C118 and C115 |
| C153 | The gaps between GNSS fixes are shown | invariant: the variables say the last time of each node, and averages are positive |
| C154 | The RTCM data is dumped and its statistics are right | invariant between bytes that relates the variables to the packets since the last report; one report at a time |
| C155 | A transfer crosses the bridge | order of C138, then the frames of the transfer are found in the traffic of the other bus and C115 applies |
| C156 | The servo example commands the actuator within its limits | error bounds for the floats; numbers of half precision are multiples of 2^-24, so that a small error is rounded away |
| C157 | The throttle of the ESC example | rounding is monotone |
| C158 | Floats in integer fields | cases; C03 and C04 for the bounds |
| C159 | SocketCAN where Python's socket module does not know CAN | C51 for the layout; 16 bytes are all of a classic frame |
| C160 | Time stamps with the rounding of floats | error bounds for every operation, an invariant for the reference that stays the same; rounding is monotone |
| C161 | Timers with the rounding of floats | invariant by induction over the readings of the clock; error bounds |
| C162 | The uptime that a node reports | error bounds; rounding is monotone |
| C163 | Monotonic time stamps with the rounding of floats | induction over the conversions; the reference is one of the readings |
| C164 | The commands of the Hobbywing example | case analysis of the commands; induction over the fields; C03 and C04 for a field |
| C165 | Requests made by other threads than the one that spins | invariants of all schedules of a transition system; counterexamples by evaluation |
| C166 | What the simulated devices tell | rounding bounds; C111 for a field of half precision; induction over the cells |
| C167 | Asking a node for its information again and again | invariant of a transition system; counterexamples by evaluation |
| C168 | A node monitor that is asked by other threads | invariants of a transition system; counterexamples by evaluation |
| C169 | Timeouts with the rounding of floats | monotonicity and error bounds of rounding; counterexamples by evaluation |
| C170 | The text of a frame tells which frame it is | induction over the data; lengths of columns; counterexample by evaluation |

Every property found false of the code is kept in full, with the refuting theorem
(`..._counterexample`) and the strongest true statement found (`..._partial`).
