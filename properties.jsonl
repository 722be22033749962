{"id": "C01", "title": "Byte/bit-string conversion is lossless", "statement": "Converting any byte string to a bit string and back returns the same bytes; converting any bit string to bytes and back returns the same bits followed only by the zero bits needed to reach a byte boundary.", "quantifier": "every byte string and every bit string of any length", "why_tests_cant": "the domain of byte and bit strings is infinite and the padding rule depends on length modulo 8", "anchors": ["dronecan/transport.py: bits_from_bytes, bytes_from_bits"]}
{"id": "C02", "title": "Little-endian/big-endian bit reordering is invertible for every width", "statement": "For every width (multiple of 8 or not) reordering a field from big-endian to wire order and back (or the other way round) is the identity, preserves length, looks only at the requested number of bits, and is refused when fewer bits are available.", "quantifier": "every bit string and every requested width", "why_tests_cant": "partial last bytes interact with width modulo 8; all widths and contents must be covered", "anchors": ["dronecan/transport.py: be_from_le_bits, le_from_be_bits"]}
{"id": "C03", "title": "Unsigned and boolean fields read back the saturated or truncated value assigned", "statement": "Assigning any integer x to an unsigned field of width n and reading it back yields min(max(x,0),2^n-1) in saturated mode and x mod 2^n in truncated mode; a bool field reads back whether x was non-zero.", "quantifier": "every integer (any magnitude and sign), every width 1..64 (the proof covers every width), both cast modes", "why_tests_cant": "unbounded integers and every width", "anchors": ["dronecan/transport.py: cast, PrimitiveValue.value", "dronecan/dsdl/type_limits.py: get_unsigned_integer_range"]}
{"id": "C04", "title": "Signed fields read back the saturated or truncated value assigned", "statement": "Assigning any integer x to a signed field of width n and reading it back yields x clamped to [-2^(n-1), 2^(n-1)-1] in saturated mode and the two's-complement wrap of x in truncated mode.", "quantifier": "every integer, every width 2..64, both cast modes", "why_tests_cant": "unbounded integers and every width; the limits go through floating-point division in the code", "anchors": ["dronecan/transport.py: cast, PrimitiveValue.value", "dronecan/dsdl/type_limits.py: get_signed_integer_range"]}
{"id": "C05", "title": "Integer fields are laid out little-endian, most significant bit of each byte first", "statement": "The wire image of an unsigned field of 8k bits holding v is the byte sequence v mod 256, (v div 256) mod 256, ...; and for any width the wire bits hold v in little-endian byte order with a left-over high part of width mod 8 bits last.", "quantifier": "every width and every value", "why_tests_cant": "all widths x all values", "anchors": ["dronecan/transport.py: le_from_be_bits, PrimitiveValue._pack"]}
{"id": "C06", "title": "Serialize/deserialize round trip for every data type", "statement": "For every DSDL data type (any nesting of primitives, voids, static and dynamic arrays, structures and unions) and every value of it, decoding the encoded bits returns the same value, both with tail-array optimisation (any zero padding shorter than one byte appended) and without it (any trailing bits appended), leaving exactly the appended bits.", "quantifier": "every type, every value of the type, every padding", "why_tests_cant": "types nest without bound and arrays have unbounded lengths; tests use a handful of message types", "anchors": ["dronecan/transport.py: PrimitiveValue, VoidValue, ArrayValue._pack/_unpack, CompoundValue._pack/_unpack, Transfer.__init__, Transfer.from_frames"]}
{"id": "C07", "title": "Encoded size stays within the declared bounds", "statement": "The number of bits produced by encoding any value of a type is at most the type's reported maximum bit length and at least its reported minimum bit length.", "quantifier": "every type and every value, with and without tail-array optimisation", "why_tests_cant": "unbounded nesting; the bounds are computed by different code from the encoder", "anchors": ["dronecan/dsdl/parser.py: get_max_bitlen, get_min_bitlen, compute_max_bitlen, compute_min_bitlen", "dronecan/transport.py: _pack, array_len_bits_from_max_size, union_tag_bits_from_num_elements"]}
{"id": "C08", "title": "Decoding arbitrary bytes always terminates and consumes from the front only", "statement": "Decoding any bit string as any type either raises or returns a value together with a suffix of the input; the unbounded tail-array loop makes progress on every iteration and so always ends.", "quantifier": "every type and every (arbitrary, hostile) input", "why_tests_cant": "termination for every hostile input cannot be observed by testing", "anchors": ["dronecan/transport.py: ArrayValue._unpack, CompoundValue._unpack"]}
{"id": "C09", "title": "Decoded arrays respect the declared maximum size", "statement": "After decoding received bytes, every dynamic array in the resulting message has at most max_size elements.", "quantifier": "every type and every received byte string", "why_tests_cant": "hostile inputs range over all byte strings", "anchors": ["dronecan/transport.py: ArrayValue._unpack"]}
{"id": "C10", "title": "Array container operations never exceed capacity and keep list semantics", "statement": "Through any sequence of append/insert/assign/delete/clear on an array field, the length never exceeds max_size, failed operations leave the contents unchanged, and the contents equal those of a plain list subjected to the successful operations.", "quantifier": "every operation sequence of any length", "why_tests_cant": "unbounded histories of container operations", "anchors": ["dronecan/transport.py: ArrayValue.insert, __setitem__, __delitem__, clear"]}
{"id": "C11", "title": "Union values have a single active field", "statement": "Through any sequence of reads and writes of a union's fields, once a field is active no other field can be read or written (AttributeError) until the union is switched explicitly or overwritten by decoding; the encoding is that of the active field, or of the first field if none was chosen.", "quantifier": "every union type and every access history", "why_tests_cant": "unbounded histories; reading has a side effect", "anchors": ["dronecan/transport.py: CompoundValue.__getattr__, __setattr__, _pack, _unpack, switch_union_field"]}
{"id": "C12", "title": "CAN identifiers encode transfer headers without loss or overlap", "statement": "For every valid header (priority, type ID, source, destination, service flags, anonymous discriminator), decoding the encoded 29-bit identifier returns the same header; every 29-bit identifier re-encodes to itself after decoding, unless it is a service frame addressed to node 0, which is refused.", "quantifier": "every valid header and every 29-bit identifier", "why_tests_cant": "2^29 identifiers and all headers; tests sample a few", "anchors": ["dronecan/transport.py: Transfer.message_id (getter and setter)"]}
{"id": "C13", "title": "Every outgoing transfer is a well-formed frame sequence", "statement": "For every payload, the frames produced all carry the same CAN ID and transfer ID, exactly the first has start-of-transfer, exactly the last has end-of-transfer, the toggle bit starts at 0 and alternates, no frame exceeds 8 (CAN FD: 64) bytes, every frame but the last is full, there is at least one frame, and the payload bytes of the frames concatenate to the payload, preceded by the little-endian CRC iff more than one frame is needed.", "quantifier": "every payload length and content, every transfer ID, classic and FD", "why_tests_cant": "unbounded payload length", "anchors": ["dronecan/transport.py: Transfer.to_frames"]}
{"id": "C14", "title": "Transfer framing round trip", "statement": "Frames generated from any transfer are accepted by the receiver and give back the same payload bytes (CAN FD: followed only by zero padding), transfer ID and header; end to end, a message object sent over classic CAN decodes to the same message object.", "quantifier": "every payload, transfer ID, header and data type", "why_tests_cant": "unbounded payloads; all lengths modulo the frame size", "anchors": ["dronecan/transport.py: Transfer.to_frames, Transfer.from_frames"]}
{"id": "C15", "title": "CAN FD frames have transmittable lengths", "statement": "Every CAN FD frame produced has a length that a CAN FD data length code can express (0..8,12,16,20,24,32,48,64).", "quantifier": "every payload length", "why_tests_cant": "lengths are unbounded and the failure occurs only for particular residues", "anchors": ["dronecan/transport.py: Transfer.to_frames, datalength_roundup"]}
{"id": "C16", "title": "Generating frames is repeatable", "statement": "Calling to_frames() any number of times on the same transfer yields the same frames every time, even though CAN FD padding is added to the stored payload in place.", "quantifier": "every payload, classic and FD, any number of calls", "why_tests_cant": "in-place mutation; every payload length", "anchors": ["dronecan/transport.py: Transfer.to_frames"]}
{"id": "C17", "title": "Frame validation accepts exactly the well-formed sequences", "statement": "A received frame list passes tail-byte validation iff all frames share one transfer ID, start-of-transfer is set exactly on the first, end-of-transfer exactly on the last, and toggles alternate from 0; otherwise a TransferError is raised.", "quantifier": "every non-empty list of non-empty frames", "why_tests_cant": "unbounded frame lists with arbitrary tail bytes", "anchors": ["dronecan/transport.py: Transfer.from_frames"]}
{"id": "C18", "title": "Transfer corruption is detected", "statement": "The 16-bit transfer CRC changes whenever the payload is altered by any error burst of up to 16 bits, or by any odd number of bit flips, so a multi-frame transfer so altered is rejected.", "quantifier": "every payload, every initial CRC, every burst position and pattern, every odd-weight error pattern", "why_tests_cant": "2^n error patterns for every n", "anchors": ["dronecan/dsdl/common.py: crc16_from_bytes", "dronecan/transport.py: Transfer.from_frames"]}
{"id": "C19", "title": "Losing or repeating frames inside a transfer is detected", "statement": "If an odd number of consecutive frames strictly inside a valid multi-frame sequence is lost, or a frame is delivered twice in a row, the resulting sequence is rejected by validation.", "quantifier": "every valid frame sequence and every position", "why_tests_cant": "unbounded sequences and positions", "anchors": ["dronecan/transport.py: Transfer.from_frames"]}
{"id": "C20", "title": "Interleaved transfers do not interfere", "statement": "For any interleaving of frames, the transfers reassembled for one (CAN ID, transfer ID) are exactly those that would have been reassembled had only the frames of that (CAN ID, transfer ID) been received.", "quantifier": "every frame sequence (any interleaving, length, content)", "why_tests_cant": "exponentially many interleavings", "anchors": ["dronecan/transport.py: TransferManager.receive_frame, Frame.transfer_key"]}
{"id": "C21", "title": "Reassembled transfers are exactly the frames since the last start", "statement": "Whenever the reassembler returns frames for a key they are, in order, all frames of that key received since (and including) the most recent start-of-transfer frame, ending with the frame just received, which is the only one with end-of-transfer; nothing of a finished transfer is kept; frames without a preceding start and empty frames are ignored.", "quantifier": "every frame history", "why_tests_cant": "unbounded histories", "anchors": ["dronecan/transport.py: TransferManager.receive_frame"]}
{"id": "C22", "title": "Stale partial transfers can be purged", "statement": "remove_inactive_transfers(timeout) removes exactly the partial transfers whose last frame is older than the timeout, and returns normally.", "quantifier": "every reassembler state, clock value and timeout", "why_tests_cant": "every state", "anchors": ["dronecan/transport.py: TransferManager.remove_inactive_transfers"]}
{"id": "C23", "title": "Transfer IDs count modulo 32 per destination and type", "statement": "The k-th (0-based) request to a given (service type, destination) and the k-th broadcast of a given message type made by a node carry transfer ID k mod 32, regardless of any other traffic in between.", "quantifier": "every history of sends", "why_tests_cant": "unbounded histories, interleavings of keys", "anchors": ["dronecan/node.py: Node._next_transfer_id, request, broadcast"]}
{"id": "C24", "title": "Every service request callback fires exactly once", "statement": "For every history of requests, responses (including late, duplicated and forged ones) and timer polls, each accepted request's callback is invoked at most once, and once the scheduler has been polled at or after the request deadline it has been invoked exactly once - with the response or with None. Callbacks may themselves issue further requests, but are assumed not to raise.", "quantifier": "every interleaving of requests, frames and polls, every callback behaviour that does not raise", "why_tests_cant": "unbounded interleavings including transfer ID wrap-around collisions", "anchors": ["dronecan/node.py: Node.request, Node._recv_frame, Scheduler.defer"]}
{"id": "C25", "title": "Responses reach only the request they answer", "statement": "A response event passed to a request callback came from the node the request was sent to, to the local node, for the same service type and transfer ID, and is a response; and a response received while its request is outstanding under its key is delivered to it (unless an earlier outstanding request also matches).", "quantifier": "every history", "why_tests_cant": "unbounded histories", "anchors": ["dronecan/node.py: Node._recv_frame", "dronecan/transport.py: Transfer.is_response_to"]}
{"id": "C26", "title": "Incoming transfers are dispatched to the right consumer", "statement": "A message transfer is offered to every registered handler of its type; a service request is offered to handlers only if addressed to this node; a response addressed to this node never reaches service handlers; a response addressed to another node reaches handlers only if a response-sniffing handler for that service is registered; standard-ID (11 bit) frames have no effect.", "quantifier": "every handler table, every transfer, every node ID", "why_tests_cant": "all combinations of tables and transfers", "anchors": ["dronecan/node.py: Node._recv_frame, HandlerDispatcher.call_handlers, is_response_sniffing_enabled"]}
{"id": "C27", "title": "Handler registration handles remove exactly their own handler", "statement": "After any sequence of registrations and removals, the registered handlers are those added and not yet removed, in registration order; removing twice raises ValueError (try_remove returns False) and changes nothing; remove_handlers(T) removes exactly the handlers of T.", "quantifier": "every history of add/remove/remove_handlers", "why_tests_cant": "unbounded histories, duplicate types", "anchors": ["dronecan/node.py: HandlerDispatcher.add_handler, remove_handlers, HandleRemover"]}
{"id": "C28", "title": "A failing handler does not starve the others", "statement": "With exception catching enabled, dispatching a transfer invokes every matching handler exactly once in registration order whatever subset of them raises; with it disabled, the handlers up to and including the first raising one are invoked and its exception propagates. (Handlers that do not change the handler table.)", "quantifier": "every handler list, every set of raising handlers", "why_tests_cant": "exponentially many subsets", "anchors": ["dronecan/node.py: HandlerDispatcher.call_handlers"]}
{"id": "C29", "title": "An anonymous node never transmits", "statement": "A node with no node ID (None or 0) never hands a frame to its driver: request, respond and broadcast raise before sending and before consuming a transfer ID, and the periodic status publisher stays silent.", "quantifier": "every history of API calls, received frames and polls on an anonymous node", "why_tests_cant": "unbounded histories", "anchors": ["dronecan/node.py: Node._throw_if_anonymous, _send_node_status, request, respond, broadcast"]}
{"id": "C30", "title": "The node ID can be assigned at most once and only to a valid value", "statement": "Through any sequence of node_id assignments starting from an anonymous node, only values 1..127 are accepted and after the first accepted assignment the ID never changes.", "quantifier": "every sequence of attempted assignments", "why_tests_cant": "unbounded sequences, all integers", "anchors": ["dronecan/node.py: Node.node_id setter, is_anonymous"]}
{"id": "C31", "title": "The requested transfer priority is used on the wire", "statement": "broadcast/request with an explicit priority 0..31 put that priority into the CAN ID.", "quantifier": "every priority 0..31 and header", "why_tests_cant": "stated for all headers", "anchors": ["dronecan/node.py: Node.request, Node.broadcast", "dronecan/transport.py: Transfer.message_id"]}
{"id": "C32", "title": "spin() processes and counts received frames", "statement": "spin(0) hands every queued frame to the receive path in order, stops at the first empty read, and returns the number of frames received; spin(timeout) returns the number of frames received while it ran.", "quantifier": "every queue of frames", "why_tests_cant": "unbounded queues", "anchors": ["dronecan/node.py: Node.spin"]}
{"id": "C33", "title": "Timers never fire early and fire in deadline order", "statement": "For every history of defer/periodic/cancel/poll, an event runs only when the clock has reached its deadline, the event chosen next is always the earliest by (deadline, periodic-before-one-shot, registration order), and after a poll completes at time t no pending event has a deadline at or before t.", "quantifier": "every history of timer operations and clock values", "why_tests_cant": "unbounded histories", "anchors": ["dronecan/node.py: Scheduler.defer, periodic, _poll_scheduler_and_get_next_deadline"]}
{"id": "C34", "title": "One-shot timers run at most once and never after cancellation", "statement": "For every history, a one-shot callback runs at most once; after remove()/try_remove() succeeded it never runs; try_remove() returns True iff the event was still pending; a periodic timer removed from inside its own callback never runs again.", "quantifier": "every history of timer operations", "why_tests_cant": "unbounded histories", "anchors": ["dronecan/node.py: Scheduler._make_sched_handle, defer, periodic"]}
{"id": "C35", "title": "Periodic timers have zero phase drift", "statement": "The k-th run of a periodic timer with period p started at time t0 is scheduled exactly for t0 + k*p, however late each run actually happens.", "quantifier": "every k, every lateness pattern", "why_tests_cant": "unbounded k", "anchors": ["dronecan/node.py: Scheduler.periodic"]}
{"id": "C36", "title": "The node monitor lists only live nodes and times them out", "statement": "After the monitor's periodic sweep at time t every listed entry was heard from within the offline timeout before t, entries heard from recently are never removed by it, and get(id) never returns an entry older than the timeout.", "quantifier": "every history of status messages, info responses and sweeps", "why_tests_cant": "unbounded histories", "anchors": ["dronecan/app/node_monitor.py: NodeMonitor._remove_stale, get, _on_node_status"]}
{"id": "C37", "title": "Node-info requests are bounded and rate limited", "statement": "For one registry entry, between two events that reset its discovery (info received, uptime going backwards) the monitor sends at most 10 GetNodeInfo requests, any two of them more than 0.5 s apart, and none once the node is discovered.", "quantifier": "every history of status messages", "why_tests_cant": "unbounded histories", "anchors": ["dronecan/app/node_monitor.py: Entry._register_retry, _update_from_status, discovered, _on_node_status"]}
{"id": "C38", "title": "Node monitor events describe the registry", "statement": "An OFFLINE event is emitted exactly when an entry leaves the registry, and each entry created by a status message is announced by exactly one NEW event at creation.", "quantifier": "every history", "why_tests_cant": "unbounded histories", "anchors": ["dronecan/app/node_monitor.py: _on_node_status, _remove_stale, get, _call_event_handlers"]}
{"id": "C39", "title": "Dynamic allocation never hands one node ID to two devices", "statement": "In every history of allocation messages and monitor events, an ID granted to a (non-zero) unique ID was, at that moment, either unknown to the allocation table or already recorded for that same unique ID; so no ID is ever granted to two different unique IDs unless the table row was overwritten externally.", "quantifier": "every history, every table content", "why_tests_cant": "unbounded histories", "anchors": ["dronecan/app/dynamic_node_id.py: CentralizedServer._on_allocation_message, AllocationTable"]}
{"id": "C40", "title": "Dynamic allocation is stable", "statement": "A device (non-zero unique ID) that was granted an ID is granted the same ID whenever it completes the allocation handshake again, in every later history.", "quantifier": "every history of allocation messages and monitor events", "why_tests_cant": "unbounded histories", "anchors": ["dronecan/app/dynamic_node_id.py: CentralizedServer._on_allocation_message, AllocationTable.get_node_id"]}
{"id": "C41", "title": "Dynamically granted IDs lie in the configured range", "statement": "Every newly granted node ID lies within the configured dynamic range.", "quantifier": "every configured range, requested ID and table", "why_tests_cant": "all ranges and tables", "anchors": ["dronecan/app/dynamic_node_id.py: CentralizedServer._on_allocation_message"]}
{"id": "C42", "title": "IDs are granted only after a complete, timely handshake", "statement": "Every grant is for a 16-byte unique ID that is the concatenation of the consecutive parts received from anonymous nodes since the last first-part message, each part received no later than the follow-up timeout after the previous one, and is made only when every known node is discovered.", "quantifier": "every history of messages and clock values", "why_tests_cant": "unbounded histories", "anchors": ["dronecan/app/dynamic_node_id.py: CentralizedServer._on_allocation_message"]}
{"id": "C43", "title": "The message collector keeps the latest fresh message per key", "statement": "For every history, lookup of a key returns the most recent message stored under it if it is not older than the timeout and raises KeyError otherwise; iteration yields exactly the keys whose latest message is fresh.", "quantifier": "every history and clock", "why_tests_cant": "unbounded histories", "anchors": ["dronecan/app/message_collector.py: MessageCollector"]}
{"id": "C44", "title": "Reading a served file chunk by chunk reproduces it", "statement": "A client reading a served file at offsets 0,256,512,... until a short read obtains exactly the file contents; any single read at any offset returns the at most 256 bytes at that offset; GetInfo reports the file length.", "quantifier": "every file content and offset", "why_tests_cant": "unbounded files and offsets", "anchors": ["dronecan/app/file_server.py: FileServer._read, _get_info"]}
{"id": "C45", "title": "The file server serves only files under its lookup paths", "statement": "Every path the server opens for a request is a lookup path itself or inside one of the lookup paths (or an explicit path_map entry).", "quantifier": "every requested path, every file system", "why_tests_cant": "all request strings", "anchors": ["dronecan/app/file_server.py: _try_resolve_relative_path, FileServer._resolve_path"]}
{"id": "C46", "title": "The tunnelled serial port is a lossless FIFO", "statement": "write(b) sends messages whose buffers are at most 120 bytes and concatenate to b, and returns len(b); the concatenation of all read() results followed by the pending buffer equals the bytes received from the configured peer addressed to this node, in order, since the last flush.", "quantifier": "every byte string, every history of receives and reads", "why_tests_cant": "unbounded data and histories", "anchors": ["dronecan/utility.py: DroneCANSerial.write, send_bytes, read, handle_Targetted"]}
{"id": "C47", "title": "SLCAN text encoding round trip", "statement": "For every frame, the SLCAN line written for it is parsed by the receiving side into the same CAN ID, data, extended and FD flags, with or without a trailing adapter time stamp.", "quantifier": "every CAN ID, data content and length", "why_tests_cant": "all IDs x all payloads", "anchors": ["dronecan/driver/slcan.py: TxWorker._send_frame, RxWorker._process_slcan_line"]}
{"id": "C48", "title": "SLCAN reception does not depend on how the serial stream is chunked", "statement": "The sequence of SLCAN lines processed from a byte stream is the same however the stream is split into reads, and a malformed line affects no other line.", "quantifier": "every byte stream and every split", "why_tests_cant": "exponentially many splits", "anchors": ["dronecan/driver/slcan.py: RxWorker.run, _process_many_slcan_lines"]}
{"id": "C49", "title": "CAN log files round trip", "statement": "Reading back a log file yields exactly the frames written (ID, data, flags, time stamp), in order; a log cut off at any byte yields a prefix of the frames and then end of data or an error, never a wrong frame.", "quantifier": "every list of frames, every truncation point (crash point)", "why_tests_cant": "unbounded logs, every crash point", "anchors": ["dronecan/driver/file.py: file.send_frame, file._read_frame"]}
{"id": "C50", "title": "A log file reports the time stamp of its last frame", "statement": "After opening a log, get_last_timestamp() returns the time stamp of the last frame in it.", "quantifier": "every log file", "why_tests_cant": "all logs", "anchors": ["dronecan/driver/file.py: set_first_and_last_timestamp, get_last_timestamp"]}
{"id": "C51", "title": "UDP multicast and SocketCAN framings round trip", "statement": "For every frame within CAN limits, decoding the packet built for it yields the same ID, data and flags; a multicast packet altered by a burst of up to 16 bits after the CRC field is dropped.", "quantifier": "every frame and error burst", "why_tests_cant": "all frames", "anchors": ["dronecan/driver/mcast.py: io_process", "dronecan/driver/socketcan.py: _writer_thread_loop, receive"]}
{"id": "C52", "title": "DLC mappings are consistent", "statement": "dlc_to_datalength(datalength_to_dlc(n)) is the smallest valid CAN FD length >= n for every n <= 64, agrees with the padding function, and datalength_to_dlc inverts dlc_to_datalength on 0..15.", "quantifier": "every length 0..64 and every DLC", "why_tests_cant": "stated for all lengths", "anchors": ["dronecan/driver/common.py: CANFrame.dlc_to_datalength, datalength_to_dlc", "dronecan/transport.py: datalength_roundup"]}
{"id": "C53", "title": "Overflowing adapter clocks are unwrapped correctly", "statement": "If between consecutive samples the source and target clocks disagree by less than half an overflow period, the resolved source time equals the true source time relative to the first sample, for any number of overflows between samples.", "quantifier": "every sample history", "why_tests_cant": "unbounded histories", "anchors": ["dronecan/driver/timestamp_estimator.py: SourceTimeResolver.update"]}
{"id": "C54", "title": "Estimated receive time stamps are sane", "statement": "For every sample history with non-decreasing clocks, the estimated event time never exceeds the arrival time, never decreases, and is never earlier than the true event time when the clock rate error and latency assumptions hold.", "quantifier": "every sample history", "why_tests_cant": "unbounded histories", "anchors": ["dronecan/driver/timestamp_estimator.py: TimestampEstimator.update"]}
{"id": "C55", "title": "Signatures can be computed incrementally", "statement": "Feeding data in any number of pieces, or resuming from a previously returned value, gives the same 64-bit signature as feeding it at once; the value always fits 64 bits; altering up to 8 consecutive bytes of the input changes it.", "quantifier": "every byte string and every split", "why_tests_cant": "all strings and splits", "anchors": ["dronecan/dsdl/signature.py: Signature.add, get_value, compute_signature"]}
{"id": "C56", "title": "Accepted definitions never give one data type ID two meanings", "statement": "If a set of namespaces is accepted, any two definitions with the same kind and the same default data type ID have equal DSDL signatures.", "quantifier": "every list of parsed types in every file order", "why_tests_cant": "unbounded sets, all orders", "anchors": ["dronecan/dsdl/parser.py: parse_namespaces.ensure_unique_dtid"]}
{"id": "C57", "title": "Comments, blank lines and spacing do not affect a definition", "statement": "The token stream of a DSDL source is unchanged by inserting comment text at line ends, blank or comment-only lines, or extra blanks between tokens and at line ends.", "quantifier": "every source text", "why_tests_cant": "unbounded texts", "anchors": ["dronecan/dsdl/parser.py: Parser._tokenize"]}
{"id": "C58", "title": "Array size specifiers mean what the DSDL specification says", "statement": "[<=N] and [<N] denote dynamic arrays of capacity N and N-1, [N] a static array of N; non-positive capacities are rejected.", "quantifier": "every size specifier string", "why_tests_cant": "all strings", "anchors": ["dronecan/dsdl/parser.py: Parser._parse_array_type"]}
{"id": "C59", "title": "Half-precision floats survive decode/encode and rounding is nearest", "statement": "Decoding any 16-bit float pattern and encoding it again gives the same pattern (NaNs stay NaN); encoding a float in range gives a nearest representable half.", "quantifier": "every 16-bit pattern, every binary32 value", "why_tests_cant": "2^32 inputs", "anchors": ["dronecan/transport.py: f16_from_f32, f32_from_f16"]}
{"id": "C60", "title": "Constant names shown for a value are truthful", "statement": "value_to_constant_name returns a name only if it is the unique matching constant with exactly that value, or a list of names whose values are distinct powers of two that OR together to the value.", "quantifier": "every constant table and value", "why_tests_cant": "all tables and values", "anchors": ["dronecan/introspect.py: value_to_constant_name"]}
{"id": "C61", "title": "Assigning a nested structure copies it", "statement": "After outer.field = inner, later changes to inner do not affect outer.", "quantifier": "every history of assignments", "why_tests_cant": "aliasing over histories", "anchors": ["dronecan/transport.py: CompoundValue.__setattr__, __copy__"]}
{"id": "C62", "title": "Transfer hooks see every transfer exactly once and cannot disturb it", "statement": "For every sent or received transfer each registered hook is called once, in registration order, before frames are sent or handlers are called, whatever other hooks raise.", "quantifier": "every hook list and raising subset", "why_tests_cant": "exponentially many subsets", "anchors": ["dronecan/node.py: TransferHookDispatcher.call_hooks"]}
{"id": "C63", "title": "Service handlers answer the request they were called with", "statement": "What a service handler returns for a request is sent as a response to the requester with the request's transfer ID and priority, in a form the requester matches to its request; returning None raises and sends nothing; message handlers, sniffing handlers and responses are never answered.", "quantifier": "every handler, request, node state and callback behaviour", "why_tests_cant": "unbounded states and callback behaviours", "anchors": ["dronecan/node.py: HandlerDispatcher.add_handler", "dronecan/node.py: Node.respond", "dronecan/transport.py: Transfer.is_response_to"]}
{"id": "C64", "title": "spin stops at its deadline", "statement": "Node.spin(timeout) performs at least one round, starts no further round once the clock has reached the start time plus the timeout, and returns normally only after that (or when the driver gives nothing more).", "quantifier": "every timeout, clock behaviour and sequence of rounds", "why_tests_cant": "unbounded executions", "anchors": ["dronecan/node.py: Node.spin"]}
{"id": "C65", "title": "Node status is published periodically without drift", "statement": "The status publisher runs exactly at the nominal times start + k * interval, once each, whatever callbacks do; a completed poll has run all that are due; each run broadcasts the status with default priority if the node has a node ID and does nothing otherwise; the event queue is never empty.", "quantifier": "every history of the node", "why_tests_cant": "unbounded histories", "anchors": ["dronecan/node.py: Node.__init__", "dronecan/node.py: Node._send_node_status", "dronecan/node.py: Scheduler"]}
{"id": "C66", "title": "The file server's hit counters count the files found", "statement": "After every sequence of requests, path_hit_counters maps each path to the number of requests (GetInfo or Read) that were resolved to it by searching the lookup paths; requests answered from the path map or not resolved are not counted.", "quantifier": "every sequence of requests and every state of the file system at each of them", "why_tests_cant": "unbounded histories and file systems", "anchors": ["dronecan/app/file_server.py: FileServer._resolve_path, path_hit_counters"]}
{"id": "C67", "title": "Loaded definitions can be looked up by their data type ID", "statement": "After load_dsdl succeeds, DATATYPES[(id, kind)] is the loaded definition with that default data type ID and kind, for every loaded definition that has a default data type ID; entries for other keys are kept.", "quantifier": "every set of definitions and every earlier content of the tables", "why_tests_cant": "all sets of definitions", "anchors": ["dronecan/__init__.py: load_dsdl", "dronecan/dsdl/parser.py: parse_namespaces"]}
{"id": "C68", "title": "The node monitor's view of a node is what the node last said, and discovery means asked or answered", "statement": "If the registered callbacks do not raise, an entry's uptime and node info are those of the messages heard from the node since the entry was created, in order: a status sets the uptime and forgets the info if the uptime goes backwards (a restart), a GetNodeInfo response sets both. If are_all_nodes_discovered() returns true, then each known node has its info recorded or was sent at least ten GetNodeInfo requests; it returns true whenever all infos are recorded.", "quantifier": "every history of messages, queries and clock readings", "why_tests_cant": "unbounded histories, arbitrary interleavings of restarts, responses and expiries", "anchors": ["dronecan/app/node_monitor.py: NodeMonitor.Entry._update_from_status, _update_from_node_info, is_discovered", "dronecan/app/node_monitor.py: NodeMonitor.are_all_nodes_discovered"]}
{"id": "C69", "title": "The allocation table is a faithful store", "statement": "After any sequence of set(unique_id, node_id) calls: is_known_node_id(n) tells whether n was set; get_unique_id(n) is the unique ID of the last set for n, None if that was None or all zeros; get_node_id(u) returns a node ID whose last set was for u, no other such node ID having a later time stamp, and None only if there is no such node ID; it never returns a node ID for an all-zero unique ID.", "quantifier": "every sequence of calls", "why_tests_cant": "unbounded histories", "anchors": ["dronecan/app/dynamic_node_id.py: CentralizedServer.AllocationTable"]}
{"id": "C70", "title": "The serial tunnel sends what it was configured to send, and keeps the link alive", "statement": "In every history of calls on a newly created DroneCANSerial: each Targetted message broadcast by a call carries the configured target node, device number and lock flag and the baud rate set last; only write() and read() broadcast; a read() that returns has broadcast exactly one message, with an empty buffer, if the clock read is more than half a second after the reading that followed the last broadcast, and nothing otherwise.", "quantifier": "every history of calls and clock readings", "why_tests_cant": "unbounded histories, arbitrary clocks", "anchors": ["dronecan/utility.py: DroneCANSerial.send_bytes, read, setBaudrate"]}
{"id": "C71", "title": "Every frame replayed from a log is a valid record of the log", "statement": "Whatever bytes a log file contains: if it can be opened, all frames that calls of receive() return are distinct records of the file, in the order of the file, each with the right magic, length and CRC. A record with the wrong CRC is reported as a driver error.", "quantifier": "every file content, every sequence of calls", "why_tests_cant": "all byte strings, including damaged files", "anchors": ["dronecan/driver/file.py: file._read_frame, receive"]}
{"id": "C72", "title": "Log replay keeps to the recorded pace", "statement": "receive(timeout) at time now returns the next frame of the log if it is due and otherwise returns None and keeps it as the next frame. At positive speed, a frame whose time has come is due; a frame whose time has not come is due only if a timeout was given and the remaining time divided by the speed is within it (up to float rounding).", "quantifier": "every reader state, time, timeout and positive speed", "why_tests_cant": "continuous parameters, float rounding", "anchors": ["dronecan/driver/file.py: file.receive, set_start_timestamp"]}
{"id": "C73", "title": "The meaning of an SLCAN line", "statement": "A line consisting of a type character, an identifier of the type's number of hexadecimal digits, a length digit and the data as pairs of digits, possibly followed by more digits, with any whitespace, NACK and end-of-text padding in that order around it, is the frame that it says; with more digits after the data, the last four characters are the time stamp; a classic frame longer than 8 bytes is a driver error. A line that stops short of its length is a frame with fewer bytes, or a ValueError if a digit is left over. No line yields a frame of more than 64 bytes, or 8 without CAN FD.", "quantifier": "every line", "why_tests_cant": "all byte strings", "anchors": ["dronecan/driver/slcan.py: RxWorker._process_slcan_line"]}
{"id": "C74", "title": "SLCAN command-line commands are answered once, in order, with what the adapter said", "statement": "Whatever is received and whenever commands are queued: the responses are for the queued commands, one each, in the order queued, and the commands without a response are still waiting. With each read, exactly the commands at the head of the queue whose deadline has passed are answered as expired, without lines. The lines of any other response are valid UTF-8 and exactly the command-line output between an echo of the command and the next end of text. If the adapter, before the deadline, echoes a command and says some lines and the end of text, the command is answered with these lines.", "quantifier": "every sequence of reads, commands and clock readings", "why_tests_cant": "unbounded histories, arbitrary fragmentation and interleaving with frames", "anchors": ["dronecan/driver/slcan.py: RxWorker.run", "dronecan/driver/slcan.py: IPCCommandLineExecutionRequest.expired"]}
{"id": "C75", "title": "Accepted definitions are well formed", "statement": "Every definition that the parser accepts has a full name made of namespace components and a capitalised short name of at most 80 characters, a data type ID in range, distinct valid names of fields and constants in each part, allowed widths and positive array sizes, no arrays of arrays, constants of primitive types, and unions of at least two fields without padding; and so for every type nested in it. So the serialization properties apply to it.", "quantifier": "every file system, search path and file name", "why_tests_cant": "all texts and nestings", "anchors": ["dronecan/dsdl/parser.py: Parser.parse, parse_source, _parse_type"]}
{"id": "C76", "title": "Fields are named and constants are in range", "statement": "In every definition that the parser accepts, every field that is not padding has a name, and the value of every constant lies in the range of its type.", "quantifier": "every file system, search path and file name", "why_tests_cant": "all texts", "anchors": ["dronecan/dsdl/parser.py: _parse_line, _make_constant, PrimitiveType.validate_value_range", "dronecan/dsdl/type_limits.py"]}
{"id": "C77", "title": "Definitions do not depend on layout", "statement": "Adding or removing comments, blank lines and blanks between words in any of the files does not change which definitions are accepted nor the result of parsing, nested definitions included.", "quantifier": "every two file systems that differ in layout only", "why_tests_cant": "all texts", "anchors": ["dronecan/dsdl/parser.py: Parser.parse, _tokenize"]}
{"id": "C79", "title": "Constants do not affect signatures", "statement": "Two sources for the same name that differ only in layout and in lines that define constants, if both are accepted, have the same fields, union marks, DSDL signature and data type signature.", "quantifier": "every two such sources", "why_tests_cant": "all texts", "anchors": ["dronecan/dsdl/parser.py: parse_source, get_dsdl_signature, get_data_type_signature"]}
{"id": "C78", "title": "The normalised text determines the definition", "statement": "Writing the normalised text of an accepted definition (below its name) into its file gives, on parsing again, the same definition without constants and signature overrides, with the same normalised text; and two accepted definitions with equal normalised texts have the same name, kind, union marks and fields, with the same layout. Fields must be named (arrays of padding, see C76, are excluded).", "quantifier": "every file system and accepted definition", "why_tests_cant": "all definitions", "anchors": ["dronecan/dsdl/parser.py: get_dsdl_signature_source_definition, get_normalized_definition, parse_source"]}
{"id": "C80", "title": "File names say names, versions and data type IDs", "statement": "A file [id.]Name[.major.minor].uavcan in subdirectories of a search directory is the type named after the directory, the subdirectories and Name, with that ID and version, whatever the order of the search directories. Only file names of this form are accepted.", "quantifier": "every allowed search path, chain of subdirectories, name, ID and version", "why_tests_cant": "all names and numbers", "anchors": ["dronecan/dsdl/parser.py: _full_typename_version_and_dtid_from_filename, _namespace_from_filename, validate_search_directories"]}
{"id": "C81", "title": "References are resolved to definitions", "statement": "Every structure nested in an accepted definition is the message parsed from a file in a search directory, in the subdirectories given by its full name; a name with a dot is taken as the full name and a name without is looked up in the namespace of the referring file.", "quantifier": "every file system and accepted definition", "why_tests_cant": "all file systems", "anchors": ["dronecan/dsdl/parser.py: _locate_compound_type_definition, _parse_compound_type"]}
{"id": "C82", "title": "Recursive definitions are refused", "statement": "A definition that directly or through other definitions contains itself is refused, and the result of parsing an accepted definition does not depend on the recursion limit.", "quantifier": "every file system and every chain of references", "why_tests_cant": "cycles of every length", "anchors": ["dronecan/dsdl/parser.py: Parser.parse, _parse_compound_type"]}
{"id": "C83", "title": "Accepted files lie in search directories", "statement": "A file that is accepted lies in one of the search directories.", "quantifier": "every file system, search path and file name", "why_tests_cant": "all paths", "anchors": ["dronecan/dsdl/parser.py: _namespace_from_filename, validate_search_directories"]}
{"id": "C84", "title": "Definitions can be referred to by their full name", "statement": "If a file is accepted as the definition of a full name then a reference to this full name from any file finds a file of this name.", "quantifier": "every file system, search path and referring file", "why_tests_cant": "all paths", "anchors": ["dronecan/dsdl/parser.py: _locate_compound_type_definition, _namespace_from_filename"]}
{"id": "C85", "title": "A definition means what its lines say", "statement": "parse succeeds with a definition exactly when the file name and every line can be read by the grammar (cast modes, type spellings, array sizes, names, constants, @union, ---, OVERRIDE_SIGNATURE) and the definition has exactly those fields, constants, marks and last override, in order, names being distinct within a part, unions having two or more fields and no padding, IDs being in range and constants within the range of their type.", "quantifier": "every file system and file, every text", "why_tests_cant": "all texts", "anchors": ["dronecan/dsdl/parser.py: parse_source, _parse_line, _parse_type, _make_constant, _parse_array_type, _parse_primitive_type"]}
{"id": "C86", "title": "Signatures are those of the specification", "statement": "The DSDL signature of a definition is the CRC-64-WE of its normalised text or its override, and the data type signature is obtained from it by feeding, for the fields of request and response in order, the signature of every nested structure followed by the value so far, both in little endian order; nested structures contribute the data type signatures of their own files.", "quantifier": "every accepted definition at every depth of nesting", "why_tests_cant": "all definitions", "anchors": ["dronecan/dsdl/parser.py: get_dsdl_signature, get_data_type_signature", "dronecan/dsdl/signature.py: Signature"]}
{"id": "C87", "title": "Different nested structures give different signatures", "statement": "Data type signatures of two definitions with equal DSDL signatures match only if the signatures of all nested structures match, as the documentation of get_data_type_signature promises.", "quantifier": "every pair of definitions with the same normalised text", "why_tests_cant": "2^64 values of signatures", "anchors": ["dronecan/dsdl/parser.py: get_data_type_signature"]}
{"id": "C88", "title": "The SocketCAN transmission queue loses, repeats and reorders nothing", "statement": "For every interleaving of the application with the writer thread and every behaviour of the socket: frames accepted by send_frame reach the socket at most once and in order; every accepted frame ends in exactly one report, the transmission hook or the exception, in order, one report per call of send_frame or receive (frames still waiting when the driver is closed excepted); a call that raises accepts no frame; at most 1000 frames wait and at most 1001 are unreported.", "quantifier": "all interleavings of two threads, all outcomes of the socket", "why_tests_cant": "unboundedly many interleavings", "anchors": ["dronecan/driver/socketcan.py: SocketCAN._writer_thread_loop, _check_write_feedback, send_frame, receive, close"]}
{"id": "C89", "title": "The multicast driver delivers exactly the frames of other senders", "statement": "For every history of the I/O process of the multicast driver and every behaviour of its sockets: the frames put into the reception queue are the frames of the valid packets received from sockets other than the process's own sending sockets, in order of reception.", "quantifier": "all histories, all datagrams and senders", "why_tests_cant": "unboundedly many histories; needs failing sockets and a second machine", "anchors": ["dronecan/driver/mcast.py: io_process"]}
{"id": "C90", "title": "The multicast driver sends every queued frame once, in order, unless the socket raises", "statement": "For every history: the packets sent are those of the frames put into the transmission queue, in order, each at most once, and every frame taken from the queue was sent or had its send raise; a round with open sockets empties the queue; the process ends only if the sockets cannot be opened or an identifier does not fit into 32 bits.", "quantifier": "all histories, all failures of the sockets", "why_tests_cant": "unboundedly many histories", "anchors": ["dronecan/driver/mcast.py: io_process"]}
{"id": "C91", "title": "Transfers arrive as they were sent, from node to node", "statement": "For every pair of nodes, whatever their programs, callbacks and hooks: a broadcast, request or response call that returns has handed to the driver frames such that every node whose registry has the data type, once it has read them from its driver (in order, interleaved with arbitrary other frames, with arbitrary time stamps, after an arbitrary history), receives exactly the transfer sent - same header, transfer ID, payload and CAN FD flag, time stamp of the first frame - before it reads the next frame; and a node receives nothing but the transfers completed by the frame it read last.", "quantifier": "all programs and callbacks of both nodes, all payloads, all interleavings and histories", "why_tests_cant": "unboundedly many histories, payloads and interleavings", "anchors": ["dronecan/node.py: Node.broadcast, Node.request, Node.respond, Node._recv_frame, Node.spin", "dronecan/transport.py: Transfer, TransferManager"]}
{"id": "C92", "title": "Every transfer received is given to exactly the handlers registered for it", "statement": "From any state of a node that catches handler exceptions, as long as neither the main program nor the callbacks change the registrations or the node ID: every transfer received is followed by one call of each handler registered for it (for messages and requests to this node; for responses to other nodes if a handler of that service sniffs), in order of registration, before anything else is received, and no handler is called otherwise - whatever handlers, hooks, timers and request callbacks do and raise. Together with C91: a transfer sent reaches exactly these handlers of every node that reads its frames.", "quantifier": "all histories of API calls, polls, frames and spins; all behaviours of callbacks that do not change registrations", "why_tests_cant": "unboundedly many histories and callback behaviours", "anchors": ["dronecan/node.py: Node._recv_frame, HandlerDispatcher.call_handlers, TransferHookDispatcher.call_hooks, Node.spin"]}
{"id": "C93", "title": "A response reaches the callback of its request", "statement": "For every program and every behaviour of the callbacks: when a response transfer arrives that comes from the server addressed by a request, is addressed to the requesting node, and carries the service and the transfer ID of that request, and the callback of the request has not been called yet, then it is called with this response before the main loop goes on. From node to node: the result of a service handler that answered a request reaches the callback of that request when the requesting node reads the frames.", "quantifier": "all programs, callbacks, timers, hooks, arrival orders; all service types and values; all pairs of nodes", "why_tests_cant": "unboundedly many interleavings of requests, timeouts and responses; needs more than 32 requests in flight to go wrong", "anchors": ["dronecan/node.py: Node.request, Node._recv_frame, Node.respond", "dronecan/transport.py: Transfer.is_response_to"]}
{"id": "C94", "title": "The MAVLink driver sends every queued frame once, in order, to the bus selected before it", "statement": "For every history of the MAVLink driver and every behaviour of its connection: the items of the transmission queue are taken in order, each once; every frame taken is handed to the connection at once, for the bus chosen by the last set_bus before it, addressed to the target system known (the configured one or the sender of the first message), over a connection signing with the key set last before it (also after reconnecting); the message holds the frame (a driver receiving it makes the same frame of it); nothing is sent to a log file; get_bus tells the bus of the last set_bus unless the queue was full.", "quantifier": "all histories of calls and I/O steps, all failures of the connection, all frames", "why_tests_cant": "unboundedly many histories, needs an autopilot and failing connections", "anchors": ["dronecan/driver/mavcan.py: io_process", "dronecan/driver/mavcan.py: MAVCAN.set_bus", "dronecan/driver/mavcan.py: MAVCAN.send_frame"]}
{"id": "C95", "title": "The MAVLink driver delivers exactly the frames received", "statement": "For every history, also of log files: every CAN_FRAME or CANFD_FRAME message received is delivered at once as the frame it holds (identifier modulo 2^29, extended by bit 31, the data up to the given length), and nothing else is delivered.", "quantifier": "all histories, all messages", "why_tests_cant": "unboundedly many histories and messages", "anchors": ["dronecan/driver/mavcan.py: io_process"]}
{"id": "C96", "title": "The MAVLink driver renews forwarding once a second", "statement": "While the loop of the MAVLink driver runs freely, it has requested forwarding of the selected bus within about the last second.", "quantifier": "all histories in which no step takes longer than 10 ms", "why_tests_cant": "depends on the arrival times of messages over unbounded time", "anchors": ["dronecan/driver/mavcan.py: io_process.enable_can_forward"]}
{"id": "C97", "title": "The MAVLink driver requests the filter list that was set", "statement": "Whenever forwarding is requested and a filter list has been set, the identifiers of the list set last are requested, exactly.", "quantifier": "all histories, all filter lists", "why_tests_cant": "unboundedly many lists and histories", "anchors": ["dronecan/driver/mavcan.py: io_process.enable_can_forward", "dronecan/driver/mavcan.py: MAVCAN.set_filter_list"]}
{"id": "C98", "title": "to_json_compatible_object tells what a value is", "statement": "For every value of every type, to_json_compatible_object returns an object that says what the value is: booleans, integers and IEEE 754 floats exactly, arrays as lists or, for text, as strings, structures as mappings of all fields but padding in order, unions as a mapping of the chosen field.", "quantifier": "all types made by the parser, all values", "why_tests_cant": "unboundedly many nested types and values", "anchors": ["dronecan/introspect.py: to_json_compatible_object", "dronecan/introspect.py: _to_json_compatible_object_impl"]}
{"id": "C99", "title": "to_yaml returns YAML that tells what a value is", "statement": "For every value of every type, to_yaml returns a text that a YAML 1.2 reader understands, and what it reads says what the value is: booleans and integers exactly, floats within half a unit of the last decimal place shown, arrays as sequences or, for text, as strings, structures as mappings of all fields but padding in order, unions as a mapping of the chosen field; names of constants and the description of the transfer are comments.", "quantifier": "all types made by the parser, all values, all transfers", "why_tests_cant": "unboundedly many nested types and values; needs every text and every float", "anchors": ["dronecan/introspect.py: _to_yaml_impl", "dronecan/introspect.py: to_yaml"]}
{"id": "C100", "title": "The SLCAN driver delivers everything its worker reports, in order", "statement": "Once the driver is constructed, what the RX and TX workers put into the receive queue after the end of the initialisation is handed to the application in the same order, without loss or repetition, except what is still in the queue; every callback passed to execute_cli_command is called at most once, in the order of the calls; it gets the lines the adapter sent for its command, or none if the answer did not come in time; without such commands, the frames handed over are exactly the frames of the lines received.", "quantifier": "all interleavings of the application, the RX worker and the TX worker; all bytes received; callbacks that call the driver again", "why_tests_cant": "unboundedly many interleavings of three threads/processes and of reads", "anchors": ["dronecan/driver/slcan.py: SLCAN.__init__", "dronecan/driver/slcan.py: SLCAN.receive", "dronecan/driver/slcan.py: SLCAN.execute_cli_command", "dronecan/driver/slcan.py: RxWorker.run", "dronecan/driver/slcan.py: TxWorker.run"]}
{"id": "C101", "title": "The SLCAN driver writes the frames it accepts, in order", "statement": "The frames accepted by send are written to the port in the order of the calls, each once, as the SLCAN line of the frame, except those still waiting and those whose write raised an exception; for each exception of the TX worker the application gets the exception from receive; the hooks see a frame as sent exactly when it has been accepted.", "quantifier": "all interleavings, all frames, all write errors", "why_tests_cant": "unboundedly many interleavings and frames", "anchors": ["dronecan/driver/slcan.py: SLCAN.send", "dronecan/driver/slcan.py: TxWorker.run", "dronecan/driver/slcan.py: TxWorker._send_frame"]}
{"id": "C102", "title": "A successful initialisation opens the SLCAN channel at the bit rate", "statement": "If _init_adapter returns, the channel of the adapter is open at the bit rate requested. The commands sent are the empty one, C, S, O, F, at most four times; for an unsupported bit rate nothing is sent; an adapter that acknowledges S and O is initialised in the first attempt.", "quantifier": "all adapters: answers, delays, traffic, errors of the port", "why_tests_cant": "unboundedly many behaviours of the adapter and of the port", "anchors": ["dronecan/driver/slcan.py: _init_adapter", "dronecan/driver/slcan.py: _init_adapter.wait_for_ack", "dronecan/driver/slcan.py: _init_adapter.send_command"]}
{"id": "C103", "title": "A line written through RetrySerial reaches an adapter that is ready", "statement": "When RetrySerial.write of a line returns, and the adapter was ready before, the adapter has got the line while its channel was open at the bit rate, whatever happened to the port meanwhile.", "quantifier": "all sequences of errors of the port, all states of the adapter after reopening, all lines", "why_tests_cant": "unboundedly many failures and adapters", "anchors": ["dronecan/driver/slcan.py: RetrySerial.retry", "dronecan/driver/slcan.py: RetrySerial.write"]}
{"id": "C104", "title": "The python-can driver puts each frame it accepts on the bus once, in order", "statement": "When the writer thread has dealt with everything and no exception has been raised, the frames accepted by send_frame have been put on the bus, each exactly once, in order, with identifier, data and format unchanged, and the I/O hooks have been called for exactly these frames, in order. At most 1000 frames wait; more are refused with TxQueueFullError. CAN FD frames are refused and have no effect.", "quantifier": "all interleavings of the main thread and the writer thread, all outcomes of Bus.send and Bus.flush_tx_buffer, all frames", "why_tests_cant": "unboundedly many interleavings, frames and failures of the bus", "anchors": ["dronecan/driver/python_can.py: PythonCAN.send_frame", "dronecan/driver/python_can.py: PythonCAN._writer_thread_loop", "dronecan/driver/python_can.py: PythonCAN._check_write_feedback"]}
{"id": "C105", "title": "The python-can driver returns the frames that arrive, within the timeout", "statement": "The frames returned by receive are exactly the frames that the messages taken from the bus carry, in order, with identifier, data and format, and the hooks are called for them; messages that carry no data frame are not returned. receive(timeout) returns within the timeout; receive() without a timeout returns when a message arrives.", "quantifier": "all sequences of messages and arrival times, all timeouts, all interleavings", "why_tests_cant": "unboundedly many sequences of messages and times", "anchors": ["dronecan/driver/python_can.py: PythonCAN.receive", "dronecan/driver/python_can.py: PythonCAN._check_write_feedback"]}
{"id": "C106", "title": "Every I/O hook is called once for every frame that passes a driver", "statement": "For each frame that passes a driver, each hook that is registered when the frame passes is called exactly once, in order of registration, with the direction and the frame, unless it has been removed before its turn; exceptions of a hook change nothing for the others. No hook is called after its removal or before its registration.", "quantifier": "all histories of registrations, removals and frames, all behaviours of the hooks, including hooks that add or remove hooks, send frames or raise", "why_tests_cant": "unboundedly many histories and behaviours of hooks, including recursion through send_frame", "anchors": ["dronecan/driver/common.py: AbstractDriver.add_io_hook", "dronecan/driver/common.py: AbstractDriver._call_io_hooks", "dronecan/driver/common.py: AbstractDriver._tx_hook", "dronecan/driver/common.py: AbstractDriver._rx_hook"]}
{"id": "C107", "title": "The MAVLink and multicast drivers pass frames between application and process without loss", "statement": "The frames accepted by send_frame reach the process, each once, in order, and the I/O hooks are called for exactly these frames; the frames that arrive are returned by receive, each once, in order, with the hooks called. receive returns None only if a timeout was given and has passed. At most 1000 items wait to be sent. The driver keeps working whatever the application reads.", "quantifier": "all interleavings of application and process, all frames, timeouts and readings of the clock, all delays of the queues", "why_tests_cant": "unboundedly many interleavings; the queues hold up to a million frames", "anchors": ["dronecan/driver/mavcan.py: MAVCAN.send_frame", "dronecan/driver/mavcan.py: MAVCAN.receive", "dronecan/driver/mcast.py: mcast.send_frame", "dronecan/driver/mcast.py: mcast.receive", "dronecan/driver/mavcan.py: MAVCAN.__init__", "dronecan/driver/mcast.py: mcast.__init__"]}
{"id": "C108", "title": "Closed application objects are not called any more", "statement": "After close() of a NodeMonitor, FileServer, CentralizedServer, MessageCollector, LogMessageMonitor or DroneCANSerial has returned, no method of the object is called by the node, and no other object is affected. The first close() returns; a second one raises ValueError and changes nothing.", "quantifier": "all histories of creating and closing objects, all sequences of transfers, timer events and responses, calls of remove_handlers", "why_tests_cant": "unboundedly many objects and interleavings of events with close()", "anchors": ["dronecan/app/node_monitor.py: NodeMonitor.close", "dronecan/app/file_server.py: FileServer.close", "dronecan/app/dynamic_node_id.py: CentralizedServer.close", "dronecan/app/message_collector.py: MessageCollector.close", "dronecan/app/log_message_monitor.py: LogMessageMonitor.close", "dronecan/utility.py: DroneCANSerial.close"]}
{"id": "C109", "title": "SocketCAN.receive returns the data frames that arrive", "statement": "For every sequence of messages that the kernel hands to the socket, and every interleaving of the calls with the writer thread, the frames returned by receive() are the data frames among the messages read so far, in order of arrival, with their identifier, format and data; each is given to the I/O hooks first. receive(timeout) reads a message that arrives within the timeout, returns None only after the timeout and not later than a millisecond after it; receive() never returns None.", "quantifier": "all sequences of messages (identifiers, formats, lengths, contents, paddings, arrival times), all interleavings of calls with the writer thread, both byte orders", "why_tests_cant": "unboundedly many messages and interleavings; needs a CAN interface", "anchors": ["dronecan/driver/socketcan.py: SocketCAN.receive"]}
{"id": "C110", "title": "Monotonic time stamps of SocketCAN frames", "statement": "ts_real of a received frame is the time stamp of the kernel. ts_monotonic is the reading of the monotonic clock less the age of the frame (time.time() - ts_real), up to the fixed delay of one microsecond, so that it never lies in the future.", "quantifier": "all sequences of received frames with any time stamps and any readings of the clocks, in which the monotonic clock does not go backwards", "why_tests_cant": "the real clock may be set at any moment; the error depends on the whole history of readings", "anchors": ["dronecan/driver/socketcan.py: SocketCAN._convert_real_to_monotonic", "dronecan/driver/socketcan.py: SocketCAN.receive", "dronecan/driver/common.py: CANFrame.__init__", "dronecan/driver/timestamp_estimator.py: TimestampEstimator.update"]}
{"id": "C111", "title": "Float fields read back as the nearest number of their format", "statement": "Assigning a float to a float16, float32 or float64 field does not raise; the field then reads as a number of the format with the same sign to which no other one is nearer, if the number lies in the range of the format. Beyond it (and for infinities) a saturated field reads as the greatest number of the format, a truncated one as infinity, with the sign kept. NaN stays NaN.", "quantifier": "all floats (finite, infinite, NaN) and integers, the three formats, both cast modes", "why_tests_cant": "2^64 values, with ties, subnormal numbers and two successive roundings", "anchors": ["dronecan/transport.py: cast", "dronecan/transport.py: PrimitiveValue.value", "dronecan/transport.py: f16_from_f32", "dronecan/dsdl/type_limits.py: get_float_range"]}
{"id": "C112", "title": "Values of float fields can be copied", "statement": "What was read from a float field and is not NaN can be assigned to another field of the same type, which then has the same bits.", "quantifier": "all bit patterns of the three formats, both cast modes", "why_tests_cant": "2^64 patterns", "anchors": ["dronecan/transport.py: PrimitiveValue.value", "dronecan/transport.py: cast"]}
{"id": "C113", "title": "Loaded types are attributes of the module", "statement": "After any sequence of successful calls of load_dsdl, each type r.p.T loaded by one of them is the object dronecan.r.p.T if r is one of the root namespaces dronecan, uavcan, ardupilot, com, cuav, and dronecan.thirdparty.r.p.T otherwise; of several types with the same full name it is the last one. The creation of the namespaces never raises.", "quantifier": "all sequences of calls, all lists of types with names that the parser accepts", "why_tests_cant": "unboundedly many sets of types, depths of namespaces and sequences of calls", "anchors": ["dronecan/__init__.py: load_dsdl, Namespace"]}
{"id": "C114", "title": "Handlers get the direction they were registered for", "statement": "A handler of a service registered without sniff_response is called with requests only (event.request is a request), one registered with sniff_response with responses only (event.response is a response).", "quantifier": "all histories of API calls, polls, frames and spins; all behaviours of callbacks that do not change registrations", "why_tests_cant": "unboundedly many handler tables and histories", "anchors": ["dronecan/node.py: HandlerDispatcher.add_handler, call_handlers", "dronecan/node.py: Node._recv_frame"]}
{"id": "C115", "title": "A transfer arrives through the drivers as it was sent", "statement": "When broadcast, request or respond returns at one node, and another node, which has the data type, gets through its driver what the first node's driver made of the frames, in order, among any other traffic that has no frames with the same CAN identifier and transfer ID, then it receives the same transfer, after its last frame and before it reads another one. This holds for the multicast, SocketCAN, MAVLink, python-can and SLCAN drivers, and for SLCAN however the byte stream is cut into pieces and with or without the adapter's time stamps.", "quantifier": "all payloads of all well-formed types, all headers, all programs and histories of the receiving node, all histories of its driver, all other traffic", "why_tests_cant": "unboundedly many payloads, histories and interleavings with other traffic", "anchors": ["dronecan/node.py: Node._recv_frame, broadcast, request, respond", "dronecan/driver/mcast.py", "dronecan/driver/socketcan.py", "dronecan/driver/mavcan.py", "dronecan/driver/python_can.py", "dronecan/driver/slcan.py: _process_slcan_line, _send_frame"]}
{"id": "C116", "title": "make_driver chooses the driver that the device name calls for", "statement": "Every device name is of exactly one kind. A name with one of the prefixes mavcan:, slcan:, mcast:, filein:, fileout: gives the driver of that name for the rest, with the keyword arguments (mavcan: without pymavlink raises DriverError; filein is read-only, fileout is not). The name of a serial port (/dev/..., COM... also with backslashes and dots) gives the MAVLink driver if the port sends MAVLink at the baud rate given or 115200, otherwise SLCAN; exceptions raised while looking are passed on. Any other name gives the python-can driver if python-can is installed, of bus type pcan if the name begins with PCAN, otherwise of the type given or socketcan; otherwise SocketCAN on Linux; otherwise DriverError.", "quantifier": "all strings as names, all keyword arguments baudrate, bitrate, bustype, all machines (libraries installed, platform, behaviour of the ports)", "why_tests_cant": "unboundedly many names; the result depends on the installed libraries and the platform", "anchors": ["dronecan/driver/__init__.py: make_driver, is_mavlink_port", "dronecan/driver/python_can.py: PythonCAN.__init__", "dronecan/driver/mavcan.py: MAVCAN.is_mavlink_port"]}
{"id": "C117", "title": "The SLCAN I/O process ends when, and only when, it should", "statement": "The I/O process of the SLCAN driver ends only if close (or a failed constructor) has told it to, if the parent process is dead, or if a thousand successive iterations of the RX worker have raised. When there is such a reason it does end: after at most 1002 iterations of the TX worker, two of the RX worker, and the closing of the port.", "quantifier": "all interleavings of the two threads and the parent process, all outcomes of every read and write (return, exception, not returning), all contents of the queue", "why_tests_cant": "unboundedly many interleavings of threads and processes; the death of the parent and loss of the port at any moment", "anchors": ["dronecan/driver/slcan.py: _io_process, RxWorker.run, TxWorker.run, RetrySerial, SLCAN.close"]}
{"id": "C118", "title": "A log that can be opened can be replayed to its end", "statement": "A log file can be opened for reading just if it consists of at least one valid record, one after the other, with fewer bytes than a header after the last; otherwise opening raises DriverError. Once it is open, receive() never raises, whatever the start time set and however it is called (speedup not 0): it returns the frames of all records, in their order, none left out, before end_of_stream() is true, and None from then on. The end is reached: without pacing after at most two more calls than there are frames, and at any positive speed after that many calls late enough. stream_progress() never raises, starts at 0, never decreases, never exceeds 100 and is 100 at the end.", "quantifier": "every file content, speed, start time and sequence of calls of receive at any times with any timeouts", "why_tests_cant": "all byte strings, unbounded sequences of calls, continuous times, float rounding", "anchors": ["dronecan/driver/file.py: set_first_and_last_timestamp, receive, end_of_stream, stream_progress"]}
{"id": "C119", "title": "The node monitor can be used from its own update callbacks", "statement": "If update callbacks of a NodeMonitor do nothing but look up nodes with get, catching KeyError, then get raises nothing but KeyError, status and info messages are handled without an exception, and the periodic sweep raises nothing and removes every node that is stale.", "quantifier": "all sets of callbacks, all choices of the nodes they look up in each call, all histories of messages, look-ups, sweeps and changes of the callbacks, all advances of the clock, all sizes of the stack", "why_tests_cant": "unbounded histories; callbacks are arbitrary programs", "anchors": ["dronecan/app/node_monitor.py: NodeMonitor.get, _call_event_handlers, _remove_stale, _on_node_status, _on_info_response"]}
{"id": "C120", "title": "Node IDs that are in use are not handed out", "statement": "A CentralizedServer attached to a NodeMonitor grants the node ID of a node that the monitor lists to nobody but that node: only to a device to which the allocation table says the ID belongs and which, if the listed node has told its unique ID, is the listed node.", "quantifier": "all histories of the monitor before and after the server is created, all loaded tables, all ranges of node IDs, all requests, all timestamps, all other update callbacks", "why_tests_cant": "unbounded interleavings of status messages, info responses, sweeps, timeouts and allocation handshakes", "anchors": ["dronecan/app/dynamic_node_id.py: CentralizedServer.__init__, _handle_monitor_event, _on_allocation_message", "dronecan/app/node_monitor.py: NodeMonitor._on_node_status, _on_info_response, are_all_nodes_discovered"]}
{"id": "C121", "title": "Closing the SocketCAN and python-can drivers", "statement": "When close() of the SocketCAN or python-can driver has returned, each frame that send_frame accepted was either sent or reported as failed, send_frame accepts no further frame, and nothing is sent from then on. close() returns after at most the step that the writer thread has in hand.", "quantifier": "all interleavings of the main thread and the writer thread, all outcomes of the operating system's send, all frames", "why_tests_cant": "unbounded interleavings of two threads", "anchors": ["dronecan/driver/socketcan.py: SocketCAN.close, send_frame, TxQueue writer thread", "dronecan/driver/python_can.py: PythonCAN.close, send_frame, writer thread"]}
{"id": "C122", "title": "The URL of the multicast driver selects the bus", "statement": "A device name 'mcast:' followed by nothing or a decimal number N gives a driver that joins, listens to and sends to the multicast group 239.65.82.N (0 if there is no number), port 57732, so that two drivers are on one bus exactly if their names mean the same number; any other name is refused with an exception.", "quantifier": "all device names, all machines (with 4- and 8-byte long, Windows or not), all histories of the I/O process", "why_tests_cant": "unboundedly many names; needs several machines", "anchors": ["dronecan/driver/mcast.py: io_process, connect", "dronecan/driver/__init__.py: make_driver"]}
{"id": "C123", "title": "Text fields read back as the text assigned", "statement": "A string assigned to a dynamic array field of 8-bit integers reads back by decode() and == if its UTF-8 form fits, also after packing and unpacking the message; otherwise AttributeError is raised and the field keeps its contents.", "quantifier": "all strings (all code points, surrogates included), all capacities, both cast modes, signed and unsigned elements, all previous contents, with and without tail array optimisation", "why_tests_cant": "unboundedly many strings; over a million code points", "anchors": ["dronecan/transport.py: ArrayValue.encode, decode, to_bytes, __eq__, CompoundValue.__setattr__", "dronecan/dsdl/parser.py: ArrayType.is_string_like"]}
{"id": "C124", "title": "Log messages are logged", "statement": "Every uavcan.protocol.debug.LogMessage that arrives makes LogMessageMonitor write one log record, with the severity of the message, the node ID, the source and the text.", "quantifier": "all node IDs, all levels, all strings as source and text, all payloads", "why_tests_cant": "unboundedly many strings and payloads", "anchors": ["dronecan/app/log_message_monitor.py: LogMessageMonitor._on_message"]}
{"id": "C125", "title": "Files can be read over the bus", "statement": "A node that asks a FileServer for a path and an offset by uavcan.protocol.file.Read gets the bytes of the file at that offset into its callback; reading until a short answer yields the file. Paths that are not served give an error answer; every request is answered.", "quantifier": "all file systems and lookup paths, all paths (as text), offsets and files, all node IDs, priorities, capacities and cast modes, all states of both nodes, classic CAN and CAN FD", "why_tests_cant": "unboundedly many paths, files and node states", "anchors": ["dronecan/app/file_server.py: FileServer._read, _get_info, _resolve_path", "dronecan/node.py: Node.request, respond, _recv_frame", "dronecan/transport.py: ArrayValue.decode, to_bytes"]}
{"id": "C126", "title": "A device gets its node ID over the bus", "statement": "A device without a node ID that sends its unique ID in three anonymous Allocation messages in time is answered three times by the CentralizedServer; the first two answers echo the bytes sent so far, the last one carries the whole unique ID and a node ID that no other device has, if a node ID of the configured range is free. All of it is told by frames on the bus that every node understands.", "quantifier": "all unique IDs, wanted node IDs, tables, ranges and states of the server, all discriminators, priorities, transfer IDs and cast modes, all times within the timeout, all states of the node of the server, classic CAN and CAN FD", "why_tests_cant": "unboundedly many unique IDs, tables and node states", "anchors": ["dronecan/app/dynamic_node_id.py: CentralizedServer._on_allocation_message", "dronecan/app/dynamic_node_id.py: CentralizedServer.AllocationTable", "dronecan/node.py: Node.broadcast, _recv_frame", "dronecan/transport.py: Frame, Transfer.from_frames, to_frames"]}
{"id": "C127", "title": "Nodes find each other over the bus", "statement": "When a node sends its status and a NodeMonitor on another node receives it, the monitor shows the node with the uptime that it told; if the monitor is to ask the node for its info (it does not have it or the node restarted, retries are left, the last request is more than half a second ago), the request goes out, the node answers it with its info and its current status, and when the answer has arrived the monitor shows the node as discovered, with its unique ID and the uptime at the time of the answer.", "quantifier": "all node IDs, infos, healths, modes, vendor-specific codes, times within 2^32 seconds, all states of both nodes and of the monitor, all cast modes and capacities, classic CAN and CAN FD", "why_tests_cant": "unboundedly many infos, times and states of nodes and monitors", "anchors": ["dronecan/node.py: Node._fill_node_status, _send_node_status, on_get_node_info, request, respond", "dronecan/app/node_monitor.py: NodeMonitor._on_node_status, _on_info_response", "dronecan/app/node_monitor.py: NodeMonitor.Entry._update_from_status, _update_from_get_node_info_response"]}
{"id": "C128", "title": "The serial tunnel works over the bus", "statement": "What an application writes to a DroneCANSerial is told to every node by Targetted messages on the bus; a DroneCANSerial on the target node whose target is the sender returns exactly those bytes, in order, from its reads; messages for another serial device of the node do not get into its input.", "quantifier": "all byte strings, target nodes, devices, baud rates below 2^24, lock flags, histories of calls on both ports, messages of other nodes, cast modes, node states, classic CAN and CAN FD", "why_tests_cant": "unboundedly many byte strings, histories and node states", "anchors": ["dronecan/utility.py: DroneCANSerial.send_bytes, write, read, handle_Targetted", "dronecan/node.py: Node.broadcast"]}
{"id": "C129", "title": "Closing the drivers that have an I/O process", "statement": "close() of the MAVLink, SLCAN and multicast drivers returns without the application doing anything else and without raising, any number of times; when it has returned, the I/O process has ended or has been killed; the SLCAN process gets ten seconds to obey before it is terminated or killed.", "quantifier": "all interleavings of the application, the I/O process, the logging thread and the passing of time; all numbers of frames in the queues", "why_tests_cant": "needs real processes, full queues and pipes, processes that hang or die at particular moments", "anchors": ["dronecan/driver/mavcan.py: MAVCAN.close, io_process", "dronecan/driver/slcan.py: SLCAN.close, _logging_proxy_loop", "dronecan/driver/mcast.py: mcast.close"]}
{"id": "C130", "title": "Types loaded from definition files work over the bus", "statement": "If two computers load definition files that do not contradict each other, messages, requests and responses that a node on one of them sends with a type that its files define are received by the nodes on the other one, with the content that their own definition of the type says; comments, spacing, constants and the places of the files do not matter.", "quantifier": "all file systems, definitions, namespaces, values, node states, and all frames between those of the transfer", "why_tests_cant": "needs two installations with different files and all types; tests load one set of files and use a handful of types", "anchors": ["dronecan/__init__.py: load_dsdl", "dronecan/dsdl/parser.py: Parser.parse, parse_namespaces", "dronecan/transport.py: Transfer.to_frames, Transfer.from_frames", "dronecan/node.py: Node.broadcast, request, respond, _recv_frame"]}
{"id": "C131", "title": "Nodes with different definitions of a type do not take each other's content for their own", "statement": "If the definitions that two nodes have for the same data type ID have different signatures then neither receives a transfer that the other one sends with it.", "quantifier": "all definitions, values, node states, and all frames between those of the transfer", "why_tests_cant": "needs pairs of definitions whose signatures collide in the CRC; tests use one definition per ID", "anchors": ["dronecan/transport.py: Transfer.from_frames", "dronecan/dsdl/parser.py: CompoundType.get_data_type_signature", "dronecan/node.py: Node._recv_frame"]}
{"id": "C132", "title": "Opening an SLCAN device", "statement": "The constructor of the SLCAN driver returns only if the adapter has been initialised, and all frames received from then on can be received; it raises only if the port could not be opened, the adapter not be initialised, not within ten seconds, or the process has died; it takes at most twenty seconds; if it raises then the I/O process ends.", "quantifier": "all interleavings of the constructor, the two threads of the I/O process and the passing of time; all outcomes of opening, initialising and reading; with and without auto_reopen, on Windows and elsewhere", "why_tests_cant": "needs a serial adapter, two threads and a process that meet at particular moments", "anchors": ["dronecan/driver/slcan.py: SLCAN.__init__, _check_alive", "dronecan/driver/slcan.py: _io_process, rx_thread_wrapper", "dronecan/driver/slcan.py: RxWorker._read_port, RxWorker.run"]}
{"id": "C133", "title": "Handlers that are classes", "statement": "If a class is passed to add_handler then every transfer that it is registered for makes one object of it, of an event and the keyword arguments, and calls one of its methods: on_request with requests of the service, whose answer is then what the object has in response, and on_message otherwise. Of subclasses of node.Service that do not set response, the answer is Response(). Methods are called only so, and on_request with requests only.", "quantifier": "all classes and functions with arbitrary code, all registrations, all sequences of transfers, with and without catch_handler_exceptions", "why_tests_cant": "application classes, mixtures of registrations and sniffed responses are unbounded", "anchors": ["dronecan/node.py: HandlerDispatcher.add_handler, call_handlers, TransferEvent", "dronecan/node.py: Monitor, Service"]}
{"id": "C134", "title": "Two threads share the serial port", "statement": "In the I/O process of the SLCAN driver the thread that reads and the one that writes may each find that the port has failed, and reopen it: close it, open it again, and initialise the adapter. They do so one at a time, at most one port is open at any moment, and no line is written twice or skipped. Once the device is back, all is well after at most two reopenings: whenever no thread is reopening the port, it and the channel of the adapter are open, and all lines written since reach an adapter whose channel is open.", "quantifier": "for all interleavings of the two threads with each other and with the device being unplugged and plugged in again", "why_tests_cant": "the trouble is in schedules: one thread within an operation while the other is between two particular commands; tests run one schedule, and mostly without unplugging anything", "anchors": ["dronecan/driver/slcan.py:85-161 RetrySerial", "dronecan/driver/slcan.py:490-548 _init_adapter"]}
{"id": "C135", "title": "Going through the nodes while they come and go", "statement": "NodeMonitor.find_all hands out entries one by one while the application may let the node spin in between, so that entries are updated, added and removed. It does not raise, and every entry that is there all the time is looked at exactly once; each entry that is handed out is in the registry at that moment; it looks at no more entries than there were when it began. list(find_all(predicate)) is the list of all entries that satisfy the predicate, in the order in which the nodes appeared, and are_all_nodes_discovered tells whether all are discovered.", "quantifier": "for all registries, predicates and interleavings of the generator with status messages, node info, sweeps and look-ups, and whenever the dictionary closes the holes in its array", "why_tests_cant": "whether nodes come or go between two particular steps of a generator depends on the bus; whether entries are skipped depends on when Python rebuilds the array of the dictionary", "anchors": ["dronecan/app/node_monitor.py:133-149 get_all_node_id, find_all, are_all_nodes_discovered", "dronecan/app/node_monitor.py:121-131 get", "dronecan/app/node_monitor.py:156-185 _remove_stale, _on_node_status"]}
{"id": "C136", "title": "Deep copies are independent", "statement": "copy.deepcopy(message) returns a new message that reads the same. From then on, whatever is done to it (integers assigned, nested structures assigned, structures appended to arrays), it reads as the original would if the same had been done to it, and whatever is done to the original does not affect it, nor the other way round. So after outer.field = copy.deepcopy(inner), later changes to inner do not affect outer, unless outer is part of inner.", "quantifier": "for all messages, also such whose parts are shared or contain each other, and all interleavings of operations on the original and on the copy", "why_tests_cant": "sharing between nested structures arises from the history of assignments; a test looks at a few shapes and a few operations", "anchors": ["dronecan/transport.py:536-545 CompoundValue.__deepcopy__", "dronecan/transport.py:564-603 CompoundValue.__setattr__"]}
{"id": "C137", "title": "spin called from callbacks", "statement": "Handlers and callbacks of requests may themselves call spin. However the calls are nested, transfers are reassembled from the received frames in the order of arrival, each handler is called exactly once for each transfer that it is registered for and gets the transfers in the order of their arrival, every request's callback is called once, with its response or with None, and spin raises nothing.", "quantifier": "for all sequences of frames, all handlers, all nestings of calls of spin in handlers, response callbacks and timeout callbacks, to any depth", "why_tests_cant": "nested calls of spin depend on what arrives while a callback runs; tests call spin from the outermost level only", "anchors": ["dronecan/node.py:322-353 Node._recv_frame", "dronecan/node.py:194-203 HandlerDispatcher.call_handlers", "dronecan/node.py:451-499 Node.request", "dronecan/node.py:409-449 Node.spin"]}
{"id": "C138", "title": "The bridge forwards every frame once, in order, to every other port", "statement": "dronecan_bridge.py gives every frame that it receives on a port, and that is from one of the nodes of --filter-nodeid if that is given, exactly once and in the order of reception to every other port and never to the port itself; a port whose queue is full loses the frame, and nothing that a driver raises stops the forwarding.", "quantifier": "for all numbers of ports, all filters, all sequences of frames received on the ports, all exceptions raised by the drivers, and all interleavings of the threads", "why_tests_cant": "the threads interleave arbitrarily, and exceptions of the drivers depend on load and hardware", "anchors": ["tools/dronecan_bridge.py:35-65 BridgeThread"]}
{"id": "C140", "title": "The identifier tool tells the truth about a CAN identifier", "statement": "dronecan_msgid_decode.py, given the CAN identifier of a frame of a transfer in hexadecimal with or without 0x, prints the source, the priority and the data type of that transfer, and for services the destination and whether it is a request.", "quantifier": "for all transfers (all priorities, types, node identifiers, message, anonymous, request and response) and all ways to write the identifier in hexadecimal", "why_tests_cant": "2^29 identifiers in many notations; whether a hexadecimal number is misread depends on its digits", "anchors": ["tools/dronecan_msgid_decode.py:15-62"]}
{"id": "C139", "title": "The TCP tool loses nothing in either direction", "statement": "While dronecan_tcplink.py runs, the serial device behind the node gets exactly the bytes that the TCP peer sends, in order, and the TCP peer gets exactly the bytes that the device sends, in order, up to those that are still to be read; the log file has all of them.", "quantifier": "for all sequences of outcomes of recv and send of the socket that does not block, all messages received and all outcomes of transmissions on the CAN side", "why_tests_cant": "a socket accepts only a part of the bytes under load only, and the interleavings of the two directions are unbounded", "anchors": ["tools/dronecan_tcplink.py:44-60", "dronecan/utility.py:61-109 DroneCANSerial.write, read"]}
{"id": "C141", "title": "Keyword arguments and attribute names reach the message", "statement": "Whatever is given to the constructor of a message as a keyword argument, and whatever is assigned to an attribute, becomes the value of the field of that name, independently of the order of the arguments, or an exception is raised; all other fields have their defaults, constants cannot be changed, and a union takes one field only.", "quantifier": "for all message types, all sets of keyword arguments, all values, all orders", "why_tests_cant": "unbounded sets of types, names and values; a test with the right names never shows what happens to the wrong ones", "anchors": ["dronecan/transport.py:478-520 CompoundValue.__init__", "dronecan/transport.py:547-603 __getattr__, __setattr__"]}
{"id": "C142", "title": "No SLCAN frame is lost for its time stamp", "statement": "Every well-formed frame line from the SLCAN adapter is delivered. A line without time stamp gets the times when it was read; for lines with one, the monotonic and the real time of the frames never decrease, are not later than the reading by more than the fixed delay, and, if the rate error of the adapter is within the configured limit, not earlier than the frame. The options of the driver set the parameters of the estimators.", "quantifier": "for all options, all sequences of lines with and without time stamps, all clocks, all splits of the stream", "why_tests_cant": "unbounded sequences of lines and clock readings; clocks that are set while the driver runs", "anchors": ["dronecan/driver/slcan.py:273-291 RxWorker._process_slcan_line, _process_many_slcan_lines", "dronecan/driver/slcan.py:595-609 _io_process"]}
{"id": "C143", "title": "A DSDL constant has the value that is written", "statement": "A constant whose initial value is a literal (an integer in any base, a decimal number, a character in quotation marks, true or false) has exactly the value that is written, in a floating point type the nearest double, if the type can have this value, and is refused otherwise.", "quantifier": "for all literals, all primitive types, all ways to split the expression into words", "why_tests_cant": "infinitely many literals; only some of them are used in the standard definitions", "anchors": ["dronecan/dsdl/parser.py:584-604 Parser._make_constant", "dronecan/dsdl/parser.py:745-756 evaluate_expression"]}
{"id": "C144", "title": "Arrays are equal just if they say the same", "statement": "Comparing an array field with anything gives an answer: with a list or an array, whether it is as long and has the same numbers or messages at the same places; with a text, whether it has this text. An array is equal to itself, it is equal to the list that was assigned to it if the elements can hold the numbers, and two arrays of one type are equal just if the same is sent for both. `in`, `index` and `count` find exactly the equal elements.", "quantifier": "for all arrays of integers, booleans, floating-point numbers and messages, all lists, arrays and texts they are compared with", "why_tests_cant": "infinitely many values of different types; NaN, zeros of either sign and elements that were never set are easily forgotten", "anchors": ["dronecan/transport.py:366-370 ArrayValue.__getitem__", "dronecan/transport.py:385-389 ArrayValue.__eq__", "dronecan/transport.py:470-473 ArrayValue.decode"]}
{"id": "C145", "title": "Each ESC gets an index of its own", "statement": "However the other nodes behave, the ESC enumeration example asks nodes that have sent an indication to set their parameter to 0, 1, 2, ... in this order and asks none of them twice; only the nodes that are to be enumerated are asked. A node is in the list only if it was told to stop, confirmed the index at which it is in the list and saved it. If the list is returned, each of the nodes is in it once; if the nodes answer as they should, it is returned, in the order of the indications.", "quantifier": "for all sets of nodes, all orders of indications, answers and time-outs", "why_tests_cant": "unboundedly many nodes and interleavings of indications, answers and time-outs; an index given twice makes motors fail in flight", "anchors": ["examples/esc_enumeration.py:36-133 enumerate_all_esc"]}
{"id": "C146", "title": "A firmware update is requested until it begins and awaited until it is over", "statement": "The firmware update example ends, unless interrupted, just if the target has reported that it is updating its software and later another mode. Until the target has reported this, a request is waiting for its answer or planned; afterwards none is sent. Never are two requests waiting or planned, and requests are at least four seconds apart. What other nodes report makes no difference.", "quantifier": "for all orders of status messages, answers, time-outs and deferred calls", "why_tests_cant": "unboundedly many interleavings and durations; nodes that restart in the middle of the conversation", "anchors": ["examples/firmware_update.py:71-126"]}
{"id": "C147", "title": "The options of make_node take effect", "statement": "make_node gives each keyword argument that is an option of the SLCAN driver or of the node, and not None, to what it is an option of, in its place, and works with the documented default otherwise; it ignores all other keyword arguments. The MAVLink driver likewise works with the bus, target system and baud rate given.", "quantifier": "for all dictionaries of keyword arguments", "why_tests_cant": "infinitely many combinations of options; zero, None and names of parameters are easily forgotten", "anchors": ["dronecan/node.py:549-556 make_node", "dronecan/node.py:240-293 Node.__init__", "dronecan/driver/slcan.py:702-758 SLCAN.__init__", "dronecan/driver/slcan.py:553-634 _io_process", "dronecan/driver/timestamp_estimator.py:91-122", "dronecan/driver/mavcan.py:202-217 MAVCAN.__init__"]}
{"id": "C148", "title": "Extracting the data of a message type from a log", "statement": "The example canlog2gps, run on a log of CAN frames until it ends by itself, writes the data of all messages of the type given that are in the log, in the order in which their last frames were recorded, and nothing else. It does end, once receive was called twice more often than there are frames.", "quantifier": "for all logs, all type registries, all durations of spin", "why_tests_cant": "any interleaving of transfers of any nodes, damaged and unknown transfers anywhere in the log, spin interrupted after any number of frames", "anchors": ["examples/canlog2gps.py:19-43", "dronecan/node.py:322-353 Node._recv_frame", "dronecan/node.py:409-449 Node.spin", "dronecan/driver/file.py:135-160 file.receive"]}
{"id": "C149", "title": "Threads that broadcast through one node", "statement": "If several threads of a program call broadcast of one node at the same time, every message of which the call has returned can be received completely from the frames on the bus.", "quantifier": "for all programs of all threads, all message types and values, all schedules of the threads, all numbers of steps", "why_tests_cant": "the result depends on where the threads are interrupted: between reading and writing the transfer ID, and between any two frames; no test runs through all schedules", "anchors": ["dronecan/node.py:355-358 Node._next_transfer_id", "dronecan/node.py:526-543 Node.broadcast", "examples/mavlink_tunnel.py:50-107"]}
{"id": "C150", "title": "The MAVLink tunnel example", "statement": "What a TCP client of the example mavlink_tunnel sends is broadcast completely and in order in Targetted messages of at most 120 bytes, which arrive in spite of the other thread of the program; what arrives in Targetted messages for the node is written to the client in order. A client that connects after the one before has gone is served the same.", "quantifier": "for all sequences of connections, data, exceptions and received messages, all schedules of the two threads", "why_tests_cant": "data of any length in any pieces, messages and connections at any time, any interleaving of the threads", "anchors": ["examples/mavlink_tunnel.py:27-107", "dronecan/node.py:526-543 Node.broadcast"]}
{"id": "C151", "title": "The firmware is served under the name that the device is told", "statement": "The example firmware_update tells the device a name of 7 ASCII characters, the base64 form of the CRC of the path of the firmware. Whatever was requested before, the file server answers requests with this name with the bytes of the firmware, from which a device that reads until it gets less than a full response has the whole file; requests with any other path are answered with an error.", "quantifier": "for all paths, all values of the CRC, all contents of the file, all earlier requests, all offsets, all sizes of the fields", "why_tests_cant": "any CRC of 32 bits, any file, any history of requests of any nodes", "anchors": ["examples/firmware_update.py:24-36", "examples/firmware_update.py:70-71", "examples/firmware_update.py:103-111", "dronecan/app/file_server.py:60-105"]}
{"id": "C152", "title": "A transfer that was logged arrives when the log is replayed", "statement": "Every frame within the limits of CAN that is sent through the log file driver becomes a record of this frame. If the frames of a transfer were sent through it, in order, among any other frames except such with the same identifier and transfer ID, then the log can be opened; replayed at any speed the frames come back in order, none left out, and every node whose registry has the data type and that reads them receives the transfer as it was sent.", "quantifier": "for all data types and values, all transfers, all other frames before, between and after, all time stamps that the format can hold, all speeds, all sequences of calls of receive, all programs and histories of the receiving node", "why_tests_cant": "any traffic, any values, any pace of the calls, any receiving node", "anchors": ["dronecan/driver/file.py:67-112", "dronecan/driver/file.py:132-185", "dronecan/transport.py:714-780", "dronecan/node.py:318-338"]}
{"id": "C153", "title": "The gaps between GNSS fixes are shown", "statement": "The example that looks for gaps between Fix2 messages prints a line for a message just if more than the threshold has passed since the previous message of the same node, and the node is watched. The lines come in order; each has the node, the length of the gap and a positive rate.", "quantifier": "for all sequences of messages of any nodes, all time stamps, all thresholds, with and without --source-node-id", "why_tests_cant": "any interleaving of any number of nodes", "anchors": ["examples/fix2_gap.py:22-38"]}
{"id": "C154", "title": "The RTCM data is dumped and its statistics are right", "statement": "The example that dumps RTCM data writes the data of every message to the file, in order. Without --stats it prints every packet that the decoder finds. With --stats there is a report as soon as a packet comes two seconds after the last report; it says how many bytes were lost so far, and for each kind of packet how many came since the last report, in order, with a positive rate just if there were some, and the total length.", "quantifier": "for all decoders, all sequences of messages, all times", "why_tests_cant": "any decoder, any way in which packets are spread over messages, any times", "anchors": ["examples/rtcm_dump.py:26-86"]}
{"id": "C155", "title": "A transfer crosses the bridge", "statement": "If a port of the bridge receives the frames of a transfer, in order and among others, if frames of the sender are to be forwarded and no call of send_frame of another port fails for them, then the nodes on the bus of the other port receive the transfer, whatever other traffic is on that bus, as long as no other frame there has its identifier and transfer ID. With --filter-nodeid, frames of other senders do not get to the other bus.", "quantifier": "for all data types and transfers, all numbers of ports, all schedules of the threads of the bridge, all other traffic on both buses", "why_tests_cant": "any schedule of the threads and any interleaving with other traffic", "anchors": ["tools/dronecan_bridge.py:35-65", "dronecan/node.py:322-353", "dronecan/transport.py:807-910"]}
{"id": "C156", "title": "The servo example commands the actuator within its limits", "statement": "Every periodic call of the servo example broadcasts one unitless command for the actuator given with --actuator-id (1 by default). The value that a receiver reads is between --actuator-min and --actuator-max, and is the minimum plus the share of the range that the sine stands for, up to rounding.", "quantifier": "for all limits, all identifiers, all values of the sine, any number of calls", "why_tests_cant": "all limits and all values of the sine, with the rounding of floats and of half precision", "anchors": ["examples/servo_control.py:18-59", "dronecan/transport.py:229-245", "dronecan/transport.py:309-333"]}
{"id": "C157", "title": "The throttle of the ESC example", "statement": "Every periodic call of the ESC example sends the same throttle to the first four motor controllers, after a message that switches the safety off if this was asked for. The throttle is the integer part of 512 (s + 2), where s is the sine, up to rounding; it is at least 512 and at most 1536.", "quantifier": "for all values of the sine", "why_tests_cant": "all values of the sine, with the rounding of floats", "anchors": ["examples/esc_control.py:17-32"]}
{"id": "C158", "title": "Floats in integer fields", "statement": "If a float is assigned to an integer field of a message then either the assignment raises or the float is beyond the range of the field and the field then reads as the nearest integer in range. A truncated field raises TypeError for every float; a saturated field raises ValueError for those in range and NaN. A boolean field reads as true just if the float is not zero.", "quantifier": "for all integer types and all floats, infinities and NaN included", "why_tests_cant": "all widths and all floats", "anchors": ["dronecan/transport.py:229-245", "dronecan/transport.py:309-321", "dronecan/dsdl/type_limits.py:15-22"]}
{"id": "C159", "title": "SocketCAN where Python's socket module does not know CAN", "statement": "If the SocketCAN driver, using the C library because Python's socket module does not know CAN, reports a frame as sent, then the frame is on the bus, and another node that reads it with this driver gets the same frame.", "quantifier": "for all valid frames, classic and FD, either byte order, whether write accepts the bytes or fails", "why_tests_cant": "all frames; failures of write; Python versions that nobody runs the tests with", "anchors": ["dronecan/driver/socketcan.py:60-168", "dronecan/driver/socketcan.py:229-252", "dronecan/driver/socketcan.py:274-313"]}
{"id": "C160", "title": "Time stamps with the rounding of floats", "statement": "With the arithmetic of floats and of the decimal module, as Python computes: the time that TimestampEstimator estimates for an event is not later than its arrival if no fixed delay is configured, does not decrease, and is not earlier than the event if the assumptions about the clocks hold. The number of overflows of the source clock is found, and the resolved source time is the true one relative to the first sample.", "quantifier": "for all parameters, all histories of samples that are floats, all overflow periods", "why_tests_cant": "all floats; errors that could accumulate over any number of samples", "anchors": ["dronecan/driver/timestamp_estimator.py:47-79", "dronecan/driver/timestamp_estimator.py:133-173"]}
{"id": "C161", "title": "Timers with the rounding of floats", "statement": "With the arithmetic of floats: the run number k of a periodic timer is due exactly k periods after the start (zero phase drift) and never early; the loop of the scheduler ends; spin does not wait for a frame beyond the next event or its deadline, and stops at the start time plus the timeout.", "quantifier": "for all start times, periods and readings of the clock", "why_tests_cant": "errors that accumulate over any number of runs; all floats", "anchors": ["dronecan/node.py:41-44", "dronecan/node.py:92-107", "dronecan/node.py:410-440"]}
{"id": "C162", "title": "The uptime that a node reports", "statement": "With the arithmetic of floats: the uptime that a node reports is the time since its start to the nearest second. It never decreases while the node runs, so that a node monitor does not take a running node for restarted; and a node monitor notices a restart if the node had run longer before than after it.", "quantifier": "for all start times and readings of the clock, all entries of the node monitor", "why_tests_cant": "all floats; rounding must be monotone", "anchors": ["dronecan/node.py:262", "dronecan/node.py:364-365", "dronecan/app/node_monitor.py:38-46"]}
{"id": "C163", "title": "Monotonic time stamps with the rounding of floats", "statement": "With the arithmetic of floats: SocketCAN and python-can frames get the monotonic time stamp that corresponds to their real one, that is, it differs by what the clocks differ by, up to the fixed delay of a microsecond and rounding.", "quantifier": "for all histories of readings of the clocks in which the monotonic one does not go back, all time stamps", "why_tests_cant": "any number of frames before; any jumps of the real clock; all floats", "anchors": ["dronecan/driver/socketcan.py:204-220", "dronecan/driver/python_can.py:59-75"]}
{"id": "C164", "title": "The commands of the Hobbywing example", "statement": "A command of the example with its arguments sends one request to the target node (GetESCId and RawCommand broadcast a message) whose fields read as the arguments; bit rates and frequencies are sent as the constants of their names. With too few arguments the usage is printed and nothing is sent; if an argument is no number nothing is sent; a bit rate or frequency that does not exist is answered by the list of those that exist.", "quantifier": "for all commands, all arguments that the fields can hold, all definitions of the messages", "why_tests_cant": "all numbers and all field types; the code needs an ESC to be tested", "anchors": ["examples/hobbywing_esc.py:30-215", "dronecan/transport.py:309-333"]}
{"id": "C165", "title": "Requests made by other threads than the one that spins", "statement": "While one thread runs spin, other threads call request. A response to a request that has been sent is given to its callback if there is no other request like it; spin raises nothing; no callback is called twice; a callback is only given a response to its own request; no callback is forgotten: when no timer is left and spin is idle, all callbacks have been called.", "quantifier": "for all numbers of threads and requests, all interleavings of their steps with those of spin, all responses", "why_tests_cant": "the steps of threads interleave in unboundedly many ways, and the bad ones are rare", "anchors": ["dronecan/node.py:322-353", "dronecan/node.py:355-358", "dronecan/node.py:451-499", "dronecan/transport.py:871-885"]}
{"id": "C166", "title": "What the simulated devices tell", "statement": "Every periodic call of the servo simulation sends the states of actuators 3 and 5 with the same position between -1 and 1, force 1, speed 2 and power 17 %. Every call of the range finder simulation sends a valid measurement of lidar 1 between 0.5 and 4.5. Every call of the battery simulation sends the voltage given, rounded to half precision, or with --balance as many equal cell voltages as given, which differ from the quotient by less than 2^(f-10)+2^(f-20) if it is at most 2^f; identifiers beyond 0 and 255 become these. More than 255 cells raise AttributeError and nothing is sent.", "quantifier": "for all values of the sine, all command line arguments", "why_tests_cant": "all floats; the calls depend on the time", "anchors": ["examples/sim_servo.py:17-30", "examples/sim_rangefinder.py:23-41", "examples/sim_battery.py:20-42", "dronecan/transport.py:229-245"]}
{"id": "C167", "title": "Asking a node for its information again and again", "statement": "The example get_nodeinfo sends the first request no earlier than a period (1/rate) after its start and every other one no earlier than a period after the one before; a node that does not answer is asked with the rate given; about every request one thing is printed: the response, or an error when the timeout of half a second given in the example is over.", "quantifier": "for all rates, all times at which spin returns, timers run and responses arrive", "why_tests_cant": "depends on the order of timers and responses in time", "anchors": ["examples/get_nodeinfo.py:20-38", "dronecan/node.py:409-449", "dronecan/node.py:474-499", "dronecan/transport.py:517-520"]}
{"id": "C168", "title": "A node monitor that is asked by other threads", "statement": "While one thread spins and others call NodeMonitor.get: nothing is raised out of spin by the monitor; get returns an entry of the node asked for, filled in, or raises KeyError and nothing else; a node is reported to be offline only when its last message is older than the timeout, and at most once for each time it has appeared; once a node has been announced and while it is not silent for too long, get finds the entry that has been announced.", "quantifier": "for all timeouts, messages, numbers of threads and interleavings of the accesses to the registry, the entries and the clock", "why_tests_cant": "depends on where threads are interrupted", "anchors": ["dronecan/app/node_monitor.py:25-32", "dronecan/app/node_monitor.py:121-131", "dronecan/app/node_monitor.py:156-200"]}
{"id": "C169", "title": "Timeouts with the rounding of floats", "statement": "With the arithmetic of floats: a collected message is outdated, a node offline, a transfer inactive and a query of an allocatee forgotten if and only if more than the timeout has passed since its time stamp; spin returns when its timeout has passed and not before.", "quantifier": "for all timeouts, time stamps and readings of the clock", "why_tests_cant": "rounding depends on all digits of the times", "anchors": ["dronecan/app/node_monitor.py:20", "dronecan/app/node_monitor.py:127", "dronecan/app/node_monitor.py:158", "dronecan/app/message_collector.py:57", "dronecan/app/dynamic_node_id.py:151", "dronecan/transport.py:912-918", "dronecan/node.py:420", "dronecan/node.py:438"]}
{"id": "C170", "title": "The text of a frame tells which frame it is", "statement": "The text of a CAN frame after its time stamps is one line of printable ASCII characters with fixed columns; byte k and the identifier can be read back from fixed columns, and two frames with the same text have the same identifier, format, kind and data.", "quantifier": "for all frames", "why_tests_cant": "there are more pairs of frames than can be tried", "anchors": ["dronecan/driver/common.py:29-54"]}
