{
 "C04": {
  "status": "partial",
  "note": "False of the code for saturated signed widths 54..64 (floating-point limit computation); proved for truncated mode at every width, for saturated mode up to 53 bits, and the wide behaviour is characterised exactly."
 },
 "C09": {
  "status": "partial",
  "note": "False of the code (decoder does not check the declared maximum); counterexamples proved, plus what does hold."
 },
 "C15": {
  "status": "partial",
  "note": "False of the code (a 62-byte payload gives a 63-byte frame); the exact set of payload lengths for which it holds is proved."
 },
 "C22": {
  "status": "partial",
  "note": "False of the code (deleting while iterating raises RuntimeError after the first deletion); exact behaviour of one call and of repeated calls proved."
 },
 "C10": {
  "status": "partial",
  "note": "Capacity and list semantics proved for every history. The clause 'failed operations leave the contents unchanged' is false for assigning a whole list to an array field (and for extend): counterexample proved, true for every single-element operation, and the exact contents left behind are characterised."
 },
 "C61": {
  "status": "partial",
  "note": "False of the code (assignment makes a shallow copy that shares its fields); counterexample proved, plus faithful content at assignment, permanent aliasing, identity of appended elements (C61_append_partial), and independence of objects that share no structure."
 },
 "C31": {
  "status": "partial",
  "note": "False of the code for priority 0 (`priority or DEFAULT` replaces it by 20): counterexample proved; proved for 1..31 on every history, and for responses including 0."
 },
 "C24": {
  "status": "proved",
  "note": "The assumption that callbacks do not raise is necessary: C24_raising_counterexample."
 },
 "C32": {
  "status": "partial",
  "note": "Proved for spin(0). False of the code for spin(timeout), which counts only the first frame: counterexample proved, and the value it does return is characterised."
 },
 "C36": {
  "status": "proved",
  "note": "The sweep theorem is about sweeps that complete (an update callback that raises aborts the sweep); the last-heard characterisation assumes callbacks that do not raise."
 },
 "C37": {
  "status": "proved",
  "note": "A GetNodeInfo request (not response) of the node, which the sniffing handler also receives, resets the retry counter and is counted as a reset; \"raises AttributeError afterwards\" is modelled."
 },
 "C38": {
  "status": "partial",
  "note": "False of the code when an update callback raises inside get(): the OFFLINE event is emitted but the entry stays. Counterexample proved; proved for every history with callbacks that do not raise."
 },
 "C40": {
  "status": "partial",
  "note": "False of the code: if the monitor reports the device under another node ID, it is granted that one later. Counterexample proved; proved for histories in which the initial table and the monitor know the device under no other node ID."
 },
 "C41": {
  "status": "partial",
  "note": "False of the code: a device that asks for a free ID below the range gets it. Counterexample proved; proved that the ID never exceeds the upper end, and lies in the range unless the device asked for one below it."
 },
 "C45": {
  "status": "partial",
  "note": "False of the code: absolute requests, and requests with enough \"..\", are served from anywhere (counterexamples proved). Proved for all relative requests that do not climb above their starting point, and that these are exactly the safe ones (C45_exact)."
 },
 "C44": {
  "status": "proved",
  "note": "A path that is not valid UTF-8 makes the handlers raise before their try block; this is modelled (the file then is not served)."
 },
 "C47": {
  "status": "partial",
  "note": "False of the code for standard (11-bit) frames: sending one raises TypeError (format string with one conversion for two arguments), proved as C47_counterexample. Proved for every extended frame, classic or FD, with or without time stamp; and that the receiving side parses standard lines (C47_standard_rx)."
 },
 "C48": {
  "status": "partial",
  "note": "False of the code around command-line mode: the rest of the read in which a command ends is treated as command output, and a response line that is not UTF-8 loses the frame lines after it (counterexamples proved). Proved for all streams and splits while no command is executed, and for all streams and splits while one command is outstanding (until its end of text or deadline). What becomes of the lines processed: C48_delivered (a line for which a time stamp estimator raises is dropped, C142)."
 },
 "C49": {
  "status": "partial",
  "note": "Frames, order, flags and truncation proved for all logs, cut points and ways of calling receive. The time stamp is false in the last microsecond: int(ts*1e6) truncates a float product, so 0.000249 is read back as 0.000248 (C49_counterexample); C49_stamp_partial bounds the error. Floats are modelled as rationals rounded to 53 bits."
 },
 "C50": {
  "status": "partial",
  "note": "False: get_last_timestamp returns None for every log that can be opened (C50_none, C50_counterexample). The first time stamp is reported correctly (C50_start_partial)."
 },
 "C54": {
  "status": "partial",
  "note": "False of the code if a fixed delay is configured: its sign is wrong, the first estimate is later than the arrival by the fixed delay (C54_exceeds, C54_counterexample). Proved: no failure, estimates never decrease (also across resynchronisation), none later than arrival + fixed delay, none earlier than the event; in full for a fixed delay of zero. For overflowing clocks the disagreement assumption of C53 is needed. Exact arithmetic; C160 is about rounding."
 },
 "C67": {
  "status": "partial",
  "note": "False of the code for data type ID 0: it is accepted and checked for uniqueness but never registered, because load_dsdl tests the truth of the ID (C67_counterexample). Proved for every other ID, and that other entries are kept."
 },
 "C76": {
  "status": "partial",
  "note": "False of the code: an array of padding (void3[4]) is accepted without a name, and an int64 constant of 2**63 is accepted because the range is computed with float division (C76_name_counterexample, C76_range_counterexample). Proved: exactly which types can be without a name (C76_names_partial) and the range that is enforced (C76_range_partial)."
 },
 "C83": {
  "status": "partial",
  "note": "False of the code: the search directory is compared as text, so /a/nsfoo/X.uavcan is accepted as ns.foo.X for the search directory /a/ns (C83_counterexample). Proved: a search directory is a beginning of the file name (C83_prefix_partial) and the files of nested structures lie in a search directory (C83_located_partial)."
 },
 "C84": {
  "status": "partial",
  "note": "False of the code: a directory with a dot in its name gives a namespace that is looked up in nested directories (C84_counterexample). Proved for directories named like components of a namespace, and that it is the same file if no other says the same name (C84_found_partial)."
 },
 "C87": {
  "status": "partial",
  "note": "False of the code: the value so far is fed back with its octets in the other order, which is not injective, so two nested structures with overridden signatures 0x1234 and 0xf35b8145983a67 before another structure give the same data type signature (C87_counterexample). Proved: it holds if the definitions differ in the last nested structure only, in particular with one nested structure (C87_last_partial)."
 },
 "C89": {
  "status": "partial",
  "note": "False of the code: the port of the own sending socket is noted once, at the first reception, so after a reconnection the driver delivers its own frames (C89_own_counterexample); and only the port is compared, so another machine that happens to send from the same port is ignored (C89_port_counterexample). Proved: exactly which datagrams are delivered (C89_exact_partial); the statement holds while the sockets do not fail, if no other machine sends from the same port (C89_steady_partial)."
 },
 "C93": {
  "status": "partial",
  "note": "False of the code: transfer IDs repeat after 32 requests, so a 33rd request to the same service replaces the first one in the dictionary of outstanding requests; when the first one times out, the entry of the 33rd is deleted and its response is ignored (C93_counterexample). Proved: the statement as long as no request is sent while another one with the same server, service and transfer ID is waiting, request callbacks do not raise, and transfer hooks do not add hooks (C93_partial); and the whole round trip from the handler of the server to the callback of the client under the same conditions (C93_round_trip)."
 },
 "C96": {
  "status": "partial",
  "note": "False of the code: the clock is not looked at after a message has been received, so while messages keep arriving (at most 5 ms apart) forwarding is never renewed (C96_counterexample), and a change of the bus is never announced (C96_switch_counterexample). Proved: after every frame sent and every vain wait forwarding was requested within the last second (C96_renewed_partial), never more often than once a second (C96_rate_partial), always for the bus selected last (C96_bus_partial)."
 },
 "C97": {
  "status": "partial",
  "note": "False of the code: only the first 16 identifiers of the list are requested (C97_counterexample). Proved: exactly the first 16, sorted, directly after every request to forward (C97_filter_partial); the statement for lists of at most 16 identifiers (C97_partial)."
 },
 "C98": {
  "status": "partial",
  "note": "False of the code: a non-empty dynamic array of 8-bit integers anywhere in what is shown raises AttributeError, since is_printable is called on an integer (C98_raises, C98_counterexample). Proved: the statement for all other values (C98_partial); with C98_raises every value is covered."
 },
 "C99": {
  "status": "partial",
  "note": "False of the code: the quotes are those of Python, so texts with a backslash or a control character and no single quotes, or with both kinds of quotes, are read as other texts or not at all (C99_text: exactly these); infinities and NaN are strings in YAML (C99_nonfinite, C99_counterexample); a dynamic array of int8 raises ValueError if the first item that is not a character is negative (C99_negative). Proved: the statement for all values in which none of these is shown (C99_partial), also for transfers (C99_transfer); every integer field is on a line of its own with the name value_to_constant_name gives as a comment (C99_comment)."
 },
 "C101": {
  "status": "partial",
  "note": "False of the code: send accepts standard frames, but the TX worker raises an exception for each of them, so that they are never written (C101_counterexample). Proved: order, completeness and hooks for everything offered (C101_order, C101_errors, C101_hooks), and the statement for extended frames (C101_partial)."
 },
 "C102": {
  "status": "partial",
  "note": "False of the code: an ACK is not attributed to a command, so the end of a frame line received while the channel is being closed (C102_counterexample) or a late answer (C102_late_counterexample) makes the refusal of O go unnoticed. Proved: the statement for adapters that answer in time and send nothing else that looks like an answer (C102_partial), the commands sent (C102_script), unsupported rates (C102_unknown), success (C102_success)."
 },
 "C103": {
  "status": "partial",
  "note": "False of the code: RetrySerial.retry forgets a failed initialisation, and the next write goes to an adapter that is not ready (C103_counterexample). Proved: the statement if the last initialisation needed did not fail, for prompt and quiet adapters (C103_partial)."
 },
 "C104": {
  "status": "partial",
  "note": "False of the code: if flush_tx_buffer raises ENOBUFS after send has succeeded, the frame is sent again (C104_counterexample). Proved: the statement if flush_tx_buffer does not raise (C104_partial), what is on the bus and reported in general (C104_order), refusals and the limit of the queue (C104_fd, C104_send, C104_send_raises)."
 },
 "C105": {
  "status": "partial",
  "note": "False of the code: standard, remote and error frames are returned as extended data frames; the timeout is multiplied by 1000 although Bus.recv takes seconds; without a timeout receive does not wait (C105_counterexample). Proved: order, identifier, data and hooks for all messages (C105_order), the statement for extended data frames (C105_partial), what the timeout means (C105_waits, C105_no_wait)."
 },
 "C106": {
  "status": "partial",
  "note": "False of the code: the loop runs over the live list, so a hook that removes itself makes the next hook miss the frame (C106_counterexample). Proved for all behaviours of the hooks: at most once and in order (C106_once), only registered hooks with the right arguments (C106_truthful), which hooks are called (C106_called), removal (C106_remove); the statement if no hook is removed while the frame passes (C106_partial)."
 },
 "C107": {
  "status": "partial",
  "note": "False of the code: send_frame calls the hooks before it finds the queue full, so they see frames that are refused (C107_counterexample); and the process does not catch the exception of a full reception queue, so it dies when the application does not read for long enough (C107_dies). Proved for all interleavings: order and completeness of both directions (C107_send, C107_receive), exactly when frames are refused and the process dies (C107_limits), that receive returns when it should (C107_returns), the statement while the queues do not overflow (C107_partial)."
 },
 "C108": {
  "status": "partial",
  "note": "False of the code: NodeMonitor.close does not remove the handler for GetNodeInfo, so a closed monitor keeps updating its registry and emitting events when responses pass (C108_counterexample). Proved for all histories: nothing else is called late (C108_partial), other objects are unaffected (C108_others), the first close returns and the second raises (C108_first, C108_twice); Node.remove_handlers removes the handlers of that type only (C108_types)."
 },
 "C109": {
  "status": "partial",
  "note": "False of the code: the flags of can_id are masked, so that a remote transmission request is returned as a data frame with as many zeros as it asks for (C109_counterexample). Proved: the statement without such messages (C109_partial); what is returned for every sequence of messages of the kernel (C109_kernel) and of arbitrary messages and exceptions of the socket (C109_order); the waiting times (C109_timeout, C109_forever; negative timeouts wait for ever); exceptions of the writer thread (C109_feedback); the model of transmission is unchanged (C109_writer), and goes on while the main thread waits (C109_writer_always)."
 },
 "C110": {
  "status": "partial",
  "note": "False of the code: when the real clock is set forward by less than 50 ms, time stamps lie in the future by nearly as much (C110_counterexample, C110_future). Proved for all histories (C110_partial): never more than a microsecond too early nor 50 ms too late, and exact up to the fixed delay as long as the real clock gains at most 100 ppm on the monotonic one."
 },
 "C111": {
  "status": "partial",
  "note": "False of the code: a float for a float16 field is rounded to single precision first, so that the result need not be nearest (C111_counterexample). Proved: the statement for float32 and float64 fields, with ties to even (C111_wide, C111_double: float64 fields keep every float), for float16 fields and numbers of single precision (C111_partial), the exact double rounding of float16 fields (C111_half), and what integers do (C111_int: in truncated fields, those that have no float raise OverflowError)."
 },
 "C112": {
  "status": "partial",
  "note": "False of the code: an infinity that was received in a saturated field and is assigned to another one becomes the greatest number (C112_counterexample). Proved for all numbers, and for infinities in truncated fields (C112_partial)."
 },
 "C113": {
  "status": "partial",
  "note": "False of the code: each call starts from an empty tree, so types loaded by earlier calls disappear from the attributes (C113_counterexample), and only sub-namespaces are copied to the module, so a type directly in a root namespace of the package is not an attribute (C113_root_types: uavcan.T is found nowhere, com.T only below thirdparty). Proved for all sequences of calls: no call raises and the types of the last call that are not directly in such a root are found (C113_partial); whatever is found is the last type of that full name of the last call (C113_nothing_else)."
 },
 "C114": {
  "status": "partial",
  "note": "False of the code: call_handlers does not look at the direction. With a node monitor, the node's own GetNodeInfo handler is called with responses that pass between other nodes, and the monitor's sniffing handler with requests to the node (C114_counterexample). Proved for all histories: the exact condition under which a handler is called (C114_when), the two ways in which the direction can be wrong (C114_partial), and that messages and services are never confused (C114_kinds)."
 },
 "C115": {
  "status": "partial",
  "note": "Proved for multicast, SocketCAN, MAVLink and python-can (which has classic CAN only), and for SLCAN with frames of lengths that exist. False for SLCAN in general: a CAN FD payload of 62 bytes gives a frame of 63 bytes (C15), the adapter's time stamp is then taken for data, and the transfer is lost (C115_counterexample). For SLCAN also under the condition that no time stamp estimator raises (C142 says when)."
 },
 "C116": {
  "status": "partial",
  "note": "Proved for all names, except that with python-can installed the name of a CAN interface needs the keyword argument bitrate; without it KeyError is raised (C116_no_bitrate, C116_counterexample: make_driver('can0'), an example from the docstring)."
 },
 "C117": {
  "status": "partial",
  "note": "The first half is proved (C117_only, C117_rx). The second is false: while RetrySerial (the default) cannot reopen a port that is gone, the RX worker never looks at should_exit, so that a process whose parent has died stays for ever (C117_hangs, C117_counterexample); and when the RX worker has given up, the process goes on as long as the application keeps sending (C117_traffic). Proved if no call hangs and, where the end of the RX worker is the only reason, nothing is sent meanwhile (C117_loop, C117_exit, C117_partial)."
 },
 "C118": {
  "status": "proved",
  "note": "C118_open, C118_replay, C118_unpaced (speedup=-1), C118_paced (speedup>0), C118_progress."
 },
 "C119": {
  "status": "partial",
  "note": "False: get notifies before it deletes, so that a callback that looks up the node it is told to be offline makes get call itself until the stack is exhausted, whatever its size (C119_recursion, C119_counterexample); and get may delete a node that the sweep still has in its snapshot, whereupon the sweep raises KeyError and leaves the rest (C119_sweep). Proved if no callback looks up a node while it is told that one is offline (C119_partial). If the callbacks look up nothing the monitor is that of C36-C38 (C119_without)."
 },
 "C120": {
  "status": "partial",
  "note": "False: a device that appears under a node ID recorded for another device is ignored, and the recorded device gets the ID again while it is in use (C120_counterexample); a node first heard through a GetNodeInfo request or a response with an unreadable name is not reported to the server, which grants its ID to whoever asks (C120_unheard). Proved in full if all GetNodeInfo transfers are readable responses and no device reports its unique ID under an ID recorded for another (C120_honest_partial); without the last condition: only to the device recorded (C120_known_partial). Without conditions: an ID recorded for a device is granted to no other (C120_owner), and nothing is granted while a listed node may still be asked (C120_discovered); after a node with a free ID tells its unique ID, the ID is granted to no other (C120_reported_partial)."
 },
 "C121": {
  "status": "partial",
  "note": "False: frames that wait when the driver is closed are neither sent nor reported (C121_counterexample, C121_python_can_counterexample), and send_frame goes on accepting frames of which nothing is ever heard (C121_deaf). Proved for all histories: nothing is sent after close has returned and the waiting frames stay in the queue (C121_silent, C121_python_can_silent); after the flag is set the writer thread makes at most one further step in SocketCAN (C121_returns) and finishes what it has in hand in python-can (C121_python_can_returns). If nothing waits and nothing is in hand when close is called, each accepted frame has its report (C121_orderly_partial). Looking at the flag and sending are one step of the model, so nothing is claimed about the time between the flag being set and close returning."
 },
 "C122": {
  "status": "partial",
  "note": "False: no name is refused (C122_counterexample): a name with a further colon gives the first bus, otherwise Python's int reads it, with blanks, sign and underscores (C122_exact); if that raises or the number has more than 8 bits, the I/O process dies and the driver goes on accepting frames (C122_dead). For the documented names it is proved in full (C122_partial, C122_apart)."
 },
 "C123": {
  "status": "partial",
  "note": "False: arrays of int8 count as string-like, and text beyond ASCII put into them is changed (C123_signed_counterexample; exactly the ASCII texts read back: C123_signed); a text that is too long leaves its beginning in the field, possibly with half a character (C123_cut_counterexample; exactly what is left: C123_refused). For uint8 arrays and texts that fit it is proved in full (C123_partial), also through the wire (C123_wire). The UTF-8 codec of Python is modelled after table 3-7 of the Unicode standard and proved to be the relation of RFC 3629 in both directions."
 },
 "C124": {
  "status": "partial",
  "note": "False: the levels 4 to 7 give IndexError (C124_level_counterexample), texts that are not valid UTF-8 give UnicodeDecodeError (C124_cut_counterexample); nothing is logged then. For messages made by assigning one of the four levels and texts that fit, from the sender's assignments through the wire to the log line: C124_partial; for all messages exactly when and what is logged: C124_exact."
 },
 "C125": {
  "status": "partial",
  "note": "False: a request whose path is not valid UTF-8 is not answered, since the arguments of the logger call are evaluated before the try (C125_counterexample; exactly those requests: C125_refused). All other requests are answered with the bytes or the error: C125_partial; likewise GetInfo: C125_info. From the client's assignments (C125_made) through both nodes and the frames on the bus to the client's callback: C125_exchange; the answers put together are the file: C125_file."
 },
 "C126": {
  "status": "partial",
  "note": "False: the search for a free node ID stops above the lowest one of the range (range(hi, lo, -1)), so a device that does not ask for it does not get the lowest one when it alone is free (C126_counterexample; exactly when the third request is not answered: C126_refused). In all other cases the device gets a node ID: C126_partial. Frames of the device to the nodes: C126_heard; answers of the server to the frames of its node: C126_answer; from the device to the device: C126_exchange."
 },
 "C127": {
  "status": "proved",
  "note": "Status to the frames of its node: C127_told; at the monitor: C127_heard; the request of the monitor to frames: C127_asks; the answer of the built-in handler to the callback: C127_answer (under the conditions of C93); at the monitor: C127_seen; all of it: C127_exchange. The update callbacks do not raise and do not call the node."
 },
 "C128": {
  "status": "partial",
  "note": "False: handle_Targetted does not look at serial_id, so a port takes the bytes for any device of its node (C128_counterexample). If no others are sent from the node to the node: C128_partial (from port to port). The messages that a history broadcasts: C128_messages; to the frames: C128_told; at the port: C128_heard."
 },
 "C129": {
  "status": "partial",
  "note": "False for each of them (C129_counterexample): MAVCAN.close joins a process that waits for its frames to be written into a pipe that nobody reads (C129_mav_counterexample, C129_mav_hangs), and raises queue.Full when called again (C129_full_counterexample; exactly when: C129_mav_full); SLCAN.close blocks in put when the queue is full and the process does not take from it, even if it dies (C129_sl_counterexample, C129_sl_hangs); mcast.close does nothing (C129_mc_counterexample, C129_mc_goes_on). What holds: C129_mav_dead, C129_mav_asked, C129_mav_returns, C129_sl_dead, C129_sl_polite, C129_sl_returns, C129_sl_again."
 },
 "C130": {
  "status": "proved",
  "note": "For files that agree with each other and an ID that only the files of the type have (OwnId; otherwise the tables hold the type that was loaded last). The tables are those of C67."
 },
 "C131": {
  "status": "partial",
  "note": "False: transfers of one frame carry no CRC and are decoded as if they were of the node's own type (C131_counterexample), and the CRCs of different signatures can be the same (C131_crc_counterexample). Proved for transfers of several frames if the CRCs of the signatures differ (C131_partial), which they do if the signatures differ within 16 consecutive bits or in an odd number of bits (C131_close)."
 },
 "C132": {
  "status": "partial",
  "note": "False: the RX worker is started before the end of the initialisation is reported; frames that it reports before are lost (C132_lost_counterexample), and its exceptions make the constructor raise (C132_counterexample). With auto_reopen=False, except on Windows, nothing is ever received: the port is a serial.Serial, which has no select_read (C132_no_reopen, C132_deaf_counterexample). Proved otherwise (C132_partial); what is lost and raised exactly: C132_returned, C132_raised; the times: C132_timely, C132_prompt; the end of the process: C132_gone, C132_alive."
 },
 "C133": {
  "status": "partial",
  "note": "False of the code: if another handler sniffs the responses of a service then on_request is called with them, as self.request (C133_counterexample); a subclass of node.Monitor registered for a service, sniffing or not, raises AttributeError for every transfer (C133_monitor_service). Proved: what happens to a transfer given to a class or a function (C133_class, C133_function), one object per transfer and registration (C133_new), methods are called only for it (C133_methods), responses (C133_answers), what the dispatcher does with exceptions (C133_uncaught), the base classes (C133_monitor, C133_service, C133_service_other), and that only requests reach on_request if no responses reach the dispatcher (C133_partial)."
 },
 "C134": {
  "status": "partial",
  "note": "Proved of all schedules: the lock protects (C134_lock), one port at most is open (C134_one), lines are written once each and in order (C134_lines). The rest is false of the code: operations do not take the lock. After one unplugging the threads may close the port under each other for ever (C134_endless, C134_counterexample); the reading thread may take the answers that the initialisation in the other waits for, which then gives up silently with the channel closed (C134_deaf_counterexample) and all lines are lost from then on (C134_deaf_ever); a line written during the initialisation goes to a closed channel (C134_lost_counterexample). Proved if no operation begins while the lock is held or is in progress when it is taken (C134_partial)."
 },
 "C135": {
  "status": "partial",
  "note": "Proved: what is handed out is in the registry (C135_sound), the number of steps is bounded (C135_ends), list(find_all()) and are_all_nodes_discovered (C135_list, C135_discovered), and that all operations of the monitor are changes of the kind considered (C135_monitor). The rest is false of the code: a node that appears or disappears between two steps makes the generator raise RuntimeError (C135_raises, C135_counterexample); a stale node that is heard of again is deleted and inserted, after which the generator may silently hand it out twice and leave out another (C135_skips_counterexample). Proved if no node comes or goes (C135_partial), as when only nodes that are listed and not stale are heard of (C135_heard), and, for generators that end without raising, if the array is not rebuilt (C135_complete_partial)."
 },
 "C136": {
  "status": "proved",
  "note": "By a simulation between the part of the heap that is copied and the copies (C136_deepcopy, C136_same); termination also for structures that contain themselves. C136_assign: what C61 asks for holds if a deep copy is assigned."
 },
 "C137": {
  "status": "partial",
  "note": "False: handlers registered later get transfers out of order when an earlier handler calls spin (C137_order_counterexample); a response that arrives again while the callback of the request calls spin calls the callback again, and then spin raises KeyError (C137_twice, C137_counterexample). Proved for all nestings: reassembly (C137_frames), exactly one call per handler and transfer (C137_handlers), the order for handlers with no earlier one that receives something (C137_order_partial), the fate of requests (C137_responses, C137_requests), no other exception than KeyError (C137_raises), and no KeyError and no second call if no response is repeated (C137_single_partial)."
 },
 "C138": {
  "status": "partial",
  "note": "False: any exception but TxQueueFullError from send_frame, such as DriverError for a CAN FD frame or queue.Full of the MAVLink and multicast drivers, and every exception from receive, also TransferError (the except clause names a class that does not exist), ends the thread of the port (C138_counterexample, C138_transfer_error), after which nothing of that port is forwarded (C138_deaf). Proved for all executions: order and number of the frames given to each port (C138_order, C138_forwards, C138_no_echo, C138_count), the filter (C138_filter), independence of the threads (C138_others), and everything if nothing else is raised (C138_partial). If two ports are on the same bus, one frame may be sent without end (C138_storm)."
 },
 "C140": {
  "status": "partial",
  "note": "False: an identifier in hexadecimal without 0x whose digits are all decimal, such as 10015501, is read as a decimal number (C140_counterexample), and for anonymous messages the number printed as the type has the discriminator in it (C140_anonymous_counterexample, C140_anonymous says what is printed). Proved for all other transfers and all numbers with the prefix or with a letter (C140_partial, C140_hex, C140_bare, C140_decimal); what is refused is no number (C140_refused)."
 },
 "C139": {
  "status": "partial",
  "note": "False for the direction from the device: the number of bytes that send accepts is ignored, so the rest is lost (C139_counterexample), and if the socket is full send raises and the tool ends. Proved: the direction to the device for all executions (C139_to_device), both directions if send takes all (C139_partial), order and no duplication in any case (C139_safe), the log (C139_log); a peer that closes the connection is not noticed (C139_closed)."
 },
 "C141": {
  "status": "partial",
  "note": "False: a name that is not declared, such as a misspelled one, becomes an attribute of the Python object without any exception, it can even be read back, and the message is sent with the default (C141_counterexample, C141_silent). Proved: declared fields (C141_field, C141_partial, C141_sent), constants (C141_constant, C141_refused), names that begin with an underscore (C141_refused), unions (C141_union), reading (C141_read, C141_read_union)."
 },
 "C142": {
  "status": "partial",
  "note": "False: if the real-time clock has been set back since the last line with a time stamp, the next such line raises an AssertionError in the estimator of the real time and its frame is lost (C142_set_back, C142_counterexample); it costs one frame (C142_once). A rate error or resynchronisation limit of 0 silently means the default (C142_zero). Proved: all of it for sane clocks (C142_partial, C142_not_early), the options (C142_options), the worker (C142_worker, C142_none_lost). Exact arithmetic."
 },
 "C100": {
  "status": "partial",
  "note": "All of it is proved except that a frame line is lost when a time stamp estimator raises, which happens when the real-time clock has been set back (C142; C100_counterexample); C100_frames_partial is for histories in which that does not happen."
 },
 "C143": {
  "status": "partial",
  "note": "False: a decimal number in an integer type loses its fraction (`uint8 A = 2.5` is 2, and `-0.5` is accepted as 0) and, above 2^53, its last digits (C143_counterexample, C143_truncated). The characters blank and # cannot be written: the blank is removed, the # begins a comment, and the line is refused (C143_blank, C143_hash). Since white space is removed first, `1 2` means 12. Proved: the claim for all other literals and types, including when they are refused (C143_whole, C143_float, C143_partial). Not covered: expressions other than literals, decimal numbers other than zero below 2^-1022."
 },
 "C144": {
  "status": "partial",
  "note": "False: comparing with a text raises ValueError if the array is no dynamic array of 8-bit integers or is not UTF-8 (C144_text_counterexample); an array with NaN is not equal to itself (C144_nan_counterexample); zeros of either sign are equal though sent differently (C144_zero_counterexample); messages are compared by identity, so that arrays of copies are never equal, e.g. that of a message sent and received (C144_copy_counterexample, C144_compound). Proved: lists (C144_list), arrays (C144_array), other objects (C144_other), texts (C144_text), an array and itself (C144_self), what is sent for integers (C144_partial) and floats without NaN and negative zero (C144_float), what was assigned (C144_assigned, C144_assigned_float), searching (C144_search)."
 },
 "C145": {
  "status": "partial",
  "note": "False: any node that sends an indication gets an index, even if it is none of the nodes to be enumerated (C145_counterexample), and then the list is never returned (C145_stuck). Proved: the indices (C145_indices), what was confirmed (C145_confirmed), the list returned (C145_returned), that it is returned if all answer (C145_all), that wrong answers, time-outs and the deadline end the program (C145_raises, C145_deadline, C145_end), and the whole claim when only nodes to be enumerated send indications (C145_partial)."
 },
 "C146": {
  "status": "partial",
  "note": "False: if the target does not answer a request, or answers that an update is in progress, it is never asked again (C146_counterexample, C146_given_up), e.g. when it was restarting. Proved: when the program ends (C146_exit, C146_exits), no request after the beginning (C146_quiet), one request at a time, four seconds apart (C146_pace), other nodes (C146_others), asked again after other answers (C146_again), the whole claim if all requests are answered otherwise (C146_partial)."
 },
 "C147": {
  "status": "partial",
  "note": "False: a rate error of 0 ppm is replaced by 200 ppm (C147_counterexample), a node_status_interval of 0 by one second (C147_interval_counterexample); the keyword arguments device, device_name, can_driver, self and can_device_name are not ignored but make the call fail, device only after the constructor has waited for the process (C147_names_counterexample); the MAVLink bus number 0, which set_bus refuses, becomes bus -1 (C147_bus_counterexample). Proved: everything else (C147_partial, C147_ignored, C147_mavcan)."
 },
 "C148": {
  "status": "partial",
  "note": "False: the first transfer in the log that is damaged or of an unknown type raises TransferError out of spin and ends the program; all that is recorded after it is lost (C148_counterexample). Proved: it is true if there is no such transfer (C148_partial), and in general the output is exactly the data of the messages recorded up to the first such transfer, or up to ctrl-C (C148_prefix)."
 },
 "C149": {
  "status": "partial",
  "note": "False: the node has no lock. Two threads that broadcast the same type can read the same transfer ID; if their frames are interleaved then neither message arrives (C149_counterexample). Proved for all schedules if each type is broadcast by one thread only, as in the example of the MAVLink tunnel: every message arrives (C149_partial), transfer IDs count modulo 32 (C149_ids_partial), and each thread's messages are sent in their order (C149_order_partial)."
 },
 "C150": {
  "status": "partial",
  "note": "False for the second client: recv returns no bytes for ever when a client has gone, so accept is never called again (C150_counterexample); only the first client is ever accepted (C150_first_only). Proved: the first client is served in both directions while nothing raises (C150_served, C150_pieces), the messages arrive in all schedules (C150_arrives, with C149), what was broadcast is always a beginning of what was sent (C150_prefix), and an exception in the thread ends everything (C150_end)."
 },
 "C151": {
  "status": "proved",
  "note": "The CRC is any function of the path. The definitions of the file types are those of the standard, with capacities and cast modes left open (C125)."
 },
 "C152": {
  "status": "proved",
  "note": "Puts together C49, C91, C115 and C118. Time stamps are those of C49."
 },
 "C153": {
  "status": "partial",
  "note": "Counterexample: time stamps that go back can make the average zero; then a gap raises ZeroDivisionError and is not shown. Proved if the time stamps of each node do not go back. If moreover the times between a node's messages have bounds, the rates shown are within the corresponding bounds, up to rounding."
 },
 "C154": {
  "status": "partial",
  "note": "Counterexamples, both with --stats: after two packets of a kind at the same clock reading the next report divides by zero and the data of that message is not written; a kind of packet that came for the first time is in no report until it came again. Proved: everything without --stats; with --stats, if the clock moves on between packets, the file and the reports, where kinds of packet that came twice since the last report have a line. If the times between packets of a kind have bounds, the rates are within the corresponding bounds, up to rounding."
 },
 "C155": {
  "status": "proved",
  "note": "The theorem about the bridge (C138) and those about nodes (C91, C115) put together. That a call of send_frame that succeeds puts the frame on the bus, in order, is a hypothesis (`OnBus`)."
 },
 "C156": {
  "status": "partial",
  "note": "Counterexamples: --actuator-id is converted to a float, which the field does not accept, so that every call with it raises ValueError and the program ends (numbers beyond 255 command actuator 255, negative ones actuator 0); with a limit that is not a number of half precision the value read may be beyond it. Proved: all of it without --actuator-id, the limits if they are numbers of half precision; what happens with --actuator-id."
 },
 "C157": {
  "status": "proved",
  "note": "The sine is any number from -1 to 1."
 },
 "C158": {
  "status": "partial",
  "note": "Counterexample: in saturated signed fields of 54 bits or more the bound is wrong (C04), and infinity reads as a negative number. Proved for unsigned fields and signed ones of up to 53 bits."
 },
 "C159": {
  "status": "partial",
  "note": "Counterexamples: the result of write is not checked, so that a frame whose write failed is reported as sent; send is called without canfd, so that an FD frame is cut to 16 bytes and is on the bus as a classic frame with its first eight bytes. Proved: the statement for classic frames that write accepts; what becomes of FD frames and of failed writes, for all frames; a failed read makes receive raise struct.error."
 },
 "C160": {
  "status": "partial",
  "note": "Counterexamples: p - (p - q) may exceed q by rounding, so that an estimate is later than the arrival and the next one earlier than the one before. Proved: all of it up to a few units of 2^-52 times the largest clock value (half a microsecond for times of day until 2038), which do not accumulate; this for clocks that do not overflow, the bound by the arrival for any. For clocks that overflow: the number of overflows is found if the clocks disagree by less than half a period less a small margin, and the resolved time is wrong by at most 2^-52 periods per sample."
 },
 "C161": {
  "status": "partial",
  "note": "Counterexamples: with a period of 0.1 the third run is not due after three periods, since the deadlines are added up; if the period is lost in rounding, the loop of the scheduler never ends. Proved: never early; the error is at most k times 2^-52 of the largest clock value, and no run is missed; the number of runs is limited; spin waits until the next event, up to rounding and the time between the two readings of the clock that the scheduler makes."
 },
 "C162": {
  "status": "partial",
  "note": "Counterexample: half a second less 2^-60 is reported as one second. Proved: nearest up to a unit of rounding (2^-51 of the clock); monotone without exception; a restart is noticed if the node had run more than a second longer."
 },
 "C163": {
  "status": "partial",
  "note": "Counterexample: if the real clock is set forward by less than 50 ms then the time stamps are too late by this. Proved, with rounding errors: never too early by more than a microsecond, never too late by more than 50 ms whatever the real clock does; too early by the microsecond if the real clock has never been more than 100 ppm faster. With exact numbers, and for whole runs of the driver, this is C110."
 },
 "C164": {
  "status": "partial",
  "note": "Counterexample: for a bit rate that does not exist, and likewise for a frequency, TypeError is raised, since str.join does not take integers. All else is proved. The definitions are parameters; fields are unsigned, or signed of up to 53 bits."
 },
 "C165": {
  "status": "partial",
  "note": "Counterexamples: a response that arrives before the request is registered is lost; one that arrives between the two insertions makes spin raise KeyError, one while spin goes through the dictionary RuntimeError; a callback is called twice if its timer runs before the request is registered and a response follows. Proved for all schedules: callbacks only get answers to their own requests, and none is forgotten. Proved with a hypothesis: at most once, if no thread is delayed in request until its timer runs; nothing raised, if the insertions and the work of spin exclude each other; delivery, if the request is registered, no other is answered by the response and spin is not interrupted."
 },
 "C166": {
  "status": "proved",
  "note": "The sine is any number from -1 to 1. The types of the fields are those of the standard definitions, which are not part of the repository."
 },
 "C167": {
  "status": "partial",
  "note": "Counterexamples: the argument timeout_sec=0.5 of the request has no effect, the timeout is the default of a second; the callback raises AttributeError when it runs out, which ends spin early, so a node that does not answer is asked less often than with the rate given, even if nothing is late. Proved for all runs: the distance of the requests, at most one report for each request, none just while its timer is set, errors not before the timeout of request, responses printed."
 },
 "C168": {
  "status": "partial",
  "note": "Counterexamples: KeyError leaves spin when get deletes an entry that _remove_stale is about to delete; both report it, so that it is offline twice; a node is reported to be offline and deleted just after a message of it; get raises TypeError between the insertion of an entry and its first update, and may return an entry of which nothing is filled in. Proved for all interleavings: whose entry is returned and reported, and which exceptions there can be; everything if the threads exclude each other; and, while no last message is found too old, that nothing is raised or reported to be offline and that announced nodes are found. What get, a message and _remove_stale do while no other thread runs is proved from every state."
 },
 "C169": {
  "status": "partial",
  "note": "Counterexamples: rounding can hide at one reading of the clock that a message is outdated, or a transfer inactive by less than a unit of rounding; spin returns too early by less than a unit of rounding. Proved: without exception, nothing is outdated, offline, inactive or forgotten too early; what is outdated is so at every later reading of the clock, what is inactive stays inactive and is so after a unit of rounding; spin is never late and early by a unit of rounding at most."
 },
 "C170": {
  "status": "partial",
  "note": "Counterexample: the constructor accepts a standard frame with an identifier of more than 11 bits, whose text can be that of an extended frame. Proved: for every frame that can be on a bus (identifier of 29 or 11 bits, no more data than the kind of frame holds) the text determines the frame, and identifier and bytes are at fixed columns; for every frame at all the text is printable ASCII. The format of the time stamps is not modelled."
 }
}