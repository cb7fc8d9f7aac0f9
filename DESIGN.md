# Formal model of `abc` (C++ library) in Lean 4

Subject: the sources in `/repo` (read as text, never built).  Every definition of the model cites
the file and lines it transcribes.  Properties are listed in `properties.jsonl`; the theorems that
discharge them are listed in `MANIFEST.json`; the mutation tests of the theorems are in
`seeded/LOG.jsonl`.

## Conventions

* `char` is modelled as `UInt8` or as a byte `Nat`; comparisons that the C++ code performs on
  (signed) `char` are done on the signed value.
* Undefined behaviour of C++ (out-of-bounds access, division by zero, use of an uninitialised
  value) is a distinct outcome of the model (`none`/`ub`/`bad`), never a default value.
* Loops that may not terminate are modelled with a step relation or with fuel, and the theorems
  state for which inputs a finite number of steps suffices; non-termination claims are stated as
  "for every number of steps the loop has not finished".
* State machines are `init`/`step`; theorems range over every finite list of operations, and for
  threads over every schedule.
* When the code does not satisfy a property, the full statement is kept as a `Prop` (`CxxFull` or
  the statement in the comment), its negation is proved on a concrete witness (`..._violated...`) and
  the part which does hold is proved as `..._partial`.
* Layout: `Verif/<Area>/Model.lean` (transcription of the code), `Spec.lean` (independent
  specification, when it is more than a line), auxiliary files, `Props.lean` (the property theorems,
  each followed by a concrete instance of its hypotheses).

## What is modelled

| area | code | model |
|------|------|-------|
| timestamp | `src/timestamp.h` reset, reset_date, reset_time, six comparison operators | `Timestamp/Model.lean` |
| strings | `src/ascii.h` character classes, `are_equal*`, `to_lower` | `Ascii/Model.lean` |
| streams | `src/stream.h` `_istream`/`_ostream` helpers (peek, get, skip, put with fail bits) | `Stream/Model.lean` |
| stream buffers | `src/buffer_streambuf.h`, `src/socket.h` socket_streambuf, `src/x/vmem_string.x.h` vmem_string_streambuf | `Streambuf/Model.lean` |
| lines and logs | `src/table.h` line_ostream, `src/log.h` filters, dump, the three line formats with `put_timestamp`, `put_thread_id`, `put_binary` | `Log/Model.lean`, `Log/Entry.lean` |
| multifile | `src/multifile.h` | `Multifile/Model.lean`; under a log of several threads: `Log/Files.lean` |
| HTTP | `src/http.h`, all reader and writer functions, resource splitting | `Http/Model.lean` |
| JSON | `src/json.h`, all reader and writer functions | `Json/Model.lean` |
| endpoint | `src/endpoint.h` request/file routing, paths, file body; start/shutdown/request threads | `Endpoint/Model.lean`, `Endpoint/Shutdown.lean`, `Endpoint/Wire.lean` (whole requests) |
| SMBus | `src/x/gpio_smbus.x.h`; its steps under several threads | `Smbus/Model.lean`, `Smbus/Threads.lean` |
| PWM | `src/x/gpio_smbus_pwm.x.h`, servo pulse, `src/x/gpio_pwm_emulator.x.h` arithmetic | `Pwm/Model.lean` |
| grayscale sensor | `src/x/gpio_smbus_grayscale.x.h` | `Gpio/Grayscale.lean` |
| GPIO threads | worker threads of `gpio_pwm_emulator.x.h` and `gpio_smbus_motion_tracker.x.h` with the calls of their owner | `Gpio/Threads.lean` |
| sockets | `src/socket.h`, `src/openssl_socket.h`: construction, move, destruction, close, open, bind, connect, listen, accept; descriptors, `SSL`, `SSL_CTX` | `Resource/Kernel.lean`, `Resource/Sockets.lean` |
| GPIO devices | descriptors of `gpio_chip`, `gpio_line`, `gpio_smbus`, `gpio_ultrasonic`, `vmem_pool`; `src/x/gpio_line.x.h` levels; `src/x/gpio_ultrasonic.x.h`; `src/x/gpio_smbus_motion.x.h` with the sensor behind it; `src/x/gpio_smbus_motion_tracker.x.h` arithmetic and accesses of the worker | `Resource/Devices.lean`, `Gpio/Line.lean`, `Gpio/Ultrasonic.lean`, `Gpio/Motion.lean`, `Gpio/Tracker.lean`, `Gpio/TrackerShared.lean` |
| car | `samples/picar_4wd/car.h` what requests with a number and the obstacle loop do to members, motors, servo and tracker; `car_endpoint` at the level of bytes | `Samples/Car.lean`, `Samples/CarRace.lean`, `Samples/CarWire*.lean` |
| vmem pool | `src/x/vmem_pool.x.h` page mapping cache, counters, log_totals; constructor and root page | `Vmem/PoolModel.lean`, `Vmem/PoolOpen.lean` |
| vmem pages | `alloc_page`/`free_page`, `src/x/vmem_linked.x.h`, `src/x/vmem_container.x.h`, iterators | `Vmem/PagesModel.lean`, `Vmem/ContRange.lean` |
| vmem layout | `src/i/vmem_layout.i.h`, constructors and capacities in `src/x/vmem_container.x.h` and `src/x/vmem_map.x.h` | `Vmem/Layout.lean`, `Vmem/LayoutMap.lean` |
| test framework | `src/test.h` test_suite, test_context | `Testing/Suite.lean`, `Testing/Equal.lean` |
| vmem map | `src/x/vmem_map.x.h` insert, find, erase, key levels, iteration, clear | `Vmem/MapModel.lean`, `Vmem/MapClear.lean`, `Vmem/MapErase.lean` |
| tic-tac-toe | `samples/tictactoe/game.h` board, slow engine, learning engine, server requests | `Samples/TicTacToe*.lean`, `Samples/GameServer.lean`, `Samples/GameThreads.lean` (engine threads), `Samples/GameRace.lean` (moves at the same time), `Samples/GameList.lean` (lists read meanwhile); `game_endpoint` at the level of bytes: `Samples/GameWire*.lean` |
| connect four | `samples/connect4/game.h` board, slow engine, learning engine, server requests, `game_endpoint` at the level of bytes | `Samples/Connect4*.lean` |
| virtual memory sample | `samples/vmem/main.cpp` (lists, strings and what is logged; not the comparison of pointers) | `Samples/VmemSample.lean` |
| TLS sample | `samples/tls/main.cpp` (threads and messages; TLS itself is a queue of records) | `Samples/TlsSample.lean` |
| equations | `samples/basic/equations.h` calculate | `Samples/Equations.lean` |
| equations endpoint | `samples/basic/equations.h` process_rest_request, parse_array_2, down to bytes; doubles as an abstract arithmetic, and as IEEE 754 for C97 | `Samples/EquationsWire.lean`, `Samples/EquationsWireProps.lean`, `Samples/EquationsDouble.lean`, `Samples/EquationsWireTotal.lean` |

## What is not modelled

* Address resolution and the contents of TLS connections: `getaddrinfo`, the handshake and the
  transfers of the socket model are answers of the environment.
* Copying and moving of containers, `src/exception.h`,
  `src/tag.h`, and everything under
  `/repo/test` and `/repo/boneyard`.
* Log output of the modelled functions (except where the presence of a log changes their behaviour:
  SMBus, containers, `log_totals`).
* Floating point: `double` is a field (`C42`), the rationals (`C74`, `C75`), the reals (`C76`, `C77`), the finite doubles with infinities and nan without signed zero (`C97`), or a
  number literal (`C05`); the conversion between
  literals and `double` is not modelled.
* Bytes inside pages: a page is its links, count and items; `C21` covers the byte contents of pages
  at the level of the pool.
* Memory ordering: threads interleave at the granularity of single accesses to atomics; the code
  uses the default sequentially consistent order.
* Files and devices are oracles: a result for each call, arbitrary where the theorem does not say
  otherwise.

## Results per property

`P` means proved as stated, `part` that the statement as given is false for the code (the witnesses
are theorems), or that the theorem carries a hypothesis that is named here.

| id | status | model and proof | what the code violates, or what is missing |
|----|--------|-----------------|--------------------------------------------|
| C01 | part | closed form of the loops of `reset_date` compared with a calendar specification; `date_correct_iff` is an exact characterisation for the first 11 000 000 days | Feb 29 is never reported; dates are off by one in long stretches from 2070 on |
| C02 | P | arithmetic over all instants | |
| C03 | P | lexicographic order is total; monotone in the instant | |
| C04 | P | induction over NUL-terminated buffers, reads past the end are `none` | |
| C05 | part | induction over JSON trees through writer and reader with their level stacks | a bare number at top level is not read back (end of input sets the fail bit); `%.16lg` does not determine a double |
| C06 | part | invariant: good stream ⇒ bytes are a prefix of a sequence of documents | several top-level values in a row; two misuses emit a bracket before refusing; quotes are not escaped; depth |
| C07 | part | induction over trees | needs strings and numbers within the limits of C08/C09 |
| C08 | part | every write of `get_token` goes through a bounds check in the model; `C08_block_partial` bounds them for every block size | escapes write up to 6 bytes past the block, a string is terminated past the block, a number longer than 25 characters overruns the scratch buffer |
| C09 | part | fuel-free loop with step bounds | an unterminated or overlong string, or an escape that is not known, is never left |
| C10, C11 | P | induction over header lists and bytes | values are normalised (as RFC 2616 allows) |
| C12 | P | every emitted byte characterised | |
| C13 | P | case analysis of every state and call, lifted to all call sequences | |
| C14 | part | bounds invariant | size 0 (and 1 for a resource) wraps to `2^64-1` and overruns |
| C15 | part | induction over the parameter list | an empty piece (`&&`, trailing `&`) ends or overruns the search |
| C16 | part | exact count while input remains | at an early end a byte 0xFF is stored and counted |
| C17 | part | invariant over put sequences | a piece that does not fit: last character lost, then read and write past the buffer |
| C18 | P | decode ∘ dump = id | printed offset is modulo 65536; needs 73 free characters |
| C19 | P | decision logic | |
| C20 | part | invariant over lock/unlock histories | after `2^32-1` locks the counter wraps and locks are refused |
| C21 | part | refinement to an array of pages | `MAP_FAILED` is stored as a page |
| C22 | part | invariant of free list and allocated pages | with no lock to spare one page is handed out twice |
| C23 | part | refinement to lists, several lists in one heap | a page that cannot be locked leaves the list half linked; needs 4 lockable pages |
| C24 | part | refinement to lists for every position, capacity ≥ 2 and balance policy | one item per page: write past the page |
| C25 | part | as C24; the returned iterator under `ErGood` | erase of the only item, and a merge into the next page, return a wrong iterator |
| C26 | part | all reachable containers | dereferences a null log; needs a free lock |
| C27 | part | refinement to a stack | needs a log and 5 lockable pages |
| C28 | part | lists of pages, all histories with some free page at each clear | size is not reset; with an empty free list the pages are shared with later users |
| C29 | part | B-tree invariant (`MapTree`, `MapLevels`, `MapUpdate`), refinement to a sorted association list | proved while the first key stays smallest; decreasing keys, keys below the all-zero key and full pages without spare bytes break it |
| C30 | part | refinement for maps on one page (`MapSmall`) and for maps of any depth (`MapErase`: the B-tree invariant of C29 with a set of dead keys that may be left behind in pages) | `C30_small_partial`; `C30_inner_partial` for erased keys that are not the first of their page and leave a page that is not merged. Violated: the last key of a page is found after erasing; erasing it twice erases another; the first key of a page makes others unreachable; merging with the next page leaves its item on the key page (`C30_violated_merge`); growing again after shrinking to one page loses everything (`C30_violated_regrow`). Pages merged with the one before: a run only |
| C31 | part | stream buffer over an item sequence | byte 0xFF ends the stream |
| C32 | part | stream buffer over an oracle socket | failed sends are silent; end of stream not reported |
| C33 | part | interleavings of request threads | promise set twice, or before in-flight requests are done |
| C34 | part | path assembly | `..` components leave the root, for every root |
| C35 | P | decision logic | |
| C36 | part | register arithmetic with widths | division by zero and truncation outside the stated frequencies |
| C37 | P | arithmetic | |
| C38 | part | oracle bus | without a log failures count as success and blocks overflow; failing mutex |
| C39 | part | invariant over move/undo histories | `undo_move` is not checked |
| C40 | part | minimax value by induction over the free cells | lost positions: `best_move` unassigned |
| C41 | part | invariant over move/undo histories | `undo_move` on an empty column wraps |
| C42 | part | algebra over any infinite field | the zero matrix with non-zero right side is classified as infinitely many |
| C43 | part | path and rotation state machine | boundary of path length, empty folder, buffered output |
| C44 | part | crash points between the writes of an insertion | a stop after the link and before the state |
| C45 | part | interleavings of owner and worker | tracker: lost notification within the settling window, and `C45_tracker_waiting_partial` for a worker that already waits; emulator proved |
| C46 | P | constructor over an oracle file | |
| C47 | P | invariant over gets and puts | |
| C48 | part | all histories of atomic requests; separate interleaving model of `claim_player` | concurrent claims; equal ids; id 0 never ends |
| C49 | part | string arithmetic | severity 0 writes before the array |
| C50 | part | the move constructor on the buffer model | `C50_rewinds`: after any history the new object starts again; `C50_untouched_partial`: only looked at |
| C51 | part | any number of moves, then all destructors | `C51_count`: sent once per object; `C51_unmoved_partial` |
| C55 | part | threads of four steps per call (look, set, remember, send) under any schedule | `C55_apart_partial`: invariant between remembered and kernel address as long as overlapping calls use the same address; `C55_one_target`; `C55_violated`; `C55_violated_lasting`: after one unlucky overlap all later messages of a thread, alone on the bus, go to the other target and are reported as sent |
| C52 | part | file-name function is injective on days reported correctly | equal names on leap days truncate a file |
| C53 | P | chunk loop over files of any size | |
| C54 | P | byte swap is an involution | |
| C56 | part | per element | method, resource, status code, reason phrase and protocol are cut off silently |
| C57 | P | induction over folded lines | |
| C58 | part | counters as 32-bit numbers | division by zero after `2^31` pairs |
| C59 | part | invariant of the container model | one item per page; null log; `push_front` on a stack |
| C60 | part | depth-limited search specification | opening book can submit an occupied cell |
| C61 | part | constructor over an oracle file | a file with a root page only is accepted |
| C62 | part | whole `process_request`, bytes in to bytes out (`Endpoint/Wire.lean`) | nothing or one complete response for every input; malformed request lines get no answer, directories a wrong length |
| C63 | P | same, composed with the client side | requests of the client are answered as expected and the client reads the answer back |
| C64 | P | `game_endpoint` from bytes to bytes (`Samples/GameWire.lean`): request line, headers, JSON body, game, JSON response | sessions of well-formed requests; induction over the session on top of the invariant of `C48` |
| C65 | P | same, arbitrary bytes; induction over the connections | says nothing about a run with undefined behaviour or an endless loop |
| C66 | part | same; request line that fits, followed by anything | `C66_answered_partial`: one complete response if the resource has a service (or is outside `/games`) and, for a POST that takes a body, there is a Content-Type and a JSON value. `C66_violated_no_type`, `C66_violated_no_service`: for every other such request nothing is sent |
| C67 | part | same; arbitrary bytes | `C67_returns_partial`: holds unless the bytes are read as a POST below `/games`. `C67_violated_overflow` (name of 65 to 1024 characters), `C67_violated_hang` (unterminated string of an unknown member), `C67_violated_crash` (header value of 1024 characters, a blank and more) |
| C68 | P | socket objects, kernel descriptor table with reuse of numbers (`Resource/Kernel.lean`, `Sockets.lean`); a program is a list of operations with the answers of the system | invariant: the open descriptors are a permutation of those the objects hold; `C68_bind`: outcome of bind |
| C69 | part | same with reference counts of `SSL_CTX`, the `SSL` records and the descriptor each speaks through | `C69_tls_partial`. `C69_violated_leak` (server with a missing certificate), `C69_violated_stray` (close, then destroy: close_notify into the connection of another object) |
| C70 | part | same | `C70_connect_partial` for clients with a log; `C70_violated`: without a log every connect that reaches its peer is undefined (`openssl_socket.h` 269) |
| C71 | part | descriptor table of C68; chips, lines, bus, ultrasonic sensor, pool (`Resource/Devices.lean`) | `C71_devices_partial`: programs that do not move lines; leak-free if no constructor throws after `open`. `C71_violated_move`: a moved line is closed twice, the second time it may be the bus; `C71_violated_ctor` |
| C72 | P | line as a function of time, arbitrary polling moments (`Gpio/Line.lean`) | induction over the tests; no false time-out however rarely the line is polled |
| C73 | part | `measure_distance` over one sequence of moments (`Gpio/Ultrasonic.lean`), with the static variable | `C73_distance_partial`: echo within the time of the first call gives the distance; `C73_honest`: on any signal the call returns its argument or the distance between a high and a later low reading; `C73_silent`: no echo, or one that does not end, gives the argument; `C73_violated`: a call for 10 cm makes all later calls give up after the time for 10 cm |
| C74 | part | `calibrate` over the SMBus model, sensor with physical quantities and noise (`Gpio/Motion.lean`, `Gpio/MotionProps.lean`) | `C74_calibration_partial`: up to 0.79 g, 99 degrees per second, with a log; `C74_violated_turns`: every acceleration between 0.81 g and 2.3 g, such as gravity on a level object, makes all later values 1.6 g too large; `C74_violated_log`; `C74_violated_mask` |
| C75 | part | `get_values` and the constructor over the SMBus model | `C75_reading_partial`: no failing request; `C75_violated_stale`: rotation reported is the acceleration; `C75_violated_undefined`; `C75_violated_asleep` |
| C76 | P | one pass of the worker as a function of two samples over the reals; a motion is six functions related by derivatives | mean value theorem per step, induction over samples with accumulated error; includes 0.1 % of time lost by truncation to microseconds, the dead band and the code's pi. `C76_straight`, `C76_circle`: no error; `C76_rest` |
| C77 | part | eight atomic accesses of a pass interleaved with setters | `C77_set_partial`: invariant over the interleaving; `C77_violated`: a position set in the window is forgotten; `C77_violated_torn`: depth and width read one after the other do not fit |
| C78 | P | each request and each round of the obstacle loop as one step; calls on the motors applied to four motors | invariant: members in range and motors agree with them; `C78_obeys`: members against what the history asked for |
| C79 | part | same | `C79_still_iff`: still exactly if power and turn are 0; `C79_violated`: a turn request moves a car with power 0; `C79_stop` |
| C80 | part | same | `C80_slows_partial`, `C80_stops_partial`: induction over rounds, a quarter per round, four rounds to stop; `C80_violated_late`, `C80_violated_turning`, `C80_violated_sharp`: a turning car is not stopped by any number of rounds |
| C81 | part | the loop split between its test and its assignment | `C81_stop_partial`: invariant; `C81_violated_lasting`: the stopped car drives on at 75 % |
| C82 | part | calls in order | `C82_exact`: which power requests reverse a running motor; `C82_violated`, `C82_violated_turning`; `C82_tracker`: the tracker is reset by backwards to backwards, not by backwards to forward |
| C83 | P | the integer arithmetic of the angle and the registers of the servo's PWM | case analysis over accepted angles, `C83_pulse` through the PWM model |
| C84 | P | `process_request` of the endpoint with the handlers of `car.h`: resource, method, Content-Type, JSON body token by token, `sprintf` of the answer | `C84_carried_out`, `C84_refused`, `C84_other_name`: composition of the request reader (`C63`), the header loop, the JSON tokenizer and the car; whatever follows the first member is not looked at |
| C85 | P | `process_autos` with the JSON writer | `C85_report`: one response, the state unchanged, the text is the readings written as JSON |
| C86 | P | connections with any bytes and rounds of the loop in any order | `C86_any_bytes`: induction, each connection is at most one accepted request; `C86_wheels` reduces to `C78` |
| C87 | part | same | `C87_answered_partial`; `C87_violated_no_type`: every POST with a number without Content-Type gets no answer |
| C88 | part | same | `C88_returns_partial`: any bytes not read as a POST with a number; `C88_violated_hang`, `C88_violated_overflow`, `C88_violated_crash` for all such bodies and headers |
| C89 | part | `process_shutdown` on the board, then the rest of the round of the loop, which is joined afterwards | `C89_request`, `C89_stops_partial`; `C89_violated_drives`: for every history, a last round that lowers the power drives the wheels again, and so does one that has already decided (`C89_violated_pending`); `C89_deaf`: no request has an effect afterwards |
| C90 | part | texts of the refusals, split into the fixed sentence and the body they show | `C90_power_partial`; `C90_violated_turn`, `C90_violated_servo`: the advised body is refused |
| C91 | part | `Samples/TicTacToeFast.lean`: the map as a partial function, the three ways of picking a move with the random number as a parameter, refusal by the board. Real play (`Match`, `Career`): games against the searching engine from an empty map | `C91_exact`: for every map that any legal games can produce and every unfinished position, a legal move is made if some legal move has a score other than 1; if not, then division by zero, or on the empty board one random number in nine gives a move off the board. `C91_violated_division`: 27 games against the searching engine after which the 28th ends the process for every random number (induction over the games) |
| C92 | P | the same; `learn` replays the game on a second board | `C92_learn` by induction over the game with the invariant that only earlier positions have been touched; positions are compared by the owner of each cell, not by the key; `C92_range` by induction over all histories; `C92_never_won`: with `C40` the engine never wins, so the branch for wins is never used in real play |
| C93 | part | the same | `C93_exact`: the moves own consecutive stretches of random numbers; `C93_fair_partial` counts them; `C93_best`; `C93_violated` after nine games of real play |
| C94 | part | `Samples/Connect4Fast.lean`: the map as a partial function from board states, the three ways of picking a column with the random number as a parameter, refusal by the board; maps are those any sequence of legal games and questions can produce | `C94_exact`: a legal move if some open column has a score other than 1, or the column tried is not full; otherwise the move is refused and the board unchanged. `C94_violated_refused`: 294 lost games after which one number in six is refused. Unlike tic-tac-toe there is never a division by zero. Not shown: that these games come about against the slow engine |
| C95 | P | the same; `learn` replays the game on a second board | `C95_learn` as `C92_learn`; `Lesson` spells out won, drawn and lost with the bonus for long games |
| C96 | part | the same | as C93: `C96_exact`, `C96_fair_partial`, `C96_best`; `C96_violated` after 49 lost games |
| C97 | part | `Samples/EquationsWire.lean`: headers, body, formulas, answer, over any arithmetic; `Samples/EquationsDouble.lean`: doubles as rationals with infinities and nan, rounding by the rules of IEEE 754 (`Ieee`: exact on doubles, error at most half a unit in the last place, overflow, underflow) | `Poses` says with the JSON grammar alone which problem a body poses; `problemBody_object` by induction over the members; `C97_answer`, `C97_refused` for any arithmetic; `C97_right_partial`: if the intermediate results are exact and the matrix is not zero, the answer is right (status, x and y); five violations: zero matrix, rounding to determinant 0, underflow, overflow, nan |
| C98 | part | the same; the reading of requests of `Endpoint/Wire.lean` | `C98_returns_partial` for any bytes that are not POST /problem; `C98_answered_partial` for requests with headers that fit and a JSON value; violations: a string that is not closed blocks the thread, a name of 1033 to 1038 characters and a number of 25 digits write out of bounds, a long header value ends the process |
| C99 | P | the same | `C99_any_bytes`, by cases over every step of the handler |
| C100 | part | the three servers down to bytes, any input | `Json/Short.lean`: `readToken_short`, with fewer bytes left than the buffer has the reader of tokens stays inside it, by measure over all readers of strings, numbers, literals and white space; `Http/Short.lean`: the same for headers; `C67_short_partial`, `C88_short_partial`, `C98_short_partial`: nothing or one complete response, or waiting; `C67_quiet_partial`, `C88_quiet_partial`, `C98_quiet_partial`: always an end. `C100_violated`: 27 characters of a number in a row |
| C101 | part | `Json/Accept.lean`: `Lax`, a grammar written beside the code; `Used`, any calls of the reader after which the stream is good | `readToken_accept`: one token continues a text that may be continued so (`At`: which brackets are open and what may come), by inversion of every reader function; `C101_accepts_partial` and `C101_tokens_partial` by induction over the calls. `C101_violated`: `[1,]` |
| C102 | part | `Vmem/MapClear.lean`: `clear` on the map of C29, with `_key_stack.size()` kept beside the number of levels, since clearing does not reset it | `clear_free`, `clear_first`: what clearing does to the ends of any container; `C102_clear_partial` for any map and pool, `C102_history_partial` after the histories of C29 with key levels. `C102_violated_always`: in all such histories without key levels the keys stay; `C102_violated_stuck`: whatever follows, a map that had key levels never grows beyond its first page; `CMap.stale_or` by induction over the calls. `C102_violated_kept`, `_size`, `_unusable`: runs |
| C103 | part | `Log/Entry.lean`: `put_timestamp`, `put_props` of the diag, debug and test lines over the line buffer of `Log/Model.lean`, times from `Timestamp/Model.lean` | texts of equal width sort as the numbers they show (`fixed_lt`, `stamp_lt`); the dates shown never go back (`shown_mono`, from the closed form of `reset_date`), and an earlier day has an earlier date (`date_lt`). `C103_order_partial`, whole lines `C103_lines_partial`, the calendar up to 2100 `C103_until_2100_partial`. Missing: pairs of days shown with the same date, where the order is wrong (`C103_violated_same_date`, `C103_violated`: 2024-02-29 23:00 sorts after 2024-03-01 01:00) |
| C104 | part | the same, with a reader `readLog` that knows only newlines, commas and digits | `C104_readback_partial` by induction over the entries. Missing: messages with newlines (`C104_violated_newline` for every forged entry, `C104_violated`), thread ids with 16 digits (`C104_violated_thread`). `C104_debug_columns`: in debug lines the message begins in column 75 |
| C105 | part | `Samples/Connect4Server.lean`: the requests of the connect-four server as atomic steps, on the board of `Samples/Connect4.lean`; its code is that of the tic-tac-toe server with another board | invariant between the server and the requests answered so far, as for `C48`. Missing: concurrent claims (`GameServer.Race`, same lines), equal ids (`C105_violated_equal`), id 0 (`C105_violated_stuck`) |
| C106 | P | `Samples/Connect4Wire.lean`: the connect-four `game_endpoint` from bytes to bytes | as `C64`; a list of 42 moves needs at most 1500 bytes of the 2048 there are |
| C107 | P | same, arbitrary bytes; induction over the connections | says nothing about a run with undefined behaviour or an endless loop |
| C108 | part | same; request line that fits, followed by anything | as `C66`, with the same counterexamples |
| C109 | part | same; arbitrary bytes | as `C67`, with the same counterexamples; `C109_short_partial`, `C109_quiet_partial` (`Samples/Connect4Short.lean`) are what `C100` says about the other servers |
| C110 | part | `Vmem/Layout.lean`: sizes of pages, headers and items as numbers, `std::size_t` subtraction with wrapping, the checks of the constructor | `C110_layout_partial`: for headers of up to 4070 bytes, acceptance, disjointness, bounds and number of items. `C110_violated`: every larger header wraps around |
| C111 | part | same; the constructors of `vmem_container` and `vmem_map` on a state | `C111_reopen` (containers, in full), `C111_map_partial`; `C111_violated`: all pairs of key and value sizes with the same sum |
| C112 | part | `Vmem/LayoutMap.lean`: capacities of the map of C29 computed from the sizes of key and value | `C112_types_partial`, `C112_small_partial` by C29 and C30; `C112_violated_half_page`, `C112_violated_full_page`: universal over sizes and keys; `MapBad.lean`: an access outside of a page is never forgotten |
| C113 | part | `Testing/Suite.lean`: `run` with its two loops; tests are functions of context and world that return, throw or throw something else; log entries are constructors with severities | `C113_reports_partial`: by induction over both loops, against the inductive relation `Ran`; `C113_violated_alien`: any suite with a test that throws something else |
| C114 | part | same; the random generator is a parameter | `C114_repeat_partial` (equality of all results and entries), `C114_violated_zero`, `C114_seed_shown` |
| C115 | part | `Testing/Equal.lean`: `are_equal` for strings and memory, over the dump lines of `C18` | `C115_equal_partial`; `C115_violated`: all pairs that differ behind the last full 16 bytes |
| C116 | part | `Vmem/StringStream.lean`: the stream buffers of `vmem_string.x.h` over the page model, any number of writers and readers, other containers used in between | false: a reader that fetched the last character, or looked at an empty string, is at the end for good (`C116_violated_stuck`, for all histories); a full pool loses characters silently (`C116_violated_lost`). Invariant over all interleavings: iterators to items survive `push_back` (`push_keeps`, `Vmem/StringKeep.lean`), so a reader gets a beginning of the text (`C116_partial`), all of it if it starts late (`C116_after_partial`) or stays two behind (`C116_trailing_partial`); one writer loses nothing while the file can grow (`C116_written_partial`) |
| C117 | part | `Vmem/PoolRef.lean`: `deref()` as a lock and an unlock on the mapping cache of `Vmem/PoolModel.lean` | false: with `max` other pages locked the reference shows unmapped memory or another page (`C117_violated_busy`, for all histories). Invariant: with at most `max` pages used nothing is ever unmapped (`C117_few_partial`); a page held throughout stays where it is (`C117_held_partial`) |
| C118 | part | `Samples/GameThreads.lean`: requests, and threads that first choose a move and later call `accept_move`, in any order | `C118_partial`: invariant that there is at most one thread of an engine, that it belongs to the side to move and that the board has not changed since it chose; with C40 for whole games. False when threads of older games are late (`C118_violated`: a history of three games) |
| C119 | part | the same | the converse invariant: if it is an engine's turn, its thread exists; a weight that every step of a thread lowers (`C119_ends_partial`); a chosen move is accepted (`C119_plays_partial`) |
| C120 | part | `Samples/Connect4Threads.lean`: the same for `samples/connect4` | the same invariants, with C60 for the moves of the slow engine; `C120_plays_partial` carries the claims of C60 to the moves the server makes. False when a thread of an older game is late (`C120_violated`) |
| C121 | part | `Log/Files.lean`: threads that make lines in their own memory (`Log/Entry.lean`) and call `write` and `flush` of one stream over changing files (`Multifile/Model.lean`; files changed by time get their content here) | invariant between the files, the entries said, and what each thread has yet to say; names through the dates of C01 and the order of digits. False if a file is changed twice in a second or if calls overlap |
| C122 | part | `Vmem/ContRange.lean`: `insert(itr, first, last)` on top of `insert2` and `++` (`Vmem/PagesModel.lean`) | `C122_insert_range_partial`: induction over the items with the invariant of the histories (C24); `C122_violated`, `C122_violated_order`, `C122_violated_memory`, `C122_violated_iterator` |
| C123 | part | same; `erase(first, last)` on top of `erase2`, with a bound on the rounds that is proved to be enough | `C123_to_end_partial`: induction over the items left, with the number of items on the first page as invariant; `C123_page_partial`; `C123_violated_rest` (for all histories), `C123_violated`, `C123_violated_later` |
| C124 | part | same; the iterator is taken before, used after further calls; `posRun` follows the item through the calls (`posRun_item`: it is at that position) | `C124_iterator_partial`: the pages of the container and their items only grow behind (`Ext`) under `push_back` without a split, and shrink from behind under `pop_back` without a merge; other containers do not touch them; `C124_violated`, `C124_violated_ways`, `C124_violated_end` |
| C125 | part | `clear` and the end of a `vmem_temp` among all other calls on any number of containers (`ContFree.lean`); the free list may end in a page linked to itself | invariant of C24 with the amount by which the size is too large; the free list takes the pages if it is a list or one page linked to itself; a page handed out twice and a moved temporary as counterexamples |
| C126 | part | `Gpio/Grayscale.lean`: `get_values` over the SMBus model; the hat converts the channel last written to and delivers its bytes in turn; requests fail at any moment, other threads write to the hat between any two requests | `C126_reading_partial`: case analysis of each transfer, on any bus on which the object and the kernel agree on the address (`tuned_after`: after all histories). `C126_violated_stale`, `C126_violated_swapped`, `C126_violated_threads`: for every world with those failures or that write |
| C127 | part | `Samples/TlsSample.lean`: the two threads of `samples/tls/main.cpp` step by step, any schedule; a TLS connection is a queue of records, and a call of `receive` gets at most the rest of one | invariant over both program counters, the records under way and what was received (`Inv`); `rest_cases`: where both threads can be when none can go on. `C127_violated_lost`: if the server notifies before the client waits, both wait for ever, in every continuation; `C127_violated_spurious` |
| C128 | part | `Samples/VmemSample.lean`: one run of `samples/vmem/main.cpp` with what it logs, and any number of runs on one file, over the containers of `Vmem/ContHistory.lean` with the capacities of `Vmem/Layout.lean` | invariant of the containers through all insertions (`pushes_spec`, `once_spec`), induction on the number of runs (`file_spec`). The limit of the file must not be reached: `C128_violated_full` shows items logged as added that are not there, and `C128_violated_any` proves that this comes for every limit |
| C129 | part | `Samples/GameRace.lean`: `game::accept_move` with `board::accept_move` taken apart into 8 steps, any number of threads, any interleaving; both players are clients | `C129_board_partial`: if no player has two requests under way, the turn acts as a lock (invariant `Inv` with the place of every thread; linearisation by `Seq`); `C129_moves_partial`: the list of moves, if besides no thread begins before the last accepted move is recorded. `C129_violated_double`: two moves of one player at the same time are both accepted; `C129_violated_quick`: a quick reply spoils the list of moves; `C129_violated_stuck`: the last cell sent twice makes ten moves, writes outside the list, and the game never ends |
| C130 | part | `Samples/GameList.lean`: `get_moves` read by read, interleaved with the threads of C129 | `C130_list_partial`, `C130_winner_partial`: invariant `RInv` of the reader on top of `Inv` and `MovesOk`; the list is a beginning of the game, with all moves accepted before. `C130_violated_stale`: the list shows a move never made (what an earlier game left); `C130_violated_late`: it tells the winner without the move that won |
| C131 | part | `Samples/CarRace.lean`: `process_power`, `process_turn` and `auto_limit_power` as lists of single accesses of `_forward`, `_power`, `_turn` and single calls on the motors, any number of threads, any interleaving (sequentially consistent). | `C131_alone_partial` (requests that begin when no other is under way refine `World.run` of C78, from any state), `C131_recovers_partial` (one accepted request alone sets the wheels right after any chaos), `C131_back_partial`, `C131_range_partial` (invariant over all interleavings in which `_power` keeps still between its two reads), `C131_members` (invariant over all interleavings). Full statement false: `C131_violated_order`, `_stop`, `_crossed`, `_range`, `_back`. |
| C132 | part | `Samples/Connect4Race.lean`: `game::accept_move` and `board::accept_move` of connect four as ten steps, any number of threads, any interleaving; rules from `Samples/Connect4Rules.lean`. | `C132_board_partial` (invariant: the turn acts as a lock if no player has two requests under way), `C132_moves_partial` (and no thread begins while a move is not recorded). Full statement false: `C132_violated_ghost`, `C132_violated_carry`, `C132_violated_quick`. |
| C133 | part | `Samples/Connect4List.lean`: `get_moves` of connect four read by read, interleaved with the threads of C132 | `C133_list_partial`, `C133_winner_partial`: invariant `RInv` of the reader on top of `Inv` and `MovesOk`; the list is a beginning of the game, with all moves accepted before. `C133_violated_stale`: the list shows a move never made; `C133_violated_late`: it tells the winner without the move that won |
| C134 | part | `Samples/GameSlots.lean`: `create_game` access by access and the searches for a game by its number, any number of threads and of places, games that end at any time | `C134_partial`: invariant `Inv` with the place being prepared as a parameter; ghost notes for what was running when a request came. `C134_violated_outside`: the count passes the number of places for ever, and later searches read outside the games; `C134_violated_shared`, `C134_violated_torn`: two clients are given one place |
| C135 | part | `Resource/Password.lean`: the copy of the password in the server socket, `pem_passwd_cb` with `strncpy` and `strlen` byte by byte, and histories of making, moving and destroying server sockets | `C135_load_partial`: which passwords open the key, exactly. `C135_partial`: invariant `Inv` over all histories (the holder of a context is the registered object with the password, or the registered object was moved from and has zeros). `C135_bounds_partial`: what is written, for every size. `C135_moved_partial`: after a move OpenSSL never gets the password. `C135_violated`, `C135_violated_dead`, `C135_violated_left`: the concrete histories |
| C136 | part | `Samples/ClaimRace.lean`: `claim_player` access by access, any number of threads, both seats, and the calls of `start()` | `C136_start_partial`: invariant `Inv`, no hypothesis on the interleaving (the thread that writes the second flag, or a later one, sees both). `C136_partial`: invariant `Inv2` on top of it, if no seat is claimed while another claim of it is under way. `C136_engine_partial`: seats of engines. `C136_once_partial`: exactly one start if no claims overlap (`Inv3`). `C136_violated`, `C136_violated_twice`: two claims of one seat at once |
| C137 | part | `Samples/GameReplace.lean`: the accesses of a move (number of the game, numbers of the players, the board, the count for the answer) and of `endpoint_game::reset` (board, number, players), any number of moves, engines at any time | `C137_partial`: invariant `Inv` under `Calm`. `C137_index_partial`: invariant `Inv2` under `Calm` and `Quiet`. `C137_violated_lands`, `C137_violated_engine`, `C137_violated_wrapped`: concrete interleavings |
| C138 | part | `Samples/ClaimReplace.lean`: the accesses of a claim (number of the game, flag, number of the player, flag) and of `endpoint_game::reset` (number of the game, number and flag of X, of O), any number of claims | `C138_partial`, `C138_refused_partial`: invariant `Inv` under `Calm`. `C138_once_partial`: invariant `Inv2` under `Calm` and `Single`, no seat of any game is given twice. `C138_violated_late`, `C138_violated_engine`, `C138_violated_refused`, `C138_violated`: runs |

## Findings beyond the properties

* `vmem_map::find() const` and `contains()` (`vmem_map.x.h` 779-787) use
  `const_cast<vmem_map<…>>(this)`, which does not compile when instantiated.
* `vmem_map::insert(first, last)` (295-305) stops at the first key that is present already.
* A game request whose request line overflows a buffer after the resource (for instance an over-long
  protocol) still takes effect, but gets no answer: reading and writing share one stream state.
* The routes of the game are `sscanf` formats: text after the last number is ignored
  (`POST /games/1/players/0xyz` claims a player), numbers are reduced modulo `2^32`, `-1` is accepted.
* A move with fractional coordinates is truncated, and `accept_move` does not look for the end of the
  object.
* `vmem_map` keeps pointers into the old object's path state when it is moved.
* A popped top key level never returns its page to the pool.
* The constructors of motion tracker and PWM emulator start their thread before the last statement
  that may throw; an exception there ends in `std::terminate`.
* The car: a fractional number is truncated after the test of its limits, so `-60.9` is accepted as `-60`
  while `100.5` is refused.
* The constructor of the car calibrates the motion sensor while its obstacle loop already runs on the
  same bus (the race of `C55`); a second `/shutdown` served at the same time would `join` a thread twice.
* Learning engine of tic-tac-toe (`samples/tictactoe/game.h` 395-399): "all scores are min" compares with 9 cells, so it can only be true on the empty board. There the index is 1 to 9 instead of 0 to 8: the first cell is never picked and one number in nine gives row 3, which the board refuses; a refused move starts no further move, so the game stands still for good. On any other board with only lowest scores, line 407 divides by zero.
* `learn` (445-491) reads moves and winner from the live game without a lock; a request that resets the game at that moment changes them under it. Not modelled.
* Learning engine of connect four (`samples/connect4/game.h`): when all open columns have the lowest score, the column tried is `1 + rand % n` modulo 7, where `n` is the number of open columns, whether or not that column is open. Column 0 is only tried when all seven are open. A full column is refused, and as a refused move starts no further move the game stands still.
* The bonus for long games is added to lost games too: a game lost after 25 or more moves raises the scores of the losing moves (an example beside `C95_learn` takes a score from 50 to 51).
* The solver (`samples/basic/equations.h` 215-236): with the zero matrix and b not zero there is no solution, but the answer is status 2 (infinitely many), because det, det_x and det_y are all 0 (`C97_violated_zero`). With numbers of nine digits the determinant 1 is rounded to 0 (`C97_violated_rounding`); numbers below 2^-538 underflow (`C97_violated_underflow`); large numbers give x = y = 0 (`C97_violated_overflow`) or an answer with `nan`, which is not JSON (`C97_violated_nan`).
* The solver accepts a request without Content-Type (`has_valid_content_type` is only used to find a second one); the other samples refuse or ignore it. Of several members `a` or `b` the last one counts (`Poses`).
* `istream(istream&&)` leaves `_gcount` uninitialised; the move of `line_ostream` keeps pointers into the buffer of the old object; `gpio_smbus_motor::get_duty_cycle` is declared but not defined. Read, not modelled.
- `json_istream` accepts a comma before a closing bracket, `+1`, `01`, `-`, `1.`, `1e`, raw control characters in strings and unknown escapes; of an
  unknown escape the character is stored twice (`get_escaped_char` does not take it from the stream, `src/json.h` 484-554).  `Lax` in
  `Json/Accept.lean` lists what is accepted.
* A message with a newline ends its log line and begins another: the rest of the message can be an entry of any time, thread and severity
  (`C104_violated_newline`).
* `put_thread_id` writes the id and its terminator through a stream over 16 characters (`sizeof(buf) - 1`): an id of 16 digits leaves
  the terminator out, and the `%s` that follows reads past the array (`C104_violated_thread`).
* `vmem_container::balance_merge` (867-873) overwrites the result of merging with the next page by that of the page before, which merged nothing: the caller does not learn that the next page is gone.  In a map its item stays on the key page and refers to a free page; keys inserted there are shown by `find` and lost to iterating (`C30_violated_merge`).
* A map that shrinks from two pages to one frees two pages in one call; the page freed second refers to itself in the list of free pages and is handed out twice when the map grows again, for the key level and for the stack of levels (`C30_violated_regrow`).
* Maps of 8-byte keys and 8-byte values read past a page: 254 elements fill a page and leave 5 bytes, but a search
  past a full page compares the key behind the last element (`C112_violated_full_page`).
* Maps whose key and value take more than half a page are accepted by the constructor but break at their second key
  (`C112_violated_half_page`).
* `max_item_size` wraps around for page headers larger than a page (`C110_violated`).
* The state of a map records the sum of the sizes of key and value only (`C111_violated`).
* `are_equal` for memory leaves its loop before it logs the last line of the dump; a failed comparison of less than 16
  bytes leaves no trace in the log (`C115_violated`).
* The tests of abc log critical entries only, and the seed is a warning: a failed run with a random seed cannot be
  repeated (`C114_seed_shown`).
* The game servers seed `std::rand` with the second they are started in (`main.cpp` 46): whoever knows that second and the number of
  draws since can compute the number of the other player's seat.
* Detached engine threads of a finished game may make moves in the next one (`C118_violated`).
* `deref()` unlocks the page before it returns the reference (`C117`), and a reader of a `vmem_string` that has fetched the last
  character is at the end for good (`C116`).
* The opening of the slow connect-four engine (game.h 443-470) takes for granted that its own earlier moves were the ones it would make. If another thread has made its first move, it can choose a taken cell; `accept_move` returns false, which `slow_make_move` ignores, and no thread is started: the game stands still for good (`Connect4Threads.C120_violated`).
* `table_ostream::put_line` (table.h 46-58) takes no lock. The endpoint hands one log to the thread of every connection, so with a log over a file two connections at the same time are a data race on the stream; with libstdc++ a line can replace another one (`LogFiles.C121_violated_overlap`). (The samples log to `std::cout`, whose buffer, while it is synchronised with C streams, is not affected.)
* `vmem_container::insert(itr, first, last)` advances `itr` before each insertion and inserts there (C122).  That is right only while
  the items stay on one page: `insert(begin(), first, last)` into an empty list throws `logic_error` at the second item, into a list of
  one item it gives `a, old, b`, and on a page that is split it inserts behind the last item of the page and the number of items to move wraps around.
  The returned iterator is the given one, also for `end()`.
* `vmem_container::erase(first, last)` does not move `last` when items move up (C123): on the first page, and for all histories,
  `erase(first, last)` erases everything from `first` on; `erase(it, next(it))` is the shortest such call.  From a later page on, merging leads the loop into a freed page: ten items on pages of four,
  `erase(seventh, end())` goes on with an iterator into the freed page and lowers the size with each round while two of the items stay.
* Iterators of `vmem_list` do not stay good when other items of the list are inserted or erased (C124), unlike those of the standard
  containers of linked nodes: they show the neighbour, what was left on a page, or (after a merge) an item of another container.  Only
  calls on other containers, `push_back` on a `vmem_list` or `vmem_stack`, and `pop_back` on a `vmem_stack` are safe.  `end()` is not refused
  when it is stale, and an insertion there goes to the wrong place.
* `insert(itr, first, last)` of a container without a log misuses memory whenever there is an item to insert (`C122_violated_log`).
* Destroying a temporary container (or clearing a container) after two pages were given back by erasures makes the free list inconsistent: the last page, freed twice, is linked to itself, so the page behind it in the list is never met and the page itself is handed out twice; two containers then share it and overwrite each other's items (`C125_violated_twice`). All calls are legal and no log entry shows it.
* `client_socket::receive` (`src/socket.h` 431) and `openssl_tcp_client_socket::receive` (`src/openssl_socket.h` 241) log
  `size` bytes of the buffer even if fewer were received: the log shows what was in the caller's memory before.
* `get_moves` (`samples/tictactoe/game.h` 1294-1313) reads `move_count` before `_moves` and the winner after both, without a lock: a client that polls at the wrong moment sees a move of an earlier game, or a winner without the winning move, and as clients ask from the next move on they never see the right one (`C130_violated_stale`, `C130_violated_late`).
* `car_endpoint` (`samples/picar_4wd/car.h`): `_forward`, `_power` and `_turn` are shared by all request threads and the obstacle loop without a lock.  A turn request that has read the members, is overtaken by a request for power 0, and goes on with the motors leaves the left wheels at full speed with `_power` 0 and the stop answered with 200 (`C131_violated_stop`); two turn requests can leave the front wheels steering left and the rear wheels steering right (`C131_violated_crossed`); a change of `_power` between its two reads (548-549) makes a side power of -50, which `static_cast<std::uint16_t>` turns into 65486 and the PWM into full speed (`C131_violated_range`); `process_power` sets `_forward = true` before it decides to go backward (264-270), so a request at the same time can drive a wheel forward at full speed although the car was only ever told to go backward (`C131_violated_back`).  A mutex around each request and round would give `C131_alone_partial`.
* `board::accept_move` of connect four (`samples/connect4/game.h`): the same move sent twice at the same time is accepted twice and leaves a second disc in the cell above, which nobody asked for (`C132_violated_ghost`); the last cell of a column sent three times at the same time takes the size of the column from 5 to 8, which carries out of its three bits: the column is empty and the next one has a disc (`C132_violated_carry`).
* `get_moves` of connect four (`samples/connect4/game.h` 1513-1532) has the same windows as that of tic-tac-toe: a move of an earlier game in the list, or a winner without the winning move (`C133_violated_stale`, `C133_violated_late`).
* `create_game` (`samples/tictactoe/game.h` 759-802, `samples/connect4/game.h` 978-1021) tests and counts `_game_count` without a lock: two first requests at the same time leave a count of 2 with one place, and as the searches run to `_game_count` every later search for an unknown game reads `_games[1]`, which does not exist (`C134_violated_outside`). Two requests after the end of a game are both given its place, and one client is told the number of a game that is not there (`C134_violated_shared`).
* The move constructor of `openssl_tcp_server_socket` (`src/openssl_socket.h` 337-356) moves the password into the new object and wipes the old one, but the context keeps the address of the old buffer (`SSL_CTX_set_default_passwd_cb_userdata`, line 319): a later question for the password gets the empty text or reads a destroyed object (C135). The key is loaded inside the constructor, so that this shows only if another encrypted file is loaded into the context. The destructor does not wipe the password.
* Two claims of the same seat at the same time (`samples/tictactoe/game.h` 629-652, `samples/connect4/game.h` 848-871) are both granted, and each of them calls `start()`: an engine that begins then thinks in two threads at once, which is the situation C129 and C132 show to be harmful (C136). Claims of different seats at the same time are harmless: the start is never lost.
* `endpoint_game::reset` clears the board before it changes the number of the game (`samples/tictactoe/game.h` 615-617, `samples/connect4/game.h` 834-836): a move sent to a game that is over can be accepted on the board of the next game, from somebody who is not one of its players (C137).
* The answer to a move takes its index from the count of the board after the move (`samples/tictactoe/game.h` 1212, `samples/connect4/game.h` 1431): an engine or an opponent who moves in between makes it the index of another move, and a game made in between makes it 4294967295, since `move_count()` is `unsigned` (C137).
* C138: a claim of a seat is not tied to the game it found. A claim of a seat of a game that is over, which would be refused, is given that seat of the next game and told its number if the game is replaced between the search and the test of `is_claimed` (`samples/tictactoe/game.h` 1008 and 631); the client for whom the new game was made is then refused. A claim that passed the test and is held up until the game is replaced may be told 0, the number of an engine. A claim that comes while `endpoint_game::reset` writes the seats (617-621) is refused a seat that is free, because the flag is still that of the game before.

## Trusted base

* The Lean 4.33.0 kernel; no axiom beyond `propext`, `Classical.choice`, `Quot.sound`; no `sorry`,
  `native_decide` or `bv_decide`.
* The reading of the C++ sources by hand, with the simplifications stated in the comments of the
  definitions; C++ compiler, standard library and operating system calls are not verified, their
  behaviour is assumed as described in the comments of the model.
* The statements of the theorems (not their proofs) and the specifications they mention.

### Axioms of the claimed theorems (from `#print axioms`, names without the leading `Abc.`)

<!-- axioms begin -->
* no axiom (13 theorems): `Json.C05_items`, `Json.C05_violated_digits`, `Http.body_exact_violated`, `Streambuf.output_may_hold_back`, `Threads.Tracker.C45_violated`, `Threads.Tracker.C45_violated_start`, `GameServer.Race.C48_violated_race`, `Log.severity_indent_violated`, `Multifile.names_collide_on_leap_days`, `ClaimReplace.C138_violated_late`, `ClaimReplace.C138_violated_engine`, `ClaimReplace.C138_violated_refused`, `ClaimReplace.C138_violated`.
* `propext` (48 theorems): `Ascii.are_equal_null`, `Ascii.kinds`, `Ascii.cases_inverse`, `Json.C06_refused_stays`, `Json.C06_misuse_refused`, `Json.C06_violated_quote`, `Http.norm_fixed`, `Http.wcall_order`, `Http.request_order_accepted`, `Http.response_order_accepted`, `Http.rcall_out_of_order`, `Http.size0_overrun_violated`, `Http.query_exact_violated`, `Http.query_overrun_violated`, `Streambuf.string_input_partial`, `Streambuf.string_input_violated`, `Streambuf.socket_input_violated_eof`, `Streambuf.socket_input_violated_empty`, `Endpoint.Shutdown.shutdown_violated_twice`, `Endpoint.Shutdown.shutdown_violated_in_flight`, `Endpoint.Shutdown.shutdown_violated_second_race`, `Multifile.path_violated_empty`, `Streambuf.C50_untouched_partial`, `Streambuf.C50_violated`, `Streambuf.move_rewinds`, `Multifile.rotation_loses_data`, `Smbus.C55_apart_partial`, `Smbus.threads_violated`, `Smbus.halves_transfer`, `Http.reports_bad_bytes_violated`, `Http.truncates_violated`, `Http.short_protocol_violated`, `Resource.Devices.C71_violated_move`, `Resource.Devices.C71_violated_ctor`, `Car.C79_violated`, `Car.C80_violated_late`, `CarWire.C89_violated`, `Log.C104_violated`, `Testing.C114_violated_zero`, `Testing.C114_violated`, `LogFiles.C121_violated_second`, `TlsSample.C127_violated_spurious`, `Password.C135_violated`, `Password.C135_violated_dead`, `Password.C135_violated_left`, `GameReplace.C137_partial`, `GameReplace.C137_violated_lands`, `GameReplace.C137_violated`.
* `Quot.sound`, `propext` (176 theorems): `Json.C05_violated_number`, `Json.C05_violated`, `Json.C06_documents_partial`, `Json.C06_violated`, `Json.C06_violated_bracket`, `Json.C06_violated_depth`, `Json.C08_block_partial`, `Json.C08_violated_string`, `Json.C08_violated`, `Json.C08_violated_escapes`, `Json.C08_violated_number`, `Json.C09_violated_wide`, `Json.C09_violated_hex`, `Json.C09_violated_skip`, `Http.no_injection`, `Http.lines_bounded`, `Http.request_calls_in_order`, `Http.response_calls_in_order`, `Http.nothing_after_failure`, `Http.rcall_in_order`, `Http.rcall_dead`, `Http.request_reads_in_order`, `Http.response_reads_in_order`, `Http.size0_violated`, `Http.body_exact_partial`, `Log.flush_without_table`, `Log.line_violated_full`, `Log.line_violated_overlong`, `Log.line_violated_write_past_end`, `Log.dump_needs_room`, `Log.filter_exact`, `Log.filter_monotone`, `Vmem.Pool.C21_violated`, `Vmem.Pages.C22_violated_locks`, `Vmem.Pages.C23_violated_locks`, `Vmem.Pages.C24_violated`, `Vmem.Pages.C25_violated`, `Vmem.Pages.C25_violated_merge`, `Vmem.Pages.C26_violated`, `Vmem.Pages.C26_violated_locks`, `Vmem.Pages.C28_violated`, `Vmem.Pages.C28_violated_size`, `Vmem.Pages.C28_violated_alias`, `Vmem.Map.C29_violated_decreasing`, `Vmem.Map.C29_violated_zero`, `Vmem.Map.C29_violated_full_page`, `Vmem.Map.C30_violated_last`, `Vmem.Map.C30_violated_twice`, `Vmem.Map.C30_violated_first`, `Vmem.Map.C30_violated_merge`, `Vmem.Map.C30_violated_merge_erase`, `Vmem.Map.C30_violated_regrow`, `Streambuf.output_exact`, `Streambuf.string_roundtrip_partial`, `Streambuf.socket_output_violated`, `Streambuf.socket_input_partial`, `Smbus.no_log_violated`, `Smbus.no_log_violated_overflow`, `Smbus.lock_violated`, `TicTacToe.C39_violated_count`, `TicTacToe.C40_violated_make_move`, `Connect4.C41_violated`, `Connect4.C41_violated_wrap`, `Multifile.path_partial`, `Multifile.path_violated_truncated`, `Multifile.size_violated_early`, `Multifile.size_violated_missed`, `Multifile.duration_exact`, `Vmem.Pages.C44_violated`, `Vmem.Pages.C44_violated_size`, `Threads.Emulator.C45_emulator`, `Threads.Tracker.C45_tracker_partial`, `Threads.Tracker.C45_tracker_waiting_partial`, `Streambuf.buffer_exact`, `GameServer.C48_violated_equal`, `GameServer.Race.C48_race_partial`, `Streambuf.C50_rewinds`, `Log.C51_unmoved_partial`, `Log.C51_count`, `Log.C51_violated`, `Log.move_violated`, `Multifile.filename_injective`, `Smbus.C55_violated`, `Smbus.C55_violated_lasting`, `Smbus.sysRun_transfer`, `Vmem.Pages.C59_violated`, `Vmem.Pages.C59_violated_log`, `Vmem.Pages.C59_violated_stack`, `Resource.C69_violated_leak`, `Resource.C69_violated_stray`, `Resource.C70_violated`, `Gpio.C73_violated`, `Gpio.Motion.C74_violated_log`, `Gpio.Motion.C75_violated_stale`, `Gpio.Motion.C75_violated_undefined`, `Car.C80_never_faster`, `Car.C81_violated`, `Car.C81_violated_lasting`, `Car.C82_violated`, `Car.C83_pulse`, `CarWire.C89_stops_partial`, `TicTacToe.C91_turn`, `TicTacToe.C91_violated_no_room`, `TicTacToe.C92_ask`, `TicTacToe.C92_total`, `TicTacToe.C92_violated_no_room`, `Connect4.C94_turn`, `Connect4.C94_violated_no_room`, `Connect4.C95_ask`, `Connect4.C95_total`, `Connect4.C95_violated_no_room`, `Json.C101_accepts_partial`, `Json.C101_tokens_partial`, `Json.C101_violated`, `Vmem.Map.C102_clear_partial`, `Vmem.Map.C102_violated_kept`, `Vmem.Map.C102_violated_size`, `Vmem.Map.C102_violated_unusable`, `Log.C104_violated_thread`, `Log.C104_debug_columns`, `Connect4Server.C105_violated_equal`, `Vmem.Layout.C110_violated`, `Vmem.Layout.C111_reopen`, `Vmem.Layout.C111_map_partial`, `Vmem.Layout.C111_violated`, `Testing.C114_repeat_partial`, `Vmem.Pool.C117_violated`, `GameThreads.C118_violated`, `LogFiles.C121_violated_overlap`, `Vmem.Pages.C122_violated`, `Vmem.Pages.C122_violated_order`, `Vmem.Pages.C122_violated_memory`, `Vmem.Pages.C122_violated_log`, `Vmem.Pages.C123_violated_later`, `Vmem.Pages.C124_violated`, `Vmem.Pages.C124_violated_ways`, `Vmem.Pages.C124_violated_end`, `Vmem.Pages.C125_violated_twice`, `Vmem.Pages.C125_violated`, `Vmem.Pages.C125_violated_move`, `Gpio.Grayscale.C126_reading_partial`, `Gpio.Grayscale.C126_violated_stale`, `Gpio.Grayscale.C126_violated_swapped`, `Gpio.Grayscale.C126_violated_threads`, `Gpio.Grayscale.C126_violated`, `Gpio.Grayscale.C126_violated_log`, `TlsSample.C127_exchange_partial`, `TlsSample.C127_ends_partial`, `TlsSample.C127_violated_lost`, `VmemSample.C128_violated_full`, `GameRace.C129_violated_double`, `GameRace.C129_violated_quick`, `GameRace.C129_violated_stuck`, `GameRace.C129_violated`, `GameList.C130_violated_stale`, `GameList.C130_violated`, `CarRace.C131_violated_stop`, `CarRace.C131_violated_crossed`, `CarRace.C131_violated_range`, `CarRace.C131_violated_back`, `Connect4Race.C132_violated`, `Connect4Race.C132_violated_ghost`, `Connect4Race.C132_violated_carry`, `Connect4Race.C132_violated_quick`, `Connect4List.C133_violated_stale`, `Connect4List.C133_violated`, `GameSlots.C134_violated_outside`, `GameSlots.C134_violated_shared`, `GameSlots.C134_violated_torn`, `GameSlots.C134_violated`, `ClaimRace.C136_start_partial`, `ClaimRace.C136_violated`, `ClaimRace.C136_violated_twice`, `GameReplace.C137_index_partial`, `GameReplace.C137_violated_engine`, `GameReplace.C137_violated_wrapped`.
* `Classical.choice`, `Quot.sound`, `propext` (338 theorems): `Timestamp.date_correct_iff`, `Timestamp.date_partial`, `Timestamp.date_violated_every_leap_day`, `Timestamp.date_violated_2024`, `Timestamp.date_violated_2070`, `Timestamp.date_violated_2100`, `Timestamp.time_of_day`, `Timestamp.reset_defined`, `Timestamp.order_total`, `Timestamp.order_chronological`, `Ascii.are_equal_correct`, `Ascii.are_equal_n_safe`, `Ascii.are_equal_unlimited`, `Ascii.are_equal_capitals`, `Json.C05_roundtrip_partial`, `Json.C06_document_partial`, `Json.C07_skip_partial`, `Json.C09_nostring_partial`, `Json.C09_string_partial`, `Json.C09_skip_partial`, `Json.C09_violated_open`, `Json.C09_violated_long`, `Json.C09_violated`, `Http.request_round_trip`, `Http.response_round_trip`, `Http.reader_safe_partial`, `Http.rrun_returns`, `Http.query_exact_partial`, `Http.query_exact_nonempty_partial`, `Http.received_query_partial`, `Http.query_absent`, `Log.line_partial`, `Log.dump_line`, `Log.dump_text`, `Log.dump_roundtrip`, `Vmem.Pool.C20_mapping`, `Vmem.Pool.C20_refusal_partial`, `Vmem.Pool.C20_violated`, `Vmem.Pool.C21_contents_partial`, `Vmem.Pages.C22_alloc_partial`, `Vmem.Pages.C23_linked_partial`, `Vmem.Pages.C24_insert_partial`, `Vmem.Pages.C25_erase_partial`, `Vmem.Pages.C26_iterate_partial`, `Vmem.Pages.C27_stack_partial`, `Vmem.Pages.C28_clear_partial`, `Vmem.Pages.C125_clear_partial`, `Vmem.Map.C29_min_first_partial`, `Vmem.Map.C30_small_partial`, `Vmem.Map.C30_inner_partial`, `Endpoint.Shutdown.shutdown_partial`, `Endpoint.Shutdown.shutdown_uninterrupted_partial`, `Endpoint.path_inside_partial`, `Endpoint.path_inside_violated`, `Endpoint.is_file_request_correct`, `Endpoint.content_type_correct`, `Endpoint.content_type_no_dot`, `Endpoint.routing_correct`, `Pwm.registers_partial`, `Pwm.registers_violated_division_by_zero`, `Pwm.registers_violated_truncation`, `Pwm.servo_pulse_partial`, `Pwm.emulator_pulse`, `Smbus.transfer_partial`, `Smbus.no_overrun_partial`, `Smbus.values_read`, `TicTacToe.C39_rules_partial`, `TicTacToe.C39_undo_partial`, `TicTacToe.C39_total_partial`, `TicTacToe.C39_violated`, `TicTacToe.C40_slow_engine_partial`, `TicTacToe.C40_whole_game`, `TicTacToe.C40_make_move`, `TicTacToe.C40_violated`, `Connect4.C41_rules_partial`, `Connect4.C41_undo_partial`, `Connect4.C41_full_column`, `Connect4.C41_last_disc`, `Equations.status_one_iff`, `Equations.status_zero_sound`, `Equations.status_two_partial`, `Equations.classification_violated`, `Multifile.size_partial`, `Vmem.Pages.C44_alloc_partial`, `Vmem.Open.C46_existing`, `Vmem.Open.C46_fresh`, `GameServer.C48_server_partial`, `GameServer.C48_claim_once_partial`, `GameServer.C48_owner_partial`, `GameServer.C48_engine_side`, `GameServer.C48_violated_stuck`, `Log.severity_indent_partial`, `Multifile.rotation_keeps_data_partial`, `Endpoint.file_body_correct`, `Smbus.word_roundtrip`, `Smbus.C55_one_target`, `Http.reports_bad_bytes_partial`, `Http.folded_value`, `Vmem.Pool.C58_no_fault_partial`, `Vmem.Pool.C58_violated`, `Vmem.Pages.C59_no_fault_partial`, `Connect4.C60_slow_engine_partial`, `Connect4.C60_whole_game`, `Connect4.C60_violated_opening`, `Vmem.Open.C61_fresh_partial`, `Vmem.Open.C61_violated`, `Wire.C62_all_or_nothing_partial`, `Wire.C63_end_to_end`, `Wire.C62_violated_silent`, `Wire.C62_violated_directory`, `GameWire.C64_session`, `GameWire.C65_any_bytes`, `GameWire.C66_answered_partial`, `GameWire.C66_violated`, `GameWire.C66_violated_no_type`, `GameWire.C66_violated_no_service`, `GameWire.C67_returns_partial`, `ShortInput.C67_short_partial`, `ShortInput.C67_quiet_partial`, `GameWire.C67_violated`, `GameWire.C67_violated_overflow`, `GameWire.C67_violated_hang`, `GameWire.C67_violated_crash`, `Resource.C68_descriptors`, `Resource.C68_bind`, `Resource.C69_tls_partial`, `Resource.C70_connect_partial`, `Resource.Devices.C71_devices_partial`, `Gpio.C72_expect`, `Gpio.C72_put`, `Gpio.C73_distance_partial`, `Gpio.C73_honest`, `Gpio.C73_silent`, `Gpio.Motion.C74_calibration_partial`, `Gpio.Motion.C74_violated_turns`, `Gpio.Motion.C74_violated_mask`, `Gpio.Motion.C74_violated`, `Gpio.Motion.C75_reading_partial`, `Gpio.Motion.C75_violated_asleep`, `Gpio.Motion.C75_violated`, `Gpio.Tracker.C76_tracking`, `Gpio.Tracker.C76_straight`, `Gpio.Tracker.C76_circle`, `Gpio.Tracker.C76_rest`, `Gpio.Tracker.C76_unit`, `Gpio.Tracker.C77_set_partial`, `Gpio.Tracker.C77_between`, `Gpio.Tracker.C77_violated`, `Gpio.Tracker.C77_violated_torn`, `Car.C78_wheels`, `Car.C78_obeys`, `Car.C79_still_iff`, `Car.C79_stop`, `Car.C79_straight_partial`, `Car.C80_slows_partial`, `Car.C80_stops_partial`, `Car.C80_violated_turning`, `Car.C80_violated_sharp`, `Car.C81_stop_partial`, `Car.C81_range`, `Car.C82_exact`, `Car.C82_gentle_partial`, `Car.C82_tracker`, `Car.C82_violated_turning`, `Car.C83_servo`, `Car.C83_decreasing`, `CarWire.C84_carried_out`, `CarWire.C84_refused`, `CarWire.C84_other_name`, `CarWire.C85_report`, `CarWire.C86_any_bytes`, `CarWire.C86_wheels`, `CarWire.C87_answered_partial`, `CarWire.C87_violated_no_type`, `CarWire.C87_violated`, `CarWire.C88_returns_partial`, `ShortInput.C88_short_partial`, `ShortInput.C88_quiet_partial`, `CarWire.C88_violated_hang`, `CarWire.C88_violated_overflow`, `CarWire.C88_violated_crash`, `CarWire.C88_violated`, `CarWire.C89_request`, `CarWire.C89_deaf`, `CarWire.C89_violated_drives`, `CarWire.C89_violated_pending`, `CarWire.C90_power_partial`, `CarWire.C90_violated_turn`, `CarWire.C90_violated_servo`, `CarWire.C90_violated`, `TicTacToe.C91_exact`, `TicTacToe.C91_legal_partial`, `TicTacToe.C91_violated_division`, `TicTacToe.C91_violated`, `TicTacToe.C92_learn`, `TicTacToe.C92_range`, `TicTacToe.C92_never_won`, `TicTacToe.C93_best`, `TicTacToe.C93_exact`, `TicTacToe.C93_fair_partial`, `TicTacToe.C93_violated`, `Connect4.C94_exact`, `Connect4.C94_legal_partial`, `Connect4.C94_violated_refused`, `Connect4.C94_violated`, `Connect4.C95_learn`, `Connect4.C95_range`, `Connect4.C96_best`, `Connect4.C96_exact`, `Connect4.C96_fair_partial`, `Connect4.C96_violated`, `EquationsWire.C97_answer`, `EquationsWire.arith_value`, `EquationsWire.C97_refused`, `EquationsWire.C97_right_partial`, `EquationsWire.C97_violated_zero`, `EquationsWire.C97_violated_rounding`, `EquationsWire.C97_violated_underflow`, `EquationsWire.C97_violated_overflow`, `EquationsWire.C97_violated_nan`, `EquationsWire.C97_violated`, `EquationsWire.C98_returns_partial`, `ShortInput.C98_short_partial`, `ShortInput.C98_quiet_partial`, `EquationsWire.C98_answered_partial`, `EquationsWire.C98_violated_hang`, `EquationsWire.C98_violated_overflow`, `EquationsWire.C98_violated_number`, `EquationsWire.C98_violated_crash`, `EquationsWire.C98_violated`, `EquationsWire.C99_any_bytes`, `ShortInput.C100_violated`, `Vmem.Map.C102_history_partial`, `Vmem.Map.C102_violated_always`, `Vmem.Map.C102_violated_stuck`, `Log.C103_order_partial`, `Log.C103_lines_partial`, `Log.C103_until_2100_partial`, `Log.C103_violated_same_date`, `Log.C103_violated`, `Log.C104_readback_partial`, `Log.C104_violated_newline`, `Connect4Server.C105_server_partial`, `Connect4Server.C105_claim_once_partial`, `Connect4Server.C105_owner_partial`, `Connect4Server.C105_engine_side`, `Connect4Server.C105_violated_stuck`, `Connect4Wire.C106_session`, `Connect4Wire.C107_any_bytes`, `Connect4Wire.C108_answered_partial`, `Connect4Wire.C108_violated`, `Connect4Wire.C108_violated_no_type`, `Connect4Wire.C108_violated_no_service`, `Connect4Wire.C109_returns_partial`, `Connect4Wire.C109_short_partial`, `Connect4Wire.C109_quiet_partial`, `Connect4Wire.C109_violated`, `Connect4Wire.C109_violated_overflow`, `Connect4Wire.C109_violated_hang`, `Connect4Wire.C109_violated_crash`, `Vmem.Layout.C110_layout_partial`, `Vmem.Layout.C112_types_partial`, `Vmem.Layout.C112_small_partial`, `Vmem.Layout.C112_violated_half_page`, `Vmem.Layout.C112_violated_full_page`, `Vmem.Layout.C112_violated`, `Testing.C113_reports_partial`, `Testing.C113_violated_alien`, `Testing.C113_violated`, `Testing.C114_seed_shown`, `Testing.C115_equal_partial`, `Testing.C115_violated`, `Vmem.StringStream.C116_partial`, `Vmem.StringStream.C116_after_partial`, `Vmem.StringStream.C116_trailing_partial`, `Vmem.StringStream.C116_written_partial`, `Vmem.StringStream.C116_violated_stuck`, `Vmem.StringStream.C116_violated`, `Vmem.StringStream.C116_violated_lost`, `Vmem.Pool.C117_few_partial`, `Vmem.Pool.C117_held_partial`, `Vmem.Pool.C117_violated_busy`, `GameThreads.C118_partial`, `GameThreads.C119_defined_partial`, `GameThreads.C119_rest_partial`, `GameThreads.C119_ends_partial`, `GameThreads.C119_engines_partial`, `GameThreads.C119_plays_partial`, `Connect4Threads.C120_defined_partial`, `Connect4Threads.C120_rest_partial`, `Connect4Threads.C120_ends_partial`, `Connect4Threads.C120_engines_partial`, `Connect4Threads.C120_plays_partial`, `Connect4Threads.C120_violated`, `LogFiles.C121_files_partial`, `LogFiles.C121_duration_partial`, `LogFiles.C121_size_partial`, `Vmem.Pages.C122_insert_range_partial`, `Vmem.Pages.C122_violated_iterator`, `Vmem.Pages.C123_to_end_partial`, `Vmem.Pages.C123_page_partial`, `Vmem.Pages.C123_violated_rest`, `Vmem.Pages.C123_violated`, `Vmem.Pages.C124_iterator_partial`, `Vmem.Pages.posRun_item`, `Vmem.Pages.C125_reuse_partial`, `TlsSample.C127_violated`, `VmemSample.C128_runs_partial`, `VmemSample.C128_violated_any`, `VmemSample.C128_violated`, `GameRace.C129_board_partial`, `GameRace.C129_moves_partial`, `GameList.C130_list_partial`, `GameList.C130_winner_partial`, `GameList.C130_violated_late`, `CarRace.C131_alone_partial`, `CarRace.C131_recovers_partial`, `CarRace.C131_back_partial`, `CarRace.C131_range_partial`, `CarRace.C131_members`, `CarRace.C131_violated`, `CarRace.C131_violated_order`, `Connect4Race.C132_board_partial`, `Connect4Race.C132_moves_partial`, `Connect4List.C133_list_partial`, `Connect4List.C133_winner_partial`, `Connect4List.C133_violated_late`, `GameSlots.C134_partial`, `Password.C135_partial`, `Password.C135_load_partial`, `Password.C135_bounds_partial`, `Password.C135_moved_partial`, `ClaimRace.C136_partial`, `ClaimRace.C136_engine_partial`, `ClaimRace.C136_once_partial`, `ClaimReplace.C138_partial`, `ClaimReplace.C138_refused_partial`, `ClaimReplace.C138_once_partial`.
<!-- axioms end -->
