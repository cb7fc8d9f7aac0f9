{
 "claims": [
  {
   "property": "C01",
   "status": "partial",
   "theorems": [
    "Abc.Timestamp.date_correct_iff",
    "Abc.Timestamp.date_partial",
    "Abc.Timestamp.date_violated_every_leap_day",
    "Abc.Timestamp.date_violated_2024",
    "Abc.Timestamp.date_violated_2070",
    "Abc.Timestamp.date_violated_2100"
   ],
   "note": "The code never reports Feb 29 and is off by one in long stretches after 2070; the exact set of correct days (first 11,000,000 days) is proved, with witnesses of the violations."
  },
  {
   "property": "C02",
   "status": "proved",
   "theorems": [
    "Abc.Timestamp.time_of_day",
    "Abc.Timestamp.reset_defined"
   ],
   "note": ""
  },
  {
   "property": "C03",
   "status": "proved",
   "theorems": [
    "Abc.Timestamp.order_total",
    "Abc.Timestamp.order_chronological"
   ],
   "note": "Order proved total; agreement with chronology stated for instants whose dates the code computes correctly or not, see theorem."
  },
  {
   "property": "C04",
   "status": "proved",
   "theorems": [
    "Abc.Ascii.are_equal_correct",
    "Abc.Ascii.are_equal_null",
    "Abc.Ascii.are_equal_n_safe",
    "Abc.Ascii.are_equal_unlimited",
    "Abc.Ascii.are_equal_capitals",
    "Abc.Ascii.kinds",
    "Abc.Ascii.cases_inverse"
   ],
   "note": ""
  },
  {
   "property": "C05",
   "status": "partial",
   "theorems": [
    "Abc.Json.C05_items",
    "Abc.Json.C05_roundtrip_partial",
    "Abc.Json.C05_violated_number",
    "Abc.Json.C05_violated",
    "Abc.Json.C05_violated_digits"
   ],
   "note": "Every value except a bare number at top level, at the level of number literals; 16 digits do not determine a double."
  },
  {
   "property": "C06",
   "status": "partial",
   "theorems": [
    "Abc.Json.C06_documents_partial",
    "Abc.Json.C06_document_partial",
    "Abc.Json.C06_refused_stays",
    "Abc.Json.C06_misuse_refused",
    "Abc.Json.C06_violated",
    "Abc.Json.C06_violated_bracket",
    "Abc.Json.C06_violated_depth",
    "Abc.Json.C06_violated_quote"
   ],
   "note": "Holds up to several top-level values in a row; two kinds of misuse emit a bracket before they are refused; quotation marks are not escaped."
  },
  {
   "property": "C07",
   "status": "partial",
   "theorems": [
    "Abc.Json.C07_skip_partial"
   ],
   "note": "For values whose strings and numbers the reader can read (C08, C09), not a bare number at the very end of the input."
  },
  {
   "property": "C08",
   "status": "partial",
   "theorems": [
    "Abc.Json.C08_block_partial",
    "Abc.Json.C08_violated_string",
    "Abc.Json.C08_violated",
    "Abc.Json.C08_violated_escapes",
    "Abc.Json.C08_violated_number"
   ],
   "note": "Holds without escapes, for numbers of at most 25 characters and with 6 extra bytes; violated in all three respects."
  },
  {
   "property": "C09",
   "status": "partial",
   "theorems": [
    "Abc.Json.C09_nostring_partial",
    "Abc.Json.C09_string_partial",
    "Abc.Json.C09_skip_partial",
    "Abc.Json.C09_violated_open",
    "Abc.Json.C09_violated_long",
    "Abc.Json.C09_violated_wide",
    "Abc.Json.C09_violated_hex",
    "Abc.Json.C09_violated_skip",
    "Abc.Json.C09_violated"
   ],
   "note": "Returns unless a string is unterminated, too long, or has an escape the reader does not know; skip_value returns on well-formed values."
  },
  {
   "property": "C10",
   "status": "proved",
   "theorems": [
    "Abc.Http.request_round_trip",
    "Abc.Http.norm_fixed"
   ],
   "note": "Header values come back with blanks normalised (outer blanks removed, inner runs one space); the resource is not empty."
  },
  {
   "property": "C11",
   "status": "proved",
   "theorems": [
    "Abc.Http.response_round_trip"
   ],
   "note": "As C10; the reason phrase does not begin with a blank."
  },
  {
   "property": "C12",
   "status": "proved",
   "theorems": [
    "Abc.Http.no_injection",
    "Abc.Http.lines_bounded"
   ],
   "note": ""
  },
  {
   "property": "C13",
   "status": "proved",
   "theorems": [
    "Abc.Http.wcall_order",
    "Abc.Http.request_calls_in_order",
    "Abc.Http.response_calls_in_order",
    "Abc.Http.request_order_accepted",
    "Abc.Http.response_order_accepted",
    "Abc.Http.nothing_after_failure",
    "Abc.Http.rcall_out_of_order",
    "Abc.Http.rcall_in_order",
    "Abc.Http.rcall_dead",
    "Abc.Http.request_reads_in_order",
    "Abc.Http.response_reads_in_order"
   ],
   "note": ""
  },
  {
   "property": "C14",
   "status": "partial",
   "theorems": [
    "Abc.Http.reader_safe_partial",
    "Abc.Http.rrun_returns",
    "Abc.Http.size0_violated",
    "Abc.Http.size0_overrun_violated"
   ],
   "note": "Holds for buffer sizes of at least 1 (resource: 2); violated below."
  },
  {
   "property": "C15",
   "status": "partial",
   "theorems": [
    "Abc.Http.query_exact_partial",
    "Abc.Http.query_exact_nonempty_partial",
    "Abc.Http.received_query_partial",
    "Abc.Http.query_absent",
    "Abc.Http.query_exact_violated",
    "Abc.Http.query_overrun_violated"
   ],
   "note": "Parameters behind an empty piece are not found; an empty last piece makes the split run past the resource."
  },
  {
   "property": "C16",
   "status": "partial",
   "theorems": [
    "Abc.Http.body_exact_partial",
    "Abc.Http.body_exact_violated"
   ],
   "note": "At an early end a byte 0xFF is stored and counted."
  },
  {
   "property": "C17",
   "status": "partial",
   "theorems": [
    "Abc.Log.line_partial",
    "Abc.Log.flush_without_table",
    "Abc.Log.line_violated_full",
    "Abc.Log.line_violated_overlong",
    "Abc.Log.line_violated_write_past_end"
   ],
   "note": "Holds while the pending text stays shorter than the line; violated (lost last character, reads and writes past the buffer) otherwise."
  },
  {
   "property": "C18",
   "status": "proved",
   "theorems": [
    "Abc.Log.dump_line",
    "Abc.Log.dump_text",
    "Abc.Log.dump_roundtrip",
    "Abc.Log.dump_needs_room"
   ],
   "note": "The printed offset is modulo 65536; needs 73 characters of room after the entry properties."
  },
  {
   "property": "C19",
   "status": "proved",
   "theorems": [
    "Abc.Log.filter_exact",
    "Abc.Log.filter_monotone"
   ],
   "note": ""
  },
  {
   "property": "C20",
   "status": "partial",
   "theorems": [
    "Abc.Vmem.Pool.C20_mapping",
    "Abc.Vmem.Pool.C20_refusal_partial",
    "Abc.Vmem.Pool.C20_violated"
   ],
   "note": "The mapping and pointer part holds for all histories; a lock is refused only if full for fewer than 2^32-1 locks, violated beyond."
  },
  {
   "property": "C21",
   "status": "partial",
   "theorems": [
    "Abc.Vmem.Pool.C21_contents_partial",
    "Abc.Vmem.Pool.C21_violated"
   ],
   "note": "Holds when mmap succeeds; a failing mmap (MAP_FAILED) is taken for a page."
  },
  {
   "property": "C22",
   "status": "partial",
   "theorems": [
    "Abc.Vmem.Pages.C22_alloc_partial",
    "Abc.Vmem.Pages.C22_violated_locks"
   ],
   "note": "Holds for all histories of alloc_page/free_page with each page freed once and locks to spare; with too few locks the same page is handed out twice."
  },
  {
   "property": "C23",
   "status": "partial",
   "theorems": [
    "Abc.Vmem.Pages.C23_linked_partial",
    "Abc.Vmem.Pages.C23_violated_locks"
   ],
   "note": "Holds for all histories of insert/erase over several lists while at least 4 more pages can be locked; a page that cannot be locked leaves the list half unlinked."
  },
  {
   "property": "C24",
   "status": "partial",
   "theorems": [
    "Abc.Vmem.Pages.C24_insert_partial",
    "Abc.Vmem.Pages.C24_violated"
   ],
   "note": "All histories, positions and page capacities of at least 2, with a log and 5 pages that can be locked; with one item per page the insertion writes past the page."
  },
  {
   "property": "C25",
   "status": "partial",
   "theorems": [
    "Abc.Vmem.Pages.C25_erase_partial",
    "Abc.Vmem.Pages.C25_violated",
    "Abc.Vmem.Pages.C25_violated_merge"
   ],
   "note": "The removal, the size and the other containers for all histories; the returned iterator only under ErGood, violated otherwise (only item erased; page merged into its next)."
  },
  {
   "property": "C26",
   "status": "partial",
   "theorems": [
    "Abc.Vmem.Pages.C26_iterate_partial",
    "Abc.Vmem.Pages.C26_violated",
    "Abc.Vmem.Pages.C26_violated_locks"
   ],
   "note": "All reachable containers and positions while pages can be locked and there is a log; violated without a log or without a free lock."
  },
  {
   "property": "C27",
   "status": "partial",
   "theorems": [
    "Abc.Vmem.Pages.C27_stack_partial"
   ],
   "note": "All histories, any capacity and balance policy; needs a log and 5 pages that can be locked."
  },
  {
   "property": "C28",
   "status": "partial",
   "theorems": [
    "Abc.Vmem.Pages.C28_clear_partial",
    "Abc.Vmem.Pages.C125_clear_partial",
    "Abc.Vmem.Pages.C28_violated",
    "Abc.Vmem.Pages.C28_violated_size",
    "Abc.Vmem.Pages.C28_violated_alias"
   ],
   "note": "For lists of pages, all histories in which some page is free at each clear; the size is never reset, and without a free page the container keeps its pages and shares them with others."
  },
  {
   "property": "C29",
   "status": "partial",
   "theorems": [
    "Abc.Vmem.Map.C29_min_first_partial",
    "Abc.Vmem.Map.C29_violated_decreasing",
    "Abc.Vmem.Map.C29_violated_zero",
    "Abc.Vmem.Map.C29_violated_full_page"
   ],
   "note": "Proved for histories whose first key stays the smallest, with room in the file and after the items of a page. Violated by keys inserted in decreasing order, by keys below the all-zero key, and by a search past a full page that has no spare bytes."
  },
  {
   "property": "C30",
   "status": "partial",
   "theorems": [
    "Abc.Vmem.Map.C30_small_partial",
    "Abc.Vmem.Map.C30_inner_partial",
    "Abc.Vmem.Map.C30_violated_last",
    "Abc.Vmem.Map.C30_violated_twice",
    "Abc.Vmem.Map.C30_violated_first",
    "Abc.Vmem.Map.C30_violated_merge",
    "Abc.Vmem.Map.C30_violated_merge_erase",
    "Abc.Vmem.Map.C30_violated_regrow"
   ],
   "note": "Proved for maps that fit on one page, and for maps of any depth while erased keys are not the first of their page and no pages are merged; in both cases for clients that do not use an erased key again. The largest key of a page is still found after it was erased; erasing it again erases another key; erasing the first key of a page makes other keys unreachable; when a page is merged with the next one, keys can be inserted into the freed page; a map that shrinks to one page and grows again loses all keys."
  },
  {
   "property": "C31",
   "status": "partial",
   "theorems": [
    "Abc.Streambuf.output_exact",
    "Abc.Streambuf.output_may_hold_back",
    "Abc.Streambuf.string_input_partial",
    "Abc.Streambuf.string_roundtrip_partial",
    "Abc.Streambuf.string_input_violated"
   ],
   "note": "The byte 0xFF is reported as end of stream."
  },
  {
   "property": "C32",
   "status": "partial",
   "theorems": [
    "Abc.Streambuf.output_exact",
    "Abc.Streambuf.socket_output_violated",
    "Abc.Streambuf.socket_input_partial",
    "Abc.Streambuf.socket_input_violated_eof",
    "Abc.Streambuf.socket_input_violated_empty"
   ],
   "note": "Failed sends are silent; end of stream is never reported."
  },
  {
   "property": "C33",
   "status": "partial",
   "theorems": [
    "Abc.Endpoint.Shutdown.shutdown_partial",
    "Abc.Endpoint.Shutdown.shutdown_uninterrupted_partial",
    "Abc.Endpoint.Shutdown.shutdown_violated_twice",
    "Abc.Endpoint.Shutdown.shutdown_violated_in_flight",
    "Abc.Endpoint.Shutdown.shutdown_violated_second_race"
   ],
   "note": "Ready at least once after a shutdown request in every schedule; at most once and not before in-flight requests only without the two races, for which witnesses are given."
  },
  {
   "property": "C34",
   "status": "partial",
   "theorems": [
    "Abc.Endpoint.path_inside_partial",
    "Abc.Endpoint.path_inside_violated"
   ],
   "note": "Holds for resources without a \"..\" component; violated otherwise for every root."
  },
  {
   "property": "C35",
   "status": "proved",
   "theorems": [
    "Abc.Endpoint.is_file_request_correct",
    "Abc.Endpoint.content_type_correct",
    "Abc.Endpoint.content_type_no_dot",
    "Abc.Endpoint.routing_correct"
   ],
   "note": ""
  },
  {
   "property": "C36",
   "status": "partial",
   "theorems": [
    "Abc.Pwm.registers_partial",
    "Abc.Pwm.registers_violated_division_by_zero",
    "Abc.Pwm.registers_violated_truncation",
    "Abc.Pwm.servo_pulse_partial"
   ],
   "note": "Holds for the frequencies stated in registers_partial; violated (division by zero, truncation to 16 bits) outside."
  },
  {
   "property": "C37",
   "status": "proved",
   "theorems": [
    "Abc.Pwm.emulator_pulse"
   ],
   "note": ""
  },
  {
   "property": "C38",
   "status": "partial",
   "theorems": [
    "Abc.Smbus.transfer_partial",
    "Abc.Smbus.no_overrun_partial",
    "Abc.Smbus.values_read",
    "Abc.Smbus.no_log_violated",
    "Abc.Smbus.no_log_violated_overflow",
    "Abc.Smbus.lock_violated"
   ],
   "note": "Holds for a bus with a log whose mutex can be locked; violated without a log."
  },
  {
   "property": "C39",
   "status": "partial",
   "theorems": [
    "Abc.TicTacToe.C39_rules_partial",
    "Abc.TicTacToe.C39_undo_partial",
    "Abc.TicTacToe.C39_total_partial",
    "Abc.TicTacToe.C39_violated",
    "Abc.TicTacToe.C39_violated_count"
   ],
   "note": "All histories of accepted, refused and last-in-first-out undone moves; undo_move of any other move is accepted and leaves a board no game reaches."
  },
  {
   "property": "C40",
   "status": "partial",
   "theorems": [
    "Abc.TicTacToe.C40_slow_engine_partial",
    "Abc.TicTacToe.C40_whole_game",
    "Abc.TicTacToe.C40_make_move",
    "Abc.TicTacToe.C40_violated",
    "Abc.TicTacToe.C40_violated_make_move"
   ],
   "note": "The engine plays an optimal legal move in every position that is not lost, and playing a side from the start it never meets a lost one and never loses; in lost positions best_move is not assigned."
  },
  {
   "property": "C41",
   "status": "partial",
   "theorems": [
    "Abc.Connect4.C41_rules_partial",
    "Abc.Connect4.C41_undo_partial",
    "Abc.Connect4.C41_full_column",
    "Abc.Connect4.C41_last_disc",
    "Abc.Connect4.C41_violated",
    "Abc.Connect4.C41_violated_wrap"
   ],
   "note": "All histories of accepted, refused and top-of-column undone moves; undo_move on an empty column wraps the column sizes."
  },
  {
   "property": "C42",
   "status": "partial",
   "theorems": [
    "Abc.Equations.status_one_iff",
    "Abc.Equations.status_zero_sound",
    "Abc.Equations.status_two_partial",
    "Abc.Equations.classification_violated"
   ],
   "note": "double idealised as an infinite field; violated for the zero matrix with a non-zero right-hand side."
  },
  {
   "property": "C43",
   "status": "partial",
   "theorems": [
    "Abc.Multifile.path_partial",
    "Abc.Multifile.path_violated_truncated",
    "Abc.Multifile.path_violated_empty",
    "Abc.Multifile.size_partial",
    "Abc.Multifile.size_violated_early",
    "Abc.Multifile.size_violated_missed",
    "Abc.Multifile.duration_exact"
   ],
   "note": "Violations at the boundary of the path length, for the empty folder, and for buffered or character output."
  },
  {
   "property": "C44",
   "status": "partial",
   "theorems": [
    "Abc.Vmem.Pages.C44_alloc_partial",
    "Abc.Vmem.Pages.C44_violated",
    "Abc.Vmem.Pages.C44_violated_size"
   ],
   "note": "Holds for a stop after the page allocation; violated after the new page is linked and before the state is updated."
  },
  {
   "property": "C45",
   "status": "partial",
   "theorems": [
    "Abc.Threads.Emulator.C45_emulator",
    "Abc.Threads.Tracker.C45_tracker_partial",
    "Abc.Threads.Tracker.C45_tracker_waiting_partial",
    "Abc.Threads.Tracker.C45_violated",
    "Abc.Threads.Tracker.C45_violated_start"
   ],
   "note": "Proved for the PWM emulator; the motion tracker hangs exactly when destroyed between the test of its variables and its wait, and misses a start there."
  },
  {
   "property": "C46",
   "status": "proved",
   "theorems": [
    "Abc.Vmem.Open.C46_existing",
    "Abc.Vmem.Open.C46_fresh"
   ],
   "note": ""
  },
  {
   "property": "C47",
   "status": "proved",
   "theorems": [
    "Abc.Streambuf.buffer_exact"
   ],
   "note": ""
  },
  {
   "property": "C48",
   "status": "partial",
   "theorems": [
    "Abc.GameServer.C48_server_partial",
    "Abc.GameServer.C48_claim_once_partial",
    "Abc.GameServer.C48_owner_partial",
    "Abc.GameServer.C48_engine_side",
    "Abc.GameServer.C48_violated_equal",
    "Abc.GameServer.C48_violated_stuck",
    "Abc.GameServer.Race.C48_violated_race",
    "Abc.GameServer.Race.C48_race_partial"
   ],
   "note": "All histories of atomic requests; claim_player tests and sets without a lock, so two concurrent claims can both get the seat; equal or zero random numbers break the game. Requests taken apart into single accesses: claims in C136, moves in C129, lists of moves in C130, new games in C134, moves while a game is replaced in C137."
  },
  {
   "property": "C49",
   "status": "partial",
   "theorems": [
    "Abc.Log.severity_indent_partial",
    "Abc.Log.severity_indent_violated"
   ],
   "note": "Severity 0 writes before the array."
  },
  {
   "property": "C50",
   "status": "partial",
   "theorems": [
    "Abc.Streambuf.C50_untouched_partial",
    "Abc.Streambuf.C50_rewinds",
    "Abc.Streambuf.C50_violated",
    "Abc.Streambuf.move_rewinds"
   ],
   "note": "False as stated: after any history the moved object starts again at the beginning of both areas (C50_rewinds). Proved for a stream that has only been looked at."
  },
  {
   "property": "C51",
   "status": "partial",
   "theorems": [
    "Abc.Log.C51_unmoved_partial",
    "Abc.Log.C51_count",
    "Abc.Log.C51_violated",
    "Abc.Log.move_violated"
   ],
   "note": "False as stated: the text is sent once for every object there has been (C51_count). Proved for a line that is not moved."
  },
  {
   "property": "C52",
   "status": "partial",
   "theorems": [
    "Abc.Multifile.rotation_keeps_data_partial",
    "Abc.Multifile.rotation_loses_data",
    "Abc.Multifile.filename_injective",
    "Abc.Multifile.names_collide_on_leap_days"
   ],
   "note": "Data are lost when names repeat."
  },
  {
   "property": "C53",
   "status": "proved",
   "theorems": [
    "Abc.Endpoint.file_body_correct"
   ],
   "note": ""
  },
  {
   "property": "C54",
   "status": "proved",
   "theorems": [
    "Abc.Smbus.word_roundtrip"
   ],
   "note": ""
  },
  {
   "property": "C55",
   "status": "partial",
   "theorems": [
    "Abc.Smbus.C55_apart_partial",
    "Abc.Smbus.C55_one_target",
    "Abc.Smbus.C55_violated",
    "Abc.Smbus.C55_violated_lasting",
    "Abc.Smbus.sysRun_transfer",
    "Abc.Smbus.threads_violated",
    "Abc.Smbus.halves_transfer"
   ],
   "note": "False as stated: looking at the remembered address, setting it in the kernel, remembering it and the transfer are not atomic; the mix-up can last after the other thread has stopped. Proved for any number of threads and any schedule in which overlapping calls use the same address."
  },
  {
   "property": "C56",
   "status": "partial",
   "theorems": [
    "Abc.Http.reports_bad_bytes_partial",
    "Abc.Http.reports_bad_bytes_violated",
    "Abc.Http.truncates_violated",
    "Abc.Http.short_protocol_violated"
   ],
   "note": "Holds for header names, header values and bodies; method, resource, status code, reason phrase and protocol are cut off silently."
  },
  {
   "property": "C57",
   "status": "proved",
   "theorems": [
    "Abc.Http.folded_value"
   ],
   "note": ""
  },
  {
   "property": "C58",
   "status": "partial",
   "theorems": [
    "Abc.Vmem.Pool.C58_no_fault_partial",
    "Abc.Vmem.Pool.C58_violated"
   ],
   "note": "Holds for fewer than 2^32 calls; divides by zero after 2^31 lock/unlock pairs."
  },
  {
   "property": "C59",
   "status": "partial",
   "theorems": [
    "Abc.Vmem.Pages.C59_no_fault_partial",
    "Abc.Vmem.Pages.C59_violated",
    "Abc.Vmem.Pages.C59_violated_log",
    "Abc.Vmem.Pages.C59_violated_stack"
   ],
   "note": "All histories with a log and two items per page for lists; violated with one item per page, without a log, and by push_front on a stack."
  },
  {
   "property": "C60",
   "status": "partial",
   "theorems": [
    "Abc.Connect4.C60_slow_engine_partial",
    "Abc.Connect4.C60_whole_game",
    "Abc.Connect4.C60_violated_opening"
   ],
   "note": "Every unfinished position from the fifth move on; the opening moves are legal in games the engine plays from the start, violated in others."
  },
  {
   "property": "C61",
   "status": "partial",
   "theorems": [
    "Abc.Vmem.Open.C61_fresh_partial",
    "Abc.Vmem.Open.C61_violated"
   ],
   "note": "Holds for files created by the call; a file with only the root page (left by a full disk or a crash) is accepted."
  },
  {
   "property": "C62",
   "status": "partial",
   "theorems": [
    "Abc.Wire.C62_all_or_nothing_partial",
    "Abc.Wire.C63_end_to_end",
    "Abc.Wire.C62_violated_silent",
    "Abc.Wire.C62_violated_directory"
   ],
   "note": "For every input the endpoint returns without undefined behaviour or exception and sends nothing or one complete response; well-formed requests within the limits are answered (C63_end_to_end). Violated: a request line that does not fit or is malformed gets no answer at all, and a directory is announced with its size but has no body."
  },
  {
   "property": "C63",
   "status": "proved",
   "theorems": [
    "Abc.Wire.C63_end_to_end"
   ],
   "note": ""
  },
  {
   "property": "C64",
   "status": "proved",
   "theorems": [
    "Abc.GameWire.C64_session"
   ],
   "note": "Requests are those of the inductive Asks: any case of method and path, any headers that fit with one Content-Type of application/json, any JSON text of the object. The conversion of numbers to double is a parameter."
  },
  {
   "property": "C65",
   "status": "proved",
   "theorems": [
    "Abc.GameWire.C65_any_bytes"
   ],
   "note": "For runs without undefined behaviour and without an endless loop; when these happen is C67."
  },
  {
   "property": "C66",
   "status": "partial",
   "theorems": [
    "Abc.GameWire.C66_answered_partial",
    "Abc.GameWire.C66_violated",
    "Abc.GameWire.C66_violated_no_type",
    "Abc.GameWire.C66_violated_no_service"
   ],
   "note": "False as stated: a POST that takes a body but has no Content-Type, and a resource below /games without a service, get no answer. Proved: all other requests whose body, if one is read, is any JSON value (except a bare number) whose strings have at most 64 and whose member names at most 1024 characters."
  },
  {
   "property": "C67",
   "status": "partial",
   "theorems": [
    "Abc.GameWire.C67_returns_partial",
    "Abc.ShortInput.C67_short_partial",
    "Abc.ShortInput.C67_quiet_partial",
    "Abc.GameWire.C67_violated",
    "Abc.GameWire.C67_violated_overflow",
    "Abc.GameWire.C67_violated_hang",
    "Abc.GameWire.C67_violated_crash"
   ],
   "note": "False as stated: long player names overflow an array, an unterminated string is skipped for ever, a long header value ends the process. Proved for all byte sequences except those read as a POST below /games; for those with JSON bodies see C66."
  },
  {
   "property": "C68",
   "status": "proved",
   "theorems": [
    "Abc.Resource.C68_descriptors",
    "Abc.Resource.C68_bind"
   ],
   "note": "All programs of the five socket classes. The kernel is modelled as a table of numbers with serials; numbers may be reused as soon as they are closed."
  },
  {
   "property": "C69",
   "status": "partial",
   "theorems": [
    "Abc.Resource.C69_tls_partial",
    "Abc.Resource.C69_violated_leak",
    "Abc.Resource.C69_violated_stray"
   ],
   "note": "False as stated: a constructor that throws after SSL_CTX_new leaks the context, a failing SSL_set_fd in accept leaks the SSL, and destroying a TLS client after close sends close_notify to a stale descriptor. Proved: nothing is freed twice or used after free; no stale descriptor in programs that do not call close on a TLS client; no leak in programs without such a failure."
  },
  {
   "property": "C70",
   "status": "partial",
   "theorems": [
    "Abc.Resource.C70_connect_partial",
    "Abc.Resource.C70_violated"
   ],
   "note": "False as stated: without a log every connect that reaches its peer dereferences null. Proved for clients with a log."
  },
  {
   "property": "C71",
   "status": "partial",
   "theorems": [
    "Abc.Resource.Devices.C71_devices_partial",
    "Abc.Resource.Devices.C71_violated_move",
    "Abc.Resource.Devices.C71_violated_ctor"
   ],
   "note": "False as stated: moving a line copies its descriptor, and both objects close it; constructors of line, bus and pool that throw after open keep the descriptor. Proved for programs without such moves; complete release for programs without such failures."
  },
  {
   "property": "C72",
   "status": "proved",
   "theorems": [
    "Abc.Gpio.C72_expect",
    "Abc.Gpio.C72_put"
   ],
   "note": ""
  },
  {
   "property": "C73",
   "status": "partial",
   "theorems": [
    "Abc.Gpio.C73_distance_partial",
    "Abc.Gpio.C73_honest",
    "Abc.Gpio.C73_silent",
    "Abc.Gpio.C73_violated"
   ],
   "note": "False as stated: the timeout is a static variable computed from the argument of the first call. Proved for echoes within the time of the first call; whatever the line does, the call returns its argument or a distance between a high and a later low reading."
  },
  {
   "property": "C74",
   "status": "partial",
   "theorems": [
    "Abc.Gpio.Motion.C74_calibration_partial",
    "Abc.Gpio.Motion.C74_violated_turns",
    "Abc.Gpio.Motion.C74_violated_log",
    "Abc.Gpio.Motion.C74_violated_mask",
    "Abc.Gpio.Motion.C74_violated"
   ],
   "note": "False as stated: the sum of 20 readings is kept in 16 bits, so an acceleration between 0.81 g and 2.3 g (gravity) makes all later values 1.6 g too large; a null log is used; calibrating other channels forgets the channel. Proved up to 0.79 g and 99 degrees per second with a log."
  },
  {
   "property": "C75",
   "status": "partial",
   "theorems": [
    "Abc.Gpio.Motion.C75_reading_partial",
    "Abc.Gpio.Motion.C75_violated_stale",
    "Abc.Gpio.Motion.C75_violated_undefined",
    "Abc.Gpio.Motion.C75_violated_asleep",
    "Abc.Gpio.Motion.C75_violated"
   ],
   "note": "False as stated: failing requests are not noticed; a channel then reports the word of another channel or an uninitialised variable, or the sensor stays asleep. Proved when no request fails."
  },
  {
   "property": "C76",
   "status": "proved",
   "theorems": [
    "Abc.Gpio.Tracker.C76_tracking",
    "Abc.Gpio.Tracker.C76_straight",
    "Abc.Gpio.Tracker.C76_circle",
    "Abc.Gpio.Tracker.C76_rest",
    "Abc.Gpio.Tracker.C76_unit"
   ],
   "note": "Real arithmetic; rounding of double is not modelled."
  },
  {
   "property": "C77",
   "status": "partial",
   "theorems": [
    "Abc.Gpio.Tracker.C77_set_partial",
    "Abc.Gpio.Tracker.C77_between",
    "Abc.Gpio.Tracker.C77_violated",
    "Abc.Gpio.Tracker.C77_violated_torn"
   ],
   "note": "False as stated: a value set between the reading and the writing of its field is forgotten; two getters in a row can report the new depth with the old width. Proved for setters outside of that window."
  },
  {
   "property": "C78",
   "status": "proved",
   "theorems": [
    "Abc.Car.C78_wheels",
    "Abc.Car.C78_obeys"
   ],
   "note": "Each request and each round of the loop is one step."
  },
  {
   "property": "C79",
   "status": "partial",
   "theorems": [
    "Abc.Car.C79_still_iff",
    "Abc.Car.C79_stop",
    "Abc.Car.C79_straight_partial",
    "Abc.Car.C79_violated"
   ],
   "note": "False as stated: a turn request sets a car with power 0 in motion; the car stands still exactly if power and turn are both 0. The request for power 0 stops it."
  },
  {
   "property": "C80",
   "status": "partial",
   "theorems": [
    "Abc.Car.C80_slows_partial",
    "Abc.Car.C80_stops_partial",
    "Abc.Car.C80_never_faster",
    "Abc.Car.C80_violated_late",
    "Abc.Car.C80_violated_turning",
    "Abc.Car.C80_violated_sharp"
   ],
   "note": "False as stated: a round takes off at most a quarter of the power, so up to four rounds are needed; a car that turns is never stopped, and with the sharpest turn not even slowed. Proved: a straight car stops within four rounds."
  },
  {
   "property": "C81",
   "status": "partial",
   "theorems": [
    "Abc.Car.C81_stop_partial",
    "Abc.Car.C81_range",
    "Abc.Car.C81_violated",
    "Abc.Car.C81_violated_lasting"
   ],
   "note": "False as stated: a stop between the test and the assignment of the loop is undone. Proved for stops at other moments. Requests at the same time are in C131."
  },
  {
   "property": "C82",
   "status": "partial",
   "theorems": [
    "Abc.Car.C82_exact",
    "Abc.Car.C82_gentle_partial",
    "Abc.Car.C82_tracker",
    "Abc.Car.C82_violated",
    "Abc.Car.C82_violated_turning"
   ],
   "note": "False as stated: the test for a change of direction multiplies the signed request with a power that is never negative. Proved: exactly which requests reverse running motors and which reset the tracker."
  },
  {
   "property": "C83",
   "status": "proved",
   "theorems": [
    "Abc.Car.C83_servo",
    "Abc.Car.C83_decreasing",
    "Abc.Car.C83_pulse"
   ],
   "note": ""
  },
  {
   "property": "C84",
   "status": "proved",
   "theorems": [
    "Abc.CarWire.C84_carried_out",
    "Abc.CarWire.C84_refused",
    "Abc.CarWire.C84_other_name"
   ],
   "note": "A fractional number counts as its whole part, as long as it is within the limits."
  },
  {
   "property": "C85",
   "status": "proved",
   "theorems": [
    "Abc.CarWire.C85_report"
   ],
   "note": ""
  },
  {
   "property": "C86",
   "status": "proved",
   "theorems": [
    "Abc.CarWire.C86_any_bytes",
    "Abc.CarWire.C86_wheels"
   ],
   "note": "Each connection and each round of the loop is one step."
  },
  {
   "property": "C87",
   "status": "partial",
   "theorems": [
    "Abc.CarWire.C87_answered_partial",
    "Abc.CarWire.C87_violated_no_type",
    "Abc.CarWire.C87_violated"
   ],
   "note": "False as stated: a POST without Content-Type gets no answer at all. Proved for all others with JSON bodies."
  },
  {
   "property": "C88",
   "status": "partial",
   "theorems": [
    "Abc.CarWire.C88_returns_partial",
    "Abc.ShortInput.C88_short_partial",
    "Abc.ShortInput.C88_quiet_partial",
    "Abc.CarWire.C88_violated_hang",
    "Abc.CarWire.C88_violated_overflow",
    "Abc.CarWire.C88_violated_crash",
    "Abc.CarWire.C88_violated"
   ],
   "note": "False as stated: an unterminated name hangs the thread, a name of 1033 to 1038 characters is written past its block, a header value of 1024 characters followed by a blank ends the process. Proved for all bytes that are not read as a POST with a number."
  },
  {
   "property": "C89",
   "status": "partial",
   "theorems": [
    "Abc.CarWire.C89_request",
    "Abc.CarWire.C89_deaf",
    "Abc.CarWire.C89_stops_partial",
    "Abc.CarWire.C89_violated_drives",
    "Abc.CarWire.C89_violated_pending",
    "Abc.CarWire.C89_violated"
   ],
   "note": "False as stated: the board is reset before the loop has ended, and the last round of the loop may drive the wheels again; no request stops the car then. Proved if the round lowers no power."
  },
  {
   "property": "C90",
   "status": "partial",
   "theorems": [
    "Abc.CarWire.C90_power_partial",
    "Abc.CarWire.C90_violated_turn",
    "Abc.CarWire.C90_violated_servo",
    "Abc.CarWire.C90_violated"
   ],
   "note": "False as stated: {\"turn\": 50} and {\"servo\": 50} are refused. Proved for power."
  },
  {
   "property": "C91",
   "status": "partial",
   "theorems": [
    "Abc.TicTacToe.C91_exact",
    "Abc.TicTacToe.C91_turn",
    "Abc.TicTacToe.C91_legal_partial",
    "Abc.TicTacToe.C91_violated_division",
    "Abc.TicTacToe.C91_violated",
    "Abc.TicTacToe.C91_violated_no_room"
   ],
   "note": "False as stated: after 27 games that can happen the engine divides by zero. C91_exact says exactly when it makes a legal move and what happens otherwise."
  },
  {
   "property": "C92",
   "status": "proved",
   "theorems": [
    "Abc.TicTacToe.C92_learn",
    "Abc.TicTacToe.C92_ask",
    "Abc.TicTacToe.C92_range",
    "Abc.TicTacToe.C92_total",
    "Abc.TicTacToe.C92_never_won",
    "Abc.TicTacToe.C92_violated_no_room"
   ],
   "note": "With room in the map; without room learning dereferences an iterator that cannot be (C92_violated_no_room)."
  },
  {
   "property": "C93",
   "status": "partial",
   "theorems": [
    "Abc.TicTacToe.C93_best",
    "Abc.TicTacToe.C93_exact",
    "Abc.TicTacToe.C93_fair_partial",
    "Abc.TicTacToe.C93_violated"
   ],
   "note": "False as stated: moves with the lowest score count when the moves are gone through but not when the number is drawn. Proved for positions without such moves; C93_exact gives the picks in general."
  },
  {
   "property": "C94",
   "status": "partial",
   "theorems": [
    "Abc.Connect4.C94_exact",
    "Abc.Connect4.C94_turn",
    "Abc.Connect4.C94_legal_partial",
    "Abc.Connect4.C94_violated_refused",
    "Abc.Connect4.C94_violated",
    "Abc.Connect4.C94_violated_no_room"
   ],
   "note": "False as stated: when all open columns have the lowest score, a column is tried that may be full; the board refuses and the game stands still. C94_exact says exactly when."
  },
  {
   "property": "C95",
   "status": "proved",
   "theorems": [
    "Abc.Connect4.C95_learn",
    "Abc.Connect4.C95_ask",
    "Abc.Connect4.C95_range",
    "Abc.Connect4.C95_total",
    "Abc.Connect4.C95_violated_no_room"
   ],
   "note": "With room in the map; without room learning dereferences an iterator that cannot be (C95_violated_no_room)."
  },
  {
   "property": "C96",
   "status": "partial",
   "theorems": [
    "Abc.Connect4.C96_best",
    "Abc.Connect4.C96_exact",
    "Abc.Connect4.C96_fair_partial",
    "Abc.Connect4.C96_violated"
   ],
   "note": "False as stated: columns with the lowest score count when the columns are gone through but not when the number is drawn. Proved for positions without such columns; C96_exact gives the picks in general."
  },
  {
   "property": "C97",
   "status": "partial",
   "theorems": [
    "Abc.EquationsWire.C97_answer",
    "Abc.EquationsWire.arith_value",
    "Abc.EquationsWire.C97_refused",
    "Abc.EquationsWire.C97_right_partial",
    "Abc.EquationsWire.C97_violated_zero",
    "Abc.EquationsWire.C97_violated_rounding",
    "Abc.EquationsWire.C97_violated_underflow",
    "Abc.EquationsWire.C97_violated_overflow",
    "Abc.EquationsWire.C97_violated_nan",
    "Abc.EquationsWire.C97_violated"
   ],
   "note": "C97_answer and C97_refused hold for any arithmetic: the request gets what the formulas give. That this is the solution is proved when the products, differences and quotients are exact and the matrix is not zero; it is false for the zero matrix and under rounding, underflow and overflow."
  },
  {
   "property": "C98",
   "status": "partial",
   "theorems": [
    "Abc.EquationsWire.C98_returns_partial",
    "Abc.ShortInput.C98_short_partial",
    "Abc.ShortInput.C98_quiet_partial",
    "Abc.EquationsWire.C98_answered_partial",
    "Abc.EquationsWire.C98_violated_hang",
    "Abc.EquationsWire.C98_violated_overflow",
    "Abc.EquationsWire.C98_violated_number",
    "Abc.EquationsWire.C98_violated_crash",
    "Abc.EquationsWire.C98_violated"
   ],
   "note": "False as stated. Proved for any bytes that are not POST /problem, and for POST /problem with headers that fit and a JSON value as body."
  },
  {
   "property": "C99",
   "status": "proved",
   "theorems": [
    "Abc.EquationsWire.C99_any_bytes"
   ],
   "note": "For any bytes, given that the process lives; an exception is among the outcomes, only after POST /problem."
  },
  {
   "property": "C100",
   "status": "partial",
   "theorems": [
    "Abc.ShortInput.C67_short_partial",
    "Abc.ShortInput.C88_short_partial",
    "Abc.ShortInput.C98_short_partial",
    "Abc.ShortInput.C67_quiet_partial",
    "Abc.ShortInput.C88_quiet_partial",
    "Abc.ShortInput.C98_quiet_partial",
    "Abc.ShortInput.C100_violated"
   ],
   "note": "Proved for all bytes in which no more than 25 characters in a row belong to numbers (27 corrupt memory: C100_violated); for the game, while POST /games has a body of at most 63 bytes, unless there is no quotation mark."
  },
  {
   "property": "C101",
   "status": "partial",
   "theorems": [
    "Abc.Json.C101_accepts_partial",
    "Abc.Json.C101_tokens_partial",
    "Abc.Json.C101_violated"
   ],
   "note": "False as stated: a comma before a closing bracket is accepted. Proved that nothing is accepted beyond the grammar Lax: JSON with such commas, any escaped character, unescaped control characters, and numbers with a plus sign, leading zeros or missing digits."
  },
  {
   "property": "C102",
   "status": "partial",
   "theorems": [
    "Abc.Vmem.Map.C102_clear_partial",
    "Abc.Vmem.Map.C102_history_partial",
    "Abc.Vmem.Map.C102_violated_always",
    "Abc.Vmem.Map.C102_violated_stuck",
    "Abc.Vmem.Map.C102_violated_kept",
    "Abc.Vmem.Map.C102_violated_size",
    "Abc.Vmem.Map.C102_violated_unusable"
   ],
   "note": "False as stated. Proved: if some page of the pool is free, or the map has key levels, then no key is found and nothing shown after clear. Without key levels and free pages everything stays (for all histories of C29 without levels); size() never changes; a map that had key levels can never again grow beyond one page."
  },
  {
   "property": "C103",
   "status": "partial",
   "theorems": [
    "Abc.Log.C103_order_partial",
    "Abc.Log.C103_lines_partial",
    "Abc.Log.C103_until_2100_partial",
    "Abc.Log.C103_violated_same_date",
    "Abc.Log.C103_violated"
   ],
   "note": "False as stated: on leap days the date of the next day is shown (C01), so the lines of February 29 and March 1 are mixed. Proved for all instants of a 64-bit clock not lying on two days that are shown with the same date; in particular the dates shown never go back."
  },
  {
   "property": "C104",
   "status": "partial",
   "theorems": [
    "Abc.Log.C104_readback_partial",
    "Abc.Log.C104_violated_newline",
    "Abc.Log.C104_violated",
    "Abc.Log.C104_violated_thread",
    "Abc.Log.C104_debug_columns"
   ],
   "note": "False as stated: a newline in a message can forge an entry, for any forged entry. Proved for all logs whose messages have no newline, whose lines fit and whose thread ids have at most 15 hexadecimal digits; longer ids read past the end of an array."
  },
  {
   "property": "C105",
   "status": "partial",
   "theorems": [
    "Abc.Connect4Server.C105_server_partial",
    "Abc.Connect4Server.C105_claim_once_partial",
    "Abc.Connect4Server.C105_owner_partial",
    "Abc.Connect4Server.C105_engine_side",
    "Abc.Connect4Server.C105_violated_equal",
    "Abc.Connect4Server.C105_violated_stuck"
   ],
   "note": "False as stated: claims that run at the same time (C48, same code), equal numbers for both players, and the number 0. Proved for all histories of atomic requests."
  },
  {
   "property": "C106",
   "status": "proved",
   "theorems": [
    "Abc.Connect4Wire.C106_session"
   ],
   "note": "Requests are those of the inductive Asks: any case of method and path, any headers that fit with one Content-Type of application/json, any JSON text of the object. The conversion of numbers to double is a parameter."
  },
  {
   "property": "C107",
   "status": "proved",
   "theorems": [
    "Abc.Connect4Wire.C107_any_bytes"
   ],
   "note": "For runs without undefined behaviour and without an endless loop; when these happen is C109."
  },
  {
   "property": "C108",
   "status": "partial",
   "theorems": [
    "Abc.Connect4Wire.C108_answered_partial",
    "Abc.Connect4Wire.C108_violated",
    "Abc.Connect4Wire.C108_violated_no_type",
    "Abc.Connect4Wire.C108_violated_no_service"
   ],
   "note": "False as stated: a POST that takes a body but has no Content-Type, and a resource below /games without a service, get no answer. Proved: all other requests whose body, if one is read, is any JSON value (except a bare number) whose strings have at most 64 and whose member names at most 1024 characters."
  },
  {
   "property": "C109",
   "status": "partial",
   "theorems": [
    "Abc.Connect4Wire.C109_returns_partial",
    "Abc.Connect4Wire.C109_short_partial",
    "Abc.Connect4Wire.C109_quiet_partial",
    "Abc.Connect4Wire.C109_violated",
    "Abc.Connect4Wire.C109_violated_overflow",
    "Abc.Connect4Wire.C109_violated_hang",
    "Abc.Connect4Wire.C109_violated_crash"
   ],
   "note": "False as stated: long player names overflow an array, an unterminated string is skipped for ever, a long header value ends the process. Proved for all byte sequences except those read as a POST below /games; for those with JSON bodies see C108. At most 1024 bytes without 26 characters of a number in a row (and less than 64 bytes of body for a new game) leave memory and process intact; without a quotation mark they are also served to the end."
  },
  {
   "property": "C110",
   "status": "partial",
   "theorems": [
    "Abc.Vmem.Layout.C110_layout_partial",
    "Abc.Vmem.Layout.C110_violated"
   ],
   "note": "False as stated: for a header larger than what a page can hold, the subtraction in max_item_size wraps around and every item size is accepted. Proved for all headers of up to 4070 bytes."
  },
  {
   "property": "C111",
   "status": "partial",
   "theorems": [
    "Abc.Vmem.Layout.C111_reopen",
    "Abc.Vmem.Layout.C111_map_partial",
    "Abc.Vmem.Layout.C111_violated"
   ],
   "note": "Proved in full for containers. For maps the second half is false: only the sum of the sizes of key and value is recorded, so a map with another split of the same sum is accepted. Proved for maps: the same sizes are accepted and change nothing, and sizes with another sum are refused."
  },
  {
   "property": "C112",
   "status": "partial",
   "theorems": [
    "Abc.Vmem.Layout.C112_types_partial",
    "Abc.Vmem.Layout.C112_small_partial",
    "Abc.Vmem.Layout.C112_violated_half_page",
    "Abc.Vmem.Layout.C112_violated_full_page",
    "Abc.Vmem.Layout.C112_violated"
   ],
   "note": "False as stated: keys and values of more than half a page together are accepted, but the second key breaks the map; and when no key fits behind the last value of a full page (this includes keys and values of 8 bytes), a search past a full page reads beyond the page. Proved for all accepted sizes of which two fit on a page and a key behind the last one (histories of C29), and for all that stay below a page."
  },
  {
   "property": "C113",
   "status": "partial",
   "theorems": [
    "Abc.Testing.C113_reports_partial",
    "Abc.Testing.C113_violated_alien",
    "Abc.Testing.C113_violated"
   ],
   "note": "False as stated: a test that throws something not derived from std::exception ends the process, since run is noexcept. Proved for all suites whose tests return or throw derived exceptions."
  },
  {
   "property": "C114",
   "status": "partial",
   "theorems": [
    "Abc.Testing.C114_repeat_partial",
    "Abc.Testing.C114_seed_shown",
    "Abc.Testing.C114_violated_zero",
    "Abc.Testing.C114_violated"
   ],
   "note": "False as stated: if the random seed drawn is 0, running with 0 draws another one. Proved for all other seeds. The seed is an entry of severity warning: it is shown once by filters that show warnings, and never by the filter test/main.cpp uses."
  },
  {
   "property": "C115",
   "status": "partial",
   "theorems": [
    "Abc.Testing.C115_equal_partial",
    "Abc.Testing.C115_violated"
   ],
   "note": "False as stated: bytes behind the last full 16 are never shown, so for less than 16 bytes the log gets nothing. Proved for all sizes: the answer, that it ends, and what is shown of all full 16 bytes."
  },
  {
   "property": "C116",
   "status": "partial",
   "theorems": [
    "Abc.Vmem.StringStream.C116_partial",
    "Abc.Vmem.StringStream.C116_after_partial",
    "Abc.Vmem.StringStream.C116_trailing_partial",
    "Abc.Vmem.StringStream.C116_written_partial",
    "Abc.Vmem.StringStream.C116_violated_stuck",
    "Abc.Vmem.StringStream.C116_violated",
    "Abc.Vmem.StringStream.C116_violated_lost"
   ],
   "note": "False as stated: once a reader has fetched the last character present, or has looked at an empty string, it tells the end of the stream for good, whatever is written later; and when the pool is full, characters are lost while every call reports success. Proved for all interleavings: no read throws, what a reader gets is a beginning of the text; it is all of the text if nothing is written once it has started; it misses nothing as long as it stays two characters behind; and while the pool may grow all that one stream writes arrives. Characters 0xFF are excluded (see C31)."
  },
  {
   "property": "C117",
   "status": "partial",
   "theorems": [
    "Abc.Vmem.Pool.C117_few_partial",
    "Abc.Vmem.Pool.C117_held_partial",
    "Abc.Vmem.Pool.C117_violated_busy",
    "Abc.Vmem.Pool.C117_violated"
   ],
   "note": "False as stated: the page is unlocked before the reference is returned, so once as many other pages are locked as the pool may have mapped, the reference shows unmapped memory or another page. Proved for all histories that use no more pages than the pool may have mapped, and for all histories in which someone holds the page the whole time."
  },
  {
   "property": "C118",
   "status": "partial",
   "theorems": [
    "Abc.GameThreads.C118_partial",
    "Abc.GameThreads.C118_violated"
   ],
   "note": "False as stated: the threads are detached and nobody waits for them, so threads of earlier games that are late make moves in a later game, and the slow engine loses. Proved for all interleavings in which a game is created only when the threads of the one before are gone, no client guesses the number of a seat that nobody has claimed, and fast engines choose legal moves (C91). Requests are single steps."
  },
  {
   "property": "C119",
   "status": "partial",
   "theorems": [
    "Abc.GameThreads.C119_defined_partial",
    "Abc.GameThreads.C119_rest_partial",
    "Abc.GameThreads.C119_ends_partial",
    "Abc.GameThreads.C119_engines_partial",
    "Abc.GameThreads.C119_plays_partial"
   ],
   "note": "Proved for all histories of C118: every step is defined; without new requests the threads stop after at most 2 steps per thread and 18 more; when none is left the game is over, or a seat is not claimed, or a client is to move; a game between engines is then over, and between slow engines it is a draw; the move a thread has chosen is legal and is accepted. Missing: the same restrictions as in C118."
  },
  {
   "property": "C120",
   "status": "partial",
   "theorems": [
    "Abc.Connect4Threads.C120_defined_partial",
    "Abc.Connect4Threads.C120_rest_partial",
    "Abc.Connect4Threads.C120_ends_partial",
    "Abc.Connect4Threads.C120_engines_partial",
    "Abc.Connect4Threads.C120_plays_partial",
    "Abc.Connect4Threads.C120_violated"
   ],
   "note": "Proved for all histories in which a game is created only when the threads of the one before are gone, no client guesses the number of an unclaimed seat, and fast engines choose legal moves. False in general (C120_violated): a thread of an earlier game that is late makes the first move of the slow engine, whose opening then chooses a taken cell again and again; the game stands still."
  },
  {
   "property": "C121",
   "status": "partial",
   "theorems": [
    "Abc.LogFiles.C121_files_partial",
    "Abc.LogFiles.C121_duration_partial",
    "Abc.LogFiles.C121_size_partial",
    "Abc.LogFiles.C121_violated_second",
    "Abc.LogFiles.C121_violated_overlap"
   ],
   "note": "Proved for entries that can be read back (C104) and calls of write and flush that do not overlap but follow each other in any order: for both streams if no name is used twice, and for files changed after at least a second without that condition, on days shown with their date; then the names sort, too. Missing: in size mode a file opened twice in one second is emptied (C121_violated_second). Nothing keeps calls from overlapping: then lines are lost (C121_violated_overlap, on a model of the put area of libstdc++; formally a data race). Size mode may close a file at half its limit, as buffered bytes are counted twice (C43)."
  },
  {
   "property": "C122",
   "status": "partial",
   "theorems": [
    "Abc.Vmem.Pages.C122_insert_range_partial",
    "Abc.Vmem.Pages.C122_violated",
    "Abc.Vmem.Pages.C122_violated_order",
    "Abc.Vmem.Pages.C122_violated_memory",
    "Abc.Vmem.Pages.C122_violated_iterator",
    "Abc.Vmem.Pages.C122_violated_log"
   ],
   "note": "Proved for all histories, lists and items if there is at most one item, or if the list is not empty, the page of itr has room for all items but one and itr is end() or not at the last item of its page. Otherwise the claim does not hold: into an empty list only the first item goes, then an exception is thrown; at the last item of a page, or when the page overflows on the way, the order is wrong; after a split memory is overrun; at end() the returned iterator is end()."
  },
  {
   "property": "C123",
   "status": "partial",
   "theorems": [
    "Abc.Vmem.Pages.C123_to_end_partial",
    "Abc.Vmem.Pages.C123_page_partial",
    "Abc.Vmem.Pages.C123_violated_rest",
    "Abc.Vmem.Pages.C123_violated",
    "Abc.Vmem.Pages.C123_violated_later"
   ],
   "note": "Proved for all histories: erase(first, end()) with first on the first page or directly behind it, in particular erase(begin(), end()); and a range that ends with the first page, if the pages are not merged. Otherwise the claim does not hold: it is proved that a range within the first page takes everything behind it along, and shown that from a later page on the loop runs into a freed page."
  },
  {
   "property": "C124",
   "status": "partial",
   "theorems": [
    "Abc.Vmem.Pages.C124_iterator_partial",
    "Abc.Vmem.Pages.posRun_item",
    "Abc.Vmem.Pages.C124_violated",
    "Abc.Vmem.Pages.C124_violated_ways",
    "Abc.Vmem.Pages.C124_violated_end"
   ],
   "note": "Proved for all histories: iterators to items stay good under all calls on other containers, under push_back of containers that do not split the last page (vmem_list, vmem_stack), and under pop_back of containers that do not merge it (vmem_stack). Other insertions and erasures in the same container violate the claim, and end() goes stale when push_back needs a page."
  },
  {
   "property": "C125",
   "status": "partial",
   "theorems": [
    "Abc.Vmem.Pages.C125_clear_partial",
    "Abc.Vmem.Pages.C125_reuse_partial",
    "Abc.Vmem.Pages.C125_violated_twice",
    "Abc.Vmem.Pages.C125_violated",
    "Abc.Vmem.Pages.C125_violated_move"
   ],
   "note": "False as stated: a page given back by an erasure is freed twice and linked to itself; if such a page is the last free one while another is the front of the free list, and a temporary is destroyed then, the page is handed out twice and two containers share it. A vmem_temp that was moved from clears the state of the new one. Proved for all histories in which this is not so when a container with items is cleared or a temporary ends: all containers read as they should, nothing is misused, the pages are used again even if the file cannot grow; sizes are right for containers that are not cleared and for temporaries, and too large by the number of cleared items otherwise (C28)."
  },
  {
   "property": "C126",
   "status": "partial",
   "theorems": [
    "Abc.Gpio.Grayscale.C126_reading_partial",
    "Abc.Gpio.Grayscale.C126_violated_stale",
    "Abc.Gpio.Grayscale.C126_violated_swapped",
    "Abc.Gpio.Grayscale.C126_violated_threads",
    "Abc.Gpio.Grayscale.C126_violated",
    "Abc.Gpio.Grayscale.C126_violated_log"
   ],
   "note": "False as stated: neither result of the two calls per channel is looked at, so if the request that chooses the center fails, the center shows the left channel, possibly with its bytes exchanged; and choosing and reading are separate requests, so a command of another thread to a motor on the same hat makes a channel show the register of the motor. Proved for buses with a log, after all histories of requests, if the three requests that choose a channel succeed and no other thread uses the hat during the call: each variable is as it was or shows its own channel, however many of the reading requests fail; if none fails, all three show their channels, in order."
  },
  {
   "property": "C127",
   "status": "partial",
   "theorems": [
    "Abc.TlsSample.C127_exchange_partial",
    "Abc.TlsSample.C127_ends_partial",
    "Abc.TlsSample.C127_violated_lost",
    "Abc.TlsSample.C127_violated_spurious",
    "Abc.TlsSample.C127_violated"
   ],
   "note": "False as stated: the condition variable has no condition. If the server notifies before the client waits, both threads wait for ever, in every continuation; if the wait ends by itself, the client may connect before the server listens, and the exception ends the process. Proved for all interleavings in which the client waits when it is notified and no wait ends by itself: nothing received is ever wrong, the threads stop after at most 16 steps, and then both have the text of the other."
  },
  {
   "property": "C128",
   "status": "partial",
   "theorems": [
    "Abc.VmemSample.C128_runs_partial",
    "Abc.VmemSample.C128_violated_full",
    "Abc.VmemSample.C128_violated_any",
    "Abc.VmemSample.C128_violated"
   ],
   "note": "Proved for every number of runs after which the file has not reached its limit. Otherwise false: the program ignores the iterator insert returns and logs items as added that are not; for every limit this comes at the latest after as many runs as four times the limit."
  },
  {
   "property": "C129",
   "status": "partial",
   "theorems": [
    "Abc.GameRace.C129_board_partial",
    "Abc.GameRace.C129_moves_partial",
    "Abc.GameRace.C129_violated_double",
    "Abc.GameRace.C129_violated_quick",
    "Abc.GameRace.C129_violated_stuck",
    "Abc.GameRace.C129_violated"
   ],
   "note": "False as stated, since nothing is locked. Proved for all interleavings in which no player sends a move before the last one is answered (answers, board, no write outside the list), and for the list of moves if besides no thread begins before the last accepted move is recorded. Both players are clients; single reads and writes are atomic."
  },
  {
   "property": "C130",
   "status": "partial",
   "theorems": [
    "Abc.GameList.C130_list_partial",
    "Abc.GameList.C130_winner_partial",
    "Abc.GameList.C130_violated_stale",
    "Abc.GameList.C130_violated_late",
    "Abc.GameList.C130_violated"
   ],
   "note": "False as stated: a move is counted before it is recorded, so a list read in between shows a move that was not made; and the winner is read after the moves, so a list may tell a winner without the move that won. Proved for all interleavings in which no row or column is read while a move is counted but not recorded (the list), and if besides no move is counted between the end of the loop and the end of the answer (the winner). The moves themselves meet the conditions of C129."
  },
  {
   "property": "C131",
   "status": "partial",
   "theorems": [
    "Abc.CarRace.C131_alone_partial",
    "Abc.CarRace.C131_recovers_partial",
    "Abc.CarRace.C131_back_partial",
    "Abc.CarRace.C131_range_partial",
    "Abc.CarRace.C131_members",
    "Abc.CarRace.C131_violated",
    "Abc.CarRace.C131_violated_order",
    "Abc.CarRace.C131_violated_stop",
    "Abc.CarRace.C131_violated_crossed",
    "Abc.CarRace.C131_violated_range",
    "Abc.CarRace.C131_violated_back"
   ],
   "note": "Every request is taken apart into its single accesses of _forward, _power, _turn and the motors, for any number of threads. Requests that begin when no other is under way act as in the model of C78-C82, whatever happened before, and one accepted request carried out alone sets all wheels right after any history. Duty cycles stay within 100 as long as the power does not change between its two reads; power and turn are always legal values. The full statement is false in each part: a turn request overtaken by a stop leaves wheels at full speed with power 0; two turns leave front and rear wheels steering against each other; a stop between the two reads makes a duty cycle of 65486; a car told only to go backward drives a wheel forward at full speed. Missing: overlapping requests."
  },
  {
   "property": "C132",
   "status": "partial",
   "theorems": [
    "Abc.Connect4Race.C132_board_partial",
    "Abc.Connect4Race.C132_moves_partial",
    "Abc.Connect4Race.C132_violated",
    "Abc.Connect4Race.C132_violated_ghost",
    "Abc.Connect4Race.C132_violated_carry",
    "Abc.Connect4Race.C132_violated_quick"
   ],
   "note": "accept_move is taken apart into ten steps for any number of threads. If no player sends a move before the last one is answered, the turn acts as a lock and the requests are served as if one after another, in every interleaving; if besides no thread begins while an accepted move is not recorded, the list of moves is that of the game. The full statement is false: the same move sent twice at once puts a disc into a cell nobody asked for; the last cell of a column sent three times at once overflows the size of the column into the next one, so that its six discs vanish; a quick reply is recorded in the wrong place. Missing: these overlaps."
  },
  {
   "property": "C133",
   "status": "partial",
   "theorems": [
    "Abc.Connect4List.C133_list_partial",
    "Abc.Connect4List.C133_winner_partial",
    "Abc.Connect4List.C133_violated_stale",
    "Abc.Connect4List.C133_violated_late",
    "Abc.Connect4List.C133_violated"
   ],
   "note": "False as stated, as in tic-tac-toe (C130): a move is counted before it is recorded, so a list read in between shows a move that was not made; and the winner is read after the moves, so a list may tell a winner without the move that won. Proved for all interleavings in which no row or column is read while a move is counted but not recorded (the list), and if besides no move is counted between the end of the loop and the end of the answer (the winner). The moves themselves meet the conditions of C132."
  },
  {
   "property": "C134",
   "status": "partial",
   "theorems": [
    "Abc.GameSlots.C134_partial",
    "Abc.GameSlots.C134_violated_outside",
    "Abc.GameSlots.C134_violated_shared",
    "Abc.GameSlots.C134_violated_torn",
    "Abc.GameSlots.C134_violated"
   ],
   "note": "Proved for any number of threads and places if no thread begins to make a game while another has begun and is not done; searches and ends of games are interleaved with it in any way. The full statement is false: two games asked for at the same time from a new server leave it with a count of two games for one place, for ever, so that every later search for a game that is not there reads outside the games; or both clients are told a number and one of the games is not there; the same after a game that is over. Missing: overlapping requests for games."
  },
  {
   "property": "C135",
   "status": "partial",
   "theorems": [
    "Abc.Password.C135_partial",
    "Abc.Password.C135_load_partial",
    "Abc.Password.C135_bounds_partial",
    "Abc.Password.C135_moved_partial",
    "Abc.Password.C135_violated",
    "Abc.Password.C135_violated_dead",
    "Abc.Password.C135_violated_left"
   ],
   "note": "Proved: which passwords open the key in the constructor, for all inputs; what the callback writes and returns, for every size; and what OpenSSL gets for every history in which the object registered with the context was not moved from. False as stated: the move constructor moves the password but leaves the address of the old buffer with the context, so that OpenSSL gets the empty text, or reads an object that is gone. A size of 0 would write before the buffer; OpenSSL does not pass it. The password stays in memory after the destructor."
  },
  {
   "property": "C136",
   "status": "partial",
   "theorems": [
    "Abc.ClaimRace.C136_partial",
    "Abc.ClaimRace.C136_start_partial",
    "Abc.ClaimRace.C136_engine_partial",
    "Abc.ClaimRace.C136_once_partial",
    "Abc.ClaimRace.C136_violated",
    "Abc.ClaimRace.C136_violated_twice"
   ],
   "note": "claim_player is taken apart into six steps for any number of threads. Whatever the interleaving, numbers are right, asked-for seats are taken by somebody, engines keep their seats, and the start of the game is neither lost nor early. If no seat is claimed while another claim of the same seat is under way, all of the statement holds, in every interleaving of the claims of the two seats; if no claim at all overlaps another, the game is started exactly once also between two clients. False as stated: two claims of one seat at the same time are both granted, and an engine that begins is started twice."
  },
  {
   "property": "C137",
   "status": "partial",
   "theorems": [
    "Abc.GameReplace.C137_partial",
    "Abc.GameReplace.C137_index_partial",
    "Abc.GameReplace.C137_violated_lands",
    "Abc.GameReplace.C137_violated_engine",
    "Abc.GameReplace.C137_violated_wrapped",
    "Abc.GameReplace.C137_violated"
   ],
   "note": "Proved for any number of moves and engines: if the board is cleared only while no move is under way and no move comes before the new numbers are written, accepted moves are on the right board for the right player; if besides nothing is put on the board between a move and its answer, the index is right. False as stated: the board is cleared before the number is changed, so a move sent to the game that is over lands in the next one; an engine that answers before the response is made up makes the client be told the index of its move; and a winning move answered after the next game was begun is told index 4294967295."
  },
  {
   "property": "C138",
   "status": "partial",
   "theorems": [
    "Abc.ClaimReplace.C138_partial",
    "Abc.ClaimReplace.C138_refused_partial",
    "Abc.ClaimReplace.C138_once_partial",
    "Abc.ClaimReplace.C138_violated_late",
    "Abc.ClaimReplace.C138_violated_engine",
    "Abc.ClaimReplace.C138_violated_refused",
    "Abc.ClaimReplace.C138_violated"
   ],
   "note": "Proved for any number of claims: if the number of the game is changed only while no claim is under way and no claim comes before the seats of the new game are written, every granted claim is told the right number, no seat of an engine is granted, and no free seat is refused; if besides no two claims of the same seat overlap and games have different numbers, no seat of any game is given twice, however many games follow each other. False as stated: nothing is locked, so a late claim of a game that is over, which would be refused, is given the seat of the next game with its number if the game is replaced after it was found (violated_late); a claim held up between the test and the number is told 0, the number of an engine (violated_engine); a claim that comes between the number of the game and the flags is refused a free seat (violated_refused)."
  }
 ]
}