{"id": "C01", "title": "timestamp calendar date", "statement": "For every instant at or after 1970-01-01, constructing a timestamp from it yields the year, month and day of the proleptic Gregorian calendar for that instant.", "quantifier": "every non-negative count of nanoseconds since the Unix epoch", "why_tests_cant": "The range is unbounded; a unit test samples dates, while the leap-year rules at century and 400-year boundaries are only wrong on isolated intervals.", "anchors": ["src/timestamp.h: timestamp::reset, reset_date, reset_date_if_done"]}
{"id": "C02", "title": "timestamp time of day", "statement": "For every instant at or after 1970-01-01 the hours, minutes, seconds and nanoseconds reported are in range (h<24, m<60, s<60, ns<10^9) and recombine to exactly the time elapsed since that day's midnight.", "quantifier": "every non-negative count of nanoseconds since the Unix epoch", "why_tests_cant": "The domain has ~2^63 values and truncation at each unit boundary would have to be sampled.", "anchors": ["src/timestamp.h: timestamp::reset, reset_time"]}
{"id": "C03", "title": "timestamp ordering", "statement": "The comparison operators of timestamp agree with one strict total order (exactly one of <, ==, > holds; <=, >=, != are the derived relations; < is transitive), and that order is the chronological order of the instants.", "quantifier": "every pair and triple of timestamps, every pair of instants", "why_tests_cant": "Totality and transitivity quantify over triples of values; tests can only show chosen triples.", "anchors": ["src/timestamp.h: operator==, !=, <, <=, >, >="]}
{"id": "C04", "title": "string comparison helpers", "statement": "are_equal / are_equal_i / are_equal_n / are_equal_i_n return true exactly when the two C strings (cut at the first NUL or at max_chars, whichever comes first) are equal, up to ASCII letter case for the _i variants, and they never read past the terminator of the shorter string.", "quantifier": "every pair of NUL-terminated byte strings and every max_chars", "why_tests_cant": "Memory safety for all string lengths and all byte values (including bytes >= 0x80) cannot be sampled.", "anchors": ["src/ascii.h: are_equal, are_equal_i, are_equal_n, are_equal_i_n, to_lower"]}
{"id": "C05", "title": "JSON write/read round trip", "statement": "A JSON value written with json_ostream (any nesting up to MaxLevels, any strings free of quote/backslash, numbers, booleans, null) is read back by json_istream as exactly the same sequence of tokens, with no failure state on either side.", "quantifier": "every JSON tree within the nesting limit", "why_tests_cant": "Trees are unbounded in breadth and depth; tests use a handful of documents.", "anchors": ["src/json.h: json_ostream::put_*, json_istream::get_token"]}
{"id": "C06", "title": "JSON writer structure discipline", "statement": "Whatever sequence of put calls a program makes on json_ostream, as long as the stream stays good the bytes emitted so far are a prefix of a well-formed JSON document: misuse (two values without a name, name in an array, wrong closing bracket, nesting beyond MaxLevels) is refused with the fail bit and emits nothing more of structure.", "quantifier": "every finite sequence of writer calls", "why_tests_cant": "The set of call sequences is infinite; the property is an invariant over histories.", "anchors": ["src/json.h: json_state, json_ostream::put_token/put_property/put_begin_*/put_end_*"]}
{"id": "C07", "title": "JSON skip_value", "statement": "When the input is positioned before a well-formed JSON value, skip_value consumes exactly that value (with nested objects and arrays) and leaves the reader able to read the token that follows.", "quantifier": "every well-formed value at any nesting depth followed by any continuation", "why_tests_cant": "Nesting depth and breadth are unbounded.", "anchors": ["src/json.h: json_istream::skip_value, get_or_skip_token"]}
{"id": "C08", "title": "JSON reader buffer safety", "statement": "get_token called with a buffer of N bytes never writes outside those N bytes nor outside its own fixed-size scratch buffers, whatever the input bytes are.", "quantifier": "every input byte sequence and every buffer size", "why_tests_cant": "Memory safety against adversarial input is a universal statement over byte strings.", "anchors": ["src/json.h: get_or_skip_string, get_or_skip_number, get_escaped_char, get_chars"]}
{"id": "C09", "title": "JSON reader termination", "statement": "Every call of get_token or skip_value returns, whatever the remaining input is (including truncated input).", "quantifier": "every input byte sequence", "why_tests_cant": "Non-termination cannot be observed by a test that finishes, and inputs are unbounded.", "anchors": ["src/json.h: get_or_skip_string, skip_value"]}
{"id": "C10", "title": "HTTP request round trip", "statement": "A request written through http_request_ostream (method, non-empty resource, protocol, any list of headers, body) is read back by http_request_istream as the same method, resource, protocol, header names, header values (up to linear white space, as RFC 2616 allows: outer blanks removed, inner runs of blanks become one space) and body, and reading stops exactly at the end of the message.", "quantifier": "every valid method token, resource, protocol, list of headers and body", "why_tests_cant": "Messages are unbounded; header lists of every length and content must work.", "anchors": ["src/http.h: http_request_ostream, http_request_istream, http_ostream, http_istream"]}
{"id": "C11", "title": "HTTP response round trip", "statement": "A response written through http_response_ostream (protocol, status code, reason phrase not beginning with a blank, headers, body) is read back by http_response_istream as the same items (header values up to linear white space), and reading stops exactly at the end of the message.", "quantifier": "every valid protocol, status code, reason phrase, header list and body", "why_tests_cant": "Messages are unbounded.", "anchors": ["src/http.h: http_response_ostream, http_response_istream"]}
{"id": "C12", "title": "no HTTP header injection", "statement": "Whatever bytes the program passes as method, resource, reason phrase, header name or header value, what reaches the wire for that element contains no bare CR or LF that could start a new header or end the header block, apart from the line terminator the writer itself adds (and a documented folding sequence).", "quantifier": "every byte string passed to every writer call", "why_tests_cant": "Injection is an adversarial property over all byte strings.", "anchors": ["src/http.h: put_chars, put_header_name, put_header_value, skip_spaces_in_header_value, put_resource, put_reason_phrase"]}
{"id": "C13", "title": "HTTP call-order discipline", "statement": "For any sequence of reader or writer calls, a call made out of protocol order (for example body before headers are ended, header value before name) throws std::logic_error and produces or consumes nothing, so the calls that take effect always form a (possibly unfinished) message; calls in order never throw; after a stream failure nothing more is emitted or consumed.", "quantifier": "every finite sequence of API calls", "why_tests_cant": "The set of call sequences is infinite.", "anchors": ["src/http.h: http_state::assert_next, set_next, every put_*/get_*"]}
{"id": "C14", "title": "HTTP reader buffer safety", "statement": "Every http reader call with a buffer of N bytes writes at most N bytes (including the terminating NUL), whatever the input.", "quantifier": "every input and every buffer size the caller may pass", "why_tests_cant": "Memory safety against adversarial input is universal.", "anchors": ["src/http.h: get_chars, get_bytes, get_method, get_resource, get_header_name, get_header_value, get_body"]}
{"id": "C15", "title": "HTTP query parameters", "statement": "After splitting a resource, looking up a parameter returns the value of the first name=value pair with that name, and nothing when the name is absent, also when one name is a prefix of another.", "quantifier": "every resource string and every parameter name", "why_tests_cant": "All strings: overlapping names and missing separators.", "anchors": ["src/http.h: split_resource, get_resource_parameter"]}
{"id": "C16", "title": "HTTP body bytes", "statement": "get_body reports exactly the number of body bytes actually received; when the input ends early the reported count equals the number of remaining bytes and the buffer holds exactly those bytes.", "quantifier": "every body, every requested size, every early end of input", "why_tests_cant": "Truncation can occur at any byte.", "anchors": ["src/http.h: get_body, get_bytes"]}
{"id": "C17", "title": "line buffer correctness", "statement": "For any sequence of put calls on a line_ostream, flush sends the concatenation of the formatted pieces (cut to the line size) and one newline, and no put, get or flush ever touches memory outside the line buffer.", "quantifier": "every sequence of put calls and every formatted length", "why_tests_cant": "Memory safety over all histories of put calls with lengths near the limit.", "anchors": ["src/table.h: line_ostream::put_any, put_anyv, get, flush, table_ostream::put_line"]}
{"id": "C18", "title": "hex dump fidelity", "statement": "Dumping a binary buffer produces lines from which every byte of the buffer can be recovered in order, each exactly once, every line having a fixed width that fits the line buffer.", "quantifier": "every binary buffer of every length", "why_tests_cant": "Buffers are unbounded; partial last rows of each residue must work.", "anchors": ["src/table.h: line_ostream::put_binary", "src/log.h: log_ostream::put_binary"]}
{"id": "C19", "title": "log filtering", "statement": "A log entry is emitted exactly when no filter is set or its severity is at least as important as the filter's threshold; filtering is monotone: lowering the threshold never loses entries.", "quantifier": "every severity, every threshold", "why_tests_cant": "The property relates every pair of severities/thresholds.", "anchors": ["src/log.h: log_ostream, log_filter::is_enabled, severity::is_higher"]}
{"id": "C20", "title": "pool mapping cache bounds and pointer stability", "statement": "At every point of every history of lock/unlock calls a vmem_pool keeps at most MaxMappedPages pages mapped, never maps one page twice, never unmaps or moves a page while it is locked, and refuses a lock only when every slot holds a locked page.", "quantifier": "every finite history of page lock and unlock requests, every capacity", "why_tests_cant": "Eviction depends on the whole history of hits; only an invariant over histories settles it.", "anchors": ["src/x/vmem_pool.x.h: lock_page, unlock_page, find_mapped_page, make_mapping_capacity, unmap_mapped_page, map_new_page, optimize_mapped_page"]}
{"id": "C21", "title": "pool page contents persist", "statement": "The bytes seen in a page when it is locked are the bytes last written to that page through any earlier lock, regardless of how often it was evicted and mapped again in between; writes to one page never change another.", "quantifier": "every history of locks, writes, unlocks and evictions", "why_tests_cant": "Depends on arbitrary interleavings of evictions.", "anchors": ["src/x/vmem_pool.x.h: lock_page, map_new_page, unmap_mapped_page, vmem_page"]}
{"id": "C22", "title": "page allocation never hands out a page in use", "statement": "A page returned by allocation is not the root page, not the start page and not a page that is currently allocated and not freed.", "quantifier": "every history of page allocations and frees", "why_tests_cant": "Double allocation appears only after particular alloc/free histories.", "anchors": ["src/x/vmem_pool.x.h: alloc_page, free_page, pop_free_page_pos, push_free_page_pos, create_page", "src/x/vmem_linked.x.h"]}
{"id": "C23", "title": "vmem_linked behaves as a list of pages", "statement": "For any history of insert/erase/push/pop, the pages visited forward from begin to end are the abstract list, backward iteration visits the reverse, and front/back are its first and last elements.", "quantifier": "every history of operations and every position", "why_tests_cant": "Pointer-structure invariants over all histories.", "anchors": ["src/x/vmem_linked.x.h: insert, insert_nostate, erase, erase_nostate, push_*, pop_*, next, prev"]}
{"id": "C24", "title": "vmem_list insert", "statement": "Inserting an item before any position puts it at exactly that place: afterwards iteration yields the old sequence with the item inserted there, the returned iterator denotes the new item, and size grows by one. It holds for page splits, page overflow and the balancing policy of list, stack and map levels.", "quantifier": "every history of insertions, every position, every item size / page capacity", "why_tests_cant": "Page splits happen at arbitrary fill patterns; tests only follow one fill pattern.", "anchors": ["src/x/vmem_container.x.h: insert, insert2, insert_nostate, insert_empty, insert_nonempty, insert_with_overflow, insert_with_capacity, balance_split, insert_page_after"]}
{"id": "C25", "title": "vmem_list erase", "statement": "Erasing any item removes exactly that item: afterwards iteration yields the old sequence without it, the returned iterator denotes the item that followed, and size shrinks by one; also when pages are merged or freed.", "quantifier": "every history, every position, every page capacity", "why_tests_cant": "Merging depends on neighbouring page fill levels; tests follow few patterns.", "anchors": ["src/x/vmem_container.x.h: erase, erase2, erase_nostate, erase_from_many, balance_merge, balance_merge_next, balance_merge_prev, erase_page"]}
{"id": "C26", "title": "vmem_list iteration", "statement": "From any position, ++ and -- step to the neighbouring item and are mutually inverse; a full forward walk visits each item once in order, a backward walk the reverse, and end/rend are reached after finitely many steps.", "quantifier": "every reachable list, every iterator position", "why_tests_cant": "Iteration over page boundaries for all fill patterns.", "anchors": ["src/x/vmem_container.x.h: next, prev, begin_itr, end_itr, rbegin_itr, rend_itr", "src/x/vmem_iterator.x.h"]}
{"id": "C27", "title": "vmem_stack is LIFO", "statement": "For any sequence of push_back and pop_back calls the stack returns items in last-in-first-out order, and size equals pushes minus pops.", "quantifier": "every sequence of pushes and pops", "why_tests_cant": "Unbounded histories crossing page boundaries in both directions.", "anchors": ["src/x/vmem_container.x.h: push_back, pop_back, back", "src/x/vmem_list.x.h: vmem_stack"]}
{"id": "C28", "title": "clear empties a container", "statement": "After clear() a container is empty (size 0, begin == end), its pages are returned to the pool exactly once, and using it again cannot touch pages that were handed to someone else.", "quantifier": "every container state and every free-list state at the time of clear", "why_tests_cant": "Depends on the state of the pool's free list at the time of the call.", "anchors": ["src/x/vmem_container.x.h: clear", "src/x/vmem_linked.x.h: clear, splice", "src/x/vmem_pool.x.h: clear_linked"]}
{"id": "C29", "title": "vmem_map insert and lookup", "statement": "After any history of insertions, find(key) yields the value of the first insertion of key and end() for keys never inserted; inserting an existing key changes nothing and reports false; iteration yields keys in strictly increasing order.", "quantifier": "every sequence of insertions, every key", "why_tests_cant": "B-tree-like key levels over all insertion orders; tests follow one order.", "anchors": ["src/x/vmem_map.x.h: insert2, find2, find, contains, update_key_levels, begin, end"]}
{"id": "C30", "title": "vmem_map erase", "statement": "erase(key) removes exactly that key: find(key) fails afterwards until it is inserted again, other keys are unaffected, erase of an absent key changes nothing and returns 0.", "quantifier": "every history of insertions and erasures", "why_tests_cant": "Depends on stale bytes left behind in pages by earlier erasures.", "anchors": ["src/x/vmem_map.x.h: erase, erase2, find2, update_key_levels"]}
{"id": "C31", "title": "vmem_string stream", "statement": "Characters written to a vmem_string output stream and flushed are exactly the characters later read from a vmem_string input stream over it, in order, followed by end of stream.", "quantifier": "every sequence of writes and flushes, every byte value", "why_tests_cant": "Every byte value and every interleaving of put and flush.", "anchors": ["src/x/vmem_string.x.h: vmem_string_streambuf::overflow, sync, underflow"]}
{"id": "C32", "title": "socket stream", "statement": "The bytes sent over the connection are exactly those written to the stream up to the last flush, in order; the reader obtains exactly the bytes received and sees end of stream once the peer has closed.", "quantifier": "every byte sequence and every placement of flush, every peer close", "why_tests_cant": "Every byte value, flush pattern and close point.", "anchors": ["src/socket.h: socket_streambuf::overflow, sync, underflow, client_socket::receive"]}
{"id": "C33", "title": "endpoint shutdown", "statement": "When shutdown is requested, the future returned by start_async becomes ready exactly once, after all in-flight requests have completed, for every interleaving of request threads.", "quantifier": "every schedule of any number of request threads", "why_tests_cant": "Race windows: schedules cannot be enumerated by tests.", "anchors": ["src/endpoint.h: start_async, start, process_request, set_shutdown_requested"]}
{"id": "C34", "title": "endpoint file requests stay under the root directory", "statement": "The file opened for a file request is always inside the configured root directory.", "quantifier": "every resource string a client can send", "why_tests_cant": "Adversarial input.", "anchors": ["src/endpoint.h: process_request, process_file_request, is_file_request"]}
{"id": "C35", "title": "endpoint routing and content type", "statement": "A request whose path starts with the files prefix (case-insensitively), or a GET of /favicon.ico, is served as a file (405 unless it is GET, 404 if there is no such file); every other request goes to the REST handler; the content type is determined by the extension of the path.", "quantifier": "every method, path and configured prefix", "why_tests_cant": "All strings.", "anchors": ["src/endpoint.h: is_file_request, get_content_type_from_path"]}
{"id": "C36", "title": "SMBus PWM register values", "statement": "For any clock frequency and pulse frequency accepted by the PWM driver, the values written to prescaler, autoreload and capture registers fit 16 bits, no division by zero happens, the capture value is between 0 and autoreload and grows with the duty cycle; 0% gives 0 and 100% gives full on.", "quantifier": "every clock frequency, pulse frequency and duty cycle", "why_tests_cant": "Integer arithmetic over 64-bit ranges with truncation.", "anchors": ["src/x/gpio_smbus_pwm.x.h: ctor, set_duty_cycle, get_autoreload_from_period"]}
{"id": "C37", "title": "PWM emulator timing", "statement": "For every requested duty the emulator's high time plus low time equals the pulse period and both are non-negative; duty is clamped to the configured limits and monotone.", "quantifier": "every frequency and duty", "why_tests_cant": "Integer arithmetic over full ranges.", "anchors": ["src/x/gpio_pwm_emulator.x.h: set_duty_cycle, thread_func"]}
{"id": "C38", "title": "SMBus error reporting", "statement": "Every SMBus transfer function returns true only if the transfer was performed without an I/O error, and rejects blocks larger than the protocol's 32 bytes.", "quantifier": "every combination of I/O outcomes, block size and presence of a log", "why_tests_cant": "Failure injection at every I/O point with and without a log.", "anchors": ["src/x/gpio_smbus.x.h: put_nodata, put_byte, put_word, put_block, get_*, ensure_address, swap_bytes"]}
{"id": "C39", "title": "tic-tac-toe rules", "statement": "For any sequence of submitted moves the board accepts exactly legal moves (in range, empty cell, right turn, game not over), undo restores the previous board exactly, and the winner reported is the player owning a full line, if any.", "quantifier": "every sequence of moves and undos", "why_tests_cant": "Histories of moves.", "anchors": ["samples/tictactoe/game.h: board::accept_move, undo_move, check_winner, get_move, set_move, clear_move"]}
{"id": "C40", "title": "tic-tac-toe engine optimality", "statement": "The slow engine's best move always attains the game-theoretic value of the position, and leaves the board as it found it.", "quantifier": "every reachable position", "why_tests_cant": "Requires comparing with the full game tree for every position.", "anchors": ["samples/tictactoe/game.h: player_agent::slow_find_best_move, slow_find_best_move_for"]}
{"id": "C41", "title": "connect-four rules", "statement": "For any sequence of submitted moves discs stack with gravity, moves in full columns are rejected, undo restores the board, and the game is reported won exactly when the last disc completes four in a row.", "quantifier": "every sequence of moves and undos", "why_tests_cant": "State space of 10^12 boards.", "anchors": ["samples/connect4/game.h: board::accept_move, undo_move, get_move, check_winner, col_size"]}
{"id": "C42", "title": "equation solver classification", "statement": "The 2x2 linear system solver reports a unique solution exactly when there is one and returns it, reports no solution exactly when there is none, and infinitely many exactly when there are infinitely many.", "quantifier": "every 2x2 real system", "why_tests_cant": "Continuum of inputs.", "anchors": ["samples/basic/equations.h: calculate"]}
{"id": "C43", "title": "multifile path safety and rotation", "statement": "The generated file path never overflows its buffer and starts with the given folder; in size-limited mode a new file is opened at the first flush after the limit is reached and never before; in duration-limited mode after the duration has passed.", "quantifier": "every folder path, every write/flush history", "why_tests_cant": "Histories and path lengths at the boundary.", "anchors": ["src/multifile.h: multifile_streambuf ctor, reopen, duration_multifile_streambuf::sync, size_multifile_streambuf::xsputn, sync"]}
{"id": "C44", "title": "page-pool crash consistency", "statement": "If the process stops between any two page writes of a list operation, re-opening the pool yields either the list before or the list after the operation.", "quantifier": "every crash point inside every operation", "why_tests_cant": "Crash points are not observable by unit tests.", "anchors": ["src/x/vmem_container.x.h: insert_nostate, insert_page_after", "src/x/vmem_linked.x.h: insert"]}
{"id": "C45", "title": "motion tracker and emulator threads stop", "statement": "Destroying a background-thread object (motion tracker, PWM emulator) always terminates: the stop request cannot be missed by the thread in any interleaving.", "quantifier": "every interleaving of the owner and the worker thread", "why_tests_cant": "Lost wake-ups occur only under particular schedules.", "anchors": ["src/x/gpio_smbus_motion_tracker.x.h", "src/x/gpio_pwm_emulator.x.h"]}
{"id": "C46", "title": "vmem_pool open validation", "statement": "Opening an existing file as a pool succeeds only if the root page carries the expected version, signature and page size; a newly created file is initialised so that re-opening it succeeds.", "quantifier": "every file content", "why_tests_cant": "All contents of the root page.", "anchors": ["src/x/vmem_pool.x.h: vmem_pool ctor, open, init, verify_*"]}
{"id": "C47", "title": "buffer stream buffer", "statement": "Characters put through a buffer_streambuf appear in order in the caller's array and never beyond it; characters got are exactly the array contents in order then end of stream.", "quantifier": "every buffer size and every sequence of puts/gets", "why_tests_cant": "Bounds for every size.", "anchors": ["src/buffer_streambuf.h: buffer_streambuf::reset"]}
{"id": "C48", "title": "endpoint game claims", "statement": "In the game sample server, however client requests interleave, each side of a game is claimed at most once, so two clients never both get the same side; moves by a non-owner are refused.", "quantifier": "every sequence of claim/accept requests", "why_tests_cant": "Histories of requests.", "anchors": ["samples/tictactoe/game.h: endpoint_game::claim_player, player_id; game::accept_move"]}
{"id": "C49", "title": "test log line indentation", "statement": "A test log line is indented by two blanks per severity level and formatting it never touches memory outside its own buffers.", "quantifier": "every severity value", "why_tests_cant": "all 256 severities incl. those callers never use in tests; undefined behaviour is not observable by a test", "anchors": ["src/log.h: test_line_ostream::put_props"]}
{"id": "C50", "title": "moved buffer stream keeps its position", "statement": "After moving a buffer stream the new object continues reading and writing where the old one was.", "quantifier": "every buffer content and every number of characters read or written before the move", "why_tests_cant": "must hold for every point at which the move happens", "anchors": ["src/buffer_streambuf.h: basic_buffer_streambuf move constructor"]}
{"id": "C51", "title": "moved line is sent once", "statement": "When a log line object is moved, its pending text reaches the table exactly once.", "quantifier": "every pending text", "why_tests_cant": "must hold for every content and every moment of the move", "anchors": ["src/table.h: line_ostream(line_ostream&&), ~line_ostream"]}
{"id": "C52", "title": "multifile never loses data", "statement": "Rotating files never destroys bytes already written: the concatenation of all files is everything written.", "quantifier": "every sequence of writes and flushes at every sequence of times", "why_tests_cant": "depends on the clock: collisions happen within one second or on leap days", "anchors": ["src/multifile.h: reopen, size_multifile_streambuf::sync", "src/timestamp.h: reset_date"]}
{"id": "C53", "title": "endpoint sends the whole file", "statement": "A GET for an existing file is answered with a Content-Length equal to the file size and a body equal to the file content.", "quantifier": "every file content of any length and every path", "why_tests_cant": "content and length are unbounded; the chunk loop has a boundary at every multiple of 1024", "anchors": ["src/endpoint.h: process_file_request"]}
{"id": "C54", "title": "SMBus word round trip", "statement": "A word written to a register of a target and read back through the same bus is the same word, whatever byte order the target needs.", "quantifier": "every word, register, target and bus state", "why_tests_cant": "all words with both byte orders and with or without a log", "anchors": ["src/x/gpio_smbus.x.h: put_word, get_word, swap_bytes"]}
{"id": "C55", "title": "SMBus used by several threads", "statement": "When several threads use one bus for different targets, each message reaches its own target.", "quantifier": "every schedule of the threads", "why_tests_cant": "depends on the interleaving", "anchors": ["src/x/gpio_smbus.x.h: ensure_address, safe_ioctl"]}
{"id": "C56", "title": "HTTP writer reports disallowed bytes", "statement": "A writer call that leaves the stream good was given only bytes the element may consist of, and wrote all of them.", "quantifier": "every byte string passed to every writer call", "why_tests_cant": "all byte strings", "anchors": ["src/http.h: put_method, put_resource, put_protocol, put_status_code, put_reason_phrase, put_header_name, put_header_value, put_body"]}
{"id": "C57", "title": "HTTP header folding", "statement": "A header value folded over several lines is read as its words joined by single spaces, and reading stops at the next header.", "quantifier": "every sequence of lines, words and blanks", "why_tests_cant": "unbounded number of lines and words", "anchors": ["src/http.h: get_header_value"]}
{"id": "C58", "title": "vmem pool with a log attached does not crash", "statement": "With a log attached, locking and unlocking pages never stops the process, however many calls are made.", "quantifier": "every history of lock and unlock calls of any length", "why_tests_cant": "the 32-bit totals wrap only after about 2^32 calls", "anchors": ["src/x/vmem_pool.x.h: log_totals, lock_page, unlock_page"]}
{"id": "C59", "title": "container operations stay inside their pages", "statement": "No history of container operations writes past the end of a page, uses a null log, or lets an exception out of a noexcept function, and the file never grows beyond its limit.", "quantifier": "every history of insertions and erasures on any number of containers, every item size and page capacity", "why_tests_cant": "undefined behaviour is not observable by a test; it needs particular item sizes, fill patterns and configurations", "anchors": ["src/x/vmem_container.x.h: insert_nonempty, insert_with_overflow, insert_page_after, erase_page", "src/x/vmem_iterator.x.h: operator ++"]}
{"id": "C60", "title": "connect-four engine plays sensible legal moves", "statement": "On every unfinished position the slow engine plays a legal move and leaves its board as it found it; a win it can force within its search depth it forces in the fewest moves; and after its move the opponent can force a win within that depth only if they could after every other move.", "quantifier": "every position reachable by legal moves, every opponent", "why_tests_cant": "about 4.5 trillion positions; the search depth makes exhaustive testing impossible", "anchors": ["samples/connect4/game.h: slow_make_move, slow_make_first_move, slow_choose_max_depth, slow_find_best_move"]}
{"id": "C61", "title": "an opened pool has its start page", "statement": "When the constructor of a pool returns, the file has a root page and a start page, so the start page can be used.", "quantifier": "every file content and every amount of free disk space, over several attempts to open", "why_tests_cant": "needs a disk that runs full between two writes, or a crash between them", "anchors": ["src/x/vmem_pool.x.h: init_pool_or_throw, create_page, verify_start_page_or_throw"]}
{"id": "C62", "title": "endpoint answers with complete responses", "statement": "Whatever bytes a client sends, the endpoint neither crashes nor hangs once the bytes are there, and what it sends back is one complete HTTP response whose Content-Length is the length of its body.", "quantifier": "every byte sequence on the connection, every configuration with a root directory of at most 2047 characters, every file system, every earlier content of the buffers", "why_tests_cant": "unbounded inputs; reader and writer share stream state, so the outcome depends on where exactly the input goes wrong", "anchors": ["src/endpoint.h: process_request, process_file_request, process_rest_request, send_simple_response", "src/i/http.i.h: http_server_stream"]}
{"id": "C63", "title": "client and endpoint understand each other", "statement": "A well-formed request written by the client stream and processed by the endpoint yields a response from which the client stream reads the right status, reason, headers and body: 405 for other methods on files, 404 for missing files, the file with its type and length, or the REST answer; shutdown is requested only by POST /shutdown.", "quantifier": "every well-formed request within the limits (32/2047/16 characters), every configuration and file system", "why_tests_cant": "composition of eight components over unbounded requests and files", "anchors": ["src/endpoint.h: process_request", "src/http.h: http_client_stream, http_server_stream"]}
{"id": "C64", "title": "tic-tac-toe session over HTTP", "statement": "A client that creates a game, claims a player, makes moves and lists moves over HTTP with JSON bodies gets, for each request, one complete HTTP response whose status and JSON text are the answer the rules of the game and of the service prescribe; the server has no undefined behaviour.", "quantifier": "every number and order of requests, every well-formed way to write each of them (case, headers, white space, unknown members, numbers), every random numbers drawn, every engine move in between", "why_tests_cant": "unbounded sessions through request line, headers, JSON reader, game and JSON writer together", "anchors": ["samples/tictactoe/game.h: game_endpoint::process_rest_request, process_games, create_game, claim_player, accept_move, get_moves, get_player_types, verify_header_json", "src/endpoint.h: process_request", "src/json.h"]}
{"id": "C65", "title": "arbitrary bytes cannot bend the rules of the game", "statement": "Whatever bytes arrive on whatever number of connections, as long as the process lives the game is one played by the rules: each connection has the effect of at most one legal request, and what is sent back is nothing or one complete response, which is JSON only if it describes the answer to that request.", "quantifier": "every sequence of connections with every byte sequence on each, every random number, every engine move in between", "why_tests_cant": "arbitrary bytes through reader, router, JSON and game; a test sees only chosen inputs", "anchors": ["samples/tictactoe/game.h: game_endpoint", "src/endpoint.h: process_request", "src/http.h", "src/json.h"]}
{"id": "C66", "title": "every request to the game server is answered", "statement": "Every well-formed request to the tic-tac-toe endpoint, whatever its body, gets exactly one complete HTTP response.", "quantifier": "every request line and headers within the limits, every body, every state of the game", "why_tests_cant": "unbounded requests; which combinations fall through all branches without a response is not visible from chosen inputs", "anchors": ["samples/tictactoe/game.h: process_rest_request, process_games, verify_header_json, get_player_types, accept_move", "src/endpoint.h: process_request"]}
{"id": "C67", "title": "no input ends or blocks the game server", "statement": "Whatever bytes a client sends, serving the connection comes to an end without undefined behaviour and without an exception that leaves the thread.", "quantifier": "every byte sequence, every state of the game", "why_tests_cant": "undefined behaviour and endless loops occur for particular lengths and truncations only, and are not observable as a failed assertion", "anchors": ["samples/tictactoe/game.h: get_player_types, accept_move, verify_header_json", "src/json.h: get_or_skip_string, skip_value", "src/http.h: get_header_value, get_header_name"]}
{"id": "C68", "title": "socket descriptors are closed exactly once", "statement": "No program using the socket classes makes a call on a descriptor number whose opening is over; two objects never hold the same descriptor; every descriptor obtained is held by one object or has been closed exactly once; when all objects are gone nothing is open. A bind that throws leaves a closed socket closed.", "quantifier": "every program: any number of sockets of all classes constructed, moved, destroyed, closed, bound, connected, listening, accepting and transferring in any order, every answer of the operating system including the reuse of numbers", "why_tests_cant": "a use of a stale or shared number shows only if the kernel happens to reuse it; leaks are silent", "anchors": ["src/socket.h: basic_socket, client_socket, tcp_client_socket, tcp_server_socket: constructors, close, open, tie, bind, connect, listen, accept", "src/openssl_socket.h"]}
{"id": "C69", "title": "TLS objects are released and used correctly", "statement": "No program using the TLS sockets releases an SSL or SSL_CTX twice, uses one after its release, lets a TLS call go to a descriptor the object does not have open, or leaves one allocated when all objects are gone.", "quantifier": "every program of the socket classes, every failure of OpenSSL and of the operating system", "why_tests_cant": "use after free and leaks are not observable as a failed assertion, and depend on failures inside OpenSSL", "anchors": ["src/openssl_socket.h: openssl_socket, openssl_tcp_client_socket, openssl_tcp_server_socket, accept, connect, close"]}
{"id": "C70", "title": "connecting a TLS client is always defined", "statement": "connect of a TLS client is never undefined behaviour, with or without a log; if it returns, the connection is open and the handshake was done on it.", "quantifier": "every program before, every address or host, every answer of the operating system and OpenSSL", "why_tests_cant": "undefined behaviour is not observable by a test; the state before is arbitrary", "anchors": ["src/openssl_socket.h: openssl_tcp_client_socket::connect, connect_handshake"]}
{"id": "C71", "title": "device descriptors are closed exactly once", "statement": "No program using chips, lines, the SMBus, the ultrasonic sensor and pools makes a call on a descriptor number whose opening is over; what an object holds is open and not held by another; when all objects are gone nothing is open.", "quantifier": "every program: any number of objects constructed, moved, used and destroyed in any order, every answer of the operating system", "why_tests_cant": "a stale or shared number shows only if the kernel happens to reuse it; leaks are silent", "anchors": ["src/x/gpio_chip.x.h: init, chip_info, line_info", "src/x/gpio_line.x.h: gpio_line, ~gpio_line", "src/i/gpio_line.i.h: move constructor", "src/x/gpio_smbus.x.h: init, ~gpio_smbus", "src/x/gpio_ultrasonic.x.h: gpio_ultrasonic", "src/x/vmem_pool.x.h: vmem_pool, ~vmem_pool"]}
{"id": "C72", "title": "waiting for a level on a line", "statement": "expect_level returns the level only if the line had it, and invalid only after more than the timeout; a level taken before the timeout is over and kept is always reported; the call ends with the first reading after the timeout. put_level passes on nothing but low and high and reports whether it did.", "quantifier": "every signal on the line as a function of time, every sequence of moments at which the code reads clock and line, every timeout and unit", "why_tests_cant": "depends on the moments at which the thread is scheduled, an uncountable set of timings", "anchors": ["src/x/gpio_line.x.h: get_level, expect_level, put_level"]}
{"id": "C73", "title": "ultrasonic distance", "statement": "If the echo comes within the time that sound takes to the given distance and back, measure_distance returns the distance of the obstacle up to the granularity of polling and rounding; if there is no echo it returns the given distance; whatever calls were made before.", "quantifier": "every echo, every sequence of polling moments, every earlier calls, every distance scale", "why_tests_cant": "timings are a continuum; the result depends on the argument of the first call ever made", "anchors": ["src/x/gpio_ultrasonic.x.h: measure_distance, sonic_distance, sonic_duration"]}
{"id": "C74", "title": "motion sensor calibration", "statement": "If a channel keeps one value while calibrate is called for it, get_values reports from then on the difference to that value, up to the accuracy of the sensor, until the channel is calibrated again; with or without a log.", "quantifier": "every value in the range of the sensor, every noise within one step, every calls before and after", "why_tests_cant": "a continuum of values; the 16-bit sum turns over only for some of them", "anchors": ["src/x/gpio_smbus_motion.x.h: calibrate, get_values, get_value_from_measurement"]}
{"id": "C75", "title": "motion sensor readings", "statement": "get_values reports for every channel asked for, up to the accuracy of the sensor, the physical quantity on that channel at some moment of the call minus the calibration, and zero for the other channels.", "quantifier": "every course of the physical quantities, every pattern of failing bus requests, every mask, every calls before", "why_tests_cant": "a continuum of quantities, and failures at any of the requests", "anchors": ["src/x/gpio_smbus_motion.x.h: constructor, get_measurements, get_values, get_values_from_measurements"]}
{"id": "C76", "title": "motion tracker position", "statement": "While the tracker runs undisturbed, speed, direction and position stay within an explicit bound of the true ones, which grows with time, sampling interval, sensor error and unevenness of the motion; a car at rest stays where it is; on a straight line with linearly changing acceleration and on a circle, with exact readings whole microseconds apart, there is no error.", "quantifier": "every motion in the plane with bounded speed, acceleration and rotation; every sequence of samples at least a millisecond apart; every start", "why_tests_cant": "a continuum of motions and of sampling times; a wrong factor shows as a small drift only", "anchors": ["src/x/gpio_smbus_motion_tracker.x.h: thread_func, deg_to_rad"]}
{"id": "C77", "title": "setting the tracker while it runs", "statement": "A value given to set_depth, set_width, set_direction or set_speed while the tracker runs takes effect: the result is as if every setter had been called before or after a pass of the worker.", "quantifier": "every interleaving of the calls with the eight accesses of a pass, every values and samples", "why_tests_cant": "interleavings of atomic accesses cannot be forced by a test", "anchors": ["src/x/gpio_smbus_motion_tracker.x.h: thread_func, set_depth, set_width, set_direction, set_speed, depth, width"]}
{"id": "C78", "title": "car steering", "statement": "After every history of requests and rounds of the obstacle loop the duty cycles of all wheels are between 0 and 100 and equal on each side; the left side is ahead of the right side by exactly what the turn asks for, the middle is the power as far as that leaves room; the direction, turn and power are those last asked for, except that the loop may have reduced the power of a car going forward with something near.", "quantifier": "every history of power, turn and servo requests with any numbers and of measured distances", "why_tests_cant": "unbounded histories; the adjustment has one clause for four conditions", "anchors": ["samples/picar_4wd/car.h: process_power, process_turn, drive_verified, get_side_powers, get_delta_power, verify_range, auto_limit_power"]}
{"id": "C79", "title": "power 0 means standing still", "statement": "Whenever the power of the car is 0 its wheels stand still; a request for power 0 stops the car and it stands still until something else is asked for.", "quantifier": "every history of requests and measured distances", "why_tests_cant": "unbounded histories; a wheel that turns is not visible without the car", "anchors": ["samples/picar_4wd/car.h: process_power, process_turn, get_side_powers"]}
{"id": "C80", "title": "the car stops at an obstacle", "statement": "When a round of the obstacle loop sees something nearer than 5 cm, a car going forward stands still afterwards; at larger distances the power is limited to 25, 50 and 75 percent; the loop never makes the car faster.", "quantifier": "every history of requests before, every sequence of distances", "why_tests_cant": "depends on power and turn at the moment the obstacle appears", "anchors": ["samples/picar_4wd/car.h: auto_limit_power, auto_loop, drive_verified"]}
{"id": "C81", "title": "a stop request is final", "statement": "When the request for power 0 has been carried out, the car stands still until some other power or turn is asked for, wherever the obstacle loop is at that moment.", "quantifier": "every interleaving of requests with the test and the assignment of the loop", "why_tests_cant": "interleavings of threads cannot be forced by a test", "anchors": ["samples/picar_4wd/car.h: process_power, auto_limit_power"]}
{"id": "C82", "title": "changing direction", "statement": "No request and no round of the obstacle loop switches the direction of a motor that is running; the tracker is reset when the direction changes.", "quantifier": "every history of requests and distances", "why_tests_cant": "unbounded histories; a wrong direction of a line at a wrong moment is not visible in the final state", "anchors": ["samples/picar_4wd/car.h: process_power, drive_verified"]}
{"id": "C83", "title": "servo angle", "statement": "For every accepted angle the servo gets a pulse inside its limits, within one percent of the linear position, longer pulses for smaller angles.", "quantifier": "every number in a request", "why_tests_cant": "integer division and three unit conversions; out of range numbers of any size", "anchors": ["samples/picar_4wd/car.h: process_servo", "src/x/gpio_smbus_servo.x.h: set_duty_cycle", "src/x/gpio_smbus_pwm.x.h: gpio_smbus_pwm, set_duty_cycle"]}
{"id": "C84", "title": "car requests over HTTP", "statement": "A well-formed POST of /power, /turn or /servo with a JSON body whose first member is the name of the quantity and a number whose whole part is one the car accepts is carried out exactly and answered with one complete response that reports the new state; any other value or name changes nothing, touches no device and is answered with a complete 400.", "quantifier": "every state of the car, every well-formed way to write the request (case, headers, white space, further members), every number", "why_tests_cant": "unbounded requests through request line, headers, JSON reader and car together", "anchors": ["samples/picar_4wd/car.h: process_rest_request, process_power, process_turn, process_servo, verify_header_json, verify_range", "src/endpoint.h: process_request", "src/json.h"]}
{"id": "C85", "title": "reading the sensors of the car", "statement": "GET /autos is answered with one complete JSON response that contains exactly the readings, and changes nothing.", "quantifier": "every state of the car, every readings, every well-formed request", "why_tests_cant": "all readings; the JSON text is written token by token", "anchors": ["samples/picar_4wd/car.h: process_autos", "src/json.h: json_ostream"]}
{"id": "C86", "title": "arbitrary bytes cannot bend the car", "statement": "Whatever bytes arrive on whatever number of connections, with rounds of the obstacle loop in between, as long as the process lives the car is in a state that accepted requests and rounds lead to: each connection has the effect of at most one accepted request; the wheels are as the power and turn last accepted say.", "quantifier": "every sequence of connections with every byte sequence on each and of measured distances", "why_tests_cant": "arbitrary bytes through reader, router, JSON and car; a test sees only chosen inputs", "anchors": ["samples/picar_4wd/car.h: car_endpoint", "src/endpoint.h: process_request", "src/http.h", "src/json.h"]}
{"id": "C87", "title": "every request to the car is answered", "statement": "Every well-formed request to the car gets exactly one complete HTTP response.", "quantifier": "every request line and headers within the limits, every body, every state of the car", "why_tests_cant": "unbounded requests; which combinations fall through all branches without a response is not visible from chosen inputs", "anchors": ["samples/picar_4wd/car.h: process_rest_request, verify_header_json, process_power, process_turn, process_servo", "src/endpoint.h: process_request"]}
{"id": "C88", "title": "no input ends or blocks the server of the car", "statement": "Whatever bytes a client sends, serving the connection comes to an end without undefined behaviour and without an exception that leaves the thread.", "quantifier": "every byte sequence, every state of the car", "why_tests_cant": "undefined behaviour and endless loops occur for particular lengths and truncations only", "anchors": ["samples/picar_4wd/car.h: verify_header_json, process_power, process_turn, process_servo", "src/json.h: get_or_skip_string", "src/http.h: get_header_value"]}
{"id": "C89", "title": "shutting the car down stops it", "statement": "POST /shutdown is answered, and when shutting down is finished the car stands still.", "quantifier": "every history of requests and rounds of the obstacle loop, every point the loop has reached", "why_tests_cant": "interleavings of threads cannot be forced by a test", "anchors": ["samples/picar_4wd/car.h: process_shutdown, auto_loop, auto_limit_power"]}
{"id": "C90", "title": "the advice in a refusal can be followed", "statement": "A request whose body is exactly what the refusal says it must be is carried out.", "quantifier": "every request, state of the car and resource", "why_tests_cant": "ties the texts of three messages to the behaviour for all requests", "anchors": ["samples/picar_4wd/car.h: process_power, process_turn, process_servo, verify_range"]}
{"id": "C91", "title": "the learning engine makes legal moves", "statement": "In games against the searching engine, with room in the map, the learning engine of tic-tac-toe always makes a legal move when it is its turn.", "quantifier": "every number of games before, every course of the game, every random number", "why_tests_cant": "the scores that matter only arise after tens of games with particular random numbers", "anchors": ["samples/tictactoe/game.h: fast_make_move, fast_find_best_move, learn"]}
{"id": "C92", "title": "what the learning engine learns", "statement": "Learning from a finished game changes exactly the scores of the moves the engine made, in the positions in which it made them, 3 more for a win, 1 more for a draw, 1 less for a loss, starting from 10 and within 1 to 20; asking for a move changes no score; positions reached by different orders of moves share their scores.", "quantifier": "every legal game, either side, every map before", "why_tests_cant": "all games and all maps; a score of another position changed by mistake is not visible in a few games", "anchors": ["samples/tictactoe/game.h: learn, ensure_board_state_in_map"]}
{"id": "C93", "title": "the learning engine picks in proportion", "statement": "If some legal move has the highest score, then one of those is picked, each equally often; if not, then each legal move is picked in proportion to its score.", "quantifier": "every map the engine can have, every position, every random number", "why_tests_cant": "a bias of one random number among many is not visible statistically", "anchors": ["samples/tictactoe/game.h: fast_find_best_move"]}
{"id": "C94", "title": "the learning engine of connect four makes legal moves", "statement": "After any legal games, with room in the map, the learning engine of connect four always makes a legal move when it is its turn.", "quantifier": "every number of legal games before, every unfinished position, every random number", "why_tests_cant": "the scores that matter only arise after hundreds of games; a column is tried that may be full", "anchors": ["samples/connect4/game.h: fast_make_move, fast_find_best_move, learn"]}
{"id": "C95", "title": "what the learning engine of connect four learns", "statement": "Learning from a finished game changes exactly the scores of the columns the engine chose, in the positions in which it chose them, 10 more for a win, 1 more for a draw, 1 less for a loss, plus 1 to 3 for a long game that was not won, starting from 50 and within 1 to 100; asking for a move changes no score; positions reached by different orders of moves share their scores.", "quantifier": "every legal game, either side, every map before", "why_tests_cant": "all games and all maps; a score of another position changed by mistake is not visible in a few games", "anchors": ["samples/connect4/game.h: learn, ensure_board_state_in_map"]}
{"id": "C96", "title": "the learning engine of connect four picks in proportion", "statement": "If some open column has the highest score, then one of those is picked, each equally often; if not, then each open column is picked in proportion to its score.", "quantifier": "every map the engine can have, every position, every random number", "why_tests_cant": "a bias of one random number among many is not visible statistically", "anchors": ["samples/connect4/game.h: fast_find_best_move"]}
{"id": "C97", "title": "the solver answers the problem it is given", "statement": "A request POST /problem with a system of two linear equations in JSON gets the answer of that system: status 1 and the solution if there is exactly one, 0 if there is none, 2 if there are infinitely many; the members may come in any order, with any other members between them; a body that is not such a problem gets 400.", "quantifier": "every JSON body the reader can hold, every six numbers, every placement of white space and other members, arithmetic of doubles as in IEEE 754", "why_tests_cant": "all texts of all problems; rounding, overflow and underflow only show for particular numbers", "anchors": ["samples/basic/equations.h: process_rest_request, parse_array_2"]}
{"id": "C98", "title": "the solver survives every connection", "statement": "Whatever bytes arrive on a connection, it is served without undefined behaviour, without an exception that ends the process and without a loop that never ends.", "quantifier": "every sequence of bytes", "why_tests_cant": "hostile bytes are not written by those who write tests", "anchors": ["samples/basic/equations.h: process_rest_request", "src/json.x.h", "src/http.x.h"]}
{"id": "C99", "title": "what the solver sends", "statement": "Whatever bytes arrive: what is sent is nothing or one complete response; a response with a solution is sent only after POST /problem and holds what was computed from six numbers that were read; the server is told to stop only by POST /shutdown.", "quantifier": "every sequence of bytes for which the process lives", "why_tests_cant": "all sequences of bytes, not only well-formed requests", "anchors": ["samples/basic/equations.h: process_rest_request"]}
{"id": "C100", "title": "short input does no lasting harm", "statement": "At most 1024 bytes on a connection, whatever they are, do not corrupt the memory of the sample servers and do not end the process: nothing or one complete response is sent, or the thread of that connection waits. Without a quotation mark among them it does not wait either.", "quantifier": "every sequence of at most 1024 bytes, every state of each of the three servers", "why_tests_cant": "all short inputs, cut off and malformed at any place; there are 256 to the power of 1024", "anchors": ["samples/basic/equations.h: process_rest_request", "samples/picar_4wd/car.h: process_rest_request", "samples/tictactoe/game.h: process_rest_request", "src/http.h: get_header_value", "src/json.h: get_token"]}
{"id": "C101", "title": "the JSON reader accepts only JSON", "statement": "However get_token and skip_value are called: if the stream is good after each call and all brackets are closed, then what was read is JSON, and the tokens reported are the tokens of that text, in order.", "quantifier": "every input, every sequence of calls, every buffer", "why_tests_cant": "the texts that are not JSON but might be taken for it cannot be listed", "anchors": ["src/json.h: json_istream::get_token, skip_value, get_or_skip_token"]}
{"id": "C102", "title": "clearing a map", "statement": "After clear() a map is as a new one: no key is found, iterating shows nothing, size() is 0, and insertions and lookups afterwards answer as in a new map.", "quantifier": "every history of insertions and lookups before and after, every key, every configuration of pages", "why_tests_cant": "whether it works depends on whether some page of the pool is free at that moment and on how many levels the map has; what it breaks shows only when a page is full again", "anchors": ["src/x/vmem_map.x.h: clear, update_key_levels", "src/x/vmem_container.x.h: clear", "src/x/vmem_linked.x.h: clear, splice"]}
{"id": "C103", "title": "log lines sort by time", "statement": "Of two entries of a log made at different milliseconds, the text of the one made earlier sorts first.", "quantifier": "every pair of instants of the clock, every content of the entries", "why_tests_cant": "the texts of two days must be compared for every pair of days; the ones shown wrongly are rare", "anchors": ["src/log.h: diag_line_ostream::put_props, debug_line_ostream::put_props", "src/table.h: put_timestamp", "src/timestamp.h: reset_date"]}
{"id": "C104", "title": "a log can be read back", "statement": "The lines of a diag log, taken apart at newlines and commas, show exactly the entries that were put into it: their number, and time, thread, category, severity, tag and message of each.", "quantifier": "every list of entries, every message", "why_tests_cant": "messages come from outside; whether two different logs can look the same is a statement about all of them", "anchors": ["src/log.h: diag_line_ostream::put_props, log_ostream::put_any", "src/table.h: put_timestamp, put_thread_id, put_binary"]}
{"id": "C105", "title": "connect-four games on the server", "statement": "However requests and engine moves follow each other: each side of a connect-four game is given to one client at most, a move is accepted exactly from the client whose turn it is and exactly when the rules of connect four allow it, engines' sides are moved by nobody else, and the list of moves is the list of moves accepted.", "quantifier": "every sequence of requests and engine moves, every number drawn", "why_tests_cant": "histories of requests over all games of connect four", "anchors": ["samples/connect4/game.h: game::accept_move, endpoint_game::claim_player, game_endpoint::create_game, claim_player, accept_move, get_moves"]}
{"id": "C106", "title": "connect-four session over HTTP", "statement": "A client that creates a game, claims a player, makes moves and lists moves over HTTP with JSON bodies gets, for each request, one complete HTTP response whose status and JSON text are the answer the rules of connect four and of the service prescribe; the list of up to 42 moves fits its buffers.", "quantifier": "every number and order of requests, every well-formed way to write each of them, every random numbers drawn, every engine move in between", "why_tests_cant": "unbounded sessions through request line, headers, JSON reader, game and JSON writer together; the buffer is fullest only in a drawn game", "anchors": ["samples/connect4/game.h: game_endpoint::process_rest_request, process_games, create_game, claim_player, accept_move, get_moves", "src/endpoint.h: process_request", "src/json.h"]}
{"id": "C107", "title": "arbitrary bytes cannot bend the rules of connect four", "statement": "Whatever bytes arrive on whatever number of connections, as long as the process lives the game is one of connect four: each connection has the effect of at most one legal request, and what is sent back is nothing or one complete response, which is JSON only if it describes the answer to that request.", "quantifier": "every sequence of connections with every byte sequence on each, every random number, every engine move in between", "why_tests_cant": "arbitrary bytes through reader, router, JSON and game; a test sees only chosen inputs", "anchors": ["samples/connect4/game.h: game_endpoint", "src/endpoint.h: process_request", "src/http.h", "src/json.h"]}
{"id": "C108", "title": "every request to the connect-four server is answered", "statement": "Every well-formed request to the connect-four endpoint, whatever its body, gets exactly one complete HTTP response.", "quantifier": "every request line and headers within the limits, every body, every state of the game", "why_tests_cant": "unbounded requests; which combinations fall through all branches without a response is not visible from chosen inputs", "anchors": ["samples/connect4/game.h: process_rest_request, process_games, verify_header_json, get_player_types, accept_move", "src/endpoint.h: process_request"]}
{"id": "C109", "title": "no input ends or blocks the connect-four server", "statement": "Whatever bytes a client sends, serving the connection comes to an end without undefined behaviour and without an exception that leaves the thread.", "quantifier": "every byte sequence, every state of the game", "why_tests_cant": "undefined behaviour and endless loops occur for particular lengths and truncations only", "anchors": ["samples/connect4/game.h: get_player_types, accept_move, verify_header_json", "src/json.h: get_or_skip_string, skip_value", "src/http.h: get_header_value, get_header_name"]}
{"id": "C110", "title": "items lie within their page", "statement": "A container accepts an item type exactly if an item fits on a page behind the header, and then the items of a page lie one behind the other, without overlap, inside the page and outside the header, as many as there is room for.", "quantifier": "every size of header and item, every number of mapped pages", "why_tests_cant": "sizes are template parameters; a test instantiates a few of them", "anchors": ["src/x/vmem_container.x.h: items_pos, max_item_size, page_capacity, vmem_container", "src/i/vmem_layout.i.h: vmem_container_page"]}
{"id": "C111", "title": "a state is reopened with the sizes it was made with", "statement": "A container or map made on a state that was used before is accepted if its items have the sizes the state was made with, and is refused otherwise; what was stored stays as it is.", "quantifier": "every size of item, key and value, every state with any use in between", "why_tests_cant": "the sizes of two programs, or two versions of one, do not meet in a test", "anchors": ["src/x/vmem_container.x.h: vmem_container, is_uninit", "src/x/vmem_map.x.h: vmem_map"]}
{"id": "C112", "title": "maps work for every type they accept", "statement": "A map whose constructor accepts its types of keys and values behaves as a map: every insertion and lookup answers as in a mathematical map, and no memory outside of a page is touched.", "quantifier": "every size of key and value, every history of insertions and lookups, every number of mapped pages", "why_tests_cant": "page capacities follow from template parameters; only some sizes leave no room behind a full page", "anchors": ["src/x/vmem_map.x.h: vmem_map, find2, insert2", "src/x/vmem_container.x.h: insert2"]}
{"id": "C113", "title": "a test suite reports every test", "statement": "Running a test suite runs every test once, in order, each in the world the one before left; it returns true exactly if every test returned true; and at every filter setting that shows critical entries the log shows one verdict per test, one per category and one for the whole.", "quantifier": "every suite, every behaviour of its tests, every random generator and instant", "why_tests_cant": "a test framework that tests itself would use the reporting it checks", "anchors": ["src/test.h: test_suite::run", "test/main.cpp"]}
{"id": "C114", "title": "a test run can be repeated", "statement": "Running a suite again with the seed a run used gives the same results and log, at any time, and the log of a run shows its seed.", "quantifier": "every suite, random generator and pair of instants", "why_tests_cant": "which seeds are drawn depends on the clock", "anchors": ["src/test.h: test_suite::srand, test_suite::run", "test/main.cpp"]}
{"id": "C115", "title": "comparisons in tests", "statement": "are_equal answers whether two C strings, or all bytes of two pieces of memory, are equal; it always comes to an end; and when memory differs the log shows the bytes that do.", "quantifier": "every pair of strings, every size and content of memory", "why_tests_cant": "all sizes and positions of differences", "anchors": ["src/test.h: test_context::are_equal", "src/table.h: put_binary"]}
{"id": "C116", "title": "reading a string that is still being written", "statement": "Streams that write to and read from the same vmem_string may be used in any order: what a reader gets is the text of the string from the start, in order, and the end of the stream means that it has got all the text there is; what is written is in the string.", "quantifier": "every interleaving of writes, flushes, peeks and gets on any number of streams over a string, with any use of other containers of the pool in between", "why_tests_cant": "the interleavings are unbounded, and where the reader stands when text arrives decides; a test reads after it has written", "anchors": ["src/x/vmem_string.x.h: vmem_basic_string_streambuf::underflow, overflow, sync", "src/x/vmem_iterator.x.h: operator ++, can_deref", "src/x/vmem_container.x.h: insert2, next"]}
{"id": "C117", "title": "references to items stay good", "statement": "A reference obtained by dereferencing an iterator, or from front() or back(), shows the item, as it is in the pool, for as long as the item exists.", "quantifier": "every history of page locks and unlocks before and after the reference is taken, every capacity of the pool", "why_tests_cant": "the page may be unmapped at any later call; which page goes depends on the whole history of hits", "anchors": ["src/x/vmem_iterator.x.h: deref, operator *", "src/x/vmem_container.x.h: front, back", "src/x/vmem_pool.x.h: lock_page, unlock_page, make_mapping_capacity"]}
{"id": "C118", "title": "nobody beats the slow engine", "statement": "However the requests of clients and the threads of the engines are interleaved, a player of the tic-tac-toe server never gets three in a row against the slow engine, and no response names them as the winner.", "quantifier": "every history of requests on the server with any number of games, every interleaving with the threads of the engines", "why_tests_cant": "the number of schedules is unbounded, and the threads that would do harm are those that are very late", "anchors": ["samples/tictactoe/game.h: player_agent::make_move_async, make_move_proc, slow_make_move, game::start, game::accept_move, endpoint_game::reset, claim_player"]}
{"id": "C119", "title": "the engines answer", "statement": "Whenever all seats of a tic-tac-toe game are taken and it is the turn of an engine, the engine makes a legal move without further requests; the threads come to rest, and then the game is over or a client is to move; a game between two engines is played to its end.", "quantifier": "every history of requests and every schedule of the threads", "why_tests_cant": "a missing thread shows as a game that stands still, for one order of claims and moves only", "anchors": ["samples/tictactoe/game.h: player_agent::make_move_async, make_move, game::start, game::accept_move, endpoint_game::reset, claim_player"]}
{"id": "C120", "title": "the engines of connect four answer", "statement": "Whenever all seats of a connect-four game are taken and it is the turn of an engine, the engine makes a legal move, which is accepted, without further requests; the threads come to rest, and then the game is over or a client is to move; a game between two engines is played to its end. From the fifth move on the moves that the slow engine makes keep a win that it can force within its horizon and prevent one of the opponent if any move does.", "quantifier": "every history of requests and every schedule of the threads", "why_tests_cant": "a missing or refused move of an engine shows as a game that stands still, for one order of requests and threads only", "anchors": ["samples/connect4/game.h: player_agent::make_move_async, make_move, slow_make_move, game::start, game::accept_move, endpoint_game::reset, claim_player"]}
{"id": "C121", "title": "a log in several files, written by several threads", "statement": "When several threads put entries into one diag log over a stream that changes files by size or time: every file consists of whole lines; the files, in the order in which they were opened, show exactly the entries that were put, those of each thread in the order in which it put them; the names of the files sort in that order. In size mode a file is closed at the first flush at which it has reached the limit, and not before it has half of it.", "quantifier": "every number of threads, every sequence of entries of each, every interleaving of their calls, every clock and every time or size", "why_tests_cant": "a lost or torn line depends on the schedule and on the second in which a file is changed", "anchors": ["src/table.h: table_ostream::put_line, line_ostream::flush", "src/log.h: log_ostream::put_anyv, diag_line_ostream", "src/multifile.h: multifile_streambuf::reopen, duration_multifile_streambuf, size_multifile_streambuf"]}
{"id": "C122", "title": "inserting a range", "statement": "insert(itr, first, last) puts the items of the range, in order, before the item at itr, leaves everything else as it is, and returns an iterator to the first of them.", "quantifier": "every history of calls on any number of containers in a pool, every position, every range of items", "why_tests_cant": "which pages overflow, and where, depends on the whole history and on the length of the range; a wrong order shows only for some of them", "anchors": ["src/x/vmem_container.x.h: insert(const_iterator, InputItr, InputItr), insert2, insert_nostate", "src/x/vmem_iterator.x.h: operator++"]}
{"id": "C123", "title": "erasing a range", "statement": "erase(first, last) erases exactly the items from first up to, not including, last, leaves everything else as it is, comes to an end, and returns the iterator to the item that followed the range.", "quantifier": "every history of calls on any number of containers in a pool, every pair of positions", "why_tests_cant": "pages are merged while the range is erased, depending on the whole history; iterators into merged pages go wrong only then", "anchors": ["src/x/vmem_container.x.h: erase(const_iterator, const_iterator), erase2, erase_nostate, balance_merge"]}
{"id": "C124", "title": "iterators stay good", "statement": "An iterator to an item of a vmem_list or vmem_stack stays an iterator to that item, and end() stays end(), while other items are inserted and erased in this and other containers, as long as the item itself is not erased.", "quantifier": "every history of calls on any number of containers in a pool, every item, every further history that does not erase it", "why_tests_cant": "whether an old iterator still gives its item depends on how the items lie on pages, which depends on the whole history before and after; it often gives the right item by accident because the bytes are still there", "anchors": ["src/x/vmem_container.x.h: insert2, insert_with_overflow, balance_split, should_balance_insert, erase2, balance_merge, should_balance_erase, next", "src/i/vmem_list.i.h: vmem_list, vmem_stack policies", "src/i/vmem_iterator.i.h"]}
{"id": "C125", "title": "temporary containers give back their pages", "statement": "When a vmem_temp container is destroyed, its pages become free for use by other containers of the pool, and all other containers keep reading as they did, whatever is done with them afterwards; likewise a container is empty after clear() and can be filled again.", "quantifier": "every history of insertions, erasures, clear() calls and ends of temporaries on any number of containers in a pool", "why_tests_cant": "a page that is given to two containers shows only when both are used later; whether it happens depends on the order in which earlier pages were freed", "anchors": ["src/x/vmem_list.x.h 54-64", "src/i/vmem_list.i.h 168-197", "src/x/vmem_linked.x.h 492-571", "src/x/vmem_pool.x.h 863-886", "src/x/vmem_container.x.h 1021-1063"]}
{"id": "C126", "title": "grayscale readings belong to their channels", "statement": "gpio_smbus_grayscale::get_values leaves each of its three variables as it was, or sets it to what its own channel delivered during the call; a failing request never makes one channel show another one, or a value no channel had.", "quantifier": "every history of earlier requests on the bus, every pattern of failing requests, every sequence of brightnesses, and commands of other threads to the same hat", "why_tests_cant": "a reading from the wrong channel looks like any other; it depends on which single request fails or which command of another thread comes in between", "anchors": ["src/x/gpio_smbus_grayscale.x.h 57-69", "src/x/gpio_smbus.x.h 195-226", "src/x/gpio_smbus.x.h 274-335", "samples/picar_4wd/car.h 733-740"]}
{"id": "C127", "title": "the TLS sample exchanges its messages", "statement": "In the TLS sample, whatever the order in which the two threads run, the client gets the text of the server and the server that of the client, and both threads come to their end.", "quantifier": "every interleaving of the steps of the server thread and the client thread, every pair of texts of 1 to 100 bytes", "why_tests_cant": "whether the notification comes before the wait depends on the scheduler; tests see the usual order only", "anchors": ["samples/tls/main.cpp 39-99", "samples/tls/main.cpp 148-155", "src/openssl_socket.h 172-246"]}
{"id": "C128", "title": "the virtual memory sample finds what its earlier runs have left", "statement": "Each run of the virtual memory sample on one pool file shows in its lists and strings exactly the items that all earlier runs have logged as added, in order, and afterwards the sizes with the items it has added itself.", "quantifier": "every number of earlier runs of the program on one pool file, every limit of the file", "why_tests_cant": "tests start with a new pool file and add a handful of items; whether it still holds after any number of runs, with pages split and chained, is a matter of all histories", "anchors": ["samples/vmem/main.cpp 108-160", "samples/vmem/main.cpp 164-191", "src/x/vmem_container.x.h 299-302", "src/x/vmem_string.x.h 89-108"]}
{"id": "C129", "title": "moves sent at the same time", "statement": "When clients of the tic-tac-toe server send moves at the same time, they are served as if one after another: the answers and the board are those of some order of the requests under the rules, the list of moves is that of the game, and nothing is written outside of it.", "quantifier": "every number of threads inside accept_move, every interleaving of their steps, every sequence of requests and moves", "why_tests_cant": "which schedules occur is up to the scheduler; the windows are a few instructions wide", "anchors": ["samples/tictactoe/game.h 91-112", "samples/tictactoe/game.h 147-150", "samples/tictactoe/game.h 548-595", "src/endpoint.h 69-97"]}
{"id": "C130", "title": "list of moves asked for while moves are made", "statement": "A client of the tic-tac-toe server that asks for the moves from some move on while moves are being made gets the list of the game as it stood at some time, with all the moves that had been accepted before it asked, and the winner if and only if the game listed has one or is a draw.", "quantifier": "every interleaving of get_moves with any number of threads inside accept_move, every sequence of requests and moves, every first move asked for that is known", "why_tests_cant": "the windows between counting a move and recording it, and between the end of the list and the look at the winner, are a few instructions wide", "anchors": ["samples/tictactoe/game.h 1264-1345", "samples/tictactoe/game.h 548-595", "samples/tictactoe/game.h 91-112"]}
{"id": "C131", "title": "car requests at the same time", "statement": "Requests to the car and rounds of the obstacle loop that are carried out at the same time leave the car as some order of them would: the members and the wheels agree with that order once all are done; no motor is ever given a duty cycle above 100; a car that is only ever told to go backward never drives a wheel forward.", "quantifier": "every number of threads, every interleaving of their single reads and writes of the members and calls on the motors, every sequence of requests and measured distances", "why_tests_cant": "interleavings of plain accesses cannot be forced by a test, and a wrong wheel shows only on the car", "anchors": ["samples/picar_4wd/car.h: process_power, process_turn, drive_verified, get_side_powers, get_delta_power, auto_limit_power"]}
{"id": "C132", "title": "connect-four moves at the same time", "statement": "Moves of a connect-four game that arrive at the same time are served as if one after another: there is an order in which the rules give every player the answers they got, the board shows the moves that stand then, the list of moves is that of the game, and nothing is written outside it.", "quantifier": "every number of threads, every interleaving of the steps of accept_move, every sequence of moves of both players", "why_tests_cant": "interleavings of threads cannot be forced by a test; a column that overflows into the next needs three of them at one point", "anchors": ["samples/connect4/game.h: game::accept_move, board::accept_move, set_move, inc_col_size, set_move_bits, check_winner"]}
{"id": "C133", "title": "list of connect-four moves asked for while moves are made", "statement": "A client of the connect-four server that asks for the moves from some move on while moves are being made gets the list of the game as it stood at some time, with all the moves that had been accepted before it asked, and the winner if and only if the game listed has one or is a draw.", "quantifier": "every interleaving of get_moves with any number of threads inside accept_move, every sequence of requests and moves, every first move asked for that is known", "why_tests_cant": "the windows between counting a move and recording it, and between the end of the list and the look at the winner, are a few instructions wide", "anchors": ["samples/connect4/game.h 1483-1565", "samples/connect4/game.h 767-814", "samples/connect4/game.h 92-137"]}
{"id": "C134", "title": "games asked for at the same time", "statement": "Clients of the two game servers that ask for games at the same time, while others look for theirs and games end: nobody makes the server read outside its games; a game is refused only if at some time since it was asked for the server had as many games running as it has room for; a client that was told the number of a new game finds it, with a place of its own, as long as it is not over; and a game that is found was made.", "quantifier": "every number of threads, every interleaving of the single accesses of create_game and of the searches for a game, every moment at which games end, every number of places, all numbers drawn that are new and not 0", "why_tests_cant": "interleavings of threads cannot be forced by a test, and a read behind an array usually goes unnoticed", "anchors": ["samples/tictactoe/game.h: create_game, claim_player, accept_move, get_moves, endpoint_game::reset", "samples/connect4/game.h: create_game, claim_player, accept_move, get_moves, endpoint_game::reset"]}
{"id": "C135", "title": "password of the private key of a TLS server", "statement": "A TLS server socket can be made exactly if the password given is shorter than 256 bytes and is the one the private key file is encrypted with (no prefix, no longer text); and whenever OpenSSL asks for the password on behalf of a context that a live server socket holds, with room for it, it gets exactly the text the server was made with, and nothing outside the buffer it passed is written.", "quantifier": "every password and whatever follows it in memory, every content of the memory of the object and of OpenSSL's buffer before, every size, every sequence of making, moving and destroying server sockets", "why_tests_cant": "a test has one password and does not move the server between making it and the next question; reading an object that was moved from or destroyed usually goes unnoticed", "anchors": ["src/openssl_socket.h: openssl_tcp_server_socket (constructor, move constructor, destructor), pem_passwd_cb", "src/i/openssl_socket.i.h: max_password, _pkey_file_password"]}
{"id": "C136", "title": "seats claimed at the same time", "statement": "However claims of the seats of a game on the two game servers overlap: no seat is given to two clients; a client that is given a seat is told its number; a seat that was asked for is an engine's or was given to somebody; no engine loses its seat; and once the claims are answered the game was started exactly once if one player is an engine and the other seat is taken, at least once if both players are clients and have their seats, and not at all while a seat is free.", "quantifier": "every number of threads, every interleaving of the single accesses of claim_player, every kind of players except two engines", "why_tests_cant": "interleavings of threads cannot be forced by a test", "anchors": ["samples/tictactoe/game.h: endpoint_game::claim_player, endpoint_game::reset, game::start", "samples/connect4/game.h: endpoint_game::claim_player, endpoint_game::reset, game::start"]}
{"id": "C137", "title": "moves sent while a game is replaced", "statement": "A move that the game servers accept is put on the board of the game it was sent to, for the player who sent it, also if games end and new ones take their place meanwhile; and the index in the answer is the one the move has in that game.", "quantifier": "every number of moves under way at the same time, every interleaving of the accesses of accept_move and of the making of a new game, engines moving at any time, all numbers of games and players", "why_tests_cant": "interleavings of threads cannot be forced by a test", "anchors": ["samples/tictactoe/game.h: game_endpoint::accept_move, endpoint_game::reset, endpoint_game::player_id, board::reset", "samples/connect4/game.h: game_endpoint::accept_move, endpoint_game::reset, endpoint_game::player_id, board::reset"]}
{"id": "C138", "title": "seats claimed while a game is replaced", "statement": "A client who is given a seat by the game servers is told the number of that seat in the game they asked for, and never the number of an engine; a client is refused a seat only if it is an engine's or was given to a client in that game; also if games end and new ones take their place meanwhile.", "quantifier": "every number of claims under way at the same time, every interleaving of the accesses of claim_player and of the making of a new game, all numbers of games and players", "why_tests_cant": "interleavings of threads cannot be forced by a test", "anchors": ["samples/tictactoe/game.h: game_endpoint::claim_player, endpoint_game::claim_player, endpoint_game::reset", "samples/connect4/game.h: game_endpoint::claim_player, endpoint_game::claim_player, endpoint_game::reset"]}
