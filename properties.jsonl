{"id": "C01", "title": "lru_cache behaves as a bounded recency list", "statement": "Every call sequence on an lru_cache returns exactly the results of an abstract cache that keeps a list of (key, value) pairs ordered from most to least recently used: insert of a new key puts it in front and drops the last pair when full, insert of an existing key changes nothing and returns false, insert_or_assign of an existing key replaces the value and moves it to the front, get of a present key returns its value and moves it to the front, remove deletes the pair.", "quantifier": "all key and value types with decidable equality, all initial capacities, all finite sequences of public calls", "why_tests_cant": "The reachable states are unbounded in length and history; a test visits finitely many histories.", "anchors": ["include/pluto/lru_cache.hpp: lru_cache"]}
{"id": "C02", "title": "lru_cache never holds more than capacity entries", "statement": "After any sequence of calls size() <= capacity(), and capacity 0 means the cache is always empty.", "quantifier": "all initial capacities and all finite call sequences, including changes of capacity", "why_tests_cant": "Depends on every interleaving of inserts, removals and capacity changes.", "anchors": ["include/pluto/lru_cache.hpp: insert, capacity, evict_lru"]}
{"id": "C03", "title": "lru_cache never touches an invalid list position", "statement": "No call sequence ever dereferences, erases or decrements an invalid std::list iterator, and the index and the recency list always hold exactly the same keys, once each.", "quantifier": "all initial capacities and all finite call sequences", "why_tests_cant": "Undefined behaviour need not show up in a test run.", "anchors": ["include/pluto/lru_cache.hpp: move_to_front, remove, evict_lru"]}
{"id": "C04", "title": "lru_cache retains exactly the most recently used keys", "statement": "If only insert_or_assign is called (with a fixed capacity n), the keys held afterwards are exactly the n most recently used distinct keys, in order of last use.", "quantifier": "all capacities and all finite sequences of assigned keys", "why_tests_cant": "Talks about the whole history of calls.", "anchors": ["include/pluto/lru_cache.hpp: insert_or_assign, evict_lru"]}
{"id": "C05", "title": "lru_cache get returns the last stored value", "statement": "When get(k) succeeds, the value returned is the one given by the latest call that stored a value for k (an insert that returned true or any insert_or_assign on k).", "quantifier": "all histories of calls followed by any get", "why_tests_cant": "Ranges over all histories.", "anchors": ["include/pluto/lru_cache.hpp: get, insert"]}
{"id": "C06", "title": "lru_cache observers and refused calls have no effect", "statement": "size, capacity, empty, contains, a failed get, a failed remove and a refused insert leave the cache observably unchanged, including the order in which entries would later be evicted.", "quantifier": "all reachable states, all keys and values", "why_tests_cant": "Absence of an effect has to be checked against every later call sequence.", "anchors": ["include/pluto/lru_cache.hpp: contains, get, remove, insert"]}
{"id": "C07", "title": "lru_cache capacity change keeps the most recent entries", "statement": "capacity(n) leaves exactly the n most recently used entries (all of them if there are fewer), with their values and order, and frees the rest.", "quantifier": "all reachable states and all n", "why_tests_cant": "All states and all n.", "anchors": ["include/pluto/lru_cache.hpp: capacity"]}
{"id": "C08", "title": "lru_cache survives an exception", "statement": "If copying a key or value, comparing keys or allocating a node throws inside any call, the cache stays usable: later calls do not touch invalid iterators and size() <= capacity() still holds. (Expected to fail for this code; the counterexamples and the calls for which it does hold are to be proved.)", "quantifier": "all reachable states, all calls, every allocation, copy and comparison", "why_tests_cant": "Fault points are not reached by tests that run with enough memory.", "anchors": ["include/pluto/lru_cache.hpp: insert, move_to_front, evict_lru, capacity"]}
{"id": "C09", "title": "safe_lru_cache is linearizable", "statement": "Every concurrent history of calls on a safe_lru_cache has a sequential order of the same calls, consistent with real time order, in which every call returns what the sequential lru_cache would return.", "quantifier": "any number of threads, any number of calls, any interleaving of the steps inside calls", "why_tests_cant": "The number of schedules is unbounded and tests control almost none of them.", "anchors": ["include/pluto/safe_lru_cache.hpp: safe_lru_cache", "include/pluto/lru_cache.hpp: lru_cache"]}
{"id": "C10", "title": "safe_lru_cache has no data race", "statement": "While a call that modifies the cache is executing, no other call is reading or modifying it; only calls that do not modify the cache ever execute concurrently. In particular get, which reorders entries, is exclusive.", "quantifier": "all schedules of any number of threads", "why_tests_cant": "Races are schedule dependent.", "anchors": ["include/pluto/safe_lru_cache.hpp: m_mutex, get, contains"]}
{"id": "C11", "title": "thread_pool starts tasks by priority, first in first out within a priority", "statement": "Whenever a worker starts a task, that task has the highest priority among the waiting tasks and is the oldest of those with that priority; hence among tasks of one priority, tasks start in the order in which they were queued.", "quantifier": "all schedules of any number of clients and workers, all priorities", "why_tests_cant": "Depends on the schedule of clients, scheduler and workers.", "anchors": ["include/pluto/thread_pool.hpp: m_waitingTasks, start_working, run_async"]}
{"id": "C12", "title": "thread_pool neither loses nor duplicates tasks", "statement": "At every moment the tasks submitted are exactly, with multiplicity, the scheduled, the waiting, the running and the completed tasks; a task is started at most once and never before it was submitted.", "quantifier": "all reachable states of all schedules", "why_tests_cant": "All schedules.", "anchors": ["include/pluto/thread_pool.hpp: run_async, run_at, start_scheduling, start_working"]}
{"id": "C13", "title": "thread_pool counters are accurate", "statement": "active_tasks_size()/active_workers_size() equals the number of workers that have taken a task and not yet recorded its end (at a moment when none is between the two, the number of tasks begun and not ended), waiting_tasks_size() the number queued, tasks_size() their sum, and active_workers_size() <= workers_size() so waiting_workers_size() never wraps around.", "quantifier": "all reachable states of all schedules", "why_tests_cant": "All schedules; the unsigned subtraction would wrap only in rare states.", "anchors": ["include/pluto/thread_pool.hpp: active_workers_size, waiting_workers_size, tasks_size"]}
{"id": "C14", "title": "thread_pool never strands a waiting task", "statement": "If a task is waiting, the pool is not stopping and the target number of workers is positive, then it is never the case that every worker is asleep with no wake-up on its way: some worker is awake or a notification is about to be delivered.", "quantifier": "all reachable states of all schedules, including spurious wake-ups and changes of the worker target", "why_tests_cant": "A lost wake-up needs one precise interleaving.", "anchors": ["include/pluto/thread_pool.hpp: m_workersCondition, run_async, target_workers_size"]}
{"id": "C15", "title": "wait_until_no_tasks_waiting returns exactly when nothing is waiting", "statement": "A call returns only at a moment when no task is waiting, and a caller is never left asleep at a moment when the queue has become empty.", "quantifier": "all reachable states of all schedules", "why_tests_cant": "All schedules.", "anchors": ["include/pluto/thread_pool.hpp: wait_until_no_tasks_waiting, m_tasksWorkingCondition"]}
{"id": "C16", "title": "wait_until_all_tasks_complete returns when all tasks are complete", "statement": "A call returns only at a moment when no task is waiting or running; and when all tasks are complete a sleeping caller has been or will be woken. (The second half is expected to fail when the worker target is set to zero while a task runs.)", "quantifier": "all reachable states of all schedules", "why_tests_cant": "All schedules.", "anchors": ["include/pluto/thread_pool.hpp: wait_until_all_tasks_complete, m_tasksCompleteCondition, start_working"]}
{"id": "C17", "title": "run_at tasks are queued once, in time order and never early", "statement": "A task scheduled with run_at/run_after is moved to the waiting queue at most once, never before its time, and tasks are moved in order of their times, ties in submission order, among the tasks scheduled at that moment. (The order is expected to fail for a task submitted while the scheduler is about to move another one.)", "quantifier": "all schedules, all times, all behaviours of the clock", "why_tests_cant": "Depends on clock and schedule.", "anchors": ["include/pluto/thread_pool.hpp: run_at, run_after, start_scheduling"]}
{"id": "C18", "title": "run_at is safe to call concurrently", "statement": "Concurrent calls of run_at never terminate the program. (Expected to fail: two callers may both create the scheduler thread, and the scheduler may try to detach itself before it was stored; the sequential use is to be proved safe.)", "quantifier": "all schedules of callers and the scheduler thread", "why_tests_cant": "The failing interleavings are rare.", "anchors": ["include/pluto/thread_pool.hpp: run_at, m_scheduler, start_scheduling"]}
{"id": "C19", "title": "action::complete_tasks completes every waiting task", "statement": "If on_stop(complete_tasks) is set before the pool is destroyed, every task waiting at that time has been executed when the destructor returns. (Expected to fail when more workers exist than the target; to be proved otherwise.)", "quantifier": "all schedules", "why_tests_cant": "All schedules.", "anchors": ["include/pluto/thread_pool.hpp: ~thread_pool, on_stop, start_working"]}
{"id": "C20", "title": "destroying the pool waits for running tasks and starts no more", "statement": "With action::join_all no task starts after the destructor has set the stop flag; with either action, when the destructor returns no task is running and no worker of the pool's table is alive.", "quantifier": "all schedules", "why_tests_cant": "All schedules.", "anchors": ["include/pluto/thread_pool.hpp: ~thread_pool, start_working"]}
{"id": "C21", "title": "worker count follows the target", "statement": "workers_size() never exceeds the largest target ever set, is at least the current target, and a worker never leaves while there are not more workers than the target; a superfluous worker never starts a task.", "quantifier": "all reachable states of all schedules", "why_tests_cant": "All schedules.", "anchors": ["include/pluto/thread_pool.hpp: target_workers_size, start_working"]}
{"id": "C22", "title": "run_sync returns only after its task has run", "statement": "run_sync returns only after the given task has been executed exactly once by a worker.", "quantifier": "all schedules", "why_tests_cant": "All schedules.", "anchors": ["include/pluto/thread_pool.hpp: run_sync"]}
{"id": "C23", "title": "logger writes every accepted entry exactly once, in order", "statement": "For each log file the sequence of entries written to disk followed by the entries still buffered is exactly the sequence of entries accepted for that file, in the order in which they were accepted. If nothing fails and the writers are fixed, the bytes of a file are its former contents, the header line (if wanted and the file was empty) and one line per entry, the output of the log writer and a line break.", "quantifier": "all schedules of any number of producers and the logging thread, all settings", "why_tests_cant": "All schedules and histories.", "anchors": ["include/pluto/logger.hpp: add_log_to_buffer, write_buffer_to_file, start_logging"]}
{"id": "C24", "title": "logger buffer bound and discard accounting", "statement": "With buffer_max_size n > 0 fixed, no log file ever has more than n buffered entries; an entry is discarded only if its buffer is full; every call that passes the level filter ends with its entry either accepted or discarded, never both; num_discarded_logs is the number of entries discarded since the last reset.", "quantifier": "all schedules and histories", "why_tests_cant": "Depends on the relative speed of producers and disk.", "anchors": ["include/pluto/logger.hpp: buffer_max_size, add_log_to_buffer, num_discarded_logs, reset_num_discarded_logs"]}
{"id": "C25", "title": "logger level filter", "statement": "A message is accepted only if its level is at least the level configured when it is checked; raising the level never lets more messages through, level off accepts none of the ordinary levels.", "quantifier": "all levels and message sequences", "why_tests_cant": "All combinations of settings and histories.", "anchors": ["include/pluto/logger.hpp: should_log, write, writef, format, stream"]}
{"id": "C26", "title": "a log stream produces at most one entry", "statement": "A streamer submits at most one entry however often end() is called and whether or not it is then destroyed, and the entry contains everything streamed before in order.", "quantifier": "all sequences of stream operations", "why_tests_cant": "All sequences.", "anchors": ["include/pluto/logger.hpp: streamer, end"]}
{"id": "C27", "title": "writef logs the formatted message", "statement": "writef logs exactly the text produced by formatting its arguments, whatever its length. (Expected to fail for an empty result, where the format string itself is logged.)", "quantifier": "all format results of any length and any initial buffer size", "why_tests_cant": "All lengths around internal buffer boundaries.", "anchors": ["include/pluto/logger.hpp: writef"]}
{"id": "C28", "title": "destroying the logger flushes everything", "statement": "When the destructor of the logger returns, every entry accepted before has been written to its file, provided the file system works.", "quantifier": "all schedules and histories", "why_tests_cant": "All schedules.", "anchors": ["include/pluto/logger.hpp: ~logger, start_logging"]}
{"id": "C29", "title": "destroying the logger does not hang", "statement": "The destructor of the logger always returns if the file system works. (Expected to fail: the stop flag is set without the mutex, so its notification can be lost.)", "quantifier": "all schedules", "why_tests_cant": "The failing interleaving is a few instructions wide.", "anchors": ["include/pluto/logger.hpp: ~logger, start_logging, m_isLogging"]}
{"id": "C30", "title": "file rotation shifts files and never overwrites one", "statement": "rotation with limit n >= 1 turns log, log_1, ..., log_k into log_1, ..., log_min(k+1,n), keeping each file's content; older files beyond the limit are removed, no other file is touched; with limit 0 the current file is removed. Rotated files are called like the file with _1, _2, ... before the extension.", "quantifier": "all directory contents, all limits, all file names", "why_tests_cant": "All directory states.", "anchors": ["include/pluto/logger.hpp: rotate_file, file_rotation_limit"]}
{"id": "C31", "title": "every file produced by rotation respects the rotation size and starts with the header", "statement": "With rotation size s > 0 a log file grows beyond s only by the last entry written to it (or by a single header/entry), a file is rotated only when it has at least s bytes (if writing does not fail), and each new file starts with the header if write_header is set.", "quantifier": "all sequences of entries of any sizes", "why_tests_cant": "All sequences of entry sizes.", "anchors": ["include/pluto/logger.hpp: write_buffer_to_file, rotate_file, file_rotation_size"]}
{"id": "C32", "title": "rotation keeps the newest log text contiguous", "statement": "The contents of log_n, ..., log_1, log concatenated (headers aside) are always a suffix of the concatenation of everything written, so rotation only ever loses the oldest entries, whole files at a time.", "quantifier": "all histories of writes and rotations", "why_tests_cant": "All histories.", "anchors": ["include/pluto/logger.hpp: rotate_file, write_buffer_to_file"]}
{"id": "C33", "title": "file system failures do not lose or duplicate unwritten entries", "statement": "If opening or rotating a file fails, the entries not yet written stay buffered, in order, and those written are not written again.", "quantifier": "all failure points", "why_tests_cant": "Failure points cannot be enumerated by tests.", "anchors": ["include/pluto/logger.hpp: write_buffer_to_file, open_file_stream, start_logging"]}
{"id": "C34", "title": "the logging thread is woken for every full buffer", "statement": "If a buffer holds at least buffer_flush_size entries and no producer or call of buffer_flush_size is in progress, the logging thread is not asleep without a notification on its way, provided that buffer_flush_size is not lowered while the logging thread holds the mutex.", "quantifier": "all schedules in which the flush size is not lowered while the logging thread holds the mutex", "why_tests_cant": "A lost wake-up needs one precise interleaving.", "anchors": ["include/pluto/logger.hpp: add_log_to_buffer, m_bufferFlushSize, start_logging"]}
{"id": "C35", "title": "default header columns line up with default log lines", "statement": "The column separators of the default header are at the same positions as those of every default log line whose fields fit their columns. The texts for the levels are those of the enumerators, and different levels have different texts.", "quantifier": "all process ids, thread ids, line numbers, levels, file names and messages", "why_tests_cant": "All field widths.", "anchors": ["include/pluto/logger.hpp: default_log_writer, default_header_writer"]}
{"id": "C36", "title": "scope guards run each task exactly once in reverse order", "statement": "When a guard that is to run is destroyed, every non-empty task added is called exactly once, last added first, even if tasks throw. (Expected to fail for tasks that add tasks to the guard being destroyed.)", "quantifier": "all numbers of tasks and all subsets of tasks that throw or are empty", "why_tests_cant": "All sequences of tasks.", "anchors": ["include/pluto/scope.hpp: on_scope_exit, on_scope_success, on_scope_fail"]}
{"id": "C37", "title": "exactly one of on_scope_success and on_scope_fail runs", "statement": "For guards of the same scope exactly one of success and fail runs its tasks; success runs exactly if the scope is left normally. (The second half is expected to fail for a scope entered while an exception is being handled by unwinding.)", "quantifier": "all nestings of scopes and exceptions", "why_tests_cant": "All nestings.", "anchors": ["include/pluto/scope.hpp: on_scope_success, on_scope_fail"]}
{"id": "C38", "title": "stopwatch measures exactly the running time", "statement": "time() equals the total length of the intervals during which the stopwatch was running since the last reset or restart.", "quantifier": "all sequences of start/stop/reset/restart/stop_and_time calls at arbitrary clock readings", "why_tests_cant": "All histories.", "anchors": ["include/pluto/stopwatch.hpp: stopwatch"]}
{"id": "C39", "title": "stopwatch parts recompose the time", "statement": "hours_part, minutes_part, seconds_part, milliseconds_part, microseconds_part and nanoseconds_part recombine to exactly the whole number of nanoseconds in time(), each within its range, for a non-negative time. (For one reading of the clock: the parts of a running stopwatch read one after the other need not fit together, but are off by less than an hour.)", "quantifier": "all times", "why_tests_cant": "All 2^63 times.", "anchors": ["include/pluto/stopwatch.hpp: count, hours_part, nanoseconds_part"]}
{"id": "C40", "title": "stopwatch operations are idempotent and monotone", "statement": "start while running, stop while stopped have no effect; with a monotone clock time() never decreases between resets, and is constant while stopped.", "quantifier": "all states, all call sequences", "why_tests_cant": "All histories.", "anchors": ["include/pluto/stopwatch.hpp: start, stop, time"]}
{"id": "C41", "title": "utf32_to_utf8 produces standard UTF-8", "statement": "For a sequence of Unicode scalar values the output is their UTF-8 encoding as defined by Unicode; invalid code points (surrogates, above U+10FFFF) become the encoding of U+FFFD.", "quantifier": "all sequences of 32-bit units", "why_tests_cant": "All inputs.", "anchors": ["include/pluto/unicode.hpp: utf32_to_utf8"]}
{"id": "C42", "title": "utf8_to_utf32 decodes valid UTF-8", "statement": "Decoding the UTF-8 encoding of any sequence of scalar values gives that sequence.", "quantifier": "all sequences of scalar values", "why_tests_cant": "All inputs.", "anchors": ["include/pluto/unicode.hpp: utf8_to_utf32"]}
{"id": "C43", "title": "UTF-16 conversions round trip", "statement": "utf32->utf16->utf32, utf8->utf16->utf8 and utf16->utf32->utf16 are the identity on well-formed text.", "quantifier": "all well-formed sequences", "why_tests_cant": "All inputs.", "anchors": ["include/pluto/unicode.hpp: utf32_to_utf16, utf16_to_utf32, utf8_to_utf16, utf16_to_utf8"]}
{"id": "C44", "title": "conversions always produce well-formed text", "statement": "Whatever the input, ill-formed or not, the output of each converter is well-formed UTF-8, UTF-16 or UTF-32.", "quantifier": "all sequences of input units", "why_tests_cant": "All inputs including all ill-formed ones.", "anchors": ["include/pluto/unicode.hpp: all converters"]}
{"id": "C45", "title": "conversion path does not matter", "statement": "Converting UTF-8 to UTF-16 and then to UTF-32 gives the same as converting directly, and likewise for the other triangles of converters, also for ill-formed input.", "quantifier": "all sequences of input units", "why_tests_cant": "All inputs.", "anchors": ["include/pluto/unicode.hpp: all converters"]}
{"id": "C46", "title": "conversions never read outside the input", "statement": "No converter reads a unit before the beginning or at or after the end of its input, e.g. for a truncated multi-byte sequence at the end.", "quantifier": "all sequences of input units", "why_tests_cant": "An over-read of one unit usually goes unnoticed.", "anchors": ["include/pluto/unicode.hpp: all converters"]}
{"id": "C47", "title": "ASCII is transparent", "statement": "ASCII text is converted unit by unit unchanged by every converter, and in any input to utf8_to_* an ASCII byte is never swallowed or altered, so the ASCII units of the output are those of the input in order.", "quantifier": "all sequences of input units", "why_tests_cant": "All inputs.", "anchors": ["include/pluto/unicode.hpp: all converters"]}
{"id": "C48", "title": "str/wstr conversions do not depend on the width of wchar_t", "statement": "str(wstr(s)) == s for well-formed UTF-8 s, on platforms with 16-bit and with 32-bit wchar_t; the two wstr results denote the same text.", "quantifier": "all well-formed strings, both platforms", "why_tests_cant": "A test runs on one platform.", "anchors": ["include/pluto/unicode.hpp: str, wstr, u8str, u16str, u32str"]}
{"id": "C49", "title": "ill-formed UTF-8 is replaced unit by unit", "statement": "Each byte that does not begin a well-formed sequence at its position yields exactly one U+FFFD and decoding resumes at the next byte; overlong forms, surrogates and values above U+10FFFF are all rejected.", "quantifier": "all byte sequences", "why_tests_cant": "All inputs.", "anchors": ["include/pluto/unicode.hpp: utf8_to_utf32, utf8_to_utf16"]}
{"id": "C50", "title": "conversion of a concatenation", "statement": "Converting x ++ y gives the conversion of x followed by that of y whenever x is well-formed.", "quantifier": "all well-formed x, all y", "why_tests_cant": "All inputs.", "anchors": ["include/pluto/unicode.hpp: all converters"]}
{"id": "C51", "title": "join inverts split", "statement": "Joining the result of split(s, sep) with sep gives s back, for non-empty sep.", "quantifier": "all strings and non-empty separators", "why_tests_cant": "All inputs.", "anchors": ["include/pluto/string.hpp: split, join"]}
{"id": "C52", "title": "split inverts join", "statement": "Splitting join(pieces, sep) at sep gives the pieces back, for a non-empty list of pieces such that the separator occurs in the joined text only where it was inserted; in particular for a one-character separator that occurs in no piece.", "quantifier": "all lists of strings and separators", "why_tests_cant": "All inputs.", "anchors": ["include/pluto/string.hpp: split, join"]}
{"id": "C53", "title": "pieces of split do not contain the separator", "statement": "No piece returned by split(s, sep) contains sep and the number of pieces is one more than the number of non-overlapping occurrences from the left.", "quantifier": "all strings and non-empty separators", "why_tests_cant": "All inputs.", "anchors": ["include/pluto/string.hpp: split"]}
{"id": "C54", "title": "replace equals split then join", "statement": "replace(s, find, with) equals join(split(s, find), with) for non-empty find; text inserted is never searched again, so replace terminates even if with contains find.", "quantifier": "all strings", "why_tests_cant": "All inputs; non-termination for particular arguments.", "anchors": ["include/pluto/string.hpp: replace"]}
{"id": "C55", "title": "replace with empty find", "statement": "replace(s, \"\", with) inserts with between/around every character as documented and terminates.", "quantifier": "all strings", "why_tests_cant": "All inputs.", "anchors": ["include/pluto/string.hpp: replace"]}
{"id": "C56", "title": "replace_any_of replaces each listed character independently", "statement": "replace_any_of(s, chars, with) equals replacing each character of s by with if it is listed and by itself otherwise.", "quantifier": "all strings", "why_tests_cant": "All inputs.", "anchors": ["include/pluto/string.hpp: replace_any_of"]}
{"id": "C57", "title": "split on whitespace", "statement": "split(s) returns exactly the maximal runs of non-space characters in order, none empty.", "quantifier": "all strings, all character classifications", "why_tests_cant": "All inputs.", "anchors": ["include/pluto/string.hpp: split"]}
{"id": "C58", "title": "split_any_of", "statement": "split_any_of(s, chars) returns exactly the maximal non-empty runs of characters that are not listed, in order; there are no empty pieces.", "quantifier": "all strings", "why_tests_cant": "All inputs.", "anchors": ["include/pluto/string.hpp: split_any_of"]}
{"id": "C59", "title": "strip removes exactly the leading and trailing whitespace", "statement": "lstrip/rstrip/strip remove all and only leading/trailing spaces, strip = lstrip then rstrip, idempotent, and an all-space string becomes empty.", "quantifier": "all strings, all character classifications", "why_tests_cant": "All inputs.", "anchors": ["include/pluto/string.hpp: lstrip, rstrip, strip"]}
{"id": "C60", "title": "bin, oct and hex print the two's complement digits", "statement": "bin/oct/hex of an integer of w bits print exactly the base 2/8/16 digits, without leading zeros, of its value modulo 2^w, including negative values, so the value can be read back.", "quantifier": "all widths and values", "why_tests_cant": "All 2^64 values and all widths.", "anchors": ["include/pluto/string.hpp: bin, oct, hex"]}
{"id": "C61", "title": "str_to inverts str for integers", "statement": "str_to<T>(str(v)) == v for every integer value, and out-of-range or non-numeric text never yields an arbitrary value. (The second half is expected to fail for an empty string.)", "quantifier": "all integer values and all strings", "why_tests_cant": "All values.", "anchors": ["include/pluto/string.hpp: str, str_to"]}
{"id": "C62", "title": "case-insensitive comparison", "statement": "iequals is an equivalence relation that agrees with equality of upper-cased strings, and is_iless etc. form a strict weak order consistent with it.", "quantifier": "all locales and strings", "why_tests_cant": "All locales.", "anchors": ["include/pluto/string.hpp: iequals", "include/pluto/compare.hpp: is_iequal, is_iless"]}
{"id": "C63", "title": "searching functions find what they should", "statement": "starts_with/ends_with/contains are true exactly if left is right ++ x, x ++ right, x ++ right ++ y for some x, y; find returns the first and rfind the last position, the end if there is none.", "quantifier": "all sequences", "why_tests_cant": "All inputs.", "anchors": ["include/pluto/string.hpp: starts_with, ends_with, contains", "include/pluto/iterator.hpp: starts_with, ends_with, contains, rfind"]}
{"id": "C64", "title": "custom predicates are called with (left, right)", "statement": "starts_with and ends_with with a custom predicate give the same answer whichever language version and iterator category is used. (Expected to fail for asymmetric predicates.)", "quantifier": "all predicates, sequences and iterator categories", "why_tests_cant": "A test is compiled with one language version.", "anchors": ["include/pluto/iterator.hpp: starts_with, ends_with"]}
{"id": "C65", "title": "slice follows Python semantics", "statement": "slice(c, begin, end) is c[begin:end] as in Python for all positive, negative and out of range arguments.", "quantifier": "all containers and indices", "why_tests_cant": "All index combinations.", "anchors": ["include/pluto/container.hpp: slice"]}
{"id": "C66", "title": "min and max of a container", "statement": "container min/max return the first minimal/maximal element: it is in the container, no element is better and no earlier one equally good; an empty container is a violated precondition with undefined behaviour.", "quantifier": "all containers and strict weak orders", "why_tests_cant": "All inputs.", "anchors": ["include/pluto/container.hpp: min, max"]}
{"id": "C67", "title": "count, count_if, any, all and sum", "statement": "count = number of equal elements, count_if = number satisfying the predicate, any/all = exists/forall, sum = sum starting with the initial value; all are additive over concatenation.", "quantifier": "all containers and predicates", "why_tests_cant": "All inputs.", "anchors": ["include/pluto/container.hpp: count, any, all, sum"]}
{"id": "C68", "title": "filter and map", "statement": "filter keeps exactly the elements satisfying the predicate in order, map applies the function elementwise keeping order and length.", "quantifier": "all containers and functions", "why_tests_cant": "All inputs.", "anchors": ["include/pluto/container.hpp: filter, map", "include/pluto/iterator.hpp: filter, map"]}
{"id": "C69", "title": "sort and reverse", "statement": "sort returns an ordered permutation; reverse returns the reverse and is an involution.", "quantifier": "all containers", "why_tests_cant": "All inputs.", "anchors": ["include/pluto/container.hpp: sort, reverse"]}
{"id": "C70", "title": "range comparison is a strict total order", "statement": "The operators <, <=, >, >=, ==, != on ranges are a total order, the lexicographic order of (begin, end).", "quantifier": "all values of any totally ordered type", "why_tests_cant": "All inputs.", "anchors": ["include/pluto/range.hpp: is_less, operator<"]}
{"id": "C71", "title": "overlap and order without overlap are complementary", "statement": "For well-formed ranges exactly one of r.is_less_no_overlap(s), s.is_less_no_overlap(r), r.is_overlapping(s) holds; overlapping non-empty ranges share an element and conversely. (Fails for ranges with end < begin.)", "quantifier": "all ranges", "why_tests_cant": "All inputs.", "anchors": ["include/pluto/range.hpp: is_overlapping, is_less_no_overlap"]}
{"id": "C72", "title": "abs", "statement": "abs(v) is the mathematical absolute value. (Fails for the most negative value of a signed type.)", "quantifier": "all values of all signed widths", "why_tests_cant": "All values.", "anchors": ["include/pluto/value.hpp: abs"]}
{"id": "C73", "title": "min and max of two values", "statement": "min/max return one of the two arguments, the smaller/larger, the left one if equivalent, so {min(a,b), max(a,b)} = {a,b} only if not equivalent.", "quantifier": "all values and strict weak orders", "why_tests_cant": "All inputs.", "anchors": ["include/pluto/value.hpp: min, max"]}
{"id": "C74", "title": "file_name", "statement": "file_name(path) is the suffix after the last slash or backslash, contains none of them and is the whole path if there is none.", "quantifier": "all strings", "why_tests_cant": "All inputs.", "anchors": ["include/pluto/platform.hpp: file_name"]}
{"id": "C75", "title": "upper/lower and is_upper/is_lower", "statement": "lower/upper map each character and preserve length; is_lower(lower(s)) for a locale whose tolower never yields an upper-case character.", "quantifier": "all strings and locales", "why_tests_cant": "All inputs and locales.", "anchors": ["include/pluto/string.hpp: lower, upper, is_lower, is_upper"]}
{"id": "C76", "title": "safe_lru_cache never deadlocks", "statement": "Whenever a call on a safe_lru_cache has been made and has not returned, some call can make progress: the cache never blocks all its callers.", "quantifier": "all schedules of any number of calls", "why_tests_cant": "Deadlocks depend on the schedule.", "anchors": ["include/pluto/safe_lru_cache.hpp: m_mutex"]}
{"id": "C77", "title": "the scheduler attends to every scheduled task", "statement": "If calls of run_at do not overlap the creation of the scheduler thread, then as long as the pool is not stopping and a task is scheduled there is exactly one scheduler thread alive or about to be created, and it never sleeps past the time of a scheduled task without a notification on its way.", "quantifier": "all calm executions: all schedules in which the creation of the scheduler thread is not overtaken", "why_tests_cant": "Missed wake-ups and abandoned tasks depend on the schedule.", "anchors": ["include/pluto/thread_pool.hpp: run_at, start_scheduling"]}
{"id": "C78", "title": "destroying the pool does not hang", "statement": "If every running task returns, the destructor returns: after its notifications the threads of the pool can take only a bounded number of steps, and when none of them can take a step the destructor can return.", "quantifier": "all reachable states of all schedules", "why_tests_cant": "A lost wake-up would show only in rare schedules; termination is not testable.", "anchors": ["include/pluto/thread_pool.hpp: ~thread_pool, start_working, start_scheduling"]}
{"id": "C79", "title": "the pool comes to rest with all tasks done", "statement": "If nobody calls the pool any more, it is not being destroyed, its target is positive and every task returns, then after a bounded number of its own steps the pool is at rest, and then every submitted task is completed or still scheduled, all workers sleep and no caller of a waiting function is left asleep.", "quantifier": "all reachable states of all schedules", "why_tests_cant": "Liveness over all schedules is not testable.", "anchors": ["include/pluto/thread_pool.hpp: run_async, start_working, wait_until_all_tasks_complete"]}
{"id": "C80", "title": "entries are in the order of their times", "statement": "If the clock does not go back, the entries of a log file are in the order of their timestamps. (Expected to fail: the clock is read before the mutex is acquired. It holds for the entries of one thread.)", "quantifier": "all schedules and clocks", "why_tests_cant": "The failing interleaving is a few instructions wide.", "anchors": ["include/pluto/logger.hpp: add_log_to_buffer, log_entry"]}
{"id": "C81", "title": "the entries of one thread are in the order of its calls", "statement": "For each thread and each log file the entries the thread made are accepted, written and found on disk (oldest rotated file first) in the order of its calls, whatever file system operations fail.", "quantifier": "all schedules, histories and failures", "why_tests_cant": "All schedules and failure points.", "anchors": ["include/pluto/logger.hpp: write, add_log_to_buffer, write_buffer_to_file, rotate_file"]}
{"id": "C82", "title": "an entry that could not be written is not forgotten", "statement": "An entry that was accepted but could not be written to its open file stays in the buffer or is counted as discarded. (Expected to fail: the state of the stream is never checked, and an entry counts as written before its writer is called.)", "quantifier": "all failure points", "why_tests_cant": "Needs a disk that fills up at the right byte.", "anchors": ["include/pluto/logger.hpp: write_buffer_to_file, start_logging"]}
{"id": "C83", "title": "the logger comes to rest with everything due written", "statement": "If nothing fails and the interface is no longer called, the calls in progress and the logging thread take only finitely many steps whatever the schedule, and then every buffer is smaller than the flush size; with flush size 0 or 1 everything accepted has been written.", "quantifier": "all reachable states and schedules, settings with well-behaved writers", "why_tests_cant": "Liveness under all schedules.", "anchors": ["include/pluto/logger.hpp: add_log_to_buffer, start_logging, write_buffer_to_file"]}
{"id": "C84", "title": "the logging thread waits while a file cannot be opened", "statement": "While a log file cannot be opened, the logging thread waits for something to change instead of consuming processor time. (Expected to fail: it tries again at once, forever.)", "quantifier": "all schedules", "why_tests_cant": "Endless loops cannot be observed by a test in finite time.", "anchors": ["include/pluto/logger.hpp: start_logging, open_file_stream"]}
{"id": "C85", "title": "rotation bounds the number of files", "statement": "With a fixed rotation limit n the entries of a log file are never in other files than the log file itself and the rotated files 1, ..., n, whatever fails.", "quantifier": "all histories and failure points", "why_tests_cant": "All histories and failure points.", "anchors": ["include/pluto/logger.hpp: rotate_file, file_rotation_limit"]}
{"id": "C86", "title": "no file system failure ends the program", "statement": "If the writers throw nothing but filesystem_error, no exception leaves the logging thread or the destructor of the logger, whatever file system operations fail.", "quantifier": "all schedules and failure points", "why_tests_cant": "Failure points cannot be enumerated by tests.", "anchors": ["include/pluto/logger.hpp: ~logger, start_logging, write_buffer_to_file"]}
{"id": "C87", "title": "a copied cache is a cache of its own", "statement": "Copying a lru_cache gives a cache with the same contents, capacity and order of use, on which every call does what it would do on the source. (Expected to fail: the copied index refers to the list of the source.)", "quantifier": "all histories of the source, all call sequences on the copy", "why_tests_cant": "Undefined behaviour often looks like success in a test.", "anchors": ["include/pluto/lru_cache.hpp: lru_cache (implicit copy), get, remove, insert_or_assign, move_to_front"]}
{"id": "C88", "title": "the logging thread reads a buffer without the mutex safely", "statement": "While the logging thread goes through the buffer of a log file without holding the mutex, other threads may add entries: there is no data race, it sees exactly the entries present when it unlocked, the oldest first, and erasing them afterwards leaves exactly the entries not yet written and the new ones, in order.", "quantifier": "all interleavings of single memory accesses, all buffers, any number of flushes", "why_tests_cant": "Data races cannot be excluded by running tests.", "anchors": ["include/pluto/logger.hpp: start_logging, write_buffer_to_file, add_log_to_buffer"]}
{"id": "C89", "title": "run_sync can be called by tasks", "statement": "If tasks of the pool call run_sync and every task that does not wait returns, then all calls of run_sync return and all tasks complete. (Expected to fail: as many tasks as there are workers, each inside run_sync, wait for each other forever. It holds as long as one worker is not occupied by a task that waits.)", "quantifier": "all schedules, all numbers of workers and tasks", "why_tests_cant": "Deadlocks depend on the schedule and the number of workers.", "anchors": ["include/pluto/thread_pool.hpp: run_sync, start_working"]}
{"id": "C90", "title": "wait_until_all_tasks_complete must not be called by a task", "statement": "A call of wait_until_all_tasks_complete by a task of the pool never returns: the task itself is one that has not completed. From then on the function returns to nobody and the destructor does not return.", "quantifier": "all continuations of all schedules", "why_tests_cant": "That a call never returns cannot be observed by a test.", "anchors": ["include/pluto/thread_pool.hpp: wait_until_all_tasks_complete, start_working, ~thread_pool"]}
{"id": "C91", "title": "the destructor returns although tasks wait for the pool", "statement": "If every task that does not wait returns, the destructor returns, also if tasks are inside run_sync when it begins or call it later. (Expected to fail: with join_all what they wait for is never started; with complete_tasks the other workers may have ended.)", "quantifier": "all schedules", "why_tests_cant": "The failing interleavings are rare and show only as a program that does not end.", "anchors": ["include/pluto/thread_pool.hpp: ~thread_pool, run_sync, start_working"]}
{"id": "C92", "title": "the destructor of the pool joins every worker although it does not hold the mutex", "statement": "From the moment the destructor has set its flag no thread is added to or removed from the pool, whatever tasks and threads do, so the destructor can go through the threads without the mutex and join each of them.", "quantifier": "all states and steps", "why_tests_cant": "A concurrent modification of the table would show only in rare schedules.", "anchors": ["include/pluto/thread_pool.hpp: ~thread_pool, start_working, target_workers_size"]}
{"id": "C93", "title": "a call of the pool that throws has had no effect", "statement": "If a function of the pool throws because a task cannot be copied, memory cannot be allocated or a thread cannot be created, the pool is as before the call; if the constructor fails, it throws. (Expected to fail: run_at that cannot create its thread keeps the task, which is executed later; target_workers_size keeps the new target; a constructor that has created a thread ends the program.)", "quantifier": "all states, all calls, all points of failure", "why_tests_cant": "Failures of allocations and of the creation of threads cannot be provoked reliably.", "anchors": ["include/pluto/thread_pool.hpp: thread_pool, run_async, run_sync, run_at, target_workers_size"]}
{"id": "C94", "title": "what a task holds is released when it is complete", "statement": "There is exactly one function object of a task from its submission until its worker has recorded its end. When wait_until_all_tasks_complete, the destructor or run_sync returns, those of the tasks started (of run_sync: of its task) are destroyed; what they hold may use the pool while being destroyed. (Expected to fail for run_sync, which returns before, and for destructors that use the pool: they run while the mutex is held.)", "quantifier": "all schedules", "why_tests_cant": "The moment of the destruction depends on the schedule.", "anchors": ["include/pluto/thread_pool.hpp: start_working, start_scheduling, run_sync, wait_until_all_tasks_complete, ~thread_pool"]}
{"id": "C95", "title": "the promise of run_sync outlives its use", "statement": "The local promise of run_sync is not used after run_sync has returned. (Expected to fail: run_sync may return as soon as the value is set, while the worker is still inside set_value.)", "quantifier": "all schedules", "why_tests_cant": "The window is a few instructions wide, and use after the end of a life time often looks like success.", "anchors": ["include/pluto/thread_pool.hpp: run_sync"]}
{"id": "C96", "title": "a replaced writer is not called any more", "statement": "At most one thread at a time reads or replaces a writer; the writer in use is the one set last; when log_writer(w) or header_writer(w) has returned, the previous writer is not called any more. (Expected to fail in the last part: the logging thread may have a copy, which it calls once more.)", "quantifier": "all schedules of the logging thread and of any number of threads that set and read writers", "why_tests_cant": "The window between copying and calling the writer is short.", "anchors": ["include/pluto/logger.hpp: log_writer, header_writer, write_buffer_to_file"]}
{"id": "C97", "title": "writers may use the logger", "statement": "A log or header writer may call write and the setters and getters of the logger that calls it: the calls return without waiting for the logging thread, the entry is buffered or counted as discarded. During the destructor such entries are dropped. A writer that logs an entry each time it is called keeps the logging thread busy forever.", "quantifier": "all states in which a writer is being called", "why_tests_cant": "Absence of deadlocks for all schedules cannot be tested.", "anchors": ["include/pluto/logger.hpp: write, start_logging, write_buffer_to_file, log_writer, ~logger"]}
{"id": "C98", "title": "moved and swapped caches are caches of their own", "statement": "After move construction, move assignment or std::swap of lru_caches every call on each of them does what it would do on an abstract cache that was moved or swapped as a whole: the target has contents, capacity and order of use of the source, the source is empty with its capacity unchanged, and no call is undefined.", "quantifier": "all sequences of creations, calls, moves and swaps of any number of caches", "why_tests_cant": "A dangling list iterator after a move often looks like success in a test.", "anchors": ["include/pluto/lru_cache.hpp: lru_cache (implicit move)"]}
{"id": "C99", "title": "map into a set or map keeps the first of equivalent results", "statement": "map with a set or map as destination inserts the results in order; of results that are equivalent to each other or to an element already there only the first is kept, and elements already there are never replaced.", "quantifier": "all sources, destinations and functions, all strict weak orders", "why_tests_cant": "All orders and multiplicities of equivalent results cannot be enumerated.", "anchors": ["include/pluto/container.hpp: map", "include/pluto/iterator.hpp: map"]}
{"id": "C100", "title": "a logging macro evaluates its arguments only if the level is logged", "statement": "PLUTO_LOG_WRITE, PLUTO_LOG_WRITEF, PLUTO_LOG_FORMAT and PLUTO_LOG_STREAM evaluate none of their arguments if the level is not logged, otherwise each once, in which case exactly one entry is logged if nothing throws and the level is not changed meanwhile; never more than one. If an argument throws, nothing is logged. (Expected to fail in the last part: a stream logs the text it has got so far.)", "quantifier": "all arguments, all answers of should_log", "why_tests_cant": "The level can change between the checks; the number of arguments is unbounded.", "anchors": ["include/pluto/logger.hpp: PLUTO_LOG_WRITE_WITH, PLUTO_LOG_WRITEF_WITH, PLUTO_LOG_FORMAT_WITH, PLUTO_LOG_STREAM_WITH, streamer"]}
{"id": "C101", "title": "round and pow of integers are exact", "statement": "round of a floating-point number is the nearest integer, halfway cases away from zero; round of an integer is that integer; pow of integers is std::pow of their values. (Expected to fail for integers with more than 53 significant bits, which are converted to double.)", "quantifier": "all floating-point numbers and integers", "why_tests_cant": "All integers of 64 bits cannot be enumerated.", "anchors": ["include/pluto/value.hpp: round, pow"]}
{"id": "C102", "title": "str and str_to are inverse for characters, 8-bit integers, booleans and strings", "statement": "str_to applied to what str returns is the value again, for every character, 8-bit integer, boolean and string; str_to of a string is its first word; str_to of a boolean is whether the number in the text is not 0. (Expected to fail for white space: a string is cut at it, and a character or 8-bit integer that is white space yields an indeterminate value; an 8-bit integer is written as a character.)", "quantifier": "all characters, integers and strings", "why_tests_cant": "Strings are unbounded, and what is lost depends on their content.", "anchors": ["include/pluto/string.hpp: str, str_to"]}
{"id": "C103", "title": "str of a floating-point number is the nearest number with six digits, and str_to reads it back", "statement": "The text that str makes of a floating-point number denotes a number with at most six significant decimal digits nearest to it, and str_to returns the value of the type nearest to that; the relative error is less than 1/100000, and the text of the value read back is the same text again. A number is read back unchanged. (Expected to fail in the last part for numbers that need more than six digits; it holds for those nearest to a number with six.)", "quantifier": "all finite numbers, all precisions from 21 bits (float, double)", "why_tests_cant": "There are 2^64 values of double, and the error bound concerns each of them.", "anchors": ["include/pluto/string.hpp: str, str_to"]}
{"id": "C104", "title": "a case-insensitive comparator can be used as long as it exists", "statement": "A comparator is_iequal, is_not_iequal, is_iless, is_igreater, is_iless_equal or is_igreater_equal can be called at any time after its construction and compares with the case mapping of the locale it was constructed with, or of the default locale; copies of it do the same. (Expected to fail: it refers to a facet of the locale and dangles when the last locale that shares the facet is gone; with PLUTO_LOCALE_NO_STATIC this is so for every comparator constructed without a locale.)", "quantifier": "all programs that create, copy, assign and destroy locales and comparators, in any order", "why_tests_cant": "A reference to a facet that is gone often still works in a test run.", "anchors": ["include/pluto/compare.hpp: is_iequal, is_not_iequal, is_iless, is_igreater, is_iless_equal, is_igreater_equal", "include/pluto/locale.hpp: default_locale, use_facet"]}
{"id": "C105", "title": "functions that take a locale compute with its case mapping and do not throw", "statement": "Every function with a parameter of type std::locale computes with the facet of the locale given, or of the default locale, for strings of every character type. (Expected to fail: std::bad_cast for strings of char8_t, char16_t and char32_t, unless a facet was added to the locale; without an argument std::runtime_error if the default locale is not installed.)", "quantifier": "all programs that create, copy, assign and destroy locales, all character types, both values of PLUTO_LOCALE_NO_STATIC", "why_tests_cant": "Tests run with the character types and on the systems their author has thought of.", "anchors": ["include/pluto/locale.hpp: default_locale, use_facet", "include/pluto/string.hpp: lower, upper, is_lower, is_upper, split, lstrip, rstrip, strip, iequals, istarts_with, iends_with, ifind, irfind, icontains"]}
{"id": "C106", "title": "a string literal counts as the string it denotes", "statement": "Wherever a function that compares, searches or converts strings accepts a string literal, the result is that for the string the literal denotes. (Expected to fail: equals, starts_with and ends_with treat a literal as an array with its terminator, so that starts_with(s, \"he\") is false for every string s without a null character; iequals, istarts_with and contains convert it; wstr of a narrow literal widens every byte instead of decoding UTF-8 if string.hpp is included.)", "quantifier": "all strings and literals, both implementations of starts_with and ends_with", "why_tests_cant": "The tests of the library pass no literals; that the result is false for every string cannot be seen from some of them.", "anchors": ["include/pluto/container.hpp: equals, starts_with, ends_with", "include/pluto/string.hpp: equals, starts_with, ends_with, iequals, istarts_with, contains, wstr", "include/pluto/unicode.hpp: wstr"]}
{"id": "C107", "title": "replace and replace_any_of may be given the string itself", "statement": "If the string that is changed is also passed as what is sought or as the replacement, or as both, the result of replace and replace_any_of is the same as for copies of it. (Expected to fail for the replacement: only the first occurrence is replaced.)", "quantifier": "all strings, all ways to pass one object for several parameters", "why_tests_cant": "The tests pass different objects; whether a wrong result is seen depends on the number of occurrences.", "anchors": ["include/pluto/string.hpp: replace, replace_any_of"]}
{"id": "C108", "title": "rotation removes an entry only when that much newer log is kept", "statement": "With a file rotation size of r bytes and a file rotation limit of n files, an entry that has been written to a log file disappears from its files only when rotated files with the numbers 1 to n exist, each of at least r bytes: at least the newest n * r bytes of log are kept. (Expected to fail if writing or renaming fails: the position of a failed stream counts as a huge size, so each further entry rotates the files.)", "quantifier": "all sequences of entries, sizes and limits, all interleavings, all failures of opening files", "why_tests_cant": "It is a claim about every sequence of rotations; tests look at a few files after a few entries, and no test makes writing fail.", "anchors": ["include/pluto/logger.hpp: write_buffer_to_file, rotate_file, file_rotation_size, file_rotation_limit"]}
{"id": "C109", "title": "the shared logger, pool and locales can be used until the program ends", "statement": "Code that runs while the program ends (destructors of objects with static storage duration, tasks that the shared thread pool still executes, writers that the shared logger still calls) can use logger::instance(), thread_pool::instance() and the locales. (Expected to fail: each is destroyed in the reverse order of first use, so for instance a task that logs is undefined at the end if the pool was used before the logger.)", "quantifier": "all programs, orders of first use, threads and users of the shared objects", "why_tests_cant": "The failure happens after main has returned, and depends on the order of first use in the whole program.", "anchors": ["include/pluto/logger.hpp: logger::instance, ~logger", "include/pluto/thread_pool.hpp: thread_pool::instance, ~thread_pool", "include/pluto/locale.hpp: default_locale, c_locale, system_locale"]}
{"id": "C110", "title": "map into a multiset or multimap adds every result, equal ones in the order of the source", "statement": "map into a std::multiset or std::multimap keeps what was there, adds every result, and puts equivalent results after equivalent elements that were there and in the order of the source, as insert does. (Expected to fail for the order: the insert iterator passes the position after the last insertion as a hint.)", "quantifier": "all strict weak orders, sources, destinations and functions", "why_tests_cant": "The tests have no multisets or multimaps; the order of equivalent elements depends on the whole sequence of insertions.", "anchors": ["include/pluto/container.hpp: map", "include/pluto/iterator.hpp: map"]}
{"id": "C111", "title": "a container can be mapped into itself", "statement": "map(c, c, f) adds f of the elements that c had to c. (Expected to fail: it iterates over what it changes.)", "quantifier": "all containers, contents and functions", "why_tests_cant": "Undefined behaviour and endless loops; no test passes one container twice.", "anchors": ["include/pluto/container.hpp: map", "include/pluto/iterator.hpp: map"]}
{"id": "C112", "title": "if the program is killed, only the end of the file being written is missing", "statement": "If the program is killed at any moment, every log file has on disk exactly what the logger had put into it, except that the end of the one file that it has open at that moment may be missing; a file is complete on disk before it is rotated, and nothing is missing once the destructor has returned. What is on disk need not end with a whole line.", "quantifier": "all interleavings of the users and the logging thread, all settings, all moments, all amounts the streams have written to the files by then, all failures of opening and rotating files; what is written to an open file gets there", "why_tests_cant": "What a buffered stream has written to its file at a given moment depends on the library and the system; tests read the files after the logger has ended.", "anchors": ["include/pluto/logger.hpp: write_buffer_to_file, open_file_stream, rotate_file, ~logger"]}
{"id": "C113", "title": "copies and slices of a container have its elements, whatever their type", "statement": "copy(c) has the elements of the container c, and slice(c, start, stop) has those at the positions from start to stop. (Expected to fail for containers whose elements can be made from a container or an iterator implicitly, for example std::vector<std::any>: the braces in the return statements choose the constructor for a std::initializer_list.)", "quantifier": "all sequences, element types and bounds, compilers that follow CWG 2137 and compilers that do not", "why_tests_cant": "Tests use a few element types; the failure depends on which conversions exist.", "anchors": ["include/pluto/value.hpp: copy", "include/pluto/container.hpp: slice"]}
{"id": "C114", "title": "a cache does not tell apart keys that are neither less nor greater", "statement": "For every key type whose < is a strict weak order, a lru_cache behaves as a bounded recency list of the classes of keys that < does not tell apart: calls that are given other keys of the same classes return the same, and there is no undefined behaviour.", "quantifier": "all key types and strict weak orders, capacities, sequences of calls", "why_tests_cant": "Tests use keys for which equivalent means equal, and few orders.", "anchors": ["include/pluto/lru_cache.hpp: lru_cache"]}
{"id": "C115", "title": "run_after waits for at least the duration", "statement": "A task given to run_after(duration, task) does not start before that much real time has passed since the call. (Expected to fail if the system clock is set forward, and for durations whose sum with the current time does not fit into 64 bits, for example duration::max().)", "quantifier": "all durations, clock settings, submissions and schedules, any number of workers", "why_tests_cant": "Tests wait for short durations while nobody sets the clock.", "anchors": ["include/pluto/thread_pool.hpp: run_after, run_at, start_scheduling"]}
{"id": "C116", "title": "Functions of a thread pool may be called by any threads at the same time", "statement": "Any threads, and tasks of the pool, may call any functions of a thread pool at the same time without a data race: no two threads access the same part of the pool at the same time unless both only read it. This includes the pool's own threads and the destructor.", "quantifier": "every number of threads, every sequence of calls of each, every interleaving of their single accesses to the pool, every outcome of the branches", "why_tests_cant": "A data race may have no effect in all executions a test sees, and a tool that detects races sees only the executions that happen.", "anchors": ["include/pluto/thread_pool.hpp: thread_pool, all member functions"]}
{"id": "C117", "title": "Nothing uses a thread pool after its destructor", "statement": "When the destructor of a thread pool has returned, none of the threads the pool has created does anything to the pool any more, whether it was joined or had been detached before.", "quantifier": "every number of threads, every sequence of calls of each, every interleaving, every change of the number of workers before the destruction", "why_tests_cant": "An access to a destroyed pool needs a thread that is stopped at one place while the destructor runs; it may also go unnoticed.", "anchors": ["include/pluto/thread_pool.hpp: ~thread_pool, run_at, start_scheduling, start_working, target_workers_size"]}
{"id": "C118", "title": "Any threads may use a logger at the same time", "statement": "Any threads, and the log and header writers the logger calls, may call any functions of a logger at the same time without a data race: no two threads access the same memory of the logger at the same time unless both only read it, and no memory is used that does not exist yet or any more. This includes the logging thread, which reads the buffers without holding the mutex while other threads add entries, the assignment of the thread in the constructor, and the destructor. When the destructor has returned, no thread uses the logger.", "quantifier": "every number of threads and log files, every sequence of calls of each thread and each writer, every interleaving of their single accesses to memory, every outcome of the branches, every failure of the file system", "why_tests_cant": "A data race may have no effect in all executions a test sees, and a tool that detects races sees only the executions that happen.", "anchors": ["include/pluto/logger.hpp: logger, add_log_to_buffer, start_logging, write_buffer_to_file, ~logger, log_writer, header_writer"]}
{"id": "C119", "title": "The log writer gets each buffered entry once and in order, whatever the threads do meanwhile", "statement": "At any time, the entries of a log file that have been handed to the log writer are the first ones that were added to its buffer, each once and in the order in which they were added, also if adding and reading the linked list overlap access by access, if writers log, and if the file system fails. When the destructor has returned and nothing failed in it, they are all of them.", "quantifier": "every number of threads and log files, every sequence of calls, every interleaving of single accesses to the links of the buffers, every failure of the file system", "why_tests_cant": "A test cannot stop a thread between two writes to the links of a list.", "anchors": ["include/pluto/logger.hpp: add_log_to_buffer, start_logging, write_buffer_to_file, ~logger"]}
{"id": "C120", "title": "The threads that use a logger never all wait for each other", "statement": "As long as a thread is in a function of the logger, in a writer the logger has called, or in its destructor, some thread can go on: there is no deadlock of the two mutexes of the logger and the end of its thread, also if writers call the logger or replace writers.", "quantifier": "every number of threads, every sequence of calls of threads and writers, every interleaving", "why_tests_cant": "A deadlock needs several threads stopped at certain places at the same time.", "anchors": ["include/pluto/logger.hpp: add_log_to_buffer, start_logging, write_buffer_to_file, ~logger, log_writer, header_writer"]}
{"id": "C121", "title": "Several loggers or programs may log to the same file", "statement": "If several loggers, of one program or of several, log to the same file, then when all are done the log files consist of whole headers and lines, those of each logger once and in the order in which they were logged, with a header only at the beginning of a file, and nothing is lost but what the rotation limit allows. (Expected to fail: a stream may write out a part of a line, two loggers may both find the file empty, and two rotations may overlap.)", "quantifier": "every number of loggers, every sequence of entries of each, every interleaving of opening, writing, rotating and closing, every size of what streams write out at a time", "why_tests_cant": "The interleavings are those of several processes, which a test does not control.", "anchors": ["include/pluto/logger.hpp: write_buffer_to_file, rotate_file, open_file_stream"]}
{"id": "C122", "title": "The entries can be read back from a log file", "statement": "Somebody who knows the columns of the default log can read from the log file which entries there are, in which order, and of each its time to the microsecond, thread id, level, file name, line, function and message, whatever these are and however often the logger opens the file in between. (Expected to fail: a line break in a message looks like the end of an entry, so a message can forge entries; names are cut after twenty characters.)", "quantifier": "every sequence of entries, every text of messages, file names and function names, every thread id and line number, with and without header and source information, every way the entries are divided among the openings of the file", "why_tests_cant": "Whether two different logs can have the same text is a question about all pairs of logs.", "anchors": ["include/pluto/logger.hpp: default_log_writer, default_header_writer, write_buffer_to_file"]}
{"id": "C123", "title": "Every task given to a thread pool is started", "statement": "While a task is waiting, the pool starts only tasks that were before it in the queue and tasks that are added later with a higher priority; so it is started after a number of tasks that is known when it is added, and every task is started as long as workers go on. (Expected to fail: tasks with a higher priority can be added again and again, and a task may wait forever.)", "quantifier": "every number of workers, every waiting task, every execution: any calls of any threads, priorities, order of steps and moments at which tasks return", "why_tests_cant": "That something never happens in an infinite execution cannot be tested, nor that no execution overtakes more tasks than the bound.", "anchors": ["include/pluto/thread_pool.hpp: run_async, run_sync, start_working, start_scheduling"]}
{"id": "C124", "title": "What is given to a logging call need exist only until it returns", "statement": "After a call of write, writef, format or stream, and after each insertion into a stream, the caller may change or destroy everything it has given to the call: the entry is written with what the arguments were during the call, however much later. (Expected to fail: of the source information only pointers are kept.)", "quantifier": "every sequence of logging calls, streams and insertions, every change and destruction of strings by the callers, every moment at which entries are written", "why_tests_cant": "The text of destroyed strings is often still there, and entries are often written before the strings are changed, so a test passes by chance.", "anchors": ["include/pluto/logger.hpp: source_info, log_entry, streamer, write, writef, format, stream, add_log_to_buffer, default_log_writer"]}
{"id": "C125", "title": "A logging call that runs out of memory changes nothing", "statement": "If write, writef or format throws because memory has run out, no log has changed: no entry is added, lost, altered or counted as discarded; if it returns, exactly one entry is accepted, or counted as discarded because its buffer is full. A stream makes one entry, with the text that was inserted until something threw or end() was called, and the program goes on. (Expected to fail: the destructor of a stream may run out of memory, which ends the program; end() may throw although the entry is logged.)", "quantifier": "every contents of the buffers, every buffer limit, every message, every sequence of operations on a stream, every allocation that fails, every change of the log level in between", "why_tests_cant": "Memory hardly ever runs out in tests, and never at each of the many points where it can.", "anchors": ["include/pluto/logger.hpp: add_log_to_buffer, write, writef, format, streamer::end, streamer::~streamer"]}
{"id": "C126", "title": "Functions on floating-point values respect the numbers they denote, also for zeros, infinities and NaN", "statement": "abs, min, max, round, str, the minimum and maximum of a container, sort, contains, find, count, equals and ranges treat floating-point values as the numbers or infinities they denote, and NaN in the same way wherever it is: abs gives the absolute value with the sign bit clear, min and max do not depend on the order of their arguments, any container can be sorted, a value that is in a container is found, and str_to reads back what str writes. (Expected to fail: abs keeps the sign of zero; NaN is ignored or not depending on where it is, makes sorting undefined and is never found; infinities are read back as 0.)", "quantifier": "all values of all binary floating-point types of IEEE 754, all containers of them", "why_tests_cant": "Tests use ordinary numbers; the special values matter in all combinations and at all positions.", "anchors": ["include/pluto/value.hpp: abs, min, max, round", "include/pluto/container.hpp: min, max, count", "include/pluto/iterator.hpp: find, contains, equals, sort", "include/pluto/range.hpp: range", "include/pluto/string.hpp: str, str_to"]}
{"id": "C127", "title": "The string functions work on text in UTF-8, UTF-16 and UTF-32", "statement": "Applied to encoded text, equals, starts_with, ends_with, contains, find, rfind, split, join, replace, split_any_of, replace_any_of, the functions that strip spaces or change case, reverse and slice give the encoding of what they give applied to the characters of the text; in particular valid text stays valid. (Expected to fail: an empty separator, sets of characters with several units, locales that classify units of such characters, reverse and slice cut characters.)", "quantifier": "all texts, separators, sets, replacements and locales, in all three encodings", "why_tests_cant": "Tests use ASCII; whether a match can start within a character is a question about all pairs of texts.", "anchors": ["include/pluto/string.hpp: split, split_any_of, join, replace, replace_any_of, strip, lstrip, rstrip, lower, upper, is_lower, is_upper, iequals", "include/pluto/iterator.hpp: equals, starts_with, ends_with, find, rfind, contains, reverse", "include/pluto/container.hpp: slice"]}
{"id": "C128", "title": "A log of valid UTF-8 is valid UTF-8", "statement": "If the messages, file names and function names of the entries are valid UTF-8, then so is the log file which the default writers write. (Expected to fail: names are cut after twenty bytes, maybe within a character.)", "quantifier": "all entries, any number of batches, with and without header and source information", "why_tests_cant": "Tests use ASCII names; which cuts hit a character depends on all its bytes.", "anchors": ["include/pluto/logger.hpp: default_log_writer, default_header_writer"]}
{"id": "C129", "title": "The text of a log does not depend on when the logging thread writes it", "statement": "For any log writer and header writer, the files of a log depend only on the entries and their order (and on the header and rotation settings), not on how many entries the logging thread takes from the buffer at a time. (Expected to fail: the stream is made anew for each batch, while within a batch the writers see the formatting state left by the header writer and by the entry before.)", "quantifier": "all writers, formatting states, entries, rotation sizes and divisions into batches", "why_tests_cant": "Batches depend on the timing of threads; a test sees one division.", "anchors": ["include/pluto/logger.hpp: write_buffer_to_file, default_header_writer, default_log_writer, log_writer, header_writer"]}
{"id": "C130", "title": "A logger that nobody configures writes every entry", "statement": "If no setting of a logger is changed and the file system works, then, when its destructor has returned, each log file consists of what was in it before, the default header if it was empty, and exactly one line for every call of a level of at least verbose, the calls of each thread in their order; no other file is changed, nothing is discarded, and a reader who knows the columns gets all entries back.", "quantifier": "for all executions of any number of threads, log files and calls, all schedules of the logging thread, all earlier contents of the files", "why_tests_cant": "The initial settings, the buffers, the logging thread, the destructor and the writers together decide what is in the files; a test sees some schedules.", "anchors": ["include/pluto/logger.hpp: PLUTO_LOGGER_INITIAL_*, logger, ~logger, write, add_log, start_logging, write_buffer_to_file, rotate_file, default_log_writer, default_header_writer"]}
{"id": "C131", "title": "A logger that is only given a rotation size keeps the file before the current one", "statement": "docs/logger.md says that the initial rotation limit is 1. So if the rotation size of a logger is set and its rotation limit is not, what was written to a log file is still in the file and the one before it, or else there is a file before it, which holds the part just before. (Expected to fail: the code's initial limit is 0, so rotation deletes the log.)", "quantifier": "for all executions that do not set the rotation limit, any other settings, any number of threads and log files", "why_tests_cant": "A test must rotate with the limit left alone; which files can ever hold entries is a matter of all executions.", "anchors": ["include/pluto/logger.hpp: PLUTO_LOGGER_INITIAL_FILE_ROTATION_LIMIT, file_rotation_size, file_rotation_limit, rotate_file", "docs/logger.md: PLUTO_LOGGER_INITIAL_FILE_ROTATION_LIMIT"]}
{"id": "C132", "title": "The logger creates the directories of log files that are written to, and no others", "statement": "While create_dirs is off, the logger creates no directory. While it is on, the logging thread, if nothing fails, can open a log file although its directory does not exist. The logger creates only directories of log files to which something was logged, and removes none. When an entry has been written to a log file, it makes no further attempt to create its directory.", "quantifier": "for all executions, settings, log files and failures of the file system", "why_tests_cant": "Which directories may appear depends on all schedules, settings and failures; a test looks at a few paths.", "anchors": ["include/pluto/logger.hpp: create_dirs, write_buffer_to_file, log_file"]}
{"id": "C133", "title": "Entries are in the file their name stood for when they were logged", "statement": "If a program changes its working directory, an entry that is logged under a relative name is in the file which the name stood for at the time of the call. (Expected to fail: the name is made absolute when the logging thread first writes to the log file. From then on it stands for the same file for the life of the logger.)", "quantifier": "for all executions and all changes of the working directory between steps", "why_tests_cant": "The result depends on when the logging thread runs in relation to the change of directory.", "anchors": ["include/pluto/logger.hpp: write, write_buffer_to_file, log_file, start_logging"]}
{"id": "C134", "title": "A logger goes on when others rename or remove its files or its directory", "statement": "While other programs rename, create, remove and append to files and remove the directory of a log file, every entry is put into one file, in order, each file gets its header once, and no entry is lost as long as no file is removed or replaced. When the others stop, the logging thread writes what is left, with create_dirs on also if the directory was removed. (Expected to fail: a directory that the logger has created once is never created again; rotation replaces files; what is written to a file that was removed is lost.)", "quantifier": "for all sequences of steps of the logger and of others, all sizes of buffers, all earlier files", "why_tests_cant": "Other programs act at any moment, also within a batch or a rotation; a test tries a few moments.", "anchors": ["include/pluto/logger.hpp: write_buffer_to_file, open_file_stream, rotate_file, create_dirs, start_logging, log_file"]}
{"id": "C135", "title": "A time stamp tells when an entry was logged", "statement": "gm_time gives the Gregorian date and time of a second, and the only one. The time stamps that the default writer puts into a log are ordered, as texts, like the times at which the entries were logged, and two are the same only if these are in the same microsecond; who knows the offset of local time from UTC finds the time of an entry to the microsecond. (Expected to fail when local time is set back: the line does not tell the offset.)", "quantifier": "for all times from the year 0 on (time stamps: from 1970 to the year 9999), all time zones and their changes, all tick lengths of the clock", "why_tests_cant": "There are too many seconds to try; errors show at leap days, ends of centuries, changes of summer time and carries between the fields.", "anchors": ["include/pluto/logger.hpp: default_log_writer, log_entry::time", "include/pluto/platform.hpp: local_time, gm_time"]}
{"id": "C136", "title": "With rotation, the newest entries can be read back from the files of a log, oldest file first", "statement": "If the settings of a logger do not change, its buffers are not bounded and what is put into an open file gets there, then, when its destructor has returned, the files of a new log file are made of whole headers and lines of calls of a sufficient level: read from the highest number down to the file itself they are the newest calls, in the order of their threads, with no gap, and in no more files than the limit allows. With the default writers a reader who knows the columns gets exactly these calls back. If no rotation fails, all calls are there unless every rotated file exists and has at least the rotation size.", "quantifier": "all executions of any number of threads from the constructor to the end of the destructor, all rotation sizes and limits, levels, flush sizes, messages, file systems without files of that log, and failures of preparing, opening and (for the first part) rotating before the destructor", "why_tests_cant": "a test reads the files after a few rotations; that no interleaving of calls, rotations and failures leaves a gap is a statement about all executions", "anchors": ["include/pluto/logger.hpp: logger::write_buffer_to_file, logger::rotate_file, logger::default_log_writer, logger::default_header_writer, logger::~logger"]}
{"id": "C137", "title": "str_to reads the value nearest to any decimal number, also at the limits of float and double", "statement": "str_to of a text that begins, after white space, with a decimal number (sign, digits, point, digits, exponent) returns a value of the type than which none is nearer to the number, of two the even one; a number that is too large gives the largest value, one that is too small 0; of a text that begins with no number 0 is read, and reading is undefined exactly for a blank text. What is read from str of a value differs from it by at most 1/100000 of it, and its text is the same text again, for subnormal and for the largest values too. A value that was read from a text with six digits, or that is less than 100000 times the smallest one, is read back unchanged. (Expected to fail for one text of double: a value with the text 1e-318 is read back as one with the text 9.99999e-319.)", "quantifier": "all texts and all finite values of float and double; all binary formats with subnormal numbers where no format is named", "why_tests_cant": "There are 2^64 values of double and texts of any length; near the smallest values the spacing of the type is wider than that of the texts, and rounding there goes wrong for single texts only.", "anchors": ["include/pluto/string.hpp: str, str_to"]}
{"id": "C138", "title": "a task of higher priority is completed before one of lower priority that waits with it", "statement": "Of two tasks that wait at the same time, the one with the higher priority (of two with the same, the one submitted first) is started first, and it is complete before the other one is. (Docs: higher priority tasks are always completed first. Expected to fail for completion in a pool with two workers, to hold with one worker, and for the start of tasks always.)", "quantifier": "all executions and any two tasks waiting in any reachable state", "why_tests_cant": "All schedules, numbers of workers and durations of tasks.", "anchors": ["include/pluto/thread_pool.hpp: run_async, start_working", "docs/thread_pool.md"]}
{"id": "C139", "title": "with action::complete_tasks every task given to a pool is executed before its destructor returns", "statement": "If the action is complete_tasks, every task given to the pool, with run_async or with run_at and run_after, has been executed when the destructor returns. (Docs: complete all tasks; threads are not joined until all tasks are complete. Expected to fail for tasks whose time has not come: at most one of them is still executed, all others are dropped.)", "quantifier": "all schedules, all reachable states and all numbers of workers and tasks", "why_tests_cant": "All schedules; which tasks are dropped depends on when the scheduler is woken.", "anchors": ["include/pluto/thread_pool.hpp: ~thread_pool, on_stop, run_at, run_after, start_scheduling, start_working", "docs/thread_pool.md"]}
{"id": "C140", "title": "Several names may stand for the same log file", "statement": "If a logger is given several names of one file (a.log, ./a.log, its absolute path, a path through a link to a directory), the file is as if there was one name: it has the header once, one line for every entry logged under any of the names, and the entries of each thread in the order of its calls; with rotation it loses only the oldest entries and keeps the limits of size and number. (Expected to fail for the order of calls with different names: each name has a buffer of its own. Within each name the order is kept.)", "quantifier": "for all executions from the constructor to the end of the destructor, all maps from names to files, any number of threads and names", "why_tests_cant": "Which names stand for one file is a matter of all maps; in which order buffers are written depends on all schedules.", "anchors": ["include/pluto/logger.hpp: write, add_log, write_buffer_to_file, start_logging, ~logger, log_file"]}
{"id": "C141", "title": "The functions of a thread pool take effect one at a time", "statement": "Whatever threads call the functions of a pool at the same time, and whatever its workers and its scheduler are doing meanwhile, the pool behaves as if each locked part of each function were executed at once, in the order in which the lock was taken: the tasks, workers and settings afterwards are those that this order gives, and each size or setting that a function has returned is the one at its place in this order. Every such order is possible. A function that has the lock gives it up after finitely many steps of its own, without waiting for any other thread. Nothing that happens without the lock changes what the functions report.", "quantifier": "for all interleavings of the statements of any number of threads, all states and all numbers of workers and tasks", "why_tests_cant": "A test sees few interleavings; the order in which functions take effect is not observable.", "anchors": ["include/pluto/thread_pool.hpp: workers_size, target_workers_size, active_workers_size, waiting_workers_size, tasks_size, active_tasks_size, waiting_tasks_size, scheduled_tasks_size, on_stop, run_async, run_sync, run_at, wait_for_no_tasks, wait_for_tasks_complete, start_working, start_scheduling, ~thread_pool"]}
{"id": "C142", "title": "Settings of a logger may be changed at any time", "statement": "Settings of a logger may be changed while other threads log and while the logging thread opens files, rotates them and writes. Whatever the interleaving of the single reads of settings with these changes, the logger behaves as if each entry were added to its buffer at once, each file opened at once and each entry written at once, with values of the settings that had been set: the same calls are made, entries are accepted, discarded and written in the same way, files have the same contents; if no setting is changed, none is changed in that execution. Different settings that are used together need not have been in effect at the same time. A program is terminated by a writer only if it could be terminated then. Conversely every execution with operations at once is possible. Whoever is in the middle of such an operation can always go on, without waiting for any other thread.", "quantifier": "for all interleavings of the statements of any number of threads, all settings, writers, file systems and failures", "why_tests_cant": "A test sees few interleavings of a change of a setting with the reads of settings.", "anchors": ["include/pluto/logger.hpp: add_log_to_buffer, open_file_stream, rotate_file, write_buffer_to_file, start_logging, buffer_flush_size, buffer_max_size, create_dirs, file_rotation_size, file_rotation_limit, write_header, header_writer, log_writer, ~logger"]}
{"id": "C143", "title": "A stopwatch counts right in every duration type that has the value", "statement": "With a clock that never runs backwards, time() never overflows as long as less than 2^63 ticks have passed since the first call, whatever is called; and count<Duration>() is the number of whole units in the time, rounded towards zero, for every duration type with a signed integer representation that has this value. In nanoseconds to hours it always is.", "quantifier": "all histories of calls and clock readings, all periods and widths of duration types, all times", "why_tests_cant": "Overflow needs years of running time or unusual duration types.", "anchors": ["include/pluto/stopwatch.hpp: time, count, stop, stop_and_time, in_nanoseconds, in_hours"]}
{"id": "C144", "title": "A log file may be a link", "statement": "On a file system with symbolic and hard links, one who reads the log files and their rotated files through their names reads what would be there without links; files that merely are linked to are never removed or emptied, and files no link leads to are not changed.", "quantifier": "all file systems with links, settings, histories of calls and interleavings, faults of files", "why_tests_cant": "Needs links of all kinds combined with rotation.", "anchors": ["include/pluto/logger.hpp: rotate_file, open_file_stream, write_buffer_to_file"]}
{"id": "C145", "title": "the destructor of a pool returns whoever calls it", "statement": "The destructor of a pool returns when all tasks return, whichever thread calls it and in whatever order it joins the workers; also if a task of the pool destroys it, or calls std::exit while the pool is thread_pool::instance().", "quantifier": "all numbers of workers, histories of calls, interleavings, orders of the workers, callers of the destructor", "why_tests_cant": "Needs a task that destroys its own pool; the test program ends with it.", "anchors": ["include/pluto/thread_pool.hpp: ~thread_pool, instance, start_working"]}
{"id": "C146", "title": "a log writer may end the program", "statement": "When the program ends normally every entry accepted by the logger has been written to its file, also if it is a log writer or header writer that calls std::exit.", "quantifier": "all settings, histories of calls and interleavings, moments at which a writer ends the program", "why_tests_cant": "Needs a writer that ends the program; the test program ends with it.", "anchors": ["include/pluto/logger.hpp: ~logger, instance, write_buffer_to_file, start_logging"]}
{"id": "C147", "title": "a set of ranges ordered by is_less_no_overlap is a table of disjoint ranges", "statement": "In a std::set of ranges with is_less_no_overlap as its comparison, filled by insert and erase with ranges that do not end before they begin: no two ranges overlap and they are visited in increasing order; insert inserts exactly if the new range overlaps none; find yields the first range that overlaps the key, so find of the empty range at a value yields the range in which the value lies; erase takes out exactly the ranges that overlap the key.", "quantifier": "all totally ordered value types, histories of insert and erase, shapes of the search tree, keys, values", "why_tests_cant": "Depends on the comparison being consistent for every set of ranges and every way the tree is balanced; equality of ranges that overlap is not transitive.", "anchors": ["include/pluto/range.hpp: range::is_less_no_overlap, range::is_overlapping"]}
{"id": "C148", "title": "sum returns the total", "statement": "sum(container, value) returns value plus the elements if that is a value of the type of value, for every pair of arithmetic types of value and elements; otherwise, for integers, a value congruent to it modulo 2^bits; for floating-point numbers the error is at most ((1 + 2^-p)^n - 1) times the sum of the absolute values, and none for integers whose partial sums have at most p bits. (Fails: for int and wider signed types a partial sum that overflows is undefined although the total fits; floating-point numbers added to an integer are truncated at each step.)", "quantifier": "all integer types, floating-point types of any precision, containers, initial values", "why_tests_cant": "Depends on promotions, conversions and overflow for all combinations of types and all orders of elements.", "anchors": ["include/pluto/container.hpp: sum"]}
{"id": "C149", "title": "comparisons of numbers of different types compare their values", "statement": "is_equal, is_not_equal, is_less, is_greater, is_less_equal and is_greater_equal compare integers of different types by their values; count(container, value) and contains_elem(container, elem) count and find the elements with that value. (Fails: a negative number compared to a value of an unsigned type that is not narrower than int and than its own type counts as that number plus 2^bits.)", "quantifier": "all pairs of integer types and values, containers", "why_tests_cant": "All pairs of types and values.", "anchors": ["include/pluto/compare.hpp: is_equal, is_less", "include/pluto/container.hpp: count, contains_elem"]}
{"id": "C150", "title": "functions of the user are called once for each element, in order, and an exception stops there", "statement": "any, all, count_if, find_if, for_each, map and filter call the predicate or function once for each element in order; any, all and find_if stop as soon as the result is known. If a call throws, no further call is made and the exception leaves the function: for_each has changed exactly the elements up to there, map(source, destination, function) has added exactly the results before, and filter leaves a container of the same size that begins with the elements to which the predicate said yes and ends with those it has not been asked about.", "quantifier": "all containers, predicates and functions with any state, any call that throws", "why_tests_cant": "All sequences of results, states and throwing calls; how remove_if leaves the elements depends on the whole history.", "anchors": ["include/pluto/container.hpp: any, all, count_if, find_if, for_each, map, filter", "include/pluto/iterator.hpp: find_if, for_each, map, filter"]}
{"id": "C151", "title": "c_locale, system_locale and default_locale return one object each, in all threads", "statement": "Whatever threads call c_locale(), system_locale() and default_locale() at the same time and however the environment changes: all calls of one function that return, return the same object, constructed once; it is what the name stood for when it was constructed, and for c_locale() always the classic locale; a call throws only if the name stands for nothing at that moment, never after another call of this function has returned, and never for c_locale(); every call ends. With PLUTO_LOCALE_NO_STATIC every call that returns, returns a new object, as the environment is then.", "quantifier": "all numbers of threads, interleavings, changes of the environment", "why_tests_cant": "Depends on the interleaving of first calls and on failures of the constructor.", "anchors": ["include/pluto/locale.hpp: c_locale, system_locale, default_locale"]}
{"id": "C152", "title": "process_id and thread_id tell processes and threads apart", "statement": "Different processes have different process_id() and different threads different thread_id(), whatever numbers the system gives them, if std::size_t is at least as wide as the number of a thread. thread_id() is that number if it is not negative; process_id() is that of the process, except on Windows for numbers from 2^31 on, for which it is negative.", "quantifier": "all numbers of processes and threads, all widths", "why_tests_cant": "Large numbers do not occur in tests.", "anchors": ["include/pluto/platform.hpp: process_id, thread_id"]}
{"id": "C153", "title": "The time of a stopwatch as floating-point and as unsigned numbers", "statement": "count<Duration>() of a floating-point Duration never decreases when the time does not, is the number of the type nearest to the time in these units if the time is below 2^p ticks (p the precision) and tick and unit are multiples of one another, and has a relative error of at most (1+2^-p)^3-1 for all times. For an unsigned Duration it is the number of whole units modulo the range of the type, and with a rollover the rest of that.", "quantifier": "all times of 64 bits, all ratios, all formats with enough exponents, all widths up to 64", "why_tests_cant": "Rounding and wrapping depend on all bits of the time.", "anchors": ["include/pluto/stopwatch.hpp: stopwatch::count"]}
{"id": "C154", "title": "A larger cache is not worse", "statement": "The same uses of two caches, of capacities n and m with n <= m, have a hit with m wherever they have one with n, so at least as many hits; and the keys in the smaller cache are in the larger one, in the same order of use. Uses are get, get and insert if that returns false, insert_or_assign, contains, remove and clear, and insert.", "quantifier": "all capacities, all sequences of uses", "why_tests_cant": "The anomaly depends on the whole history and on two capacities.", "anchors": ["include/pluto/lru_cache.hpp: lru_cache::get, lru_cache::insert, lru_cache::insert_or_assign, lru_cache::remove"]}
{"id": "C155", "title": "Conversions keep the order of valid strings", "statement": "If one valid string is less than another (operator< of std::basic_string), then so are the results of a conversion, and the other way round: always between UTF-8 and UTF-32, also as wchar_t of 32 bits; to and from UTF-16 if the texts have no characters from U+E000 to U+FFFF or none above U+FFFF.", "quantifier": "all pairs of valid strings", "why_tests_cant": "Pairs of strings of any length; the exceptions are rare characters.", "anchors": ["include/pluto/unicode.hpp: utf8_to_utf32, utf32_to_utf8, utf8_to_utf16, utf16_to_utf8, utf16_to_utf32, utf32_to_utf16"]}
{"id": "C156", "title": "Threads that fill a safe_lru_cache agree on one value for each key", "statement": "If threads only call insert, get, contains, size, empty and capacity(), and the capacity is at least the number of different keys inserted, then of all calls of insert with the same key at most one returns true, every get that returns true reads the value stored by it, whatever the thread, and once any insert of a key has returned, every later get of the key returns true.", "quantifier": "all executions of any number of threads, all capacities, keys and values", "why_tests_cant": "Which of two simultaneous inserts wins differs from run to run.", "anchors": ["include/pluto/safe_lru_cache.hpp: safe_lru_cache::insert, safe_lru_cache::get, safe_lru_cache::contains"]}
{"id": "C157", "title": "A task given to a guard is called when the scope is left, whatever happens", "statement": "In programs with nested scopes, exceptions and handlers, every task given to a guard, by its constructor or by add, is called exactly once, at the moment the scope of the guard is left and before anything else happens, the last one first, if it is due (always for on_scope_exit, after success or failure for the others), and otherwise never. If each task is given to the innermost on_scope_exit, tasks are called in the opposite order of that in which they were given, over all scopes.", "quantifier": "all programs, all tasks, any constructor and any call of add may throw", "why_tests_cant": "Memory does not run out in tests, and the combinations of nested scopes are unbounded.", "anchors": ["include/pluto/scope.hpp: on_scope_exit, on_scope_success, on_scope_fail, add"]}
{"id": "C158", "title": "Every call of a safe LRU cache returns", "statement": "Every call of a method of a safe LRU cache returns, however the threads are scheduled. Each call takes finitely many steps; it waits only while another call has the lock, and never for a reader if it only reads itself.", "quantifier": "all finite and infinite executions with any number of calls, any capacity, key and value types", "why_tests_cant": "Starvation is an infinite execution, and no test observes that a call would never return.", "anchors": ["include/pluto/safe_lru_cache.hpp: insert, insert_or_assign, get, remove, clear, size, capacity, empty, contains"]}
{"id": "C159", "title": "A cache is nearly as good as the best way to keep entries", "statement": "A program asks a new cache of capacity n for entries by get, and by insert if get returns false. If any store with room for h entries, h at most n, can serve the same requests with some number of loads, even one that knows all requests in advance, then the cache misses at most n / (n - h + 1) times that number; with twice the room at most twice. A program that asks for n + 1 keys in turn never has a hit.", "quantifier": "all sequences of requests, all capacities, all other stores", "why_tests_cant": "The claim quantifies over all sequences of requests and all ways to serve them.", "anchors": ["include/pluto/lru_cache.hpp: get, insert"]}
{"id": "C160", "title": "The size of a converted string is bounded by that of the original, and a valid string can be recognised", "statement": "For every string, also one that is not valid: UTF-16 and UTF-32 made from UTF-8 have at most as many units, UTF-8 made from UTF-16 at most three times and from UTF-32 at most four times as many, UTF-16 made from UTF-32 at most twice as many, and never fewer; the bounds are the best ones. A string is valid exactly if it comes back unchanged from a conversion to another encoding and back, and surely if U+FFFD does not occur in the result of a conversion.", "quantifier": "all strings of all lengths in the three encodings", "why_tests_cant": "There are infinitely many strings, and the invalid ones are the difficult ones.", "anchors": ["include/pluto/unicode.hpp: utf8_to_utf16, utf16_to_utf8, utf8_to_utf32, utf32_to_utf8, utf16_to_utf32, utf32_to_utf16"]}
{"id": "C161", "title": "Larger settings for the rotation of files keep more of the log", "statement": "If two loggers are used in the same way and differ only in that one has a larger rotation limit or a larger rotation size, then the log files of that one contain at least the entries that those of the other one contain.", "quantifier": "all executions, settings, limits, sizes and earlier contents of the files", "why_tests_cant": "A test compares two executions, not all pairs of executions.", "anchors": ["include/pluto/logger.hpp: file_rotation_limit, file_rotation_size, rotate_file, write_buffer_to_file"]}
{"id": "C162", "title": "Replacements can be undone, repeated and reordered", "statement": "A replacement is undone by the opposite one if the new text can be told from what is around it: for example if it begins with a character that does not occur in the string, or if a character is replaced by a text that begins with it, as when quotation marks are doubled; then different strings have different results. Once a character has been replaced by a text without it, it is gone and replacing it again changes nothing. The replacements of two characters can be exchanged if neither occurs in the text for the other. Escaping by two replacements keeps different strings different.", "quantifier": "all strings, texts and characters under these conditions, over any alphabet", "why_tests_cant": "The laws are about all strings; which conditions are needed shows only in few of them.", "anchors": ["include/pluto/string.hpp: replace, replace_any_of"]}
{"id": "C163", "title": "Slices of slices, of parts and of reversed containers fit together", "statement": "A container cut at any place, also one outside of it or counted from its end, gives two parts that make the whole; adjacent slices make one slice; a slice of a slice is the slice with the bounds added; a slice of the reversed container is the reversed slice from the other end; and a loop over slices of one size cuts a container into pieces that together are the container.", "quantifier": "all containers and bounds (bounds counted from the same end where two slices are combined)", "why_tests_cant": "Off-by-one errors at clamped bounds show only for particular sizes and bounds.", "anchors": ["include/pluto/container.hpp: slice, reverse"]}
{"id": "C164", "title": "min, max, sum, count, any, all and sort do not depend on the order of the elements", "statement": "If two containers have the same elements in different orders, count, count_if, any and all return the same for both, min and max return equivalent elements, sort makes them equal up to equivalent elements at the same positions, and sum returns the same.", "quantifier": "all containers, all permutations of their elements, all comparisons that are strict weak orders, all arithmetic types", "why_tests_cant": "The number of permutations; a difference shows only for particular orders.", "anchors": ["include/pluto/container.hpp: min, max, sum, count, count_if, any, all, sort"]}
{"id": "C165", "title": "The cache destroys a value when its key leaves the cache or gets another value, and never twice", "statement": "Every call destroys exactly the values of the pairs that are in the cache before the call and not after it; capacity(n) does so from the least recently used one on.  Over any sequence of calls each value taken is destroyed once or still held, and a final clear() destroys the rest.  The destructor of a value may use the cache.", "quantifier": "all sequences of calls, all capacities, all keys and values, all sets of values whose destructors use the cache", "why_tests_cant": "A value that outlives its pair, or is destroyed and copied again on the way, has no effect on the results of calls; which calls destroy a given value depends on the whole history.", "anchors": ["include/pluto/lru_cache.hpp: clear, capacity, insert, insert_or_assign, get, remove, evict_lru, move_to_front", "include/pluto/safe_lru_cache.hpp: all methods"]}
{"id": "C166", "title": "Numbers have the same text, and texts the same value, whatever the global locale is", "statement": "str and wstr of a number, and the numbers in default log lines, are the same in every global locale, and str_to and wstr_to give the same value for a text.  In any locale, str_to reads what str writes there, and reads an integer without separators as its value.", "quantifier": "all group sizes and separators, all integers of all types, all rational values and precisions of floating-point types, all log records", "why_tests_cant": "Tests run in the locale of the program that runs them, usually the one called C.", "anchors": ["include/pluto/string.hpp: str, wstr, str_to, wstr_to", "include/pluto/logger.hpp: default_log_writer"]}
{"id": "C167", "title": "A logger releases a writer that has been replaced, and calls only writers that exist", "statement": "The copies of writers that exist are those of the logger, of its thread while it writes a line, and of those to whom log_writer() returned one.  So a replaced writer is released when the thread has written its line, and the last one by the destructor.  When no copy exists, and the writer is not set again, it is not called again.  A log_writer call that throws changes nothing.  A writer may use its logger when it is copied or destroyed.", "quantifier": "all interleavings of the logging thread with any number of calls of log_writer, returned copies, exceptions and the destructor", "why_tests_cant": "Whether an object that a writer refers to can be destroyed depends on what the logging thread is doing at that moment.", "anchors": ["include/pluto/logger.hpp: log_writer, header_writer, write_buffer_to_file, ~logger"]}
{"id": "C168", "title": "The searching functions, slice, split and reverse fit together", "statement": "starts_with is true exactly if contains is and find returns the beginning; ends_with exactly if contains is and rfind returns the place that far from the end, and it is starts_with of the reversed sequences.  If what is looked for is not empty, contains is true exactly if find and rfind do not return the end.  Where something is found slice returns it.  What is contained in something contained is contained.  split finds more than one piece exactly if the separator is contained, and its first piece ends where find finds it.  Case-insensitive forms give what the others give for the strings in upper case.", "quantifier": "all sequences, all predicates, all separators, all case mappings", "why_tests_cant": "Code that looks for a separator with one function and cuts with another relies on their agreement for all strings.", "anchors": ["include/pluto/iterator.hpp: starts_with, ends_with, find, rfind, contains, slice, reverse", "include/pluto/string.hpp: split, istarts_with, iends_with, ifind, irfind, icontains"]}
{"id": "C169", "title": "Pools, caches and loggers can be used together without waiting for each other for ever", "statement": "Any number of threads may use any number of thread pools, safe LRU caches and loggers; tasks, log writers, and copies, comparisons and destructors of function objects, keys and values may use them as well.  At any time all threads have finished or one can go on, no mutex is locked by its owner, and all calls return.", "quantifier": "all numbers of objects and threads, all finite programs, all nestings of calls, all interleavings, any preference of a shared mutex", "why_tests_cant": "Whether two components block each other depends on two threads being inside both at the same time, and on types the library does not know.", "anchors": ["include/pluto/thread_pool.hpp: run_async, run_at, start_working", "include/pluto/safe_lru_cache.hpp: all methods", "include/pluto/logger.hpp: write, log_writer, header_writer, start_logging, write_buffer_to_file"]}
{"id": "C170", "title": "Words, stripped strings and joined strings fit together", "statement": "split(s + space + t) gives the words of s and then those of t; strip, lstrip and rstrip keep the words; split(join(words, white space)) gives the words back exactly if they are words; joining the words of a string with a space is a normal form that two strings share exactly if they have the same words; upper and lower keep words (if the locale keeps white space); split_any_of with all white space of s is split(s), with one character it gives the pieces of split that are not empty.", "quantifier": "all strings, separators, lists of words and character classifications", "why_tests_cant": "Laws between several functions on strings of any length.", "anchors": ["include/pluto/string.hpp: split, split_any_of, join, strip, lstrip, rstrip, upper, lower"]}
{"id": "C171", "title": "A thread pool that is created without arguments runs its tasks", "statement": "Every task given to a pool that was created without a number of workers is completed, and every call of run_sync returns. (Expected to fail: the default is std::thread::hardware_concurrency(), which is 0 where the number cannot be known; then nothing is ever started until target_workers_size is called.)", "quantifier": "every default, all executions: any calls of any threads, any order of steps", "why_tests_cant": "The default depends on the machine; that a call never returns cannot be tested.", "anchors": ["include/pluto/thread_pool.hpp: thread_pool, run_async, run_sync, target_workers_size, wait_until_all_tasks_complete"]}
{"id": "C172", "title": "A log of fewer levels is a part of the log of more levels", "statement": "The entries of a thread are exactly its calls of the level of the logger or above, in order; so if a program makes the same calls, a logger with a higher level has exactly those entries of one with a lower level that have that level or above. (Expected to fail: entries of low levels may fill the buffer, so that those of high levels are discarded.)", "quantifier": "all pairs of executions in which a thread makes the same calls: any settings, other threads, interleavings and failures of the file system", "why_tests_cant": "Compares two executions that differ in their schedule.", "anchors": ["include/pluto/logger.hpp: should_log, write, add_log_to_buffer, buffer_max_size, level"]}
