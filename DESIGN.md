# Formal model of PlutoUtils in Lean 4: design

The properties are listed in `properties.jsonl`, their status in `MANIFEST.json`, the attempts to break the theorems with
wrong programs in `seeded/LOG.jsonl`.  The Lean project is in `lean/`:

* `Verif/Model/*.lean`  – the model of the C++ code; every definition cites the file and lines it models.
* `Verif/Spec/*.lean`   – small specifications, independent of the model.
* `Verif/Proofs/*.lean` – lemmas and invariants.
* `Verif/Props/*.lean`  – the property theorems (`Cnn_...`), with non-vacuity examples beside them.

Theorem names: `Cnn_..._partial` proves a property under an extra condition; `Cnn_fails_...` (or another name given in the
note of the manifest) is the counterexample that shows the condition is needed.  A property whose full statement is false
for this code is `partial` in the manifest, never `proved`.

## Trusted base

* Lean 4.33.0's kernel.  No axioms of our own; every theorem depends at most on `propext`, `Classical.choice` and
  `Quot.sound` (checked with `#print axioms`).  No `sorry`, `native_decide`, `bv_decide`, `implemented_by`.
* That the definitions in `Verif/Model` describe the code in `/repo/include/pluto`.  This was checked by reading only;
  nothing was compiled or run.
* That the small specifications say what the English statements say.
* The C++ standard library as its standard describes it.  The following definitions in `Verif/Model` are of that kind, and
  none of the code's own:
  * `Prog.lean`: a method body is a sequence of atomic steps that may end in an exception or undefined behaviour.
  * `Lru.lean`: `mapFind`, `mapErase`, `mapEmplace`, `mapUpdate` (`std::map`), `listErase`, `listPushFront`, `listBegin`
    (`std::list`, nodes with identities).
  * `SafeLru.lean`: `std::shared_mutex`; a lock object releases the lock when an exception leaves the call.
  * `LruLife.lean`: a value is destroyed when the map entry it is in is erased or assigned to; locking a `std::shared_mutex`
    that the same thread owns is undefined behaviour.
  * `Str.lean`: `find`, `find_first_of`, `replace`, ... of `std::basic_string`; the locale's `ctype` facet is an arbitrary
    classification and case mapping.
  * `Num.lean`: stream output and input of integers (`num_put`, `num_get`) in the "C" locale.
  * `Together.lean`: a mutex can be locked when no thread owns it in a way that excludes that; waiting for anything else is not
    modelled there.
  * `LogWriters.lean`: copy assignment of `std::function` copies, swaps and destroys; locking a `std::mutex` that the same thread
    owns is undefined behaviour.
  * `NumLocale.lean`: how `num_put` groups digits and `num_get` ignores separators, as `std::numpunct` of the stream's locale says;
    a `std::thread::id` is written as a number.
  * `Seq.lean`: `std::equal`, `std::search`, `std::find_end`, `std::count_if`, `insert` of `std::set` and `std::map` (`MapInto.lean`: of `std::multiset` and `std::multimap` with a hint), ...; `std::sort` is any function that
    satisfies `StdSort`.
  * `Pool.lean`, `Logger.lean`: mutual exclusion, condition variables (spurious wake-ups; `notify_one` wakes one sleeper, if
    any), `std::multimap` (insertion at the upper bound), `std::thread` (assigning to or destroying a joinable thread, and
    detaching one that is not joinable, terminates the program).
  * `LogFs.lean`: existence, size, renaming and removal of files, creation of directories, opening, writing and closing of
    streams.  Each may fail whenever the adversary says so.
  * `LogStream.lean`: an output stream writes what is in its buffer from the front, as much and as early as it likes; closing or
    destroying it writes the rest.
  * `Float.lean`: conversion of integers to floating point (round to nearest, ties to even), `std::round`.
  * `NumText.lean`, `FloatText.lean`: `operator<<` and `operator>>` of streams for characters, booleans, strings and
    floating-point numbers (`%.6g` and `strtod`, both correctly rounded).
  * `Locale.lean`: locales share facets; a facet lives as long as a locale refers to it; a locale made by name has `ctype`
    facets for `char` and `wchar_t` only; a name that is not known throws.
  * `FloatRange.lean`: rounding to a binary format with a smallest and a largest exponent, as `strtod` and the stream do it;
    a number that is too large is stored as the largest one.
  * `FloatSpecial.lean`: comparisons and negation of IEEE 754 with zeros, infinities and NaN.
  * `Arith.lean`: integral promotions, usual arithmetic conversions and conversions between arithmetic types; `int` has 32 bits.
  * `Callback.lean`: calls of functions of the user, which may throw; the loops of `std::find_if`, `std::for_each`, `std::transform` and `std::remove_if` as the libraries have them (in order, once for each element).
  * `LocaleStatic.lean`: local static variables are initialised by one thread while others wait, and again after an exception; what the name of a locale stands for may change.
  * `StopwatchReal.lean`: the common types in which `duration_cast` computes; unsigned arithmetic is modulo a power of two.
  * `Braces.lean`: which constructor of a container a list in braces calls.
  * `PoolExit.lean`: a destructor that a task of the pool calls.
  * `PoolClock.lean`: real time and the clock of the pool, which can be set; 64-bit sums in `run_after`.
  * `PoolRace.lean`: each access of the pool to a member is a step; any number of threads; `std::mutex`, `std::thread`.
  * `PoolSteps.lean`: each statement and test in a critical section of the pool is a step; `std::mutex` is held by at most one
    thread; what needs no mutex happens between any two statements.
  * `LogRace.lean`: each access of the logger to a member, its map or a link of a buffer is a step; any number of threads
    and log files; writers that call the logger.
  * `LogSteps.lean`: each look of the logger at a setting, each operation on its table, its mutex and its files is a step;
    `rotate_file` from line 776 on is one, and so is a call of a writer with the line break.
  * `StopwatchBits.lean`: signed integers of 64 bits whose overflow is undefined; `duration_cast` between any ratios.
  * `LogLink.lean`: the logger on a file system with symbolic and hard links.
  * `LogExit.lean`: a destructor that a writer calls in the logging thread.
  * `LogRead.lean`: the whole text the default writers put into a file, over several openings of it.
  * `LogArgs.lean`: strings of the callers in memory, which the logger copies or points to.
  * `LogFault.lean`: buffers, logging calls and streams when any allocation may fail.
  * `LogFormat.lean`: streams keep a formatting state of any type between insertions, also over closing and opening.
  * `LogWhole.lean`: the initial settings with the default writers.
  * `LogDir.lean`: a working directory that changes, so that names stand for different files at different times.
  * `LogTime.lean`: the Gregorian calendar of `gmtime_r`, without leap seconds; `localtime_r` adds an offset that is any
    function of time; `to_time_t` cuts off fractions of a second.
  * `LogOutside.lean`: others rename, remove, create and append to files and remove the directory between any two steps of the logging thread.
  * `LogShare.lean`: several loggers append to one file; streams with buffers refer to files, which may be renamed meanwhile.
  * `LruOrder.lean`: `lru_cache` with keys of any order, its map a sorted list.
  * `Statics.lean`: objects with static storage duration are destroyed in the reverse order of the completion of their
    constructors.
  * `LogText.lean`: fill character, width and adjustment of `std::ostream`; the two passes of `vsnprintf`.
* Sequential consistency: accesses to the atomic settings of the logger and steps under a mutex are interleaved.  For code
  without data races this is what the C++ memory model gives.

## What is modelled

| Header | Modelled | Not modelled |
|--------|----------|--------------|
| `lru_cache.hpp` | everything, including failing allocations, copies and comparisons of keys that throw (`Lru`), the implicit copy operations (`LruCopy`), the implicit move operations and `std::swap` (`LruMove`), and keys of any order (`LruOrder`); programs whose calls depend on results (`LruUse`); when values are destroyed (`LruLife`) | |
| `safe_lru_cache.hpp` | everything, any number of threads, exceptions | (it cannot be copied: the mutex) |
| `thread_pool.hpp` | everything but what is on the right: the submitting functions, the worker and scheduler loops, the getters and setters, the two waiting functions, the destructor (`Pool`); tasks that wait inside `run_sync` or a waiting function (`PoolNest`); calls in which a copy, an allocation or the creation of a thread fails, also in the scheduler thread (`PoolFault`); the life times of function objects and of the promise of `run_sync` (`PoolLife`); real time and the clock (`PoolClock`); tasks that destroy the pool or end the program (`PoolExit`); the single accesses to members (`PoolRace`) and statements (`PoolSteps`); `instance()` (`Statics`) | a task may go on before a notification it still has to send in a function that does not wait has been sent, which allows more schedules; a caller outside the pool may return from `run_sync`, and the pool may be destroyed, before a notification has been sent; the executions that refute a property (`_fails`) use none of this |
| `logger.hpp` | the level filter, the buffers, the logging thread, all setters, flushing, rotation, opening of files, header lines, the destructor (`Logger`, `LogFs`); buffers of the output streams (`LogStream`); streams, `writef`, default header and log writers (`LogText`), and the text of a file (`LogRead`); what of the arguments is copied (`LogArgs`); logging calls that run out of memory (`LogFault`); the order in which the buffer's nodes are read without the mutex (`LogBuf`); how writers are read and replaced (`LogCfg`); the single accesses of all threads to members, the map and the links of all buffers (`LogRace`); the single reads of settings (`LogSteps`); several loggers that write to the same file (`LogShare`); other programs that change its files and its directory (`LogOutside`); a working directory that changes (`LogDir`); the date and time of an entry (`LogTime`); the macros `PLUTO_LOG_*` (`LogMacro`); `instance()` (`Statics`); several names of one file (the map from names to paths in `Logger` is any map); symbolic and hard links to files (`LogLink`); writers that end the program (`LogExit`); default lines in other locales (`NumLocale`); copies of writers (`LogWriters`); which mutexes are owned when functions of the user are called (`Together`) | links that others change while the logger runs |
| `unicode.hpp` | everything | |
| `string.hpp` | `lower`, `upper`, `is_lower`, `is_upper`, `split`, `split_any_of`, `join`, `map_join`, `replace`, `replace_any_of`, `lstrip`, `rstrip`, `strip`, `bin`, `oct`, `hex`, `str` and `str_to` of integers, of characters, 8-bit integers, booleans and strings (`NumText`) and of floating-point numbers (`FloatText`, `FloatRange`, `FloatSpecial`), also in other locales (`NumLocale`), the conversions to and from wide strings; `equals`, `starts_with`, `ends_with`, `find`, `rfind`, `contains` and their case-insensitive forms are those of `Seq`; which overload a call with a string literal chooses (`Literal`); `replace` and `replace_any_of` with one object for several parameters (`Alias`) | hexadecimal texts of floating-point numbers; `str` of other types.  The overloads for pointers, sizes and strings all reduce to the same lists |
| `compare.hpp`, `iterator.hpp`, `container.hpp` | comparisons, searches, `slice`, `min`, `max`, `count`, `any`, `all`, `sum`, `filter`, `map` (into sequences, sets and maps; `MapInto`: into multisets and multimaps, and of a container into itself), `reverse`, `sort`, `is_true`, `is_false` | sets and maps in `slice` and `copy` of elements that convert from iterators or containers (`Braces` has sequences) |
| `range.hpp`, `stopwatch.hpp`, `scope.hpp` | everything; the stopwatch also with integers of 64 bits (`StopwatchBits`) and with floating-point and unsigned durations (`StopwatchReal`); guards in nested scopes when memory runs out (`ScopeFault`); ranges as the keys of a `std::set` (`RangeTable`; the set itself is trusted) | infinite floating-point durations |
| `value.hpp` | `abs`, `copy`, `min`, `max` (`Value`); `copy` of containers (`Braces`); `round`, the conversions of `pow` (`Float`); zeros, infinities and NaN in `abs`, `min`, `max`, `round` and the functions on containers (`FloatSpecial`) | `std::pow` itself; overflow and underflow; the sign of a NaN |
| `platform.hpp` | `file_name`; `local_time` and `gm_time` as wrappers of `localtime_r` and `gmtime_r`, whose calendar is modelled from the year 0 on (`LogTime`); the conversions in `process_id` and `thread_id` (`LocaleStatic`) | what the operating system numbers; years that do not fit into an `int` |
| `locale.hpp` | `default_locale` with and without `PLUTO_LOCALE_NO_STATIC`, `use_facet`, and the life times of locales, facets and of the comparators of `compare.hpp` that refer to them (`Locale`); when the static locales are constructed and destroyed (`Statics`); calls of all three functions by several threads (`LocaleStatic`) | facets and comparators in several threads |
| `standard.hpp`, `version.hpp`, `filesystem.hpp` | nothing to model: includes, macros, an alias | |

## Modelling decisions

* **Undefined behaviour** is a distinct outcome (`none`, `.ub`, or a `crashed` state), never totalised away.
* **LRU cache**: `std::list` nodes have identities (the iterators) that are never reused; the map sends a key to a value and
  a node identity.  Erasing a node identity that is not in the list, and `--end()` of an empty list, is undefined.
  A `Faults` argument says which allocations and copies throw.
* **safe_lru_cache**: an interleaving semantics of any number of calls with a reader/writer lock, where a call body
  consists of the atomic steps of the wrapped method; histories are recorded and compared with sequential ones.
* **thread_pool**: a transition system `step : Event → State → Option State`, one event for each critical section and for
  each action outside the mutex.  The adversary chooses events, spurious wake-ups, clock readings, when tasks end or throw.
  That a critical section may be one event is proved (C141): `PoolSteps` executes it statement by statement, with anything that
  needs no mutex in between.
* **logger**: a transition system with an explicit mutex owner; the logging thread's loop condition, scan and each
  iteration of writing are separate steps, because setters do not take the mutex.  Settings that are read within one of
  these steps are read at once; that this makes no difference is proved (C142): `LogSteps` reads them one by one.  The file system is a finite map from
  paths to pieces of text; a ghost log records which entries were accepted, discarded, written.
* **Unicode converters**: functions on lists of units that follow the C++ code index by index; reads outside the
  input are `none`.
* **strings/containers**: lists; positions are natural numbers, `npos` is `none`.

## Properties and proofs

| Id | Model and proof |
|----|-----------------|
| C01–C07 | Simulation between the node list and map and a recency list; induction over call sequences. |
| C08 | False; witnesses for failing `emplace`, `push_front` and comparisons in `capacity(n)`; partial theorem for every other failure. |
| C09, C10, C76 | Invariants over all interleavings; linearization at the acquisition of the lock; progress. |
| C11–C22, C77–C79, C92 | Invariants and variants of the thread pool transition system; C16–C19 false in part. |
| C89–C91 | The same system, where a task that waits in a function of the pool is held; tasks wait for younger ones only; C89, C91 false in part. |
| C93 | Functions with faults on the states of the same system, equal to its steps if nothing fails; false in part. |
| C94, C95 | The same system with objects; invariants; false in part. |
| C23–C26, C28, C29, C33, C34, C80–C86 | Invariants and variants of the logger transition system; C29, C80, C82, C84 false in part. C80 and C84 fail always: any order of times can be accepted, and the logging thread never waits while a file cannot be opened (`LogBusy`). |
| C96, C97 | A small system of the threads that use `m_configMutex`; single steps of the logger's system and a cycle of it; C96 false in part. |
| C30–C32 | Function model of `rotate_file` on a finite map; induction; C32 false in part. |
| C27, C35 | Function model of streams, `vsnprintf` and the default writers; C27 false in part. |
| C36, C37 | Guard destruction as a function of task behaviours; nested scopes as a small language. |
| C38–C40 | Induction over traces of (operation, clock reading). |
| C41–C50 | Converters are factored through lists of Unicode scalar values; the specification of UTF-8 is Lean core's. |
| C51–C59, C75 | Induction on strings; specifications by list operations and by existence of decompositions. |
| C60, C61 | Digits against `Nat.toDigits` of `v mod 2^w`; `num_get`; an indeterminate result is a distinct outcome. |
| C62–C69 | Predicates on lists. |
| C70–C74 | Direct, for all linear orders and all widths. |
| C98 | Simulation of any number of caches by abstract ones. |
| C99 | Insertion into a sorted list without equivalent elements; induction over the source. |
| C100 | Functions from the values of expressions and the answers of `should_log` to the effects. |
| C101 | Integers with a precision; nearest multiple of a power of two. |
| C102 | Case analysis of the stream operators; the equivalences say exactly what is lost. |
| C103 | Numbers are rational.  Error bounds of rounding; the text of six digits is read exactly; a number within 1/(2·10^6) of one with six digits has these digits. |
| C104, C105 | Invariant of programs: facets and comparators are never changed, a locale only by its own destruction or assignment, the static locale never. |
| C106 | The results of overload resolution, found by reading; facts about lists. |
| C107 | The loops of C54–C56 with references; induction; comparison of lengths. |
| C108 | Invariant of the file system: all entries written are in the files, or the numbers 1, ..., limit are taken; with that of C31. |
| C109 | A transition system of objects with static storage duration; invariant: the dead, the dying and the live objects are the completed ones, newest first. |
| C110, C111 | Positions of a hint in an ordered list; loops over a container that grows, with fuel: never returning is running out of every amount. |
| C113 | Case analysis of overload resolution; `slice` is related to C65. |
| C114 | Simulation of the recency list of classes; a search splits the sorted list. |
| C115 | Invariant: the clock is not further ahead of real time than when the time of an entry was computed. |
| C116, C117 | Invariant: each thread has a context (does it hold the mutex, must `m_isStopping` be set, has the pool been handed over) in which a static check accepts what is left of its program; the check is preserved by every step. |
| C118, C119, C120 | Invariant: the nodes of each buffer are linked once the holder of the mutex has finished what it is doing; they are those still to be written and those to be erased; each stack of calls is of a certain form; each access is protected by a mutex, or made by the logging thread to what others do not write. The list of accesses is itself checked against the steps (`C118_accesses`). |
| C121 | Invariant: what the file has of each logger, then the buffer of its stream, is what it put. |
| C122 | A reader written independently of the writers is proved to invert them, column by column. |
| C123 | Invariant while an entry waits: the entries started and waiting that were ahead of it are always the same; an infinite execution as a function of the step. |
| C124 | Refinement of a logger that reads everything during the call; the relation resolves the pointers. |
| C125 | Cases of the failing allocation; induction over the operations of a stream. |
| C126 | Case analysis; a NaN behind the first element counts like one that is greater (less) than all numbers. |
| C127 | The encodings have lead units, so matches start and end between characters; each function is compared with its specification on units and on characters. |
| C128 | Valid text can be split at ASCII characters, so a line is valid exactly if its columns are. |
| C129 | Induction over the batches: the state of the stream has no influence on the files. |
| C130 | Simulation of the calls by what is in the buffers and in progress; with the invariants of C23 and C28 and the reader of C122. |
| C131 | The theorem on kept entries (C27) with limit 1; invariant that the limit is 0. |
| C132 | Invariants: a log file that is busy has entries; once opened its path and directory are settled. |
| C133 | Each name gets a path once; the run is a run of the logger with the paths chosen in the end. |
| C135 | Induction on years and months against a closed formula for the calendar; numerals of one length are ordered as their values. |
| C136 | As C130, with the invariants of C32 and C108 for the rotated files; text from before is followed through rotations. |
| C137 | `Nearest` among the values of a format is proved from the rounding of integers; the text is stable where the text is finer than the values (the value comes back) and where it is coarser (the digits come back); between them is one power of ten, which is computed. |
| C138 | Invariant: an entry is started after those that were before it when both waited; with one worker `started` is `completed` followed by what is running. |
| C139 | After the flag is set, the number of tasks moved plus the number of threads that tend the schedule does not grow; in calm executions it is at most one. |
| C140 | As C130 without the condition that different names have different paths; the invariants of C23, C28, C31, C32, C81, C85, C108 and C131 need it only for different files. |
| C141 | Refinement both ways between the pool statement by statement (`Model/PoolSteps.lean`) and the pool whose sections are executed at once (`Model/Pool.lean`). Forward: while a thread is inside a section, a relation says what of the section has been done; what only sections read or write is `load`ed over a state that what happens outside can change (`out_load`, `out_prot`), and five kinds of relation (`Kind`) follow what both change: tables of workers, condition variables, the scheduler thread. Most sections take effect when the mutex is released, `run_at`, the end of a worker and the end of a scheduler earlier. Backward: a measure (`rank`) shows that every section ends, and running it without interruption gives the one outcome. |
| C142 | Refinement both ways between the logger statement by statement (`Model/LogSteps.lean`) and `Model/Logger.lean`. Forward: while a call is in lines 731-756 the coarse logger lags behind (`Lag`); while the logging thread prepares a file or writes an entry, `prepareRest`/`turnRest` say what the remaining statements give under each settings, and the values already read are a list of setters that is executed before the coarse step and undone after it (`with_settings`), each of them a value that was set; after the destructor has begun nobody sets anything and the coarse logger is ahead (`Ahead`). Backward: each coarse step is run without interruption (`run_converse`). |
| C143 | Invariant: the measured time is at most what has passed since the first call. `duration_cast` against a specification with inequalities; uniqueness of lowest terms and of division towards zero. |
| C144 | Simulation of the logger with links by the one without. Where a path leads depends only on the links outside the logger's names, which never change; rename moves what a name leads to, so that the view through the names changes as the files of the logger without links. |
| C145 | Invariant: the task that has called the destructor runs, and its worker is among those the loop has still to join. Work that is left as in C78, with the rounds of the loop. |
| C146 | All steps that are possible after the call, one by one; C28 for destructors that return. |
| C147 | The invariant that the ranges are well-formed and increase; the positions at which the searches end split the sequence (induction on the tree, of any shape). |
| C148, C149 | Sums and comparisons in the types of C++: congruence modulo a power of two, and that the common type has all values of both unless it is unsigned; induction on the elements. Both false in part. |
| C150 | The predicate is a call with a state that may throw; induction on the elements, for `filter` with the invariant of `std::remove_if` in place (kept, emptied, not yet seen). |
| C151, C152 | Invariant over all interleavings of calls, initialisations and changes of the environment; a variant for termination. Conversions modulo a power of two are injective on the values of a type that is not wider. |
| C153 | Rounding is monotone and has a relative error; three roundings compose. Unsigned arithmetic modulo 2^64 is exact where nothing wraps; negative times are the counterexamples. |
| C154 | The keys of the smaller cache are a sublist of those of the larger one, in order of use, if every use moves its key to the front; induction on the uses. For `insert`, which does not, a counterexample for any two capacities from 2 on. |
| C155 | For two characters, the units of the smaller one come first whatever follows (case distinction on lengths, quotients compared from the left); then induction on the texts, and trichotomy for the converse. In UTF-16 this fails exactly for a character from U+E000 to U+FFFF and one above. |
| C156 | From C09: in the linearization the cache is the table of first inserts, by induction on the calls (there is always room, as the keys in the cache and the new one are distinct keys of the list). |
| C157 | The log of a program is extended by each part; an invariant says which guards it can mention (existing ones only by `added`) and that each new one is proper; the order over all scopes by replaying the log on a stack. Counterexamples when a constructor or `add` throws. |
| C158 | A well-founded order on what is left of a call (structural on the program), lexicographically over the finitely many calls; with C76 every call returns. Endless readers starve a writer: an explicit execution, by induction on its length. |
| C159 | A potential: the sum of the ranks in the order of use of the keys that the other store does not have, plus a multiple of what that store has; by induction on the requests. |
| C160 | Induction on the decoding with the length of each encoding; validity by the round trips (C43) and the well-formed output (C44). |
| C161 | Simulation of two loggers with different limits in lockstep: the files with numbers up to the smaller limit and everything outside the file system are equal, step by step; the effect of a rotation is that of C27. |
| C162 | From C51-C54: a replacement joins the pieces of a split with another text, which can be read back if no piece contains its first character; for a single character it is a map on characters, for which the laws are proved by induction. |
| C163 | From C65: a slice is `take` after `drop` with clamped bounds; the laws of these, and induction on the number of pieces. |
| C164 | From C66, C67, C69 and C148 for permutations; in two sorted permutations, equal positions hold equivalent elements, by counting the smaller ones. |
| C165 | The values a call destroys are collected along its atomic steps; every call splits the pairs into those removed, added and left; the balance over all calls by induction. |
| C166 | Reading ignores the separators that writing inserts, by induction on the groups; the text is that of the "C" locale exactly if it has no separators; floating-point texts have one of three shapes. |
| C167 | The copies that exist are a permutation of those that somebody has: an invariant of all steps; a step adds a copy only of a writer that exists or is being set. |
| C168 | From the first and last positions that C63 gives; the first piece of `split` by the characterisation in C53. |
| C169 | What a thread has to do fits the stack of mutexes it owns: an invariant; the thread that waits for the mutex of greatest rank, or who owns that, can go on. A rank from the number of predecessors in the relation "locked while owned". |
| C170 | The maximal runs of two strings with a gap between them, of a string with gaps around it, of joined pieces and of a mapped string, each by induction on the runs; then C57, C58 and C59. |
| C171 | A pool without workers stays without: an invariant of all steps but `target_workers_size`; otherwise the target stays positive and C79 applies. |
| C172 | Accepted entries of a thread, then its call in progress, are its calls of sufficient level: an invariant, as long as nothing is discarded. |
| C134 | Invariants over steps of the logger and of others; progress by induction on the loops of `rotate_file` and on the batch. |
| C112 | Forward simulation between the logger with buffered streams and the logger of `Logger.lean`; the relation compares the bytes of files. |
| C87 | A copy is a consistent cache with stale iterators; bisimulation until one is used. |
| C88 | Every link of the list is a memory cell; invariant over all interleavings of cell accesses. |

## Findings

Where a property one would expect of the code does not hold, the model contains the counterexample.

LRU cache
* An exception from `push_front` in `move_to_front`, or from `emplace`, leaves list and index inconsistent: the capacity is
  exceeded, or a later call is undefined (C08).  If a comparison of keys throws while `capacity(n)` evicts entries, the
  cache stays above its new capacity for ever.
* `lru_cache` can be copied, but the index of the copy refers to the nodes of the source: any use of a copied key is
  undefined (C87).
* A larger cache can miss where a smaller one has a hit, if `insert` is called for keys that are present, as that is not a
  use (C154).

Thread pool
* `wait_until_all_tasks_complete` never returns if the worker target becomes 0 while a task runs (C16).
* A task scheduled while the scheduler waits for a later one may be started after later ones (C17).
* Two first calls of `run_at` at the same time, or a single one with a time in the past, can end the program: the scheduler
  thread removes itself before it is assigned.  Two schedulers can use a dangling iterator (C18).
* `complete_tasks` loses tasks if there are no workers or more workers than the target (C19).
* A task that throws ends the program; so does a scheduled task whose copy throws when it is due (C93).
* If as many tasks as there are workers are inside `run_sync`, none of the calls returns (C89).
* `wait_until_all_tasks_complete` called by a task never returns, and then the destructor does not either (C90).
* The destructor never returns if a task waits in `run_sync` for one that has not been started (`join_all`), or calls
  `run_sync` when the other workers have ended (`complete_tasks`) (C91).
* If `run_at` throws because the scheduler thread cannot be created, its task is executed after the next call; if
  `target_workers_size` throws, the target has changed, and tasks may wait although there is no worker; a constructor
  that cannot create all its threads ends the program (C93).
* The function object of a task is destroyed while the mutex is held: if the destructor of something that it holds uses
  the pool, the behaviour is undefined.  `run_sync` returns before its function object is destroyed (C94), and while the
  worker may still be inside `set_value` of the promise that `run_sync` destroys (C95).

Logger
* `writef` of an empty result logs the format string instead; a result of `INT_MAX` characters overflows (C27).
* The destructor can wait forever: the flag is set and notified between the logging thread's look at it and its wait (C29).
* Lowering `buffer_flush_size` while the logging thread holds the mutex can go unnoticed in the same way (C34).
* A writer that was replaced may be called once more after the setter has returned (C96).
* A writer that logs whenever it is called keeps the logging thread busy forever if the flush size is 1 (C97).
* If a log file cannot be opened, the logging thread tries again without pause (C84).
* A writer that throws loses its entry, or ends the program (C82, C86); a full disk loses entries (C82).
* If the rotation limit was lowered, a failed rotation overwrites the newest rotated file; a log file called `a_1.log` is
  overwritten by the rotation of `a.log` (C32).
* A stream in a failed state has position −1, which as an unsigned number exceeds the rotation size: the file is rotated. While the disk is full, one rotation follows another, and soon everything logged before is removed (C108). (With a real stream the failure shows when its buffer is emptied, so there is one rotation per buffer rather than per entry.)
* If a renaming fails during a rotation, the oldest file has been removed already (C108).
* A log directory removed while the logger runs is not created again.
* Entries of different threads are not in the order of their times (C80).
* The default writer prints negative microseconds for times before the epoch (C35).
* A `PLUTO_LOG_STREAM` statement whose operand throws logs the text before it (C100).
* A message of level `off` is logged although the level is `off` (C25).

Shared objects
* A task that logs while the program ends uses a destroyed logger if the shared pool was used before the shared logger; so does
  every destructor of a static object that was complete before the logger was used (C109).

Other
* The parts of a running stopwatch, read one after the other, need not fit together (C39).
* A negative time, after the clock was set back, is a wrong number of units as unsigned integers of 64 bits; and a negative
  `rollover` has no effect then (C153).
* A scope guard task that adds tasks to the guard being destroyed may keep it from ever ending (C36);
  `on_scope_fail`/`on_scope_success` take a scope entered during unwinding for a failed one (C37).
* The standard does not say in which order a `std::shared_mutex` is given to waiting threads: readers that overlap for ever
  keep a call of `get` or `insert` of a safe cache waiting for ever (C158). An implementation may prevent that.
* If the constructor of a guard or `add` throws because memory runs out, the task is not called: a resource acquired before
  is not released (C157). Adding the task first avoids that.
* `replace` and `replace_any_of` with the string itself as the replacement replace only once (C54, C107).
* `str_to` of an empty text or of white space returns an uninitialised value; `str_to` of an unsigned type reads "-1" as
  the largest value (C61).
* Asymmetric predicates are called with swapped arguments by some overloads (C64).
* `map` into a multimap can reverse the order of elements with the same key (C110).
* A program that is killed can leave a part of a line at the end of a file; the next logger continues that line (C112_torn_line).
* Loggers that write to the same file can tear each other's lines, write the header again, and when they rotate at the same time lose a file that should be kept (C121).
* A message with a line break is written as several lines, and can look exactly like other entries (C122).
* A task waits forever if tasks with a higher priority keep coming (C123).
* docs/thread_pool.md says that tasks of higher priority are always completed first: with two workers they are only started first (C138).
* docs/thread_pool.md says that `complete_tasks` completes all tasks: tasks whose time has not come are dropped, except at most one (C139).
* The logger keeps the pointers of `source_info`; the names must exist until the entry is written (C124).
* If memory runs out while a stream is destroyed, the program ends; `end()` may throw and the entry is logged nevertheless (C125).
* `copy` and `slice` of a `std::vector<std::any>` are wrong: `return { value };` makes a vector of one element, `return { startIt, stopIt };` one of two (C113).
* `run_after` waits by `std::chrono::system_clock`: a task starts at once if the clock is set forward by its duration; `run_after(duration::max(), …)` is an overflow (C115).
* `run_at` assigns to `m_scheduler` without the mutex: a data race already with a single call (C116). If two calls overlap, a scheduler can outlive the pool (C117).
* `abs(-0.0)` is `-0.0`; `min` and `max` return the first argument if there is a NaN; a container with a NaN and two different numbers cannot be sorted; `str_to` reads the text of an infinity as 0 (C126).
* `split` at and `replace` of an empty string, `split_any_of`, `replace_any_of`, `reverse` and `slice` work on units and can cut characters of UTF-8; so can `strip` in a locale in which the byte 0xA0 is a space (C127).
* UTF-16 sorts characters above U+FFFF before those from U+E000 on, so converting sorted valid strings to or from UTF-16 can leave them unsorted; strings with invalid units can become equal (C155).
* The default writer cuts names after twenty bytes, which can make a log file invalid UTF-8 (C128).
* `default_header_writer` leaves the stream adjusted to the left: a log writer that uses `std::setw` alone writes its first entries in a new file differently from later ones (C129).
* The initial rotation limit is 0, while docs/logger.md says 1: a logger that is given a rotation size only deletes its log each time it is rotated (C131).
* A larger rotation size may keep less of the log, as whole files are deleted: of nine lines of two bytes, size 6 and limit 1 keep six, size 8 and limit 1 five (C161). A larger limit always keeps more, unless a rotation fails: if nothing can be renamed to number 2, limit 1 keeps the newest six and limit 2 the oldest six of nine lines (`C161_fails_rotation`).
* `sum` depends on the order of the elements: for `int` and larger signed types one order may overflow and another not, and for floating-point types the results differ (C164).
* `safe_lru_cache` destroys values while it holds its mutex, also the one that `get` overwrites in the caller's variable. A value whose destructor uses the cache makes such a call undefined (C165).
* `str`, `str_to` and the default log lines depend on the global locale. After `std::locale::global` of an American locale `str(1000000)` is `1,000,000`, microseconds are `123,456` and the columns of a log do not line up; text written in one locale and read in another may give another value without an error: `1.5` is 15 in a German one (C166).
* `log_writer` and `header_writer` copy and destroy writers while they own the mutex for settings. A writer whose copy or destructor calls one of them makes the program undefined (C167).
* Threads can wait for each other for ever if destructors of tasks use a cache and destructors of its values the pool: both run while a mutex is owned (C169).
* A pool that is created without a number of workers has none if `hardware_concurrency()` is 0, as the standard allows: no task is started and `run_sync` never returns (C171).
* A more detailed log level can lose an important entry that a less detailed one keeps: unimportant entries fill the buffer (C172).
* A relative name of a log file is resolved when the logging thread first writes to it, not when an entry is logged: if the working directory changes in between, the log is in the new one (C133).
* Entries that one thread logs under different names of the same file (`a.log` and `./a.log`) can be in another order in the file than the calls: each name has a buffer of its own (C140).
* A log file that is a link to a name the logger uses itself can become a link to itself when it is rotated; rotation then fails for ever and entries are lost (C144).
* A task that destroys its own pool, or calls `std::exit` while it runs in `thread_pool::instance()`, ends the program with `std::terminate`: the destructor joins the thread it runs in (C145). A log writer that calls `std::exit` does the same, and all entries that are not written yet are lost (C146).
* Time stamps are in local time without the offset from UTC: when summer time ends, entries logged later have smaller or the
  same time stamps (C135).
* A directory that the logger has created is never created again: if somebody removes it, the logging thread tries to open the file for ever and nothing is written any more, although `create_dirs` is on (C134).
* docs/logger.md lists a column for the process id, which the default writers do not write, and describes the default of PLUTO_LOGGER_SOURCE_INFO_ARGS the wrong way round (no property: the model follows the code).
* `lru_cache` with floating-point keys: once NaN is the first key stored, every other key is taken to be equal to it (C114 needs `<` to be a strict weak order, `C114_nan`).
* `map(c, c, f)` is undefined for vectors and strings and never returns for lists (C111).
* `min` and `max` of an empty container are undefined (C66); `sum` can overflow (C67); so can `abs` of the most negative
  value (C72).
* `round` and `pow` convert integers to `double`: `round(2^53 + 1)` is `2^53` (C101).
* `str` of an `int8_t` or `uint8_t` is a character and not a number, and `str_to` reads one digit of "65" (C102).
* `str_to<std::string>` cuts a string at white space; `str_to<char>(str(' '))` is indeterminate; `str_to<bool>("true")`
  is false (C102).
* `str` keeps six digits of a floating-point number: 1234567 and 1234568 have the same text (C103).
* A `double` with the text `1e-318` can be read back as one with the text `9.99999e-319`; no other text of a `float` or `double` changes in this way (C137).
* The comparators `is_iequal`, ... keep a reference to a facet: they dangle once the locale is gone, and with
  `PLUTO_LOCALE_NO_STATIC` from the start (C104).
* Without an argument the functions that take a locale throw unless "en_US.UTF-8" is installed, and always for strings of
  `char8_t`, `char16_t` and `char32_t` (C105).
* `starts_with(s, "he")`, `ends_with(s, "lo")` and `equals(s, "hello")` are false for every string `s` without a null
  character: a literal is taken as an array with its terminator (C106).
* `wstr("é")` widens two bytes although `wstr` of a string decodes UTF-8, if `string.hpp` is included (C106).  Before C++20
  `str(L"é")` is then the text of an address (by reading; not modelled).
* `sum` adds in the type of the initial value: `sum(container, 0)` of any number of `double`s between -1 and 1 is 0, and a partial sum that overflows is undefined even if the total does not, for `int` and wider types (C148).
* The comparison objects, `count` and `contains_elem` compare numbers of different types as C++ does: `is_less{}(-1, 1u)` is false, and -1 is found in a container with the largest `unsigned int` (C149).
* `rfind`, `rfind_if` and `rfind_if_not` of iterators decrement the result of `base()`, a temporary, so they do not compile for pointers (by reading; not modelled).
* If the predicate of `filter` throws, the container keeps its size and contains elements that have been moved from (C150).
* A `std::set` ordered by `is_less_no_overlap` takes the same range twice if there are ranges that end before they begin (C147_malformed).
* `overlaps` and the ordering of ranges are not complementary for empty or malformed ranges (C71).
