# Formal model of fzi_icl_core in Lean 4

## Technique and trusted base

* Proof assistant: Lean 4.33.0 (kernel), Mathlib lemmas only (no Mathlib axioms
  beyond Lean's three standard ones: `propext`, `Classical.choice`, `Quot.sound`).
* No axioms are added, no compiled evaluation (`native_decide`/`bv_decide`) is used.
* Trusted besides the kernel: the hand translation from C++ to Lean. Every model
  definition carries a comment with the file and lines it models and any simplification.
* The C++ code is not compiled here; the standard library, Boost, pthreads, Win32,
  TinyXML, SQLite and the clock are represented by their documented behaviour:
  either as parameters (universally quantified) or as small primitive steps.

Modelling conventions

* A C++ exception or undefined behaviour is a distinct outcome of the model
  (`Except`, `Option`, or a constructor `ub`), never silently totalised.
* Machine integers: `BitVec`/`UInt` where wrap-around matters; `Int`/`Nat` with an
  explicit "representable" hypothesis where the property is about exact arithmetic.
* Loops become structural recursion, or well-founded recursion with the
  termination proof (then termination is itself part of the claim).
* Concurrency: labelled transition systems, one label = one atomic action
  (semaphore wait/post, atomic exchange, mutex lock ...). Memory is sequentially
  consistent; C++ data races are not modelled beyond interleaving.
* Where the code violates the expected property there is a theorem
  `..._violated`/`..._counterexample` with a concrete witness, and a `_partial`
  theorem with the exact extra hypothesis.

Layout: `lean/Verif/<Area>/Model.lean` (translation), `Spec.lean` (independent
specification), `Lemmas.lean` (auxiliary), `Props.lean` (the property theorems with
non-vacuity examples).

## Plan per property

| Id | Modelled | Proof idea |
|----|----------|-----------|
| C01-C05 | `RingBuffer.h/.hpp` complete: buffer vector + two indices, exceptions as `Except` | refinement to a bounded list queue; abstraction function `toList`; invariants on indices; induction over histories |
| C06-C08 | `TimeBase.cpp`, `TimeSpan`, `TimeStamp` arithmetic on `Int` with int64/int32 range predicates | total nanoseconds as the specification; well-founded loop |
| C09 | `formatIso8601BasicUTC`, `fromIso8601BasicUTC`, `gmtime_r` specified by the civil calendar | year/month loops inverted by induction; calendar spec |
| C10 | `operator<<(TimeSpan)` | exact characterisation + counterexamples (strict comparison, `us` branch) |
| C11-C12 | `UnionFind.h` | forest invariant with rank; equivalence closure refinement; rank bound |
| C13-C14 | `SequenceNumber.h` | modular arithmetic; counterexamples at distance max/2 |
| C15-C17 | `StringHelper` on `List Char`, `find`/`erase`/`substr` modelled | induction on remaining string |
| C18-C20 | `SetHelper.h`, `EnumHelper.cpp`, `BitfieldHelper.h` | induction on merge walk; table search; bitwise extensionality |
| C21-C26 | `Array2D.h`, `KeyValueDirectory.hpp`, `ZBuffer.h`, `SearchableStack.h`, `Finalizable.h`, `AtScopeEnd.h` | refinement to maps/lists, induction on histories |
| C27 | `Singleton.hpp` double checked locking as LTS | inductive invariant |
| C28-C30 | `Sha2*.h(pp)`: buffering layer and unrolled compression function | compression function equals FIPS recursion (message schedule in a 16-word circular buffer); buffering refines concatenation |
| C31 | `SchemeParser.cpp` greedy parser combinators | parser/unparser lemmas; stale-field counterexamples |
| C32-C36 | `AttributeTree.cpp` as inductive trees, NULL vs. empty kept apart | tree induction |
| C37 | `FilePath` | list lemmas |
| C38-C39 | `GetoptParser.cpp`, regexes replaced by explicit splitters | induction on argument list |
| C40-C42 | `ConfigManager.cpp`, `Config.h`, `Util.h` | map algebra |
| C43-C50 | `icl_core_logging` filters, buffers, pool, worker thread, format parser | invariants of LTS, induction |
| C51-C55 | `SpinLock.h`, `RWLockImplWin32.cpp`, scoped locks | LTS invariants, counterexample traces |
| C56-C57 | `ActiveObject.cpp`, `PeriodicDispatchThread.cpp` | LTS invariants |
| C58-C60 | `PerformanceMonitor.cpp`, `PluginManager.h`, `Common.h` | history induction |

Not modelled (cannot be expressed without the platform): LXRT/QNX/Darwin back ends (except C83, C84, C86, C88),
SQLite/zlib/UDP I/O, dlopen itself, regular-expression engine (only the fixed
expressions used by Getopt are modelled, user queries are arbitrary predicates),
thread priorities and real time (except timeouts and cycles: C64, C83, C84, C87), `double` rounding (left open as a function in C89).

## Properties added while the model grew

| Id | Modelled | Proof idea |
|----|----------|-----------|
| C61-C63 | `Thread.cpp`/`Thread.h` with `ThreadImplPosix.cpp`: one control thread, the OS threads it creates, `m_thread_mutex`; `cancel()` as an asynchronous death | inductive invariant for histories without `cancel()`; concrete schedules for the violations |
| C64 | `PeriodicThreadImplEmulate.cpp` over arbitrary clock readings | loop characterised by induction |
| C65 | `ThreadStream::operator<<` for numbers: `sprintf` text into `local_buffer[100]`, then `write` with the full text length | arithmetic on lengths; printf `%f` length bound; concrete double over 1e93 |
| C66 | `LoggingManager::setLogLevel` in the filter model (`Logging/Filter.lean`) | induction on histories; counterexample for the default output |
| C67 | `Config.h` `get<T>`/`set<T>` for integers: `hexical_cast` through C++11 `std::istream` conversion, `convert.h` | printing and reading inverted by induction on digits; witnesses for accepted non-numbers |
| C68 | `ConfigHelper`/`ConfigValue*`/`ConfigParameter` batch reading (`Config.h`, `ConfigValues.h`) | induction on the batch |
| C69 | `formatIso8601BasicUTC` (as in C09) | digit strings compared; calendar dates strictly increasing day by day |
| C70 | `FileLogOutput.cpp` with `os_fs.cpp`: directory as a function from names to files, program runs as histories | invariant over histories (order of all lines; lines per day); concrete witnesses for the violations |
| C71 | `UdpLogOutput.cpp` `pushImpl`/`escape`, `UdpLoggingServer.cpp`; specification: reader of SQL value lists | forward simulation of the reader over the record; forged record constructed for the violation |
| C72 | `ConfigList.h` `get` with `MemberValue.h`/`MemberEnum.h`; the prefix as a regular expression of ordinary characters and dots | loop invariant over the processed keys; witnesses for the violations |
| C73 | `LoggingManager.cpp` `initialize`/`configure` with the registrations and the streams' output sets | reading loop invariant (map of entries = entries by their meaning), post-condition of `configure`, invariant over histories; pigeonhole for the quick debug name |
| C74 | same model; levels of streams, outputs and the default output | same invariants |
| C75 | same model with deleted streams; use of one is the outcome `none` | invariant for histories without shutdown; for histories with it, proof that the use always fails |
| C76 | the setters and `flush` of `ThreadStream.cpp`, `LogMessage` of `LogOutputStream.cpp`; char arrays with arbitrary old contents, reading past an array is `none` | lemmas about strncpy; exact characterisation by the lengths |
| C77 | `SQLiteLogDb.cpp` over the file system (`rename` replaces), with both readings of the clock | invariants over histories of starts, writes and stops |
| C78 | `newSubNodeDescription` with `sscanf("%i")` and the heap buffer as its size, `addNewSubTree` | loop invariant for the backward scan and for the name search, decimal-digit lemmas |
| C79 | Heap of `AttributeTree` and `SubTreeList` objects with parent, next and sub pointers (Config/Heap/Model.lean); a forest of descriptions and ordered subtrees as specification (Spec.lean). | Representation invariant (each list chain lists the subtrees, parent pointers agree, no sharing, a rank decreases) preserved by every call; the mutual destructors by induction over the rank |
| C80 | `search`, `setComment`/`comment`/`hasComment`, `appendString` on the trees of ATModel; results of `search` are positions. | Mutual induction over the tree against 'first match in preorder'; case analysis on the list of subtrees for comments |
| C81 | `ConfigEnum::get`, `ConfigEnumDefault::get`, the constructor and `get` of `MemberEnum` on top of the models of C19 and C67. | From C19 by cases on the configured text |
| C82 | ScopedTimer members, print/stop/destructor as streamed pieces into the C44 buffer model, clock readings and filter result as arguments | induction over the call history against a filter-style specification of the reports that are due; composed with C07, C08, C44, C65 |
| C83 | the Windows functions and the LXRT branches as functions from the request to the argument of the sleep primitive, the result and the stored remainder | exact results for all requests from C06/C07; the violations are corollaries |
| C84 | the conversions of timeouts into the operating systems' arguments, whose documented meaning is the contract; the Darwin polling loops over an arbitrary list of attempts | exact value for every timeout from C07/C08/C60; induction over the attempts |
| C85 | recursive mutex of the operating system with owner, count and the Windows 'abandoned' mark; library results as the code computes them | invariant over histories |
| C86 | counter semaphore with its limit, creation with the conversions of the initial value | counting invariant over histories |
| C87 | Conc/PeriodicTimerfd.lean: object + table of timer descriptors of the process (kernel contract of timerfd assumed) | exact wake-up times by induction over the cycles; emulation by induction over the cycles; descriptor leak by induction over the threads |
| C88 | Os/KernelModule.lean: istream::getline with its three stop conditions, the scan loop | scan = search in the lines up to the first over-long one, by functional induction |
| C89 | Time/Scale.lean: the two operators over rationals with an arbitrary rounding function, conversions to int64/int32 undefined out of range | bounds of truncation; C06 |
| C90 | Time/Scale.lean: fromPtime | exact condition by divisibility (the low 32 bits of the total nanoseconds are added to the seconds) |
| C91 | the three formatters on the day-by-day calendar of C09, time zone = arbitrary offset function | calendar lemmas of C09/C69, order of fixed-width decimal texts |
| C92 | printHelp as a text, registrations with help texts | sorted map holds first registrations (Holds), filter/flatMap, relation to longParam of C38 |
| C93 | paramOpt<T>, paramOptDefault<T>, paramNonOpt<T>, get<String>, getDefault on top of the Getopt model | composition of c38_classifies with c67_decimal and c42_get_bool |
| C94 | RWLockImplPosix on top of the documented pthread_rwlock behaviour, result code conversions as written, histories with results | invariant (no readers with a writer) and simulation of the result-based account |
| C95 | printSummaryAll over the enabled prefixes, print's level mapping | induction over the list of prefixes on top of c58_report_partial |
| C96 | `FileLogOutput::expandFilename` over an arbitrary `wordexp` that splits plain strings at blanks and rejects bad characters as documented | case split on blanks; the full property is violated: everything after the first blank is cut (`c96_cut_at_blank`), the exact condition is `c96_kept_iff` |
| C97 | `AttributeTree::get` (return value) against a scanner over lines that knows nothing of trees | induction over the lines with the nesting depth as invariant, fuel independence; violated: the reported number is one too large for every text (`c97_off_by_one`), and everything behind a surplus closing brace is ignored with success (`c97_rest_ignored`) |
| C98 | `AttributeTree::load`, `save` over the content of one file | from C97, C34 and C35; violated: a failed load is not undone (`c98_failed_load_changes`), load into a new root tree uses the missing subtree list (`c98_load_into_new_tree`) |
| C99 | numbers as exact rationals, `%.*g` with exact rounding, rendering to characters, and an independent reader of decimal texts | rational arithmetic (half an ulp < half a decimal unit if 10^P <= 2^(p-1)), induction over digit lists; violated: 15 digits do not identify a double (`c99_not_read_back`) |
| C100 | os::snprintf/stpcpy on POSIX (C99 vsnprintf) and Windows (_vsnprintf), their use in Thread::runThread and in the streaming operators; arrays with arbitrary old contents | list lemmas; exact result for every text length |
| C101 | Conc/Realtime: World (availability, LXRT task flag, mode per thread), all mode functions with the calling thread and RTAI's answer as arguments | frame lemmas per function; induction over histories; exact results by cases |
| C102 | Conc/MutexLxrt: RTAI semaphore (binary/counting) with numeric result codes, the code's conversion to bool, the checked mutex of 3.5 with null pointer | invariant count = 1 and nobody holds, or count = 0 and exactly one holds, by induction over disciplined histories |
| C103 | The start handshake of Thread.cpp with ThreadImplLxrt38.cpp as a transition system (control thread + created thread, RTAI answers nondeterministic) \| invariant over all executions; variant function for the first start; the violations (start never returns after rt_task_init fails, an object can be started only once, restart hangs or fails) are proved for all continuations |
| C104 | LXRT: release times of RTAI and the waitPeriod loop with a clock read at every call; QNX: interval timer queueing pulses in the object's channel \| induction over the cycles against separate specifications of the wake-up times; termination by a decreasing distance to the clock; violations (period 0 freezes LXRT, setPeriod has no effect on LXRT, bursts and stale pulses on QNX, unreported failures) proved |
| C105 | The conversions as functions on records with the widths of the IDL types \| wrap-around arithmetic by omega, normalisation by C06; exact characterisation of the values that survive DDS |
| C106 | RTAI's read/write lock (writer with depth, number of readers) and the library's mapping of results, for three versions of RTAI | invariant: the state agrees with what the tasks were told, with one ghost list entry for each read lock; exact result of each request |
| C107 | Transition system of Worker.lean with the real ring array of FixedQueue.lean | simulation by a list of bounded length, invariants of C46/C47 carried over, accounting invariant for dropped messages |
| C108 | AttributeTree::get (existing model), spec of the text without comments in ATCommentSpec.lean | induction over the lines; the rest of the parse is independent of line numbers and of the bound on lines |
| C109 | composition of the models of C43, C44, C49, C50 and C76 (`Logging/Line/*`): log macro, thread stream, flush, push, LogMessage, pushImpl | forward simulation with a configuration-only specification (`Line/Spec.lean`) that computes the lines directly from the calls |
| C110 | constructor and destructor of ScopedSemaphore over the semaphore model of C86, any number of threads with nested scopes | invariant: value + protected open scopes = initial value; induction over schedules |
| C111 | TestListener as a fold over CppUnit's events for a tree of tests, runCppunitTestSuite | mutual induction over the tree |
| C112 | operator << for Eigen matrices as its sequence of write calls on the line buffer of C44 | columns joined by ' ; ' (c112_layout), injectivity by splitting at blanks and semicolons (c112_determines), first 2046 characters by induction over the writes (c112_record) |
| C113 | Config/ATInclude.lean: `get`/`load` recursive over a world of files, include name resolution | spec: `Expands` relation on lines, `depthAfter`; induction on `Expands`: a balanced block acts as one function on the node at the position, so reading it in a nested `get` or in place is the same; cycles by strong induction on fuel |
| C114 | load/readXml with inclusions (Config/CfgModel.lean), relation FileEntries/DocEntries as the specification | mutual induction on the relation; entries folded in document order |
| C115 | imaxdiv over mathematical integers with UB cases (Util/ImaxdivModel.lean), parametric in the rounding of / and % | uniqueness of truncated division |
| C116 | changeLogFormat and pushImpl as a transition system with a semaphore, entries appended one by one (Logging/FormatChange.lean) | invariants on lock, phase of the running change and the begun lines; specification on the list of events |
| C117 | Plugin/Search.lean around Plugin/Model.lean: paths, directory trees as an inductive type, dlerror texts, messages | mutual structural induction on the tree; simulation of the call history by the model of C59 |
| C118 | own model of tRingBuffer.h (RingBuffer/OldModel), programs over several objects with copies, assignments and stores through At | equality with the new class function by function, then simulation by independent queues |
| C119 | Util/Stamped*: headers and stamped objects as program variables, indeterminate members as none, print as text | backward trace of every field through the program, induction over the program; cutting the text at separators |
| C120 | Logging/UdpLife*: constructor loop, destructor and pushImpl over an arbitrary kernel and name service; server with restarts; the network may drop, repeat and reorder | refinement to outputs without sockets (Rel), induction over histories; C71 for the rows |
| C121 | ring buffer calls with a failing element copy at any point (RingBuffer/FailModel) | refinement of a queue with losses for all histories without failures in the loop of setCapacity; general counterexamples for the rest |
| C122 | Startup/Model.lean: the three singletons put together: declarations, config::initialize, LoggingManager::initialize; the models of C38–C41 and C73–C75 are reused | the theorems of the parts (c38, c40, c73, c74) composed through the lists of declarations; what the parser has stored when it stops is a separate scan (left), related to the specification of items by induction |
| C123 | Race/Model: threads as lists of acquire/release/read/write events, interleaved by any schedule; happens-before and data race as in C++11 1.10 are the specification. Logging/Shared/Model: for each API function the possible event lists | a variable only accessed between acquire and release of one binary semaphore is ordered (invariant: at most one holder); each function's list obeys the discipline |
| C124 | as C123 | lock order stream < queue, direct < format; a stuck state would need a thread waiting for a higher mutex held by another stuck thread, ranks are bounded |
| C125 | Race/Objects: event lists of ActiveObject::run, queue, stop and PeriodicDispatchThread | discipline as in C123, for the clients only or for writes only |
| C126 | Conc/RWLock (the model of C53) | analysis of stuck states with the invariant of C53; a measure of the actions left in each call; a relay of two readers that returns to the same situation for the starvation |
| C127 | LTS composed of the thread-stream pool (C45) and the output workers (C46), joined by the loop of flush over the connected outputs (Logging/Pipe) | invariant: statements of a thread = messages in the output's queue history + the statement in progress; projections keep the invariants of C45/C46 |
| C128 | the same LTS (Logging/Pipe/Order) | invariant: each output's history of a stream = what all outputs have got + at most the message being pushed |
| C129 | the same LTS, all interleavings (Logging/Pipe/Live) | explicit bound of the remaining steps of a thread; the holder of each mutex can always step; induction on the total remaining work |
| C130 | LTS of flush/addOutputStream/removeOutputStream with the stream mutex, live ascending set, optional interrupted waits | invariant: holder in critical section, set = history replay, pushed-so-far = connected outputs up to the iterator |
| C131 | worker LTS of C46 with failing waits; counters lockFails/lostPush/finFails as functions of the schedule | token-counting invariant with n lost tokens, accounting invariant, shutdown invariant guarded by finFails |
| C132 | pool LTS of C45 with failing waits (interrupted sem_wait) | ownership invariant with leaked (thread, level) pairs, counting by sub-permutation, accounting permutation; explicit families of schedules reach the bound |
| C133 | LTS of C56, with interrupted waits | weighted-sum variant over clients, worker, queue and tokens; deadlock freedom from the C56 and stop invariants; leak invariant after the worker's end |
| C134 | the file log output of C70 with the program dying at any point of the constructor or pushImpl (Logging/File/Crash.lean) | invariant over histories: archives and log file are intact, or one stray archive of the day of the log file exists which the restart writes again; opening the file may fail at any time; with deletion of old files: simulation by the same history without deletion (File/CrashDelete.lean) |
| C135 | the SQLite log of C77 with failing operations and crash points (Logging/SqliteCrash.lean) | invariant over histories, exact description of the stored rows |
| C136 | File/Buffer.lean: the model of C70/C134 with the buffer of the ofstream; any part of the pending bytes may reach the file at any write | invariant good_all by induction over the history: disk text + buffer is Kept, buffer is a suffix of unsynced; durable_aux for what stays; with deletion of old files: simulation by the same history without deletion (File/BufferDelete.lean) |
| C137 | construction and destruction order of static objects with the function-local static logging manager among them, on top of the manager model of C73-C75 | split of the construction order at the first use of the manager, c75_exact for the calls before its destruction |
| C138 | the reader of C35/C97/C113 and the configuration manager of C40, composed; loadNew reads the undefined look-up in a new tree as compiled code does | each line is a setAttribute call on the path of open blocks (updAt_setC), induction over the lines; keys are injective on slash-free paths |
| C139 | The Thread transition system of C61-C63 with a trace of accesses and synchronising calls (Conc/ThreadHB); happens-before of C123 | invariants over traces: what each thread and each synchronisation object knows; closed sets for the races |
| C140 | Config/ATEverySpec (lines, ending, outcome), ATEvery; model: get of ATModel unchanged | the loop is run through the complete lines whatever stands behind (Advance, by induction), then the three kinds of ends; fuel made irrelevant by monotonicity |
| C141 | ATLoad.saveOnDisk (save with room characters), ATCrash | a prefix of the text is some complete lines and a part of one; C140; the changes of a prefix of the lines are a prefix of the changes |
| C142 | Config/Observe: a machine with a stack of running library functions and callbacks; every event of the user may happen whenever a callback or the main program runs | invariants over all executions: a pending call for every outdated observer; calls made + calls pending = calls owed |
| C143 | Conc/Registry: calls as programs of single reads and writes of the variables of PluginManager and PerformanceMonitor; threads interleave access by access (races as in Conc/Race) | the programs refine the sequential models of C58, C59; calls that only read keep every schedule free of writes; witness schedules for the rest |
| C144 | the calls of ConfigManager as programs of accesses to m_items, m_observers and m_initialized (Conc/Registry/Config.lean) | footprints known beforehand (Foot.lean): threads that do not write what others access do what they would do alone; conversely the two whole threads run one after the other have unordered conflicting accesses |
| C145 | the branches of FileLogOutput with m_online_zip (Logging/File/Online.lean); gzopen as zlib.h documents it | invariant: all files are old ones, the handle is NULL; simulation by the model of C70 for a mode that gzopen takes |
| C146 | os_fs.cpp zipFile as a loop over the pieces read, with an environment that says which calls fail (Os/ZipFile.lean) | induction over the remaining bytes |
| C147 | the thread object with the scheduling of its system thread; pthread_getschedparam and pthread_setschedparam as documented (Conc/Priority.lean) | induction over the history; two runs that differ in the priority of the constructor |
| C148 | the accesses of each call of Getopt to the members of the object; threads and schedules as in C143 and C144; insert and push_back count as writes | c148_as_alone ties the calls to the models of C32 and of the help text; no race and answers by an invariant of the schedule; a race by running the two threads in turn |
| C149 | toLower, toUpper, get<bool> on bytes; tolower and toupper of C in the locale C, with the conversion from a signed or an unsigned char, undefined outside -1..255 | all 256 bytes by the kernel, strings by induction |
| C150 | KeyValueDirectory::insert where the allocation of the entry or the assignment of the value throws | c150_history by induction on the history from its end; exact condition for no effect; the violation as a theorem |

## Conventions added while the model grew

* Call budgets. Where the C++ recursion or loop need not end (includes, environment
  substitution, destructor loops) the model takes a number `k` of rounds; `none` means "not
  finished within `k`". Termination is then a theorem (`∃ k, ... ≠ none`), results are shown
  to be independent of a sufficient `k`, and non-termination is `∀ k, ... = none`.
* Calling a member function through `NULL` (`AttributeTree::subTree`) is `ub`.
* Regular-expression engines are functions `rx` left open (universally quantified); only
  the fixed expressions in `GetoptParser.cpp` are expanded by hand.
* TinyXML is external: the document tree it returns is an input (`Config/Xml*`).
* `hexical_cast` uses `std::istream >>` with C++11 semantics (a failed conversion stores
  0/limits).
* The Gregorian calendar specification counts days one by one from 1970-01-01; `gmtime_r`
  is assumed to implement it.
* `memoryBarrier()` in `SingletonThreadingModels.h` is only a compiler barrier; the model
  assumes sequential consistency, so C27 does not cover weak memory models.
* Performance samples are exact rationals, not `double`s.
* Plugins: the file system and dynamic linker are inputs (`Plugin.Env`).
