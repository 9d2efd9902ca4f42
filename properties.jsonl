{"id": "C01", "title": "RingBuffer is a bounded FIFO queue", "statement": "Starting from a fresh RingBuffer of any capacity n, after any sequence of write/read/skip()/skip(k)/clear/fakeWrite-free calls, the observable contents (size(), empty(), full(), at(i), front(), values returned by read(), and which calls throw std::out_of_range) are exactly those of a FIFO queue of bounded length n.", "quantifier": "every element type, every capacity n (including 0), every finite sequence of operations with arbitrary arguments", "why_tests_cant": "wrap-around of the two indices depends on the whole history; only an inductive invariant covers all histories and capacities", "anchors": ["src/icl_core/src/icl_core/RingBuffer.h: RingBuffer::write/read/skip/at/size/empty/full/clear", "src/icl_core/src/icl_core/RingBuffer.hpp: RingBuffer::skip(size_type)"]}
{"id": "C02", "title": "RingBuffer overwrite discards exactly the oldest element, non-overwrite never loses data", "statement": "On a full buffer of capacity >= 1, write(v, true) removes exactly the oldest element and appends v; write(v,false) throws std::out_of_range and leaves every observable unchanged.", "quantifier": "every reachable buffer state with capacity >= 1, every value", "why_tests_cant": "must hold at each of the n+1 rotations of the indices and for all n", "anchors": ["src/icl_core/src/icl_core/RingBuffer.h: RingBuffer::write"]}
{"id": "C03", "title": "RingBuffer::setCapacity keeps the newest elements in order", "statement": "setCapacity(m) leaves exactly the newest min(m,size) elements, in the same order, with capacity() == m.", "quantifier": "every reachable buffer state and every new capacity m", "why_tests_cant": "depends on all combinations of wrap position, fill level and new capacity", "anchors": ["src/icl_core/src/icl_core/RingBuffer.h: RingBuffer::setCapacity"]}
{"id": "C04", "title": "RingBuffer bulk-access regions are exact", "statement": "arrayOne()/arrayTwo() with their sizes, concatenated, are the contents in order; emptyArrayOne/emptyArrayTwo designate exactly the writeable slots (disjoint from the contents, total size reserve()), so that storing k <= reserve() values there and calling fakeWrite(k) is the same as k write() calls; skip(k) equals min(k,size) single skips.", "quantifier": "every reachable state, every k, every data written", "why_tests_cant": "boundary cases of four pointer regions over all rotations", "anchors": ["src/icl_core/src/icl_core/RingBuffer.hpp: arrayOne/arrayTwo/emptyArrayOne/emptyArrayTwo/skip/fakeWrite"]}
{"id": "C05", "title": "RingBuffer iterators traverse the contents", "statement": "begin()+i dereferences to at(i) for i < size(); end()-begin() == size(); ++ and -- are inverse; stepping from begin() reaches end() after exactly size() steps visiting the contents in order.", "quantifier": "every reachable state, all offsets within range", "why_tests_cant": "iterator positions wrap independently of the element count", "anchors": ["src/icl_core/src/icl_core/RingBuffer.h: RingBuffer::iterator, begin, end"]}
{"id": "C06", "title": "Time values normalise to a unique representation of the same duration", "statement": "For every pair of seconds and nanoseconds whose duration is representable, normalizeTime() terminates without overflow, keeps the duration secs*10^9+nsecs, and leaves |nsecs| < 10^9 with secs and nsecs never of opposite sign; two normalised values are equal exactly if their durations are.", "quantifier": "every int64 seconds and int32 nanoseconds value whose normalised form is representable", "why_tests_cant": "infinite (2^96) input space; loop termination", "anchors": ["src/icl_core/src/icl_core/TimeBase.cpp: TimeBase::normalizeTime"]}
{"id": "C07", "title": "Time arithmetic and comparison agree with exact nanosecond arithmetic", "statement": "For normalised spans/stamps, +, -, +=, -= compute the exact sum/difference of nanosecond totals, and ==,!=,<,<=,>,>= decide the order of the nanosecond totals; (t+d)-d==t and (a-b)+b==a.", "quantifier": "all normalised values whose results are representable", "why_tests_cant": "unbounded value space, algebraic laws", "anchors": ["src/icl_core/src/icl_core/TimeBase.cpp: operators", "src/icl_core/src/icl_core/TimeSpan.h: operators", "src/icl_core/src/icl_core/TimeStamp.h: operators"]}
{"id": "C08", "title": "Time unit conversions are exact truncations", "statement": "fromSec/fromMSec/fromUSec and toMSec/toUSec/toNSec agree with integer arithmetic on total nanoseconds and are mutually inverse (toMSec(fromMSec(x))==x), days/hours/minutes/seconds/milliSeconds/microSeconds/nanoSeconds recompose to the original value.", "quantifier": "all int64 inputs whose result is representable", "why_tests_cant": "unbounded value space", "anchors": ["src/icl_core/src/icl_core/TimeSpan.cpp: fromSec/fromMSec/fromUSec/toMSec/toUSec/toNSec", "src/icl_core/src/icl_core/TimeBase.h: days..nanoSeconds"]}
{"id": "C09", "title": "ISO-8601 basic UTC formatting and parsing round-trip", "statement": "TimeStamp::fromIso8601BasicUTC(t.formatIso8601BasicUTC()) == t for every normalised time stamp from 1970-01-01 to 9999-12-31, and the printed calendar date is the proleptic Gregorian date of t.", "quantifier": "every second and nanosecond between 1970 and 9999, including all leap-year boundaries", "why_tests_cant": "calendar arithmetic over 2.9e5 million seconds x 10^9 nanoseconds", "anchors": ["src/icl_core/src/icl_core/TimeStamp.cpp: fromIso8601BasicUTC, formatIso8601BasicUTC"]}
{"id": "C10", "title": "Printed TimeSpan identifies its value in the printed unit", "statement": "operator<< prints a span in the largest fitting unit with the correct number of that unit.", "quantifier": "every span", "why_tests_cant": "unit boundaries and all values", "anchors": ["src/icl_core/src/icl_core/TimeSpan.cpp: operator<<", "src/icl_core/src/icl_core_logging/Logging.cpp: operator<< (ThreadStream, TimeSpan), the same code"]}
{"id": "C11", "title": "UnionFind computes exactly the equivalence closure of the merges", "statement": "After any sequence of grow/merge/find calls, find(x)==find(y) iff x and y are connected by the merged pairs; out-of-range arguments throw std::out_of_range and change nothing.", "quantifier": "every number of elements and every finite sequence of merge/find/grow operations", "why_tests_cant": "path compression and union by rank make internal state history-dependent", "anchors": ["src/icl_core/src/icl_core/UnionFind.h: UnionFind::merge/find/grow/size"]}
{"id": "C12", "title": "UnionFind find terminates within logarithmic depth", "statement": "find() terminates in every reachable state; the parent chain has length at most log2(size()); find is idempotent and never changes the partition.", "quantifier": "every reachable state", "why_tests_cant": "termination of recursion over a mutable parent vector", "anchors": ["src/icl_core/src/icl_core/UnionFind.h: UnionFind::find"]}
{"id": "C13", "title": "SequenceNumber increments run through the whole cycle", "statement": "Starting from the initial value, k increments yield the k-th successor modulo the cycle [min,max) and the value never leaves that range.", "quantifier": "all template parameters with min<=initial<max, all k", "why_tests_cant": "unbounded number of steps and parameters", "anchors": ["src/icl_core/src/icl_core/SequenceNumber.h: operator++"]}
{"id": "C14", "title": "SequenceNumber comparison is a circular order", "statement": "For min=0: a<b iff b is ahead of a by less than half of max; exactly one of a<b, a==b, b<a holds, and comparisons stay correct across wrap-around: after k increments (0<k<max/2) the new number is greater than the old.", "quantifier": "all a,b in range, all max", "why_tests_cant": "wrap-around at every position for every template instance", "anchors": ["src/icl_core/src/icl_core/SequenceNumber.h: operator<,<=,>,>=,=="]}
{"id": "C15", "title": "split and join", "statement": "Every element of split(d,s) is free of d, and concatenating them with d gives back s up to a single trailing delimiter; join(d, split(d,s))==s.", "quantifier": "all strings s and all non-empty delimiters d", "why_tests_cant": "infinite string space, overlapping delimiters", "anchors": ["src/icl_core/src/icl_core/StringHelper.cpp: split, join"]}
{"id": "C16", "title": "trim removes exactly the surrounding whitespace", "statement": "trim(s) is the unique substring obtained by deleting the maximal whitespace prefix and suffix; it is idempotent and never reads out of bounds.", "quantifier": "all strings", "why_tests_cant": "infinite string space", "anchors": ["src/icl_core/src/icl_core/StringHelper.cpp: trim"]}
{"id": "C17", "title": "padLeft/padRight produce the requested width", "statement": "padLeft/padRight return a string of length max(len,width) that has the input as suffix/prefix and otherwise consists of the fill character.", "quantifier": "all strings, widths and fill characters", "why_tests_cant": "infinite input space", "anchors": ["src/icl_core/src/icl_core/StringHelper.h: padLeft, padRight"]}
{"id": "C18", "title": "setRelation classifies the relation of two sets", "statement": "setRelation(a,b) returns equal/subset/superset/intersecting/disjoint exactly according to the mathematical relation of the two sets.", "quantifier": "all finite ordered sets over any ordered element type", "why_tests_cant": "all pairs of sets", "anchors": ["src/icl_core/src/icl_core/SetHelper.h: setRelation"]}
{"id": "C19", "title": "string2Enum finds the description index", "statement": "string2Enum succeeds iff the string is in the description list (before the end marker), and then returns an index whose description equals the string; failure leaves the output unchanged.", "quantifier": "all strings and description tables", "why_tests_cant": "all tables", "anchors": ["src/icl_core/src/icl_core/EnumHelper.cpp: string2Enum"]}
{"id": "C20", "title": "Bitfield helpers touch exactly the selected bits", "statement": "setBits/clearBits/isBitSet set/clear/test exactly the bits of the mask and leave all others unchanged.", "quantifier": "all field widths, values and masks", "why_tests_cant": "2^(2w) combinations for each width", "anchors": ["src/icl_core/src/icl_core/BitfieldHelper.h: setBits, clearBits, isBitSet"]}
{"id": "C21", "title": "Array2D addresses cells without aliasing", "statement": "Distinct (col,row) pairs in range address distinct cells, at() after set() returns the written value and all other cells keep theirs; index1D and indexTo2D are inverse; a resize keeps the value of every cell that exists before and after.", "quantifier": "all widths, heights, cells and values", "why_tests_cant": "all dimensions", "anchors": ["src/icl_core/src/icl_core/Array2D.h: at, set, index1D, indexTo2D, resize"]}
{"id": "C22", "title": "KeyValueDirectory is a map with ordered filtered iteration", "statement": "get returns the last inserted value, insert reports whether the key was new, and an iterator created by find(query) yields each matching key exactly once in ascending key order.", "quantifier": "all histories of inserts, all queries (matching predicate arbitrary)", "why_tests_cant": "all histories", "anchors": ["src/icl_core/src/icl_core/KeyValueDirectory.hpp: get, insert, hasKey, KeyValueDirectoryIterator::next"]}
{"id": "C23", "title": "ZBuffer keeps the nearest value per cell", "statement": "After any sequence of update calls each cell holds the smallest z offered together with the pixel first offered at that z.", "quantifier": "all histories of updates", "why_tests_cant": "order independence over all histories", "anchors": ["src/icl_core/src/icl_core/ZBuffer.h: update"]}
{"id": "C24", "title": "SearchableStack find returns the depth of the first match from the bottom", "statement": "Pushing and popping behave as a stack; find reports an element exactly if it is present, and then the position of the first equal element counted from the bottom.", "quantifier": "all histories", "why_tests_cant": "all histories", "anchors": ["src/icl_core/src/icl_core/SearchableStack.h", "src/icl_core/src/icl_core/tSearchableStack.h"]}
{"id": "C25", "title": "A finalised value never changes", "statement": "After finalize(), every assignment throws std::logic_error and the stored value is unchanged for ever; before, reads return the last assigned value.", "quantifier": "all histories of assignments", "why_tests_cant": "all histories", "anchors": ["src/icl_core/src/icl_core/Finalizable.h"]}
{"id": "C26", "title": "AtScopeEnd runs its function exactly once iff enabled", "statement": "The callback runs at destruction exactly once iff the object is enabled at that moment.", "quantifier": "all histories of enable/disable", "why_tests_cant": "all histories", "anchors": ["src/icl_core/src/icl_core/AtScopeEnd.h"]}
{"id": "C27", "title": "Singleton: at most one live instance under every interleaving", "statement": "With the mutex threading policy, concurrent instance() calls create exactly one object and all return that object, in every schedule.", "quantifier": "all numbers of threads, all interleavings of instance()", "why_tests_cant": "races appear only in particular schedules", "anchors": ["src/icl_core/src/icl_core/Singleton.hpp: Singleton::instance, destroySingleton"]}
{"id": "C28", "title": "SHA-224/SHA-256 compute the FIPS 180-4 digest", "statement": "For every byte message shorter than 2^61 bytes fed through any process() calls followed by finalize(), getHexDigest() is the FIPS 180-4 SHA-224/SHA-256 digest.", "quantifier": "all messages, all ways of cutting them into process() calls", "why_tests_cant": "infinite message space; unrolled rounds with rotated variables", "anchors": ["src/icl_core/src/icl_core_crypt/Sha2Impl.hpp: Sha2Impl<uint32_t>::processBuffer", "src/icl_core/src/icl_core_crypt/Sha2.hpp: process, finalize, finalizeBuffer"]}
{"id": "C29", "title": "SHA-384/SHA-512 compute the FIPS 180-4 digest", "statement": "For every byte message shorter than 2^61 bytes, any chunking, the digest is the FIPS 180-4 SHA-384/SHA-512 digest.", "quantifier": "all messages, all chunkings", "why_tests_cant": "infinite message space", "anchors": ["src/icl_core/src/icl_core_crypt/Sha2Impl.hpp: Sha2Impl<uint64_t>::processBuffer", "src/icl_core/src/icl_core_crypt/Sha2.hpp"]}
{"id": "C30", "title": "Hash objects can be reused", "statement": "After clear() an object behaves like a fresh one whatever was processed before; the digest does not depend on the chunking, nor on whether the C-string or the pointer+size overload was used.", "quantifier": "all histories before clear(), all chunkings", "why_tests_cant": "all histories", "anchors": ["src/icl_core/src/icl_core_crypt/Sha2.hpp: process, clear"]}
{"id": "C31", "title": "Scheme URI parsing", "statement": "parseScheme accepts exactly the documented grammar, and on success the parts re-assemble to the input; result does not depend on previous contents of the output object.", "quantifier": "all input strings", "why_tests_cant": "infinite input space, greedy parsing", "anchors": ["src/icl_core/src/icl_core/SchemeParser.cpp"]}
{"id": "C32", "title": "AttributeTree: get after set", "statement": "After setAttribute(path,value), getAttribute(path) returns value, for every dotted path of non-empty components.", "quantifier": "all trees, paths, values", "why_tests_cant": "all tree shapes", "anchors": ["src/icl_core/src/icl_core_config/AttributeTree.cpp: setAttribute, getAttribute"]}
{"id": "C33", "title": "AttributeTree: setting one path does not affect others", "statement": "setAttribute(p,v) leaves getAttribute(q) unchanged for every q != p.", "quantifier": "all trees, all pairs of distinct paths", "why_tests_cant": "all tree shapes", "anchors": ["src/icl_core/src/icl_core_config/AttributeTree.cpp: setAttribute, getAttribute"]}
{"id": "C34", "title": "AttributeTree change tracking", "statement": "changed() is true iff some attribute in the tree was given a different value since the last unmarkChanges().", "quantifier": "all histories", "why_tests_cant": "all histories", "anchors": ["src/icl_core/src/icl_core_config/AttributeTree.cpp: changed, unmarkChanges, setAttribute"]}
{"id": "C35", "title": "AttributeTree print/parse round trip", "statement": "Reading back what printSubTree wrote yields a tree with the same attribute for every path.", "quantifier": "all trees with printable descriptions/attributes", "why_tests_cant": "all tree shapes and texts", "anchors": ["src/icl_core/src/icl_core_config/AttributeTree.cpp: printSubTree, get"]}
{"id": "C36", "title": "Copying an AttributeTree preserves every attribute", "statement": "A deep copy answers every getAttribute exactly like the original.", "quantifier": "all trees", "why_tests_cant": "all tree shapes", "anchors": ["src/icl_core/src/icl_core_config/AttributeTree.cpp: AttributeTree copy constructors"]}
{"id": "C37", "title": "FilePath splits and normalises paths", "statement": "path() followed by name() is the absolute name, and name() contains no separator; extension() is the end of name() from its last dot; normalizePath() terminates, resolves '.' and '..', keeps absolute paths absolute and is idempotent; the absolute name of a relative file name is meant relative to the working directory; replaceEnvironment() terminates and substitutes every ${NAME}.", "quantifier": "all path strings, working directories and environments", "why_tests_cant": "infinite string space", "anchors": ["src/icl_core/src/icl_core_config/AttributeTree.cpp: FilePath"]}
{"id": "C38", "title": "Getopt classifies every command line argument exactly once", "statement": "initialize() assigns each argument to exactly one of: long option, short option (plus its value), extra parameter, positional parameter or non-option, in order; paramOpt returns the last value given; unknown options make strict initialisation fail.", "quantifier": "all command lines and all sets of registered parameters", "why_tests_cant": "combinatorial argument orders", "anchors": ["src/icl_core/src/icl_core_config/GetoptParser.cpp: Getopt::initialize"]}
{"id": "C39", "title": "Getopt cleanup leaves exactly the unconsumed arguments", "statement": "With eCLC_Cleanup, argv afterwards consists of the program name and exactly the non-option arguments in order.", "quantifier": "all command lines", "why_tests_cant": "combinatorial argument orders", "anchors": ["src/icl_core/src/icl_core_config/GetoptParser.cpp: Getopt::initialize"]}
{"id": "C40", "title": "Configuration precedence", "statement": "After initialize(), the value of a key is: the last -o/--config-option value if given, else the command-line parameter value, else the file's value, else the default.", "quantifier": "all parameter registrations, files and command lines", "why_tests_cant": "all combinations of sources", "anchors": ["src/icl_core/src/icl_core_config/ConfigManager.cpp: ConfigManager::initialize"]}
{"id": "C41", "title": "Config observers see every change they subscribed to", "statement": "setValue notifies exactly the observers registered for that key or for all keys, and none after unregistering.", "quantifier": "all histories of register/unregister/setValue", "why_tests_cant": "all histories", "anchors": ["src/icl_core/src/icl_core_config/ConfigManager.cpp: notify, registerObserver, unregisterObserver"]}
{"id": "C42", "title": "Boolean configuration values are read consistently", "statement": "get<bool> accepts exactly 0/no/false/1/yes/true in any capitalisation, failing (without touching the output) otherwise.", "quantifier": "all strings", "why_tests_cant": "infinite string space", "anchors": ["src/icl_core/src/icl_core_config/Config.h: get<bool>", "src/icl_core/src/icl_core_config/Util.h: strict_bool_cast, bool_cast"]}
{"id": "C43", "title": "Log messages are delivered iff they pass both level filters", "statement": "A message of level l on an active stream of level s reaches an attached output of level o iff s <= l and o <= l; a deactivated stream delivers nothing; mute delivers nothing below mute.", "quantifier": "all configurations of streams, outputs and levels", "why_tests_cant": "all configurations", "anchors": ["src/icl_core/src/icl_core_logging/LoggingMacros_SLOGGING.h", "src/icl_core/src/icl_core_logging/ThreadStream.cpp: flush", "src/icl_core/src/icl_core_logging/LogOutputStream.cpp: push"]}
{"id": "C44", "title": "Log line buffer never overflows and truncates correctly", "statement": "Any sequence of writes keeps the write index inside the buffer, the emitted text is the concatenation of the written pieces cut to the documented maximum, and endl always still fits a newline.", "quantifier": "all sequences of writes of any length", "why_tests_cant": "unbounded sequences", "anchors": ["src/icl_core/src/icl_core_logging/ThreadStream.cpp: write, printf, flush"]}
{"id": "C45", "title": "Thread streams are never shared between threads", "statement": "Between threadStream(level) and its flush, no other (thread, level) pair is handed the same ThreadStream, under every interleaving.", "quantifier": "all interleavings of any number of threads", "why_tests_cant": "schedule-dependent", "anchors": ["src/icl_core/src/icl_core_logging/LogStream.cpp: threadStream, releaseThreadStream"]}
{"id": "C46", "title": "Log messages are output exactly once in order, none lost at shutdown", "statement": "Every message pushed before shutdown is written by the worker exactly once and in push order, under every interleaving of producers and worker; after join no message remains.", "quantifier": "all schedules, any number of producers/messages", "why_tests_cant": "schedule-dependent", "anchors": ["src/icl_core/src/icl_core_logging/LogOutputStream.cpp: push, WorkerThread::run, shutdown"]}
{"id": "C47", "title": "No lost wake-ups in the log worker", "statement": "If the worker is blocked waiting and no producer is in the middle of push(), then the queue is empty.", "quantifier": "all schedules", "why_tests_cant": "schedule-dependent", "anchors": ["src/icl_core/src/icl_core_logging/LogOutputStream.cpp: push, WorkerThread::run"]}
{"id": "C48", "title": "Fixed-size log queue is a bounded FIFO that drops only when full", "statement": "The fixed-size message queue of size n behaves as a FIFO of capacity n-1 that silently drops a message only when full and never overwrites a queued one.", "quantifier": "all n >= 1 and all histories", "why_tests_cant": "all histories", "anchors": ["src/icl_core/src/icl_core_logging/LogOutputStream.cpp: WorkerThread::incrementIndex, isMessageQueueFull, isMessageQueueEmpty"]}
{"id": "C49", "title": "Log format strings are parsed faithfully", "statement": "parseLogFormat terminates, stays inside the format string, and renders every literal text and field in the order of the format string.", "quantifier": "all format strings", "why_tests_cant": "infinite string space", "anchors": ["src/icl_core/src/icl_core_logging/LogOutputStream.cpp: parseLogFormat, pushImpl"]}
{"id": "C50", "title": "Log levels and their names correspond", "statement": "stringToLogLevel(logLevelDescription(l)) == l; stringToLogLevel succeeds only for the six names and otherwise leaves its output unchanged.", "quantifier": "all strings", "why_tests_cant": "infinite string space", "anchors": ["src/icl_core/src/icl_core_logging/LogLevel.cpp"]}
{"id": "C51", "title": "SpinLock provides mutual exclusion", "statement": "With lock()/unlock() used in pairs, at most one thread is inside the critical section, in every interleaving; a released lock can be taken.", "quantifier": "all thread counts, all interleavings", "why_tests_cant": "schedule-dependent", "anchors": ["src/icl_core/src/icl_core_thread/SpinLock.h: lock, unlock"]}
{"id": "C52", "title": "SpinLock::tryLock reports whether the lock was taken", "statement": "tryLock() returns true iff the calling thread now holds the lock.", "quantifier": "all lock states and interleavings", "why_tests_cant": "schedule-dependent", "anchors": ["src/icl_core/src/icl_core_thread/SpinLock.h: tryLock"]}
{"id": "C53", "title": "RWLock (Win32 implementation) excludes writers from readers and other writers", "statement": "No interleaving lets a writer hold the lock together with a reader or another writer.", "quantifier": "all thread counts, all interleavings including timeouts", "why_tests_cant": "schedule-dependent", "anchors": ["src/icl_core/src/icl_core_thread/RWLockImplWin32.cpp"]}
{"id": "C54", "title": "A failed timed writeLock leaves the RWLock usable (Win32 implementation)", "statement": "If writeLock(timeout) returns false, then after all holders unlock, another thread can acquire the lock.", "quantifier": "all schedules", "why_tests_cant": "schedule-dependent", "anchors": ["src/icl_core/src/icl_core_thread/RWLockImplWin32.cpp: writeLock"]}
{"id": "C55", "title": "Scoped locks balance", "statement": "A scoped lock unlocks at destruction iff it acquired the lock, and with force=true it always holds the lock after construction.", "quantifier": "all outcomes of the underlying lock calls", "why_tests_cant": "all failure patterns", "anchors": ["src/icl_core/src/icl_core_thread/ScopedMutexLock.cpp", "src/icl_core/src/icl_core_thread/ScopedRWLock.cpp"]}
{"id": "C56", "title": "ActiveObject runs queued operations once, in order", "statement": "Operations queued while the object is running are invoked at most once each, in queue order, and every queued operation is eventually invoked or deleted, never both dropped and invoked, never deleted twice.", "quantifier": "all schedules of producers, worker and stop()", "why_tests_cant": "schedule-dependent", "anchors": ["src/icl_core/src/icl_core_thread/ActiveObject.cpp"]}
{"id": "C57", "title": "PeriodicDispatchThread executes all operations each cycle in insertion order", "statement": "Each cycle executes every added operation exactly once in insertion order; after stop() is seen, no further cycle begins.", "quantifier": "all operation lists, all stop points", "why_tests_cant": "all stop points", "anchors": ["src/icl_core/src/icl_core_dispatch/PeriodicDispatchThread.cpp: run"]}
{"id": "C58", "title": "PerformanceMonitor statistics are correct", "statement": "min/max/median/average of a timer are those of exactly the recorded samples for that prefix and name, and disabled prefixes record nothing.", "quantifier": "all histories of events and enable/disable calls", "why_tests_cant": "all histories", "anchors": ["src/icl_core/src/icl_core_performance_monitor/PerformanceMonitor.cpp"]}
{"id": "C59", "title": "PluginManager lookups do not create plugins", "statement": "availablePlugins()/plugins() list only plugins found on disk or added statically; looking up an unknown identifier has no effect; destruction terminates and closes each handle once.", "quantifier": "all histories of lookups", "why_tests_cant": "all histories", "anchors": ["src/icl_core/src/icl_core_plugin/PluginManager.h"]}
{"id": "C60", "title": "Relative and absolute timeouts convert consistently", "statement": "getAbsoluteTimeout(d) is now+d for d>=0, getRelativeTimeout(t) is max(0,t-now), and the round trip never lengthens a timeout.", "quantifier": "all times", "why_tests_cant": "unbounded values", "anchors": ["src/icl_core/src/icl_core_thread/Common.h: getRelativeTimeout, getAbsoluteTimeout"]}
{"id": "C61", "title": "Thread: join waits for run(), stop() is never lost, run() is exclusive", "statement": "After join() returns (no cancel() used) run() is not executing; after stop() returns execute() stays false until the next start(); run() is never executed twice at the same time.", "quantifier": "all histories of start/stop/join/wait/destruction and all interleavings with the created threads", "why_tests_cant": "the interesting schedules are races between the starting/finishing thread and the caller", "anchors": ["icl_core_thread/Thread.cpp: start, join, runThread, cancel", "icl_core_thread/Thread.h: stop"]}
{"id": "C62", "title": "Thread::wait() returns true after run() has finished", "statement": "wait() without timeout returns only after run() has returned, and always returns true.", "quantifier": "all histories and interleavings", "why_tests_cant": "the violating window is two instructions wide", "anchors": ["icl_core_thread/Thread.cpp: wait, runThread"]}
{"id": "C63", "title": "A destroyed Thread object is no longer used by its thread", "statement": "After the destructor returns, no thread touches the object, and the OS thread has been joined.", "quantifier": "all histories and interleavings", "why_tests_cant": "needs the thread to be descheduled between its last two statements", "anchors": ["icl_core_thread/Thread.cpp: ~Thread, runThread, join"]}
{"id": "C64", "title": "Emulated periodic thread sleeps at most one period per request", "statement": "waitPeriod() sleeps until the next execution time, never asks to sleep longer than one period when the clock was set back between cycles, does not sleep if the time has passed, and returns once the time is reached.", "quantifier": "all periods, all sequences of clock readings", "why_tests_cant": "all clock behaviours", "anchors": ["icl_core_thread/PeriodicThreadImplEmulate.cpp: waitPeriod"]}
{"id": "C65", "title": "Streaming a number prints exactly its decimal text", "statement": "Streaming an integer into a log message appends its complete decimal representation; streaming a floating point number appends its printf text, and never reads memory outside the conversion buffer.", "quantifier": "all integers of every supported width, all doubles (by the length of their printf text), all fill levels of the buffer", "why_tests_cant": "all values, including those whose text is as long as the buffer", "anchors": ["icl_core_logging/ThreadStream.cpp: operator<<"]}
{"id": "C66", "title": "LoggingManager::setLogLevel applies to every stream and output", "statement": "After setLogLevel(l) every log stream and every output stream known to the manager, including the default output, has level l.", "quantifier": "all histories of calls, all sets of streams and outputs", "why_tests_cant": "all histories", "anchors": ["icl_core_logging/LoggingManager.cpp: setLogLevel"]}
{"id": "C67", "title": "Integers survive the configuration", "statement": "An integer written with setValue is read back unchanged by get<T>; decimal, 0x-hexadecimal and 0-octal texts of every value in range are read as that value, and values that are not numbers are reported as failures.", "quantifier": "all keys, histories, signed integer types and values of the type; all texts", "why_tests_cant": "all values of the types and all strings", "anchors": ["src/icl_core/src/icl_core_config/Util.h: hexical_cast", "src/icl_core/src/icl_core_config/Config.h: get<T>, paramOpt", "src/icl_core/src/icl_core_config/ConfigManager.h: setValue"]}
{"id": "C68", "title": "Batch reading is all-or-reported", "statement": "A batch get reads every variable of the batch from its key below the prefix (default value if it has one), leaves the others untouched, and returns true exactly if every variable got a value.", "quantifier": "all batches, prefixes and configurations", "why_tests_cant": "all combinations of present, missing, unreadable and default values", "anchors": ["src/icl_core/src/icl_core_config/Config.h: get(config_prefix, config_values), get(config_values)", "src/icl_core/src/icl_core_config/ConfigValue.h", "src/icl_core/src/icl_core_config/ConfigValueDefault.h"]}
{"id": "C69", "title": "Printed UTC time stamps sort chronologically", "statement": "For any two normalised time stamps from 1970 to 9999, formatIso8601BasicUTC() of the earlier one is the lexicographically smaller string, and equal strings mean equal time stamps.", "quantifier": "all pairs of time stamps in the range", "why_tests_cant": "pairs across every month, year and leap-day boundary", "anchors": ["src/icl_core/src/icl_core/TimeStamp.cpp: formatIso8601BasicUTC, strfTime"]}
{"id": "C70", "title": "Rotating log files lose nothing and hold one day each", "statement": "Over any number of program runs and days, reading the archived files of a FileLogOutput by date and then the log file gives all logged lines in order; each archived file holds the lines of its day; only files older than DeleteOlderThan days that belong to this log are removed.", "quantifier": "all histories of program starts, log lines and stops at any times", "why_tests_cant": "depends on every sequence of midnight crossings, restarts and failures", "anchors": ["src/icl_core/src/icl_core_logging/FileLogOutput.cpp: FileLogOutput, pushImpl, openLogFile, rotateLogFile", "src/icl_core/src/icl_core/os_fs.cpp: zipFile"]}
{"id": "C71", "title": "UDP log records arrive as one row with exactly the logged fields", "statement": "For every log message sent by a UDP log output, the UDP logging server adds exactly one row to its table, and the row holds exactly the message's system name, time, level, stream, file, line, class, object, function and text.", "quantifier": "all log messages with arbitrary texts", "why_tests_cant": "must hold for every text, including texts that look like SQL", "anchors": ["src/icl_core/src/icl_core_logging/UdpLogOutput.cpp:pushImpl", "src/icl_core/src/icl_core_logging/UdpLogOutput.cpp:escape", "src/icl_core/src/uls/UdpLoggingServer.cpp:processPendingDatagrams"]}
{"id": "C72", "title": "Configuration lists hold exactly the configured elements", "statement": "Reading a configuration list at a prefix writes one object for each distinct element name below the prefix for which a member is configured, in ascending order of the names, with every configured member converted from its own key and all other members at their defaults; it fails, and writes nothing, iff a configured member cannot be converted or there is no element.", "quantifier": "all configurations, prefixes, member lists and earlier calls", "why_tests_cant": "depends on every set of keys, names and values", "anchors": ["src/icl_core/src/icl_core_config/ConfigList.h:ConfigList::get", "src/icl_core/src/icl_core_config/MemberValue.h", "src/icl_core/src/icl_core_config/MemberEnum.h"]}
{"id": "C73", "title": "Log streams write to exactly the configured outputs", "statement": "After LoggingManager::initialize() the registered log streams exist, a log output exists for each configured entry whose class is registered, and a stream writes to an output (once) iff the output's entry lists the stream or lists no stream; the streams write to the standard output iff no output is configured or --log-level is given; the --quick-debug output gets a name no other output has.", "quantifier": "all configurations, command lines and histories of registrations, calls of initialize, setLogLevel and uses of streams", "why_tests_cant": "depends on every configuration and on the order of registration and (repeated) initialization", "anchors": ["src/icl_core/src/icl_core_logging/LoggingManager.cpp: initialize, configure", "src/icl_core/src/icl_core_logging/LogStream.cpp: addOutputStream, removeOutputStream"]}
{"id": "C74", "title": "Log levels come from the command line, else from the configuration, else are Info", "statement": "With a legal --log-level every stream and output has this level after initialize(); otherwise a stream or output has the level of its configuration entry, and Info if none is configured; setLogLevel sets the level of all streams and configured outputs.", "quantifier": "all configurations, command lines and histories without shutdown", "why_tests_cant": "depends on every configuration and call order", "anchors": ["src/icl_core/src/icl_core_logging/LoggingManager.cpp: initialize, configure, setLogLevel", "src/icl_core/src/icl_core_logging/LoggingManager.h: LogOutputStreamConfig, LogStreamConfig"]}
{"id": "C75", "title": "No log stream or output is used after it has been deleted", "statement": "In every history of registrations, initializations, level changes, stream uses and shutdowns, each access goes to living objects, each output a stream writes to exists, and a registered stream can be used at any time (its first use initializes the logging).", "quantifier": "all histories of the public calls", "why_tests_cant": "must hold for every order of calls, in particular use after shutdown", "anchors": ["src/icl_core/src/icl_core_logging/Logging.h: REGISTER_LOG_STREAM", "src/icl_core/src/icl_core_logging/LoggingManager.cpp: shutdown, initialize"]}
{"id": "C76", "title": "Every log record carries the names of its own log statement", "statement": "The record that a log output gets for a log statement carries exactly the level, log stream, file, line, class, object and function of this statement (names cut off at the documented maximum length), whatever was logged before with the same thread stream.", "quantifier": "all names of any length, all earlier messages, all contents of uninitialised memory", "why_tests_cant": "depends on the history of a reused thread stream, on the lengths and on memory contents", "anchors": ["src/icl_core/src/icl_core_logging/ThreadStream.cpp: setClassname, setFilename, setObjectname, setFunction, setLine, flush", "src/icl_core/src/icl_core_logging/LogOutputStream.cpp: push, LogMessage", "src/icl_core/src/icl_core_logging/LoggingMacros_SLOGGING.h: SLOGGING_LOG_FLCO"]}
{"id": "C77", "title": "The rotated SQLite log loses no rows and holds one day per file", "statement": "Over any number of program runs and days, the archived databases of an SQLite log, ordered by date, followed by the current database, hold all rows written, once and in order; each archive holds the rows of the day in its name.", "quantifier": "all histories of program starts, log lines and stops at any times", "why_tests_cant": "depends on every sequence of midnight crossings, restarts and clock readings", "anchors": ["src/icl_core/src/icl_core_logging/SQLiteLogDb.cpp: writeLogLine, openDatabase, closeDatabase", "src/icl_core/src/icl_core_logging/SQLiteLogOutput.cpp"]}
{"id": "C78", "title": "Generated subtree names are unused", "statement": "AttributeTree::newSubNodeDescription(base) returns the base description with its trailing number replaced by the next larger number (or with 1, 2, ... appended if it has none) that no subtree of the node has, so that addNewSubTree() and addSubTree() never produce two siblings of the same name, and it does so without leaving its buffer.", "quantifier": "all base descriptions and all sets of existing subtree names", "why_tests_cant": "The names, the numbers at their ends and the number of siblings are unbounded; tests use a handful of names with small numbers.", "anchors": ["icl_core_config/AttributeTree.cpp:newSubNodeDescription", "icl_core_config/AttributeTree.cpp:addNewSubTree", "icl_core_config/AttributeTree.cpp:addSubTree"]}
{"id": "C79", "title": "The pointer structure of attribute trees stays a forest", "statement": "Starting from nothing, after any sequence of AttributeTree constructions, addSubTree, addNextTree, unlink, unlinkSub, delete and setDescription calls in which live objects are used, a tree is added only where there already are subtrees, and only if it has a description, is not a subtree of anything and does not contain the target: every call returns without touching a deleted object; the trees form a forest (no sharing, no cycle, no duplicate entry); delete removes exactly the tree and everything below it and takes it out of its parent; firstSubTree/nextSubTree visit the subtrees once and in order; parentTree, root and getSubTree agree with it; and without unlinkSub no list entry is leaked.", "quantifier": "all sequences of calls, of any length, on any number of trees of any depth and width", "why_tests_cant": "Dangling parent pointers, double deletes and leaks show only for particular histories of linking, unlinking and deleting; the number of histories and shapes is unbounded.", "anchors": ["icl_core_config/AttributeTree.cpp:AttributeTree::~AttributeTree", "icl_core_config/AttributeTree.cpp:SubTreeList::unlink", "icl_core_config/AttributeTree.cpp:AttributeTree::unlink", "icl_core_config/AttributeTree.cpp:AttributeTree::unlinkSub", "icl_core_config/AttributeTree.cpp:addSubTree", "icl_core_config/AttributeTree.h:addNextTree, firstSubTree, nextSubTree, root"]}
{"id": "C80", "title": "Searching and commenting attribute trees", "statement": "AttributeTree::search(description, attribute) returns the first node, reading the tree from top to bottom, that has this description and, if one is given, this attribute, and NULL exactly if there is none. comment() returns what setComment() set last, setComment(NULL) removes the comment, and neither changes anything but the comment; a tree whose comment was removed can still be printed. Appending to an attribute piece by piece joins the pieces with the separator.", "quantifier": "all trees of any depth and width, all descriptions, attributes and comments", "why_tests_cant": "Search order depends on the shape of the whole tree; trees are unbounded. Comment nodes are ordinary subtrees, so their effects depend on everything else in the tree.", "anchors": ["icl_core_config/AttributeTree.cpp:AttributeTree::search", "icl_core_config/AttributeTree.cpp:SubTreeList::search", "icl_core_config/AttributeTree.cpp:setComment, comment, commentAttributeTree, isMultilineComment", "icl_core_config/AttributeTree.cpp:appendString"]}
{"id": "C81", "title": "Enumerations in the configuration", "statement": "Reading an enumeration from the configuration (CONFIG_ENUM, CONFIG_ENUM_DEFAULT, MEMBER_ENUM) succeeds exactly if the configured text is one of the given names; the variable then is the index of that name and otherwise keeps its value (or gets the default). No uninitialised value and nothing behind the terminator of the names is used, and both mechanisms agree.", "quantifier": "all configurations, keys, arrays of names with either kind of terminator, and previous values", "why_tests_cant": "The configuration and the names are arbitrary; tests try a few names of one enumeration.", "anchors": ["icl_core_config/ConfigEnum.h:get", "icl_core_config/ConfigEnumDefault.h:get", "icl_core_config/MemberEnum.h", "icl_core/EnumHelper.cpp:string2Enum"]}
{"id": "C82", "title": "Scoped timers report their final time exactly once", "statement": "A ScopedTimer writes, for every print() one line \"<description>: <n> ns\" (\"<description> (<extra>): <n> ns\" for print(extra)), and exactly one further such line at the first of stop() and the end of its scope; n is the number of nanoseconds between construction and that moment. Disabled log levels suppress lines but change nothing else.", "quantifier": "every description, every start time, every sequence of print/print(extra)/stop calls at any clock readings (within 292 years of the start), with the level enabled or disabled at each of them", "why_tests_cant": "A test measures a few scopes; which of the destructor and any number of stop() calls reports must hold for every call history, and the number for every pair of clock readings including those that carry between seconds and nanoseconds.", "anchors": ["icl_core_logging/ScopedTimer.h: ScopedTimer::print, stop, ~ScopedTimer", "icl_core/TimeSpan.cpp: toNSec", "icl_core_logging/ThreadStream.cpp: write"]}
{"id": "C83", "title": "The sleep functions sleep as long as requested and say so", "statement": "icl_core::os::sleep, usleep and nanosleep make the calling thread sleep for the requested time (the Windows version within one millisecond), and their result tells whether they did: 0 after the whole time, otherwise the remaining time, so that the usual retry loop ends.", "quantifier": "every requested duration, for the Windows implementation and the RTAI/LXRT implementation", "why_tests_cant": "A test sleeps for a few short durations; whether the conversion to the operating system's unit is exact and the reported remainder correct must hold for every duration, including those of days.", "anchors": ["icl_core/os_win32_time.cpp: nanosleep, sleep, usleep", "icl_core/os_posix_time.cpp: nanosleep, sleep, usleep (LXRT branches)", "icl_core/TimeStamp.h: TimeStamp()"]}
{"id": "C84", "title": "Timed waiting gives up at its deadline", "statement": "lock(timeout), readLock/writeLock(timeout) and Semaphore::wait(timeout) give up at the given absolute time, or the given relative time after the call (within the resolution of the platform's timer), on every platform; they neither wait longer nor return early without the lock.", "quantifier": "every absolute and relative timeout (negative and arbitrarily long ones included), every clock reading, for the Windows, POSIX and Darwin implementations; for the polling loops every sequence of attempts", "why_tests_cant": "Tests use short timeouts; truncations and wrap-arounds in the conversions appear only for values a test would have to wait weeks for.", "anchors": ["icl_core_thread/MutexImplWin32.cpp: lock", "icl_core_thread/MutexImplPosix.cpp: lock", "icl_core_thread/SemaphoreImplWin32.cpp, SemaphoreImplPosix.cpp, SemaphoreImplDarwin.cpp: wait", "icl_core_thread/RWLockImplPosix.cpp: readLock, writeLock", "icl_core_thread/Common.h: getRelativeTimeout, getAbsoluteTimeout", "icl_core/TimeBase.cpp: timespec, machTimespec"]}
{"id": "C85", "title": "Mutex results tell who holds the mutex", "statement": "Mutex::lock(), lock(timeout) and tryLock() return true exactly if the calling thread holds the mutex once more afterwards; at most one thread holds it at a time; it may be locked repeatedly by its holder and is free after as many unlock() calls; only lock() blocks, and only while another thread holds it.", "quantifier": "every history of lock/tryLock/unlock calls and thread ends of any number of threads, for the POSIX and Windows implementations", "why_tests_cant": "Mutual exclusion and agreement of results with ownership must hold for every interleaving of any number of threads, including threads that end while holding the mutex.", "anchors": ["icl_core_thread/MutexImplPosix.cpp", "icl_core_thread/MutexImplWin32.cpp", "icl_core_thread/Mutex.cpp"]}
{"id": "C86", "title": "Semaphores count", "statement": "A semaphore created with value n lets exactly as many waits succeed as n plus the number of post() calls: successful waits never exceed that number, and a wait fails or blocks only when all of them have been used.", "quantifier": "every initial value and every history of post, tryWait, wait and timed wait calls, for the POSIX and Windows implementations", "why_tests_cant": "Counting has to be right for every history and every size_t initial value; tests use small numbers.", "anchors": ["icl_core_thread/SemaphoreImplPosix.cpp", "icl_core_thread/SemaphoreImplWin32.cpp", "icl_core_logging/SemaphoreImplPosix.cpp", "icl_core_logging/SemaphoreImplWin32.cpp"]}
{"id": "C87", "title": "The cycles of a periodic thread start at multiples of the period", "statement": "After makePeriodic(), the n-th waitPeriod() returns no earlier than n periods later; if the work of each cycle fits into the period it returns n periods later plus only the scheduling delay of this cycle, so that delays do not add up. setPeriod() reports whether the new period is in force. Destroyed threads leave no resources behind.", "quantifier": "every period, every sequence of work times and scheduling delays, every number of cycles, every number of threads created and destroyed", "why_tests_cant": "A test observes a few cycles of one period; the absence of drift is a statement about all sequences of delays, and the exhaustion of descriptors appears only after as many threads as the process' limit.", "anchors": ["icl_core_thread/PeriodicThreadImplTimerfd.cpp: makePeriodic, setPeriod, waitPeriod, destructor", "icl_core_thread/PeriodicThreadImplEmulate.cpp: waitPeriod", "icl_core_thread/PeriodicThread.cpp: waitPeriod"]}
{"id": "C88", "title": "Detection of loaded kernel modules", "statement": "checkKernelModule(name) answers true exactly if a kernel module of this name is loaded; checkForLxrt() succeeds exactly if all required modules are found, and isLxrtAvailable() tells whether a check has succeeded.", "quantifier": "every content of /proc/modules and every name", "why_tests_cant": "The answer depends on the modules of the machine, the order and the lengths of the lines; a test sees one machine.", "anchors": ["icl_core/os_lxrt.cpp: checkKernelModule, checkForLxrt, isLxrtAvailable"]}
{"id": "C89", "title": "Scaling a time span", "statement": "span * x and span / x are the exact product and quotient of the duration, up to the last nanosecond and the rounding of double; for whole factors the product is exact. The operations are defined whenever the exact result is a representable duration.", "quantifier": "every time span and every finite factor, every rounding of double that is exact on small integers", "why_tests_cant": "All spans and factors; a test with whole seconds and whole factors passes although 1 s / 2 is 0.", "anchors": ["icl_core/TimeSpan.h: operator * (TimeSpan, double), operator / (TimeSpan, double)"]}
{"id": "C90", "title": "Conversion from Boost time points", "statement": "A TimeStamp constructed or assigned from a boost::posix_time::ptime denotes the same instant, so the conversion keeps the order of time points.", "quantifier": "every time point whose distance from 1970 in nanoseconds fits into 64 bits", "why_tests_cant": "A test that converts the epoch or a time within the first second passes; the claim is about all time points.", "anchors": ["icl_core/TimeStamp.cpp: TimeStamp(ptime), operator = (ptime)"]}
{"id": "C91", "title": "The extended and local ISO 8601 texts name the second of the instant", "statement": "formatIso8601UTC() prints YYYY-MM-DD hh:mm:ss of the second in which the time stamp lies, agrees with the fields printed by formatIso8601BasicUTC(), and its texts are ordered like the seconds; formatIso8601() and formatIso8601Basic() print the fields of the instant shifted by the offset the time zone has at that instant.", "quantifier": "all canonical time stamps (before 1970, up to and beyond the year 9999) and all time zones (arbitrary offset functions)", "why_tests_cant": "There are 2^64 seconds, and arbitrary time zone rules; tests use a handful of recent dates, where the truncation of negative fractions and the fixed buffer do not show.", "anchors": ["src/icl_core/src/icl_core/TimeStamp.cpp: formatIso8601, formatIso8601UTC, formatIso8601Basic, strfTime, strfLocaltime"]}
{"id": "C92", "title": "The command line help lists exactly what is accepted", "statement": "After any sequence of registrations the help text written by printHelp() contains, for every registered option, exactly one entry with its long name, its short name, a value marker exactly if it takes a value, and its (indented) help text; entries are sorted, generic options first; the usage line and the explanations name all positional parameters in the order in which they are filled; everything listed is accepted by the parser and vice versa.", "quantifier": "all sequences of registrations (any names, duplicates, prefix options, optional and required parameters, help texts with line breaks), all program names, versions and descriptions", "why_tests_cant": "It relates two separate traversals (parser and printer) for every registration history; tests look at one program's help text.", "anchors": ["src/icl_core/src/icl_core_config/GetoptParser.cpp: printHelp, addParameter", "src/icl_core/src/icl_core_config/GetoptParameter.cpp"]}
{"id": "C93", "title": "Typed command line values and defaults", "statement": "After an accepted command line, reading an option (or non-option argument) as a signed integer gives the integer whose decimal text was given last, with and without a default; an option that was not given is reported as missing, leaves the variable unchanged and yields the default. Reading it as a string gives the value as typed, and a value that is not of the requested type gives the default. getDefault returns the configured value and otherwise the default.", "quantifier": "all registered parameters, all accepted command lines, all option names and argument positions, all integer types and values, all configurations and keys", "why_tests_cant": "The number of combinations of registered parameters, command lines and value texts is unbounded; tests only see a few literals", "anchors": ["icl_core_config/Config.h: paramOpt, paramOptDefault, paramNonOpt, getDefault", "icl_core_config/Util.h: hexical_cast"]}
{"id": "C94", "title": "RWLock on POSIX systems: results tell who holds what", "statement": "After every history of calls by any number of threads, a thread has the write lock exactly if it was told so and has as many read locks as it was told; whoever has the write lock excludes every other lock; a call that returned false has changed nothing; once everything has been given back every request succeeds at once; readers share. Only the calls without timeout can block, and exactly when the lock is held incompatibly. Upgrading a read lock with writeLock() waits for ever, and asking again for a lock one has write-locked returns false.", "quantifier": "all numbers of threads, all histories of readLock/writeLock/tryReadLock/tryWriteLock/timed calls/unlock in all interleavings, all reader limits", "why_tests_cant": "The interleavings of concurrent lock calls are unbounded and depend on the scheduler", "anchors": ["icl_core_thread/RWLockImplPosix.cpp", "icl_core_thread/RWLock.cpp", "icl_core_thread/ScopedRWLock.cpp"]}
{"id": "C95", "title": "The overall performance summary reports everything that was recorded", "statement": "printSummaryAll writes one message per prefix with recorded data, with the right statistics of all its names, and logs it at the requested log level.", "quantifier": "all histories of monitor calls (prefixes without ::), all log levels", "why_tests_cant": "Histories of enabling, disabling and recording are unbounded", "anchors": ["icl_core_performance_monitor/PerformanceMonitor.cpp: printSummaryAll, print, printSummaryFromPrefix"]}
{"id": "C96", "title": "The log file has the configured name", "statement": "A file log output writes to the file whose name was configured (up to the documented shell expansions); two different configured plain names give two different files.", "quantifier": "all configured names without shell expansions, all wordexp implementations that behave as documented on such names", "why_tests_cant": "File names are unbounded strings; only particular characters trigger the cut", "anchors": ["icl_core_logging/FileLogOutput.cpp: expandFilename, constructors"]}
{"id": "C97", "title": "Errors in configuration files are noticed and located", "statement": "Reading a configuration text returns the number of the first line that is not a remark, attribute, block delimiter or blank line, and reports success only if every line was understood.", "quantifier": "all texts of complete lines (with blocks nested to any depth and comments of any length), all trees they are read into", "why_tests_cant": "Texts, nesting depths and comment lengths are unbounded", "anchors": ["icl_core_config/AttributeTree.cpp: AttributeTree::get, load, readNextLineInBuffer"]}
{"id": "C98", "title": "Loading and saving attribute trees report what happened", "statement": "load returns eOK exactly if the file could be read and understood, and a failed load leaves the tree as it was; save returns eOK exactly if the file was written; after either with unmark_changes, changed() is false; saved values are back after loading.", "quantifier": "all trees, all file contents of complete lines, all options", "why_tests_cant": "Trees and file contents are unbounded", "anchors": ["icl_core_config/AttributeTree.cpp: load, save", "icl_core_config/ConfigManager.cpp: load"]}
{"id": "C99", "title": "stringify of a floating point number can be read back", "statement": "The text produced by stringify<double|float|long double>(x) denotes x up to half a unit of the last of digits10 significant digits; a decimal number with at most digits10 digits stored in the type comes out unchanged; reading the text back gives x.", "quantifier": "all finite normal numbers of every binary format, both signs, fixed and exponential notation", "why_tests_cant": "There are 2^64 doubles; rounding carries (9.99..) and notation switches happen at isolated values", "anchors": ["icl_core/StringHelper.h: stringify<double>, stringify<float>, stringify<long double>"]}
{"id": "C100", "title": "Text formatted into fixed buffers is terminated, cut and measured correctly", "statement": "os::snprintf(buffer, n, ...) stores the first n-1 characters of the formatted text and a terminator, touches nothing from position n on, and returns the length of the complete text; consequently threadInfo() of a running thread is its description, a comma and its id (cut after 1022 characters) and a number streamed into a log message reads only its local buffer.", "quantifier": "all texts, buffer sizes, previous buffer contents, descriptions, thread ids and write positions, on POSIX and Windows", "why_tests_cant": "Texts of exactly the buffer size, uninitialised stack contents and the other platform's C library are not reached by tests.", "anchors": ["icl_core/os_string.cpp snprintf", "icl_core/os_posix_string.cpp", "icl_core/os_win32_string.cpp", "icl_core_thread/Thread.cpp runThread", "icl_core_logging/ThreadStream.cpp operator <<"]}
{"id": "C101", "title": "Threads run in the real-time mode they were created for (LXRT)", "statement": "With LXRT available, run() of a thread starts in hard real-time mode iff the thread was created with a negative priority; every cycle of a periodic thread starts in that mode, whatever happened during the cycle before; a log statement does not change the mode; setHardRealtime(b) returns whether the thread is in mode b, executesHardRealtime() tells the mode of the thread, and checkHardRealtime() called inside a hard real-time thread brings it back into hard real-time mode.", "quantifier": "every history of log statements, Linux service calls, mode changes and periods of any number of threads, and every answer of RTAI", "why_tests_cant": "The mode depends on the interleaving of service calls that silently drop a thread out of hard real-time; tests see a few orders on one kernel.", "anchors": ["icl_core/os_lxrt.cpp", "icl_core_thread/ThreadImplLxrt38.cpp", "icl_core_thread/Thread.cpp: checkHardRealtime", "icl_core_thread/PeriodicThread.cpp: waitPeriod", "icl_core_logging/LogStream.cpp: threadStream"]}
{"id": "C102", "title": "Mutexes work under LXRT", "statement": "Under LXRT, too, at most one task holds a Mutex; lock(), lock(timeout) and tryLock() return true iff the caller holds the mutex afterwards, a free mutex is given to the next caller, a task that holds the mutex can lock it again as on the other platforms, and only the holder can release it. This holds wherever the mutex was constructed.", "quantifier": "every history of lock/tryLock/unlock calls by any number of LXRT and Linux tasks, every RTAI implementation (3.3, 3.5, 3.8) and every result of RTAI including time-outs and errors", "why_tests_cant": "Requires all interleavings of tasks and all results of the kernel, on a kernel no test machine runs.", "anchors": ["icl_core_thread/MutexImplLxrt33.cpp", "icl_core_thread/MutexImplLxrt35.cpp", "icl_core_thread/MutexImplLxrt38.cpp", "icl_core_thread/SemaphoreImplLxrt38.cpp", "icl_core_thread/Mutex.cpp"]}
{"id": "C103", "title": "Starting threads under LXRT", "statement": "Under LXRT start() returns true if and only if the thread executes run(), returns false (and leaves nothing behind) when the semaphore, the thread or the real-time task cannot be created, and a thread that has finished can be started again.", "quantifier": "every interleaving of the control thread (any sequence of start, join and wait calls) with the created thread, and every success or failure of the operating system calls", "why_tests_cant": "Needs all interleavings of the start handshake and all failures of the kernel, on a kernel no test machine runs.", "anchors": ["icl_core_thread/Thread.cpp: start, join, wait, runThread", "icl_core_thread/ThreadImplLxrt38.cpp: start, join, runThread"]}
{"id": "C104", "title": "Periodic threads keep their period under LXRT and QNX", "statement": "Under LXRT and QNX, after makePeriodic() the n-th waitPeriod() returns no earlier than n periods later, exactly then if the work of each cycle fits into the period, and always returns; after an overrun the thread continues with the next period, as on the other platforms; setPeriod() returns true iff the new period is used from then on.", "quantifier": "every period, every amount of work, scheduling delay and cost of system calls in every cycle, every failure of the resources", "why_tests_cant": "Unbounded number of cycles and all timings, on platforms no test machine runs.", "anchors": ["icl_core_thread/PeriodicThreadImplLxrt38.cpp", "icl_core_thread/PeriodicThreadImplLxrt35.cpp", "icl_core_thread/PeriodicThreadImplLxrt33.cpp", "icl_core_thread/PeriodicThreadImplQNX.cpp"]}
{"id": "C105", "title": "Times survive conversion to other systems' records", "statement": "Converting a TimeStamp to DDS::Time_t or iTimeStamp, a TimeSpan to iTimeSpan, or either to timespec, and back gives the same value; constructing from or assigning such a record gives the canonical value of the instant the record denotes.", "quantifier": "every canonical time value and every record", "why_tests_cant": "All 64-bit values; the boundaries of the narrower record types matter.", "anchors": ["icl_core/TimeStamp.cpp: TimeStamp(DDS::Time_t), TimeStamp(iTimeStamp), operator =, operator DDS::Time_t, operator iTimeStamp", "icl_core/TimeSpan.cpp: TimeSpan(iTimeSpan), operator =, operator iTimeSpan", "icl_core/TimeBase.cpp: timespec, machTimespec"]}
{"id": "C106", "title": "Read/write locks under LXRT exclude writers from everybody", "statement": "With RTAI/LXRT, after every sequence of readLock, writeLock (with and without timeout), tryReadLock, tryWriteLock and unlock calls of any number of tasks, a task whose write request returned true and who has not given it back shares the lock with nobody, requests that return false change nothing, a request is granted exactly when the lock is compatible with what the others were told they hold, and unlock() affects only the caller's own locks.", "quantifier": "all versions of RTAI supported, all tasks, all histories of calls", "why_tests_cant": "LXRT needs a patched kernel; the claim ranges over all histories of any number of tasks", "anchors": ["icl_core_thread/RWLockImplLxrt33.cpp", "icl_core_thread/RWLockImplLxrt35.cpp", "icl_core_thread/RWLockImplLxrt38.cpp", "icl_core_thread/RWLock.cpp"]}
{"id": "C107", "title": "With the fixed-size queue log messages are lost only when the queue is full", "statement": "When logging is built with the fixed-size message queue, then for any configured queue size of at least 1, any number of logging threads and any interleaving with the worker thread and with start()/shutdown(): the queue array is never accessed out of bounds, the messages written are exactly the stored ones in the order of storing and each once, every message handed to push() is stored, dropped because exactly size-1 messages were waiting, or (if a semaphore wait fails) given up; dropped messages neither block the worker nor make it miss a stored one, and shutdown() returns only after everything stored before has been written.", "quantifier": "all queue sizes, all numbers of threads, all schedules, all start/shutdown histories, with and without interrupted semaphore waits", "why_tests_cant": "a test observes a few schedules and queue sizes; loss or reordering of a message needs a particular interleaving with a nearly full queue", "anchors": ["icl_core_logging/LogOutputStream.cpp: push, WorkerThread::run, isMessageQueueFull, isMessageQueueEmpty, incrementIndex, shutdown"]}
{"id": "C108", "title": "Comments in configuration files", "statement": "When an attribute tree is read without loading comments, remarks (# lines), multi-line comments (a line _COMMENT_{ without a colon, up to the line with }_COMMENT_) and attribute lines whose name contains _COMMENT_ have no effect: the text and the text without them give the same tree and are both understood or both rejected. When comments are loaded, a multi-line comment becomes a new first child _COMMENT_ whose attribute is its lines, each without surrounding white space, joined by line breaks, and the attribute lines are stored like all others.", "quantifier": "all texts of complete lines (at most 1997 characters each) with closed comments, all trees read into, all include behaviours", "why_tests_cant": "the claim ranges over all positions and contents of comments in all texts, including braces and attribute lines inside comments", "anchors": ["AttributeTree.cpp: AttributeTree::get, readNextLineInBuffer"]}
{"id": "C109", "title": "Each log output writes exactly the documented lines, end to end", "statement": "For any sequence of log statements mixed with activation and level changes, attaching and detaching outputs and format changes, every log output writes exactly one line for each statement that passes the stream's and the output's filters in force at that time, in statement order, showing the level, stream, file, line, class, object, function, time and (cut) text of that very statement by the format in force, and writes nothing else; what is done with one output does not change the lines of another.", "quantifier": "all histories of calls, all texts, names and formats within the documented limits, all memory contents and all choices of thread streams", "why_tests_cant": "unbounded histories of reused buffers, filters and formats", "anchors": ["src/icl_core/src/icl_core_logging/LoggingMacros_SLOGGING.h", "src/icl_core/src/icl_core_logging/ThreadStream.cpp: flush", "src/icl_core/src/icl_core_logging/LogOutputStream.cpp: push, pushImpl, LogMessage"]}
{"id": "C110", "title": "Scoped semaphores admit as many scopes as configured and give every count back", "statement": "However threads enter and leave scopes guarded by ScopedSemaphore objects: at most as many scopes of a semaphore are open at once as its initial value says, a thread gets in at once when fewer are open, every scope can be left, and when all are left the semaphore has its initial value again.", "quantifier": "all numbers of threads, semaphores and initial values up to 2^31-1, all nestings and interleavings, all interruptions by signals", "why_tests_cant": "unbounded interleavings and nestings; interruptions are rare", "anchors": ["src/icl_core/src/icl_core_logging/ScopedSemaphore.cpp", "src/icl_core/src/icl_core_logging/SemaphoreImplPosix.cpp", "src/icl_core/src/icl_core_logging/SemaphoreImplWin32.cpp"]}
{"id": "C111", "title": "The test runner reports every test and its exit code tells whether all passed", "statement": "runCppunitTestSuite returns 0 exactly if every test case of every registered suite passed and 1 otherwise; in the text and compiler modes it writes one status line per test case, in order between the lines of its suites, that says OK exactly if the test case had no failure.", "quantifier": "all trees of suites and test cases, all numbers of failures, all output types", "why_tests_cant": "unboundedly many trees; the runner is what runs the tests", "anchors": ["src/icl_core/src/icl_core_testsuite/TestListener.cpp", "src/icl_core/src/icl_core_testsuite/test_suite.cpp: runCppunitTestSuite"]}
{"id": "C112", "title": "A logged matrix can be read back from the log line", "statement": "Streaming an Eigen matrix into a log stream writes '[', then its columns from left to right separated by ' ; ', each with its entries from top to bottom separated by one blank, then ' ]'. Two matrices give the same text exactly if they have the same size and entries, except that matrices without columns, and single empty columns, are all written '[ ]'. The log record contains exactly the first 2046 characters of that text.", "quantifier": "all numbers of rows and columns, all entries, all ways of writing entries as distinct words without blanks", "why_tests_cant": "unboundedly many sizes and entry values; injectivity relates all pairs of matrices", "anchors": ["src/icl_core/src/icl_core_logging/ThreadStream.h: operator << (ThreadStream&, const Eigen::Matrix&)", "src/icl_core/src/icl_core_logging/ThreadStream.cpp: ThreadStream::write, ThreadStream::flush"]}
{"id": "C113", "title": "Include lines of a configuration file act like the text of the included file", "statement": "Loading an attribute tree file with `_INCLUDE_:name` lines gives the same tree and the same result as loading one file in which every include line is replaced by the text of the file it names, recursively, provided each included file closes the braces it opens (and, for a root, no line mentions the reserved path attribute); include lines whose file cannot be opened do nothing. A relative name is resolved against the directory of the including file. The result of loading an included file is not passed on: a wrong line there ends that file, keeps what was read and the outer load reports success. Files that include each other in a cycle never finish loading. Without process_include the line is kept as a child `_INCLUDE_` and printed again.", "quantifier": "all files and nesting of includes, all positions of include lines, all trees and subtrees loaded into, all texts", "why_tests_cant": "unboundedly many files, nestings and positions; non-termination for cycles cannot be observed by a finite run", "anchors": ["src/icl_core/src/icl_core_config/AttributeTree.cpp: AttributeTree::get (1323-1344)", "src/icl_core/src/icl_core_config/AttributeTree.cpp: AttributeTree::load"]}
{"id": "C114", "title": "INCLUDE elements of XML configuration files", "statement": "Loading an XML configuration file gives every key the last value found for it in document order, where an INCLUDE element stands for the entries of the file it names (resolved by prefixing the directory of the including file), recursively and for XML and attribute tree files alike; all other keys keep their values, and load returns whether the file itself could be read. An INCLUDE whose file cannot be read is skipped and load still returns true. The elements around an INCLUDE do not prefix the keys of the included file. Observers are told about the entries in the same order.", "quantifier": "all files, documents, nestings and positions of INCLUDE elements, all managers reached by any history of calls", "why_tests_cant": "unboundedly many documents, nestings of inclusions and histories", "anchors": ["src/icl_core/src/icl_core_config/ConfigManager.cpp: ConfigManager::load (189-230)", "src/icl_core/src/icl_core_config/ConfigManager.cpp: ConfigManager::readXml (232-269)"]}
{"id": "C115", "title": "imaxdiv returns the standard quotient and remainder", "statement": "For every numerator and every non-zero denominator, except the one pair whose quotient is not representable, imaxdiv returns the quotient with the fraction discarded and the remainder that goes with it (quot*denom+rem = numer, |rem| < |denom|, rem with the sign of the numerator); both are representable. Division by zero and INTMAX_MIN / -1 are undefined, nothing else. With a compiler that rounds down, the fix-up gives the same result for positive denominators and a wrong one for negative denominators.", "quantifier": "all pairs of 64 bit integers", "why_tests_cant": "2^128 pairs", "anchors": ["src/icl_core/src/icl_core/msvc_inttypes.h: imaxdiv (293-308)"]}
{"id": "C116", "title": "A log line is written in exactly one of the formats that were set", "statement": "While any number of threads write lines to one log output and others change its format, every line is written completely in one format: the one set last when the line was begun, or one set while it was written; a line begun after changeLogFormat has returned uses the new format. Every logging call that is over has written its line or was interrupted by a signal; nothing deadlocks. LoggingManager::changeLogFormat(name, ..) changes the outputs with this name only.", "quantifier": "all numbers of threads, all schedules, all formats and messages", "why_tests_cant": "unboundedly many interleavings of format changes with the drawing of lines", "anchors": ["src/icl_core/src/icl_core_logging/LogOutputStream.cpp: LogOutputStream::changeLogFormat (125-141), pushImpl (182-296)", "src/icl_core/src/icl_core_logging/LoggingManager.cpp: LoggingManager::changeLogFormat (408-418)"]}
{"id": "C117", "title": "Plugins are found in the plugin paths and failures are reported", "statement": "The first use of a plugin manager searches exactly the regular files in the plugin paths that exist (in all directories below with recursive_search), in the order in which the paths were added; plugin(id) then gives an object of the last file searched that has this identifier and the right type, and NULL if there is none; paths added later have no effect. errorMessages has exactly one message for each file without the functions of a plugin and one for each plugin whose library makes no object. Violations: the reason of a failed dlopen is in no message; a plugin of another type is not reported; a plugin path that is not a readable directory throws on the first use and leaves a manager that has no library plugins ever after.", "quantifier": "all directory trees, all plugin paths, all contents of libraries, all histories of calls", "why_tests_cant": "unboundedly many directory trees and call histories", "anchors": ["src/icl_core/src/icl_core_plugin/PluginManagerBase.cpp: PluginManagerBase, addPluginPath, pluginPaths, errorMessages (29-96)", "src/icl_core/src/icl_core_plugin/PluginManager.h: initialize (91-117), initializePlugins (357-423), loadHandle (427-497), loadPlugins (501-515), loadPluginInstance (548-608)"]}
{"id": "C118", "title": "The deprecated ring buffer is the same bounded queue, and copies are independent", "statement": "Every program that creates, copies, assigns and uses several objects of the deprecated class tRingBuffer (Write, Read, Skip, Clear, SetCapacity, At, a store through At, Size, Capacity) sees exactly what independent bounded FIFO queues show, including every exception and without any access outside a buffer; replacing the class by RingBuffer changes nothing such a program sees; and a copy or an assignment takes over contents and capacity, after which calls on one object never affect the other.", "quantifier": "all programs with any number of buffers, all element types and values, all capacities", "why_tests_cant": "unboundedly many programs and interleavings of calls on several objects", "anchors": ["src/icl_core/src/icl_core/tRingBuffer.h: tRingBuffer (43-231)", "src/icl_core/src/icl_core/RingBuffer.h: copy constructor, operator = (207-218), at (291-306)"]}
{"id": "C119", "title": "Printing stamped data shows its header", "statement": "Writing a Stamped object to a stream shows, after any sequence of constructions, copies and assignments of headers and objects, the sequence number, time, device-specific number and frame last given to it, followed by the data, and the text determines these values. Violations: no constructor initialises the device-specific number, so in a program that never assigns it explicitly every print reads an indeterminate value; frames are printed without quoting, so different objects can print the same text (not if the frames contain no semicolon).", "quantifier": "all programs constructing, copying, assigning and printing any number of headers and stamped objects, all data types and values", "why_tests_cant": "unboundedly many programs; reading an indeterminate value usually goes unnoticed", "anchors": ["src/icl_core/src/icl_core/DataHeader.h: DataHeader (60-97), ToStream (135-155), Stamped (161-274)", "src/icl_core/src/icl_core/DataHeader.cpp: operator << (27-31)"]}
{"id": "C120", "title": "UDP log outputs use one socket each and only logged rows reach the database", "statement": "A UDP log output connects to the first address of its host for which both socket and connect succeed and holds exactly one descriptor while it lives; no history of creating, using and destroying outputs leaks a descriptor, closes one twice or closes one it does not own. Exactly the messages pushed to a connected output with a successful write are sent, once each, in order, to its peer with its system name, and a failed write is reported. Whatever the network loses, repeats or reorders and however often the server restarts, every row of the server's table is the row of a message that was logged (if no text contains an apostrophe), and over a reliable network the table holds exactly these rows in order. Violation: if no address works, creation and every lost message are silent.", "quantifier": "all histories of any number of outputs, all answers of the name service and of socket, connect and write, all network behaviours, all server restarts", "why_tests_cant": "unboundedly many histories and environment answers", "anchors": ["src/icl_core/src/icl_core_logging/UdpLogOutput.cpp: UdpLogOutput, ~UdpLogOutput, pushImpl (45-119)", "src/icl_core/src/uls/UdpLoggingServer.cpp: UdpLoggingServer, processPendingDatagrams (32-81)"]}
{"id": "C121", "title": "A ring buffer call that throws changes nothing", "statement": "If copying an element throws within a call of RingBuffer, the buffer holds the same elements as before the call. Holds for write on a buffer with room and for failing allocations in setCapacity. Violated: a failing overwriting write has already lost the oldest element, a failing read has already lost the element it should have returned, and a setCapacity that fails in its copy loop leaves other elements than before or, when shrinking, a buffer whose next write is out of bounds. A buffer constructed with the largest size_type has no room and full() divides by zero.", "quantifier": "all element types, all histories of calls, every copy in every call as the point of failure", "why_tests_cant": "every combination of history and failure point", "anchors": ["src/icl_core/src/icl_core/RingBuffer.h: RingBuffer::write, read, setCapacity, RingBuffer(size_type) (202-403)"]}
{"id": "C122", "title": "What logging::initialize(argc, argv) has done when it returns", "statement": "After icl_core::logging::initialize(argc, argv, ..) every configuration key has the value given by the last -o option for it, else by the command line parameter declared for it, else by the configuration file named on the command line, else its declared default. The declared log streams exist. A legal --log-level decides for all streams and outputs, and adds the standard output; otherwise a message reaches exactly the configured outputs whose entry is for its stream, if neither the level of the stream nor that of the output is above it, and the standard output iff no output is configured. Entries of the same name share one output, made from the first of them in the order of the keys whose class is declared; of several entries for one stream the last decides its level. A level given with -o overrides the file. If initialize fails (a refused command line or a configuration file that cannot be loaded), no key is set and everything goes to the standard output with the level given before the refused argument. Without a configuration file on the command line initialize always ends, without undefined behaviour or exception. A stream used before initialize makes the configuration without effect on the logging.", "quantifier": "all programs (sets of declared options, parameters, output classes and streams), all command lines, all sets of configuration files, all streams and levels", "why_tests_cant": "three components meet: the command line parser, the configuration manager and the logging manager; each combination of declarations, arguments and files is a different start", "anchors": ["src/icl_core/src/icl_core_logging/Logging.cpp: initialize (102-109)", "src/icl_core/src/icl_core_config/Config.cpp: initialize (57-70)", "src/icl_core/src/icl_core_config/GetoptParser.cpp: GetoptParser::initialize (123-360)", "src/icl_core/src/icl_core_config/ConfigManager.cpp: ConfigManager::initialize", "src/icl_core/src/icl_core_logging/LoggingManager.cpp: LoggingManager::initialize, configure (44-293)"]}
{"id": "C123", "title": "Using the logging library from several threads has no data races", "statement": "In every interleaving of any number of threads that log, add and remove outputs, change formats and shut outputs down, and of the worker threads of the outputs, any two conflicting accesses to the same shared object are ordered by happens-before. Holds for the pool of thread streams, the list of outputs (as long as printConfiguration is not called), the format, what an output writes to, the modifications of the message queue, and the settings as long as they are not changed while others log. Violated: printConfiguration reads the list of outputs without the mutex, setLogLevel, setActive and changeTimeFormat write without synchronisation what log statements read, two changeLogFormat calls write the same list, the worker tests its queue without the mutex, the flags of the worker thread are plain variables, and flush resets the buffer of a thread stream after it gave the stream back.", "quantifier": "all numbers of threads, all sequences of API calls of each thread, all interleavings, all results of failing waits, with and without worker threads", "why_tests_cant": "a data race shows in few schedules, if at all; its absence is a statement about all schedules", "anchors": ["src/icl_core/src/icl_core_logging/LogStream.cpp: addOutputStream, removeOutputStream, threadStream, releaseThreadStream, printConfiguration (66-163, 252-263)", "src/icl_core/src/icl_core_logging/ThreadStream.cpp: flush (125-147)", "src/icl_core/src/icl_core_logging/LogOutputStream.cpp: push, pushImpl, changeLogFormat, WorkerThread::run (125-306, 516-631)", "src/icl_core/src/icl_core_logging/LoggingManager.cpp: setLogLevel, printConfiguration (291-303, 377-406)"]}
{"id": "C124", "title": "Log calls cannot deadlock", "statement": "Whatever calls the threads make and however they are interleaved, when nothing can go on any more every thread has returned from all its calls, except worker threads that wait for messages and shutdown calls that wait for the end of a worker. A thread that does not shut outputs down returns from all its calls after finitely many of its own steps. Violated if the pushImpl of an output itself logs to a stream that has this output: the calling thread waits for a mutex it holds.", "quantifier": "all numbers of threads, streams and outputs, all sequences of calls, all interleavings", "why_tests_cant": "deadlocks need particular schedules of particular combinations of calls", "anchors": ["src/icl_core/src/icl_core_logging/LogStream.cpp: m_mutex", "src/icl_core/src/icl_core_logging/LogOutputStream.cpp: m_format_mutex, m_no_worker_thread_push_mutex, WorkerThread::m_mutex, m_fill_count (125-306, 516-631)", "src/icl_core/src/icl_core_logging/ThreadStream.cpp: flush (125-147)"]}
{"id": "C125", "title": "Active objects and dispatch threads have no data races", "statement": "In every interleaving of an active object with any number of threads that queue operations and stop it, any two conflicting accesses to the queue of operations are ordered by happens-before. Holds for the accesses of the clients among each other, and for all modifications while the object runs. Violated: the object tests its queue without the mutex, deletes pending operations without the mutex when it is stopped, and its execute flag is a plain variable. A periodic dispatch thread has no lock at all: adding an operation while it runs is a data race.", "quantifier": "all numbers of clients, all sequences of their calls, all interleavings", "why_tests_cant": "a statement about all schedules", "anchors": ["src/icl_core/src/icl_core_thread/ActiveObject.cpp: run, stop, queue (34-93)", "src/icl_core/src/icl_core_dispatch/PeriodicDispatchThread.cpp: addOperation, run (45-64)"]}
{"id": "C126", "title": "The read/write lock of Windows does not deadlock", "statement": "When no thread can go on, every thread inside readLock or writeLock waits for a thread that holds the lock and has still to unlock it; unlock itself never waits for ever. If nobody holds the lock, some thread inside a call can go on. Each call takes at most five actions of its own. Violated after a writeLock that timed out waiting for readers (C54). tryReadLock and timed read locks can wait without limit behind another reader, and a writer can be overtaken by readers for ever.", "quantifier": "all numbers of threads, all histories of calls, all interleavings", "why_tests_cant": "lost wake-ups need particular interleavings of several threads", "anchors": ["src/icl_core/src/icl_core_thread/RWLockImplWin32.cpp: readLock, writeLock, unlock (62-157)"]}
{"id": "C127", "title": "A log message reaches its outputs, end to end", "statement": "Any number of threads log on any number of log streams, each connected to any number of output streams with worker threads. At any time, what an output has written of a thread's statements is a prefix of the sequence of that thread's statements on connected streams with at least the output's level, in program order (also across streams), each once, with its level and text. When the threads have finished, a running worker on its own writes all of it in finitely many steps; when shutdown() of the output returns, everything a thread had finished logging before the call has been written. Holds if log arguments do not themselves log, semaphore waits are not interrupted, and no threadStream() call falls into the unprotected end of a flush (C45).", "quantifier": "all numbers of threads, streams and outputs, all connections and levels, all interleavings, all times of shutdown", "why_tests_cant": "the number of interleavings of loggers and workers is unbounded", "anchors": ["src/icl_core/src/icl_core_logging/LogStream.cpp: threadStream, releaseThreadStream (91-153, 222-234)", "src/icl_core/src/icl_core_logging/ThreadStream.cpp: flush (127-148)", "src/icl_core/src/icl_core_logging/LogOutputStream.cpp: push, shutdown, WorkerThread::run (143-180, 516-527, 562-637)"]}
{"id": "C128", "title": "One order of a stream's messages in all outputs", "statement": "The messages of one log stream, of all threads, appear in the same order in every output connected to it: at any time, what one output has written of them (of the levels both write) is the first part of what the other has written. An output writes nothing of a stream it is not connected to. Messages of different streams can appear in different orders in two outputs.", "quantifier": "all numbers of threads, streams and outputs, all interleavings, all times", "why_tests_cant": "an inversion needs a particular interleaving of two loggers and two outputs", "anchors": ["src/icl_core/src/icl_core_logging/ThreadStream.cpp: flush (127-148)", "src/icl_core/src/icl_core_logging/LogOutputStream.cpp: push, WorkerThread::run (143-180, 562-637)"]}
{"id": "C129", "title": "Log statements do not deadlock", "statement": "From every reachable state every log statement that has begun can be finished by letting the threads inside log statements and the workers continue, although a thread holds the mutex of its log stream while it waits for the mutexes of the outputs. A log statement makes at most 9 steps plus one per piece of text and 7 per connected output; otherwise it only waits for a mutex.", "quantifier": "all numbers of threads, streams and outputs, all interleavings", "why_tests_cant": "deadlocks depend on the interleaving; absence of one is a statement about all reachable states", "anchors": ["src/icl_core/src/icl_core_logging/ThreadStream.cpp: flush (127-148)", "src/icl_core/src/icl_core_logging/LogOutputStream.cpp: push, WorkerThread::run (143-180, 562-637)"]}
{"id": "C130", "title": "Outputs can be connected and disconnected while threads log", "statement": "While any number of threads log on a stream, others call addOutputStream and removeOutputStream. Every message is given exactly to the outputs connected at one moment, each once, as if the calls had happened one after the other; the set is never changed while a thread iterates over it. When removeOutputStream(o) has returned, no thread is or gets inside a push to o until o is added again, so o may be destroyed; when addOutputStream(o) has returned, every later message reaches o until it is removed. Violated if a signal interrupts the wait for the stream's mutex: the call then returns without having done anything and without an error.", "quantifier": "all numbers of threads and outputs, all interleavings of log statements, add and remove calls", "why_tests_cant": "the interleavings of loggers with connecting and disconnecting threads are unbounded", "anchors": ["src/icl_core/src/icl_core_logging/LogStream.cpp: addOutputStream, removeOutputStream (70-88)", "src/icl_core/src/icl_core_logging/ThreadStream.cpp: flush (127-148)"]}
{"id": "C131", "title": "Interrupted waits cost a log output a bounded number of messages", "statement": "With any number of semaphore waits of the loggers and of the worker thread interrupted by signals: the only messages that never enter the queue are those whose push() was itself interrupted. Whenever the worker is at rest and no push is under way, everything in the queue has been written except at most as many of the newest messages as the worker's waits for the queue mutex were interrupted (and this bound is attained). Everything inserted before shutdown() is written when it returns, unless the one wait before the final flush was interrupted; shutdown() returns in any case.", "quantifier": "all numbers of producers, all interleavings, all patterns of interruptions, all times of shutdown and restart", "why_tests_cant": "a signal can interrupt any of unboundedly many waits in any combination", "anchors": ["src/icl_core/src/icl_core_logging/LogOutputStream.cpp: push, shutdown, WorkerThread::run (143-180, 516-527, 562-637)", "src/icl_core/src/icl_core_thread/SemaphoreImplPosix.cpp: wait (59-63)"]}
{"id": "C132", "title": "The thread streams of a log stream are bounded by what is under way", "statement": "A log stream never owns more thread streams than the larger of its initial pool size and K + L, where K is the largest number of log statements under way at the same time (all threads together, nested statements included) and L is the number of (thread, level) pairs for which the semaphore wait in a flush was interrupted; without interruptions the bound K is attained. With any waits interrupted, every finished log statement was pushed exactly once or was dropped because its own flush was interrupted; interruptions neither make two statements share a stream nor change the text of any other message (given the conditions of C45).", "quantifier": "all numbers of threads, all interleavings, all nestings, all patterns of interrupted waits, all initial pool sizes", "why_tests_cant": "the bound is over all interleavings of unboundedly many threads and all patterns of interruptions", "anchors": ["src/icl_core/src/icl_core_logging/LogStream.cpp: threadStream, releaseThreadStream (91-153, 222-234)", "src/icl_core/src/icl_core_logging/ThreadStream.cpp: flush (127-148)", "src/icl_core/src/icl_core_thread/SemaphoreImplPosix.cpp: wait (59-63)"]}
{"id": "C133", "title": "An active object never deadlocks, executes everything queued, and stop() ends it", "statement": "If neither the worker nor any client of an ActiveObject can go on, no queue() or stop() call is under way and the worker is not running or waits with an empty queue (unless the non-virtual Thread::stop() was called directly); as long as nobody stops the object, everything queued has then been invoked in order. Every run without new calls ends after a number of actions bounded by the queued operations, posted tokens and calls under way. After stop() such a run ends with the worker finished. The operations that are neither invoked nor deleted then are exactly those of clients that were between the execute() test and the push in queue() when the worker ended.", "quantifier": "all numbers of clients, all interleavings, all histories of queue, stop and restart, interrupted waits and failing locks before the point considered", "why_tests_cant": "deadlocks and lost operations depend on the schedule; the bound is over all schedules", "anchors": ["src/icl_core/src/icl_core_thread/ActiveObject.cpp: run, stop, queue (34-93)", "src/icl_core/src/icl_core_thread/Thread.h: stop (189)"]}
{"id": "C134", "title": "The log files survive crashes of the program at any point", "statement": "If a program with a file log output is killed at any point of the constructor or of a log call (during compression or moving of the old file, before or after the log file is created, while the line is written) and started again, any number of times, then as soon as it runs again the archived files in the order of their days and the log file contain every line of a completed call exactly once and in order, plus the written beginnings of interrupted lines (if the log file cannot be opened, the lines logged until it can be opened again are lost, and only these); there is no other archive and no other file is touched. Right after a crash nothing is lost either; there may only be one unfinished archive of the last day, while the log file is still there. With compression this needs that no midnight passes between reading the clock and writing; otherwise lines can be duplicated.", "quantifier": "all histories of starts, log calls, ends and crashes at every point, all clock readings that never go back, all lines, with and without rotation and compression", "why_tests_cant": "crash points and repeated crashes during the restart cannot be enumerated by tests", "anchors": ["src/icl_core/src/icl_core_logging/FileLogOutput.cpp: FileLogOutput, pushImpl, openLogFile, rotateLogFile (48-290)", "src/icl_core/src/icl_core/os_fs.cpp: zipFile (38-71)"]}
{"id": "C135", "title": "The SQLite log survives crashes; what is lost when the database cannot be opened", "statement": "If a program with an SQLite log output is killed at any point of starting or writing a row (before or after the database is renamed, opened, or the row inserted) and started again, any number of times, and renaming, opening and inserting may fail, then at every moment the archives in order of their days and the database contain exactly the rows written while the database was open and inserted successfully, once each and in order. If nothing fails no completed row is ever lost. The database is opened only at the start and at the first row of a day: if this fails, all rows of that day are lost.", "quantifier": "all histories of starts, rows, ends and crashes at every point, all failures, with and without rotation, all rows", "why_tests_cant": "crash points combined with failures and rotation days cannot be enumerated", "anchors": ["src/icl_core/src/icl_core_logging/SQLiteLogDb.cpp: SQLiteLogDb, openDatabase, writeLogLine (40-240)", "src/icl_core/src/icl_core_logging/SQLiteLogOutput.cpp: onStart, onShutdown (66-83)"]}
{"id": "C136", "title": "What a crash costs when log files are not flushed", "statement": "With Flush = no, whatever a running program has logged is on disk or in its buffer, and a crash at any point of a log call costs at most a last part of the text logged since the log file was opened or closed last (since the start or, with rotation, since the first line of the day). Everything logged before an orderly end, before a crash or before a change of the day stays for ever; with Flush = yes everything stays once the call has returned; without crashes nothing is lost. Archives and log file contain nothing else. Violated: without Flush lines can be archived under the wrong day after an orderly end, and be duplicated by a crash during compression, because closing the file changes its time of last write.", "quantifier": "all histories of starts, log calls, ends and crashes at every point, all sizes of stream buffers, all clock readings that never go back, all lines", "why_tests_cant": "buffer states, crash points and days combine without bound", "anchors": ["src/icl_core/src/icl_core_logging/FileLogOutput.cpp: FileLogOutput, ~FileLogOutput, pushImpl, flush, closeLogFile, openLogFile, rotateLogFile (48-290)"]}
{"id": "C137", "title": "Static objects that log", "statement": "A program whose objects of static storage duration log in their constructors and destructors is free of undefined behaviour in every order in which its translation units may be initialised, exactly if: every constructor logs only on streams registered above it in the same unit (or in a library initialised before); above every object whose destructor logs there is some registration of a stream or output, its streams are registered somewhere, and main does not use the LifeCycle object; and main logs only on registered streams. In particular with LifeCycle in main every static destructor that logs is undefined behaviour, and a static constructor that logs on a stream of another unit is so in some order.", "quantifier": "all programs, all orders of initialisation of the translation units", "why_tests_cant": "a build has one order of initialisation; the others appear with another linker or order of the object files", "anchors": ["src/icl_core/src/icl_core_logging/LoggingManager.cpp: LoggingManager::~LoggingManager, initialize, shutdown, hidden::LogOutputStreamRegistrar, hidden::LogStreamRegistrar, LifeCycle (318-321, 577-598)", "src/icl_core/src/icl_core_logging/LoggingManager.h: LoggingManager::instance (64-68)", "src/icl_core/src/icl_core_logging/Logging.h: REGISTER_LOG_STREAM, REGISTER_LOG_OUTPUT_STREAM"]}
{"id": "C138", "title": "What a configuration file in attribute tree format means", "statement": "Reading an attribute tree file does to the tree exactly what a list of setAttribute calls does that can be read off its lines: a line name:value sets the value of the dotted name below the open blocks, # lines and comments do nothing, an opening brace enters a block and removes the value of its name, a closing brace leaves one level. The value at every path is that of the last line that changes it. Loaded by the ConfigManager, every key /a/b (names without slashes) has the value of the last line for the path a.b, other keys keep their values, and two internal keys hold path and name of the file. Findings: an opening brace erases a value; the brace closing a.b{ leaves one of two levels; blanks around the colon are kept; with slashes in names the first line can win.", "quantifier": "all texts of complete lines, all trees, all histories of the configuration manager, all include structures", "why_tests_cant": "files have unbounded length and nesting", "anchors": ["src/icl_core/src/icl_core_config/AttributeTree.cpp: get, load (1239-1434)", "src/icl_core/src/icl_core_config/ConfigManager.cpp: load, readAttributeTree (189-230, 271-296)"]}
{"id": "C139", "title": "Data handed to a thread and results taken from it", "statement": "Everything the owner of a Thread did before start() happens before everything in run(). After a join(), wait() or destructor that found the thread running, everything run() did happens before what the owner does next, however the threads are interleaved; the bodies of successive runs of one object are always ordered. So an owner that touches shared data only before start() and after such a synchronisation has no data race (without cancel()). Findings: join() and wait() on a thread that has already finished by itself return without pthread_join or any other synchronisation, so reading the results of run() afterwards is a data race; m_finished itself is read and written without synchronisation; the new thread reads its own thread id while pthread_create may still be storing it.", "quantifier": "all sequences of calls of the owner, all interleavings with the created threads, all accesses of run() and of the owner to the shared data", "why_tests_cant": "a missing happens-before edge shows only under rare schedules or on weakly ordered machines", "anchors": ["src/icl_core/src/icl_core_thread/Thread.cpp: start, join, wait, runThread, ~Thread (83-310)", "src/icl_core/src/icl_core_thread/ThreadImplPosix.cpp: start, join, threadId", "src/icl_core/src/icl_core_thread/Thread.h: running, m_finished"]}
{"id": "C140", "title": "What reading an attribute tree does is fixed for every text whatsoever", "statement": "For every sequence of characters and every attribute tree, AttributeTree::get (without include files, comments not stored) behaves as a specification on lines says. Lines are cut at newlines and lose one carriage return at the end. A line of more than 1997 characters counts with its first 1997 characters; then get returns only if that line ended the reading (outermost brace closed, or the line not understood), otherwise it never returns. Without such a line, and with at least one complete line, the text behind the last newline is ignored, except that it may contain the end mark of an open multi-line comment; a comment that is not closed makes get run forever; otherwise get returns -1, or 2 plus the index of the first line that is not understood. A text without any newline counts as one line that cannot be wrong. In all cases where get returns, every path has the value of the last of the counting lines that changes it, or its old value.", "quantifier": "all texts (any length, any characters), all trees read into", "why_tests_cant": "The set of texts is infinite and non-termination cannot be observed by a test; the special cases (last line without newline, carriage returns, buffer overflow of a line, comment open at the end) interact.", "anchors": ["icl_core_config/AttributeTree.cpp:AttributeTree::get", "icl_core_config/AttributeTree.cpp:readNextLineInBuffer"]}
{"id": "C141", "title": "A crash or a full disk while saving an attribute tree is not noticed, but loads no wrong value", "statement": "AttributeTree::save overwrites the file in place and never tests the stream: for every number n, if only the first n characters reach the file, save still returns eOK (if it returns), and a later load of the file reports success. For every tree (without comments) of which at least the first line is complete, the load makes exactly a prefix of the changes of the whole file. For every tree whose siblings have different names and that has at least change_style_depth attributes, for every n, every value found after the load is either an old value of the tree loaded into or the value that was saved for that path: values can be missing, but never wrong. With n = 0 the old content is gone. For trees with fewer attributes this fails: a value 100 can be loaded as 1.", "quantifier": "all trees with writable names and values, all numbers of characters written, all trees loaded into", "why_tests_cant": "A crash can happen after any character of any saved tree.", "anchors": ["icl_core_config/AttributeTree.cpp:AttributeTree::save", "icl_core_config/AttributeTree.cpp:AttributeTree::get", "icl_core_config/AttributeTree.cpp:AttributeTree::printSubTree"]}
{"id": "C142", "title": "Observers may call back into the configuration manager", "statement": "Observers may set values, register and unregister observers in valueChanged, to any depth. Whenever control is back in the main program, every registered observer (for a key that as a regular expression matches itself, or for all keys) has seen the current value of its key in its last call. An observer not registered for all keys has been called exactly once per setValue and registration active at that moment, plus once per registration for an existing key. The library never gets stuck between callbacks. An observer unregistered by the main program is never called again. Violations: an observer that another observer unregisters (or destroys) during a notification is still called for the changes being notified, exactly as often as calls were owed; an observer that sets its own key, even to the same value, recurses without end.", "quantifier": "all programs of observers and main program (every choice at every callback), all histories, all nesting depths", "why_tests_cant": "What an observer does in a callback is arbitrary code; the nestings are unbounded.", "anchors": ["icl_core_config/ConfigManager.cpp: notify, registerObserver, unregisterObserver", "icl_core_config/ConfigManager.h: setValue", "icl_core_config/ConfigObserver.h: ~ConfigObserver", "icl_core/KeyValueDirectory.hpp: KeyValueDirectoryIterator::next"]}
{"id": "C143", "title": "Which plugin manager and performance monitor calls may run at the same time", "statement": "PluginManager and PerformanceMonitor have no locks. Threads whose calls only read never race, leave the object as it was and get the answers they get alone. For the plugin manager these calls are: every lookup once the plugins are loaded (initialize(false) or a previous lookup), of a plugin that exists, and createPluginInstance for a library that makes objects or a NULL handle; for an existing monitor: recording with a prefix that is not recorded, start() while m_enabled is false, enabling an enabled or disabling a disabled prefix. Every other call races with the same call of another thread in some schedule. The first two lookups of two threads can race, the question for an unknown plugin races with plugins(), any two first uses of the monitor race in getInstance(), and start() of a new timer races even if nothing is recorded.", "quantifier": "all states of the object, all environments, any number of threads with any lists of calls, all schedules of their accesses", "why_tests_cant": "Data races depend on the schedule and usually have no visible effect in a test run.", "anchors": ["icl_core_plugin/PluginManager.h: initialize, availablePlugins, plugins, plugin, createPluginInstance, addStaticPlugin, removeStaticPlugin", "icl_core_performance_monitor/PerformanceMonitor.cpp: getInstance, isEnabled, start, measurement, startStop, addData, addNonTimeData, addStaticData, enablePrefix, disablePrefix"]}
{"id": "C144", "title": "Using the configuration from several threads", "statement": "Any number of threads may ask the configuration manager at the same time (isInitialized, get, hasKey, find), also while one other thread registers or removes observers: there is no data race, and each thread gets the answers it would get alone. There can be a data race exactly if one thread uses what another one changes: a value (insert, setValue; also under another key) or the list of observers (registerObserver, unregisterObserver; setValue uses it).", "quantifier": "all states of the manager, any number of threads, all lists of calls of each thread with all keys, values, queries and observers, and all schedules of their accesses", "why_tests_cant": "whether a race shows in a test depends on the schedule; its absence must hold for all schedules and lists of calls", "anchors": ["icl_core_config/ConfigManager.h: ConfigManager", "icl_core_config/ConfigManager.cpp: registerObserver, unregisterObserver, notify", "icl_core/KeyValueDirectory.hpp: get, hasKey, find, insert, next"]}
{"id": "C145", "title": "Log files that are compressed while they are written", "statement": "With /Zip set for a file log output (and zlib available), the lines that are pushed end up in the log file or in an archive of it, as they do without /Zip, whatever the number of restarts and changes of the day.", "quantifier": "all configurations, all contents of the directory, all histories of starts, pushes and ends with all clock readings and all failures of opening and moving files", "why_tests_cant": "a file output behaves differently after restarts and at the change of the day; the lines must be kept for all histories", "anchors": ["icl_core_logging/FileLogOutput.cpp: openLogFile, pushImpl, rotateLogFile, FileLogOutput"]}
{"id": "C146", "title": "Compressing a file", "statement": "zipFile reports success exactly if the archive holds the contents of the file, of any length; whatever fails, the archive holds no more than the beginning of them.", "quantifier": "all contents of the file and of an existing archive, and all failures of opening, reading and writing, at any point", "why_tests_cant": "the file is copied in pieces, and each read and each write may fail; the result must be right for all lengths and all points of failure", "anchors": ["icl_core/os_fs.cpp: zipFile"]}
{"id": "C147", "title": "Thread priorities", "statement": "A thread runs with the priority that was given to its constructor, or with the last one that setPriority() accepted, and priority() returns it; setPriority() answers true exactly if the system accepts the priority. This holds at any time, also before the thread is started and after it has ended.", "quantifier": "all priorities given to the constructor, all histories of start, end, join, setPriority and priority, all schedulings of the threads that call start() and all permissions", "why_tests_cant": "what a call does depends on the history, on the permissions of the program and on the scheduling of the calling thread", "anchors": ["icl_core_thread/Thread.cpp: Thread, start, join, priority, setPriority", "icl_core_thread/ThreadImplPosix.cpp: priority, setPriority, start", "icl_core_thread/ThreadImplLxrt38.cpp: priority, setPriority, runThread"]}
{"id": "C148", "title": "Command line options in several threads", "statement": "Calls of the command line parser by several threads have a data race in some schedule exactly if one thread uses a part (the long options, the prefixes, the short options, the positional parameters, the delimiter, argc, the version, the description) that another one changes; the names of the options do not matter. Without such calls every call answers what it would if no other thread ran. Threads that only read what was given on the command line may run beside any other calls.", "quantifier": "all numbers of threads, all lists of calls (except initialize) in each of them, all schedules, all states of the parser", "why_tests_cant": "a data race shows only under certain schedules, and what it does is undefined; all schedules have to be looked at", "anchors": ["icl_core_config/GetoptParser.cpp: addParameter, activateExtraCmdParams, argc, paramOpt, paramNonOpt, paramPrefixOpt, setProgramVersion, setProgramDescription, printHelp", "icl_core_config/GetoptParser.h: Getopt"]}
{"id": "C149", "title": "Changing the case of strings", "statement": "toLower() replaces every capital letter by the small one and toUpper() every small letter by the capital one, leaving everything else as it is, for every string; what toLower() returns it leaves alone. Reading a configuration value as a bool is defined for every value.", "quantifier": "all strings of bytes, on platforms with signed and with unsigned char", "why_tests_cant": "for some bytes the behaviour is undefined, and a test that sees the expected result does not show it; all strings", "anchors": ["icl_core/StringHelper.h: toLower, toUpper", "icl_core_config/Config.h: get<bool>"]}
{"id": "C150", "title": "Insertions that run out of memory", "statement": "A call of insert() that throws leaves the directory as it was. After any history every key has the value of the last call for it that returned.", "quantifier": "all histories of insertions, with a failure of the new entry or of the assignment at any of them, all key and value types", "why_tests_cant": "every point of failure in every history", "anchors": ["icl_core/KeyValueDirectory.hpp: insert", "icl_core_config/ConfigManager.h: setValue"]}
