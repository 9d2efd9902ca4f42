{
 "C01": {
  "note": "Whole histories over the public interface (including setCapacity) refine a bounded FIFO queue."
 },
 "C04": {
  "note": "Pointer/size pairs are modelled as offsets into the vector."
 },
 "C67": {
  "status": "partial",
  "note": "Reading back and the three notations are proved for all values; failure reporting is refuted (c67_never_fails, c67_blank_is_undefined)."
 },
 "C68": {
  "status": "partial",
  "note": "Proved for all batches except that the list version returns false for the empty batch (c68_empty_list_fails)."
 },
 "C40": {
  "note": "Holds whenever initialize() returns true; a self-including file never returns and a file name without a dot throws (proved as findings)."
 },
 "C08": {
  "note": "Conversions and round trips proved for all values. The recomposition from all seven parts is false (microSeconds() is not reduced modulo 1000, c08_microSeconds_not_reduced); the part up to seconds is proved."
 },
 "C10": {
  "note": "The claim is false of the code; c10_print_denotes_partial is the exact characterisation for non-negative spans, with counterexamples for every failing case. c10_print_exact characterises the text for every value."
 },
 "C14": {
  "note": "False at a distance of exactly half the cycle and for min_value != 0 (counterexamples); proved for every distance below half of the cycle. c14_lt_exact, c14_trichotomy_exact and c14_increment_exact give the exact range of validity."
 },
 "C15": {
  "note": "join(split(s)) = s is violated (c15_trailing_delimiter_lost); c15_join_split_exact says exactly for which strings, for delimiters of any length (one character: c15_join_split_iff), c15_split_join_iff exactly which lists of fields survive join and split, c15_split_exact what split returns. With an empty delimiter split never ends (c15_empty_delimiter_diverges)."
 },
 "C16": {
  "note": "Proved for every non-empty string; the empty string is undefined behaviour in the code (c16_trim_empty_ub)."
 },
 "C20": {
  "note": "Proved for all types of at most 32 bits; wider types lose bits (c20_wide_types_lose_bits). c20_wide_exact."
 },
 "C21": {
  "note": "Addressing proved for all sizes; resize keeps cells only if the width stays (c21_resize_moves_cells). c21_resize_exact."
 },
 "C31": {
  "note": "Acceptance = grammar proved for every string. Re-assembly fails with both anchor and query, and stale parts of the output object remain (counterexamples). The printed text is known exactly for every accepted string (c31_print_exact, c31_print_iff)."
 },
 "C32": {
  "note": "Proved for every path without reserved last component; reserved suffixes and NULL-children reads are refuted. For reserved names the result is known exactly (c32_get_after_set_reserved)."
 },
 "C33": {
  "note": "The stored attribute changes at exactly one path (full). getAttribute(q) may become undefined through a NULL child list (c33_set_can_make_get_undefined)."
 },
 "C35": {
  "note": "Round trip proved for every good tree; small trees, empty attributes, nested comments and over-long lines are refuted. The effect of saving and loading is known exactly for every tree without comments, equal siblings included (c35_exact, c35_exact_braced, c35_exact_small), and c35_round_trip_iff says exactly which trees survive."
 },
 "C36": {
  "note": "Proved for trees without duplicate siblings (all trees built with setAttribute, c36_uniq_of_sets); duplicates refuted. The effect on duplicates is known exactly (c36_copy_exact, c36_copy_twice)."
 },
 "C37": {
  "note": "Termination, splitting and absolute names proved for every string; normalisation resolves '.'/'..' on paths that stay below the root; above-root, double-slash and relative cases refuted."
 },
 "C39": {
  "note": "Exact unless a consumed argument has the same text as a non-option (c39_equal_text_is_kept). c39_cleanup_iff: exactly which values are kept."
 },
 "C41": {
  "note": "Proved for setValue of every key except that /configfile reloads files; insert() does not notify and the registration key is a pattern (findings)."
 },
 "C42": {
  "note": "get<bool> characterised for every string; the batch functions differ on values with white space (c42_white_space_differs)."
 },
 "C45": {
  "note": "Exclusive ownership proved without same-level nesting; text integrity proved outside the flush window; both gaps refuted by concrete schedules."
 },
 "C46": {
  "note": "Order and at-most-once for every schedule; completeness provided no semaphore wait is interrupted (c46_interrupted_*)."
 },
 "C47": {
  "note": "Provided no semaphore wait is interrupted (c47_interrupted)."
 },
 "C49": {
  "note": "Rendering proved for well-formed formats with texts below 100 characters; dangling '~', overflow and the ignored width are refuted. Termination proved for all strings. The outcome of every format string and of every message is known exactly (c49_exact, c49_render_exact)."
 },
 "C52": {
  "note": "The documented result is inverted in the code (c52_result_inverted); mutual exclusion proved for clients that read it inverted."
 },
 "C54": {
  "note": "Proved if only waits for writers time out; a time-out while waiting for readers loses the lock (c54_writer_lost). c54_exact: exactly who can still get the write lock after time-outs; c54_lost_for_ever."
 },
 "C56": {
  "note": "Order, at-most-once, single deletion and wake-ups proved for every schedule; an operation queued after the final drain leaks (c56_leak)."
 },
 "C58": {
  "note": "Statistics proved for every history whose prefixes contain no '::' and do not end with ':' (otherwise names collide, c58_names_collide); no samples is undefined. For all prefixes and names, c58_statistics_exact / c58_report_exact give the exact result: the samples of the text 'prefix::name'."
 },
 "C59": {
  "note": "plugin()/createPluginInstance results proved for all histories; the listings only if no unknown identifier was looked up (findings); the destructor is refuted."
 },
 "C62": {
  "note": "run() is over when wait() returns (proved); the returned value can be false (c62_wait_returns_false). c62_wait_exact: exactly when false is returned; c62_wait_again."
 },
 "C63": {
  "note": "Proved without trace logging and without cancel(); both refuted otherwise. c63_only_last_message, c63_never_joined, c63_leaked_for_ever: exactly what happens after the destructor and which OS threads are never joined."
 },
 "C65": {
  "note": "Integers: full. Doubles: c65_double_exact says exactly which values are written completely (integer part below 10^92, 10^91 if negative) and which overread the buffer (c65_double_overread_all)."
 },
 "C66": {
  "note": "Every stream and configured output gets the level; the default output does not (c66_default_output_ignored)."
 },
 "C70": {
  "note": "Proved for every history with a clock that never goes back and a file that can be opened (and compressed); refuted for a clock set back over midnight, failed compression, and files of other programs with the same name prefix."
 },
 "C71": {
  "note": "Proved for messages whose texts contain no apostrophe; refuted otherwise: escape() changes nothing, a text can forge records, and a text like \"don't\" loses the message. SQLite is represented by a small reader of SQL value lists. The condition is exact (c71_record_iff)."
 },
 "C72": {
  "note": "Proved for prefixes without special characters of regular expressions and keys without empty name or suffix; refuted for a dot in the prefix and for a second call. Further calls on the same object are known exactly, for all prefixes and keys (c72_further_call_exact, c72_history_exact)."
 },
 "C73": {
  "note": "Two entries without a Name and with the same class share one output, with the first entry's level and both stream lists (c73_same_name); a second initialize() with --quick-debug attaches a second output (c73_quick_debug_twice). The connection theorem therefore assumes different names."
 },
 "C74": {
  "note": "An entry without a legal LogLevel gives Trace, not the default Info, because the configuration structs are value-initialised (c74_stream_default, c74_output_default); setLogLevel leaves the default output as it is (c74_set_level_default_output)."
 },
 "C75": {
  "note": "Violated by the code: m_instance is never reset, so every use of a stream after shutdown(), and every initialize() after it, touches deleted streams (c75_use_after_shutdown, c75_init_after_shutdown). Exactly the histories that are safe: c75_exact."
 },
 "C76": {
  "note": "Names longer than 256 (1024) characters are copied without a terminator and read beyond the end of their array (c76_long_names); names are not reset by flush() as documented (c76_not_reset); file and object name are uninitialised in a new thread stream (c76_uninitialised)."
 },
 "C77": {
  "note": "Rows are lost when midnight falls between the two clock readings or the clock is set back (c77_midnight_loses, c77_clock_back_loses); archives are named by the day after (c77_archive_name) and mix days after a restart (c77_restart_mixes_days)."
 },
 "C78": {
  "note": "Partial: c78_unused_partial excludes numbers from 100000 on, where the code stops checking (c78_duplicate). The code also leaves its buffer: c78_all_digits_undefined (reads before it), c78_buffer_overflow (writes behind it)."
 },
 "C79": {
  "note": "Illegal calls are shown to go wrong: adding a linked tree leads to a double delete, adding below itself makes root() loop, adding to a tree without subtrees dereferences NULL. unlinkSub leaks its list entries. Attributes and the char arrays are not on the modelled heap."
 },
 "C80": {
  "note": "Search, setting comments and appending proved for all trees; removing a comment only for at most one comment node (c80_removed_comment_shows_next), and a tree whose comment was removed can no longer be printed (c80_removed_comment_breaks_print)."
 },
 "C81": {
  "note": "ConfigEnumDefault reports success and uses the default for a configured text that is no name (c81_default_hides_mistakes)."
 },
 "C82": {
  "note": "Full for every single timer; a copied timer reports twice (c82_copy_reports_twice), a clock set back gives a negative number (c82_clock_back)."
 },
 "C83": {
  "note": "Violated by the code, and characterised for all requests: on Windows the clock readings are null time stamps, so success is reported only up to 1 ms (c83_win32_nanosleep, c83_win32_sleep, c83_win32_usleep) and the retry loop never ends (c83_win32_retry_never_ends); under LXRT nanosleep takes seconds for milliseconds and sleep overflows from 5 s on. Only the duration below 49 days on Windows and LXRT usleep hold."
 },
 "C84": {
  "note": "POSIX and the Darwin polling loops: full. Windows: exact characterisation for every timeout (c84_win32_relative_exact), the claim holds from 0 to 49.7 days; negative timeouts wait 24 days or more, -1 ms forever (c84_win32_negative, c84_win32_long). Darwin semaphores: from 0 to 2^32 s; -1 s waits 136 years. Absolute Darwin waits: c84_darwin_sem_absolute_partial, c84_darwin_sem_far."
 },
 "C85": {
  "note": "Mutual exclusion for every history. The results agree with the ownership unless a thread ends while holding the mutex: on Windows the next lock() then returns false but takes the mutex (c85_win32_abandoned); on POSIX it is never free again (c85_posix_exit)."
 },
 "C86": {
  "note": "Full up to 2^31 - 1; beyond, posts are lost and initial values are reduced modulo 2^32 or make the semaphore unusable (c86_post_lost, c86_large_initial)."
 },
 "C87": {
  "note": "Timerfd (Linux): never early and no drift proved for every positive period below 2^32 s; setPeriod characterised for every period (negative whole seconds are accepted, 0 blocks for ever, a period set before makePeriodic is reported as failure but used). Violated: each thread leaks a descriptor, and without descriptors the thread does not wait (c87_descriptors_leak, c87_no_wait_without_descriptor); the emulation does not wait in its first cycle and drifts (c87_emulated_*).",
  "status": "partial"
 },
 "C88": {
  "note": "Exact characterisation for every file (c88_exact). Violated: a longer module name suffices (c88_prefix_suffices), and a line of 200 or more characters hides all modules after it (c88_long_line_hides)."
 },
 "C89": {
  "note": "Whole factors: exact (c89_scale_partial, provided the scaled nanoseconds fit into int32). Violated: seconds and nanoseconds are scaled separately and truncated, up to one second is lost (c89_half_lost, c89_second_divided_by_two; c89_scale_error bounds the loss), and scaled nanoseconds from 2.147 s on are undefined (c89_overflow_undefined)."
 },
 "C90": {
  "note": "Violated: right only within one second in 97 days (c90_exact is the exact condition for every time point)."
 },
 "C91": {
  "note": "Proved from 1970 to 9999 and characterised for every instant (c91_utc_exact). Violated: before 1970 fractions of a second are printed as the next second (c91_before_1970_rounds_up); after year 9999 the result is undefined (c91_year_10000); local texts are not ordered when clocks are put back (c91_local_not_injective)."
 },
 "C92": {
  "note": "Long options and positional parameters: full. Violated: prefix options are never listed (c92_prefix_options_missing), and a short name that two options share is listed for both (c92_short_name_listed_twice).",
  "status": "partial"
 },
 "C93": {
  "note": "integers and getDefault are proved in full; the string and the wrong-type parts are violated by the code: strings are cut at the first white space (c93_string_cut), and a value that is not a number never yields the default (c93_default_never_used, c93_not_a_number)"
 },
 "C94": {
  "note": "pthread_rwlock itself is trusted (glibc default kind: readers preferred); termination of timed calls is C84"
 },
 "C95": {
  "note": "Proved: exactly one right report for each prefix enabled by name (c95_all_partial), complete iff every prefix with data is enabled (c95_complete_iff). Violated: data recorded under enableAll or disabled later is not reported (c95_data_missing), warning and error levels become info (c95_level_lost) c95_all_exact covers every history."
 },
 "C96": {
  "note": "Names without blanks are kept. Violated for names with blanks: only the first word returned by wordexp is used (c96_cut_at_blank), so two outputs can share a file (c96_same_file). wordexp is trusted as documented. The condition is exact (c96_kept_exact)."
 },
 "C97": {
  "note": "The return value is characterised for every text of complete lines (c97_return_value). Violated: the number is always one too large (c97_off_by_one); lines behind a surplus closing brace are ignored and success is reported (c97_rest_ignored); an unclosed comment is never reported, the reader does not return (c97_unclosed_never_returns)."
 },
 "C98": {
  "note": "Results proved for all contents of complete lines. Violated: a failed load keeps what it read before the error (c98_failed_load_changes); load into a new root tree calls a member function through a null pointer (c98_load_into_new_tree)."
 },
 "C99": {
  "note": "Error bound for all numbers (subnormal ones too) and survival of short decimals proved for every format with 10^P <= 2^(p-1); for any format whenever the stored number is closer than a twentieth of the last digit (c99_close_survives). The text denotes a number exactly for finite values (c99_all_values). Violated: different doubles get the same text (c99_not_read_back: 0.1+0.2 and 0.3), because digits10 instead of max_digits10 digits are printed; the subnormal 5e-324 comes out as 4.94065645841247e-324 (c99_subnormal_changed); infinities and NaNs cannot be read back."
 },
 "C100": {
  "note": "POSIX: full. Windows: only for texts that fit; a longer text leaves the buffer unterminated and returns -1 (c100_win32_long), so a long thread description (c100_thread_info_win32_undefined) or double (c100_streamed_win32_long) is read beyond its array."
 },
 "C101": {
  "note": "Start mode, cycle mode and log statements: full. Violated: setHardRealtime reports failure if the thread is in the mode already (c101_set_already), and from another thread it changes the caller instead (c101_set_foreign); executesHardRealtime tells the caller's mode (c101_executes_exact); checkHardRealtime never acts (c101_check_never_acts)."
 },
 "C102": {
  "note": "Proved for tasks that unlock only what they hold (c102_mutual_exclusion_partial, c102_next_request). Violated: not recursive, relocking waits for ever (c102_relock_deadlock); unlock by another task frees it (c102_foreign_unlock); RTAI 3.5: Linux tasks never get it and a mutex constructed by one is a null pointer (c102_35_linux_never, c102_35_null)."
 },
 "C103": {
  "note": "Proved: start() returning true implies run() was entered; a failed start leaves nothing behind; the first start succeeds in boundedly many actions when the OS provides its resources. The full property is false: after a failing rt_task_init start() never returns (c103_hangs), an object can be started only once (c103_only_once), restart hangs (c103_restart_hangs) or fails (c103_restart_fails)."
 },
 "C104": {
  "note": "The timing of the cycles is proved for an unchanged positive period. The rest of the property is false: c104_lxrt_setPeriod, c104_lxrt_freezes, c104_qnx_burst, c104_qnx_setPeriod, c104_qnx_setPeriod_stale, c104_qnx_no_resource, c104_qnx_zero_period, c104_platforms_differ."
 },
 "C105": {
  "note": "iTimeStamp, iTimeSpan and timespec round trips hold for all values. False for DDS::Time_t after 2038 (exactly characterised), for nanoseconds >= 2^31, and for the assignment operators, which do not normalise (c105_dds_2038, c105_large_nsec, c105_assign_not_canonical)."
 },
 "C106": {
  "note": "Proved for tasks that unlock only what they hold; every request's result is characterised exactly. Violated: an unlock() by a task that holds nothing drops another task's read lock (c106_stray_unlock). RTAI's lock is modelled as documented; unlock() of RWLockImplLxrt35 does not compile and is read as in 3.3."
 },
 "C107": {
  "note": "Order, at-most-once, memory safety, accounting and the exact drop condition for every schedule; completeness, progress and shutdown provided no semaphore wait is interrupted (c107_interrupted_shutdown). A size of n holds n-1 messages, a size of 1 drops everything (c107_size_one)."
 },
 "C108": {
  "note": "Exact for texts of complete lines; c108_colon_in_first_line shows that a colon in the line _COMMENT_{ makes it data."
 },
 "C109": {
  "note": "Proved within the documented name lengths and for well-formed formats; outside these limits the program leaves its arrays (c76_long_names, c49_overflow, c49_dangling)."
 },
 "C110": {
  "note": "Holds for scopes with isDecremented(); on POSIX a signal lets a thread into the scope unprotected (c110_unprotected_scope), on Windows the property holds in full."
 },
 "C27": {
  "note": "Proved for the lock as such, for the mutex threading model with failing lock() calls, and for the semaphore threading model without signals. With the semaphore model a signal during the wait breaks it: c27_semaphore_interrupted."
 },
 "C111": {
  "note": "Holds for the three documented output types; another value of the enum runs nothing and returns 0 (c111_unknown_type)."
 },
 "C113": {
  "note": "Violations recorded: error of an included file not reported (c113_included_error_not_reported), cycles never return (c113_cycle_never_returns)."
 },
 "C114": {
  "note": "Files that include each other in a cycle have no entries in the specification and are not covered here. The result of an inclusion is ignored and its place does not affect its keys: proved as c114_missing_inclusion and c114_place_ignored."
 },
 "C116": {
  "note": "Proved for calls of changeLogFormat that do not overlap and are not interrupted. Violated otherwise: two callers append to the same list before taking the mutex (c116_overlapping_calls_mix, c116_overlapping_calls_empty), an interrupted call leaves its entries in front of the next format (c116_interrupted_call_sticks), an interrupted line is lost (c116_interrupted_line_lost)."
 },
 "C117": {
  "note": "three findings: reason of failed dlopen lost, wrong type silent, an exception during the search disables library plugins"
 },
 "C119": {
  "note": "Violated: DataHeader::dsin is never initialised by a constructor (print reads an indeterminate value), and frames with a semicolon make the text ambiguous; the exact printed text and the injectivity for frames without a semicolon are proved."
 },
 "C120": {
  "note": "Violated: an output whose host cannot be reached says nothing and drops every message silently; rows are exact only for texts without apostrophes (see C71)."
 },
 "C121": {
  "note": "Violated by the code, exactly characterised per failure point (c121_failed_overwrite_loses_oldest, c121_failed_read_loses, c121_failed_growth_corrupts, c121_failed_shrink_undefined); c121_histories_partial covers all histories without failures in the copy loop of setCapacity."
 },
 "C122": {
  "note": "Uses the models of C38-C41 and C73-C75. The order in which the libraries and the program register is fixed (libraries first)."
 },
 "C123": {
  "note": "Violated for the settings, printConfiguration, the queue test of the worker, the flags of the worker thread and the buffer reset in flush (c123_*_race); the rest is proved for all programs and schedules. Trusted: sequentially consistent interleavings, a post happens before every later wait of the same (binary) semaphore."
 },
 "C124": {
  "note": "Finding: an output that logs to its own stream deadlocks (c124_reentrant_output)."
 },
 "C125": {
  "note": "Violated: queue tested and cleared without mutex, plain flag, dispatch queue without lock."
 },
 "C126": {
  "note": "Partial: for histories without a time-out of the second wait of writeLock and without an unlock that gives up after 30000 s (the first loses the writer mutex, C54). Findings: c126_try_waits, c126_writer_starves."
 },
 "C127": {
  "note": "End-to-end delivery. Partial: assumes log arguments do not log, uninterrupted waits, and no threadStream() during the unprotected end of flush (violations: c45_flush_race, c45_nested_shared, c46_interrupted_push)."
 },
 "C130": {
  "note": "partial: an interrupted wait makes remove/add/flush return without effect (c130_interrupted_remove, c130_interrupted_add_flush)"
 },
 "C131": {
  "note": "c131_backlog_tight shows that the bound is attained for every n."
 },
 "C132": {
  "note": "pool size bound for every execution; exclusivity and texts only under the conditions of C45 (violated otherwise, see C45); a flush that is interrupted leaks the stream when its thread ends (c132_leak)"
 },
 "C134": {
  "note": "partial: with compression, this succeeds, and no midnight passes between reading the clock and writing (c134_midnight_duplicates shows duplicated lines otherwise). Opening the log file may fail at any time. Deletion of old files is covered by c134_deletion_only_old and c134_deletion_intact_partial when moving succeeds (when a rename fails, the log file itself may be among the deleted files)"
 },
 "C135": {
  "note": "partial: the clock is not set back and no midnight passes between the two readings of the clock in writeLogLine (C77 has the counterexamples)"
 },
 "C136": {
  "note": "partial: compressing succeeds, no crash while compressing (c136_zip_crash_duplicates); c136_wrong_day shows lines archived under the wrong day. Opening the log file may fail at any time. Deletion of old files is covered by c136_deletion_only_old and c136_deletion_kept_partial when moving succeeds"
 },
 "C138": {
  "note": "ConfigManager::load begins with a call through a null pointer (C98); the configuration part of C138 reads it as finding nothing, as said in loadNew."
 },
 "C139": {
  "note": "cancel() is covered by start_publishes and join_collects only; the accesses of trace log messages to m_thread_info are not recorded"
 },
 "C140": {
  "note": "include lines have no effect in this reader (C113 covers them); comments are not stored (C108 covers that)"
 },
 "C141": {
  "note": "for trees below change_style_depth the code violates the property (c141_small_tree_wrong_value)"
 },
 "C142": {
  "note": "Holds except for observers unregistered while a notification is in progress (c142_after_unregister gives the exact number of late calls, c142_called_after_unregister a run). Values are compared by what get would return in the callback. Not modelled: insert of the base class, exceptions, several threads."
 },
 "C144": {
  "note": "instance() is a static local (thread safe). initialize, load, addParameter and observers that use the manager are not modelled; the general race theorem leaves out unregisterObserver, which writes only if the observer is registered (c144_unregister)."
 },
 "C145": {
  "note": "Does not hold: the file is opened with gzopen(..., \"a+b\"), and zlib.h says that gzopen returns NULL if '+' is in the mode. c145_zip_never_logs: with /Zip no line is ever written, for any history; c145_line_lost: one line, nothing fails, no file. c145_append_mode_partial: with the mode \"ab\" the property would hold (all files, the same lines as without /Zip). Not modelled: data that zlib buffers before the flush, the handle that the constructor loses after a rotation (it opens the file twice)."
 },
 "C146": {
  "note": "Does not hold: failures of opening and of reading are not reported. c146_contents_partial: if nothing fails, the archive is complete; c146_result: exactly when a failure is reported; c146_archive: the archive always holds a beginning of the contents; c146_success_without_archive: success is reported without any archive, or with an existing archive emptied. Not modelled: errors of gzclose (zlib may write data only then)."
 },
 "C147": {
  "note": "Does not hold. POSIX: c147_running_partial: while the thread runs, priority() is the last accepted priority, at first the inherited one, and setPriority() answers right; c147_created_priority_ignored: the priority given to the constructor has no effect at all (c147_created_priority_lost: witness); c147_not_running: before the start and after a join both calls are undefined (pthread_t 0 or dangling), after the end 0 and false. LXRT: c147_lxrt: setPriority() never changes anything, priority() is always that of the constructor, and tasks get it. Not modelled: cancel, Win32, failing pthread_create."
 },
 "C148": {
  "note": "initialize is not modelled; the text of printHelp counts as its result."
 },
 "C149": {
  "note": "toLower and toUpper pass a char to the C functions (trim converts to unsigned char first): on platforms where char is signed a byte between 128 and 254 is undefined behaviour (c149_undefined), exactly characterised by c149_lower_partial and c149_upper_partial; which values get<bool> accepts is C42."
 },
 "C150": {
  "note": "operator[] makes an entry with the default value before the assignment that throws: for a new key it stays (c150_ghost), and the insertion that is tried again says that the key was not new; exactly characterised by c150_no_effect_partial and c150_history. Assumed: an assignment that throws leaves the old value, as for strings."
 }
}