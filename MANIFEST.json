{"claims": [
 {"property": "C01", "status": "proved", "theorems": ["SyncStream.C01_lines_sound", "SyncStream.C01_lines_unique", "SyncStream.C01_history_refines", "SyncStream.C01_log_deterministic", "SyncStream.C01_read_newest", "SyncStream.C01_feeds_total"], "note": "Full claim for LineBuffer with the default parse_lines: refinement of an abstract log by every history, and the closed form of read() after any writes."},
 {"property": "C02", "status": "proved", "theorems": ["SyncStream.C02_bounded", "SyncStream.C02_process", "SyncStream.C02_threads"], "note": "Thread mode for every history of calls, and in every moment of every race of any calls (C02_threads); process mode for every reachable state of the whole system (buffer, mirrors, queue)."},
 {"property": "C03", "status": "proved", "theorems": ["SyncStream.C03_read_pure", "SyncStream.C03_read_unobservable"], "note": "The state after a read is equal to the state before it, so no later call can tell."},
 {"property": "C04", "status": "proved", "theorems": ["SyncStream.C04_read_size"], "note": "All reachable states, all integer sizes."},
 {"property": "C05", "status": "proved", "theorems": ["SyncStream.C05_cut_independent", "SyncStream.C05_two_cuts", "SyncStream.C05_split_crlf_extra_record"], "note": "Cuts not inside \\r\\n; a witness shows the extra record otherwise."},
 {"property": "C06", "status": "proved", "theorems": ["SyncStream.C06_file", "SyncStream.C06_host_no_terminators", "SyncStream.C06_no_terminators", "SyncStream.C06_process"], "note": "Thread, process, host and file mode: every text item of read() in every reachable state; in file mode for directories without leftovers."},
 {"property": "C07", "status": "partial", "theorems": ["SyncStream.C07_host_violated", "SyncStream.C07_host_len_partial", "SyncStream.C07_violated", "SyncStream.C07_len_partial", "SyncStream.C07_reader_partial", "SyncStream.C07_reader_violated"], "note": "The code violates the claim: C07_violated is a witness; C07_len_partial says exactly what len() is."},
 {"property": "C08", "status": "partial", "theorems": ["SyncStream.C08_violated", "SyncStream.C08_write_return_partial"], "note": "The code violates the documented return value: C08_violated; C08_write_return_partial says exactly what is returned."},
 {"property": "C09", "status": "proved", "theorems": ["SyncStream.C09_closed"], "note": "All histories before and after close()."},
 {"property": "C10", "status": "proved", "theorems": ["SyncStream.C10_clear_resets", "SyncStream.C10_clear_succeeds", "SyncStream.C10_host_clear"], "note": "All histories before and after clear() on an open buffer."},
 {"property": "C11", "status": "proved", "theorems": ["SyncStream.C11_new_line", "SyncStream.C11_new_line_completes", "SyncStream.C11_new_line_idempotent"], "note": "All reachable open states."},
 {"property": "C12", "status": "proved", "theorems": ["SyncStream.C12_linearizable"], "note": "Any number of threads, all scripts (also depending on results), all interleavings of the primitive steps; an operation of StringIO or deque is one step. Linearizability in the sense of an atomic object, plus the contents whenever no call is running."},
 {"property": "C13", "status": "partial", "theorems": ["SyncStream.C13_two_moments_partial", "SyncStream.C13_violated"], "note": "The code violates the claim: C13_violated is a schedule whose results no order of the calls gives. C13_two_moments_partial: for threads that do not read or close, in every race each call takes effect in one moment, and clear in two (the unfinished line, later the completed items)."},
 {"property": "C14", "status": "partial", "theorems": ["SyncStream.C14_no_reads_partial", "SyncStream.C14_violated", "SyncStream.C14_read_too_long"], "note": "The code violates the claim: C14_violated (the item is lost), C14_read_too_long (read() returns more than maxlen items). C14_no_reads_partial: while nobody reads, clears or closes, a delivery is atomic in every race and nothing is lost."},
 {"property": "C15", "status": "proved", "theorems": ["SyncStream.C15_file", "SyncStream.C15_creation", "SyncStream.C15_new_buffer"], "note": "int arguments; other types raise TypeError as well but are not in the model."},
 {"property": "C16", "status": "proved", "theorems": ["SyncStream.C16_conservation", "SyncStream.C16_conservation_writes"], "note": "Both modes, any timeout, any behaviour of the queue, any interference with what is shared."},
 {"property": "C17", "status": "proved", "theorems": ["SyncStream.C17_host_write_sends", "SyncStream.C17_host_aggressive_sends", "SyncStream.C17_write_sends", "SyncStream.C17_no_line_held", "SyncStream.C17_aggressive_sends"], "note": "All reachable mirrors."},
 {"property": "C18", "status": "proved", "theorems": ["SyncStream.C18_host_failed_write_keeps", "SyncStream.C18_host_no_loss", "SyncStream.C18_failed_write_keeps", "SyncStream.C18_no_loss"], "note": "Local mirror and host mirror. In host mode a write that fails at the state check does not buffer its text (counted as not accepted)."},
 {"property": "C19", "status": "proved", "theorems": ["SyncStream.C19_host_after_close", "SyncStream.C19_host_close_sends", "SyncStream.C19_close_sends", "SyncStream.C19_close_returns", "SyncStream.C19_after_close"], "note": "aggressive mode with text pending from before the mode was switched on is excluded, see C56."},
 {"property": "C20", "status": "partial", "theorems": ["SyncStream.C20_read_partial", "SyncStream.C20_read_size_always_empty", "SyncStream.C20_violated"], "note": "The code violates the part about read(size): C20_violated, and C20_read_size_always_empty says what it returns."},
 {"property": "C21", "status": "proved", "theorems": ["SyncStream.C21_race", "SyncStream.C21_race_open", "SyncStream.C21_race_silent", "SyncStream.C21_stopped"], "note": "Every state of the whole system reachable after a stop without reset, call by call; and step by step (C21_race, C21_race_open, C21_race_silent): any number of processes and threads, every interleaving of the single steps and locks, also with the lazily made lock. A write that was already running when the mirrors were stopped may still send its text; the claim is about the writes that start after stop_all_mirrors() has returned."},
 {"property": "C22", "status": "partial", "theorems": ["SyncStream.C44_leaving_delivers", "SyncStream.C22_host_violated", "SyncStream.C22_violated", "SyncStream.C22_wait_blocks", "SyncStream.C22_leave_sends_end_partial"], "note": "The code violates the claim: C22_violated and C22_wait_blocks (a partial line buffered when the stop arrives); C22_leave_sends_end_partial covers every other reachable state."},
 {"property": "C23", "status": "proved", "theorems": ["SyncStream.C23_modes_agree"], "note": "Proved without the proviso about \\r\\n."},
 {"property": "C24", "status": "proved", "theorems": ["SyncStream.C24_wait_returns", "SyncStream.C24_wait_waits", "SyncStream.C24_two_ends_return_early", "SyncStream.C24_programs", "SyncStream.C24_queue_interleaves", "SyncStream.C24_system"], "note": "C24_wait_returns: every interleaving of proper streams; C24_programs: streams produced by arbitrary programs of the processes; C24_system: every order of the calls in the whole system. The queue always has room (a queue without a size limit, as the code creates it)."},
 {"property": "C25", "status": "proved", "theorems": ["SyncStream.C24_wait_returns", "SyncStream.C25_streams_keep_order", "SyncStream.C25_system", "SyncStream.C24_programs"], "note": "For every history of the system and for wait(); texts by the log of C01, errors and warnings as one item each."},
 {"property": "C26", "status": "partial", "theorems": ["SyncStream.C26_host_partial", "SyncStream.C26_host_violated", "SyncStream.C27_order_partial", "SyncStream.C26_one_process_partial", "SyncStream.C26_mirror_sends_whole_lines", "SyncStream.C26_violated"], "note": "The code violates the claim: C26_violated; it holds when every transmitted text ends with a line terminator."},
 {"property": "C27", "status": "partial", "theorems": ["SyncStream.C27_host_replays", "SyncStream.C27_host_order", "SyncStream.C27_order_partial", "SyncStream.C27_violated"], "note": "LineProcBuffer violates the claim: C27_violated; it holds when every text ends with a line terminator."},
 {"property": "C28", "status": "proved", "theorems": ["SyncStream.C28_force_stop_returns", "SyncStream.C28_force_stop_consumes", "SyncStream.C28_reset", "SyncStream.C28_old_mirrors_detached"], "note": "C28_old_mirrors_detached is a non-interference statement: removing every use of an old mirror from any later history gives the same main buffer."},
 {"property": "C29", "status": "proved", "theorems": ["SyncStream.C29_history_refines", "SyncStream.C29_log_deterministic", "SyncStream.C29_like_memory"], "note": "All histories of all calls of one process on a directory without leftovers; C29_like_memory compares call by call with the model of LineBuffer. Texts must be encodable and clear() needs a name without glob characters (C33, C36 cover the rest)."},
 {"property": "C30", "status": "proved", "theorems": ["SyncStream.C30_linearizable", "SyncStream.C30_own_order"], "note": "C30_linearizable: any number of processes with distinct tmp ids, the same name and maxlen, all scripts, all interleavings of the primitive file operations and lock operations. C30_own_order: the records of each process are complete and in its order. Crashes are C31-C33's subject."},
 {"property": "C31", "status": "proved", "theorems": ["SyncStream.C31_crash_safe", "SyncStream.C31_completes", "SyncStream.C31_completes_total"], "note": "A crash is a stop between any two primitive steps (every rename, remove, open, and every single character written); all calls except clear()."},
 {"property": "C32", "status": "partial", "theorems": ["SyncStream.C32_hidden_violated", "SyncStream.C32_empty_record_violated", "SyncStream.C32_shown_twice_violated", "SyncStream.C32_text_kept_partial"], "note": "The code violates the claim in three ways, each shown for every state where it can happen (C32_hidden_violated, C32_empty_record_violated, C32_shown_twice_violated); C32_text_kept_partial: acknowledged text is never lost."},
 {"property": "C33", "status": "partial", "theorems": ["SyncStream.C33_removes_own_partial", "SyncStream.C33_touches_only_partial", "SyncStream.C33_foreign_violated", "SyncStream.C33_own_violated"], "note": "The code violates both parts (C33_foreign_violated for every name, C33_own_violated for 'x[1]'); the partial theorems say exactly what holds for names without glob characters, in every directory."},
 {"property": "C34", "status": "partial", "theorems": ["SyncStream.C34_records_distinct", "SyncStream.C34_record_not_tmp", "SyncStream.C34_tmp_distinct", "SyncStream.C34_tmp_violated"], "note": "Temporary files of different names can coincide: C34_tmp_violated; the other three parts are proved."},
 {"property": "C35", "status": "proved", "theorems": ["SyncStream.C35_round_trip", "SyncStream.C35_stored_texts", "SyncStream.C35_platform_invisible"], "note": "C35_platform_invisible: every history of calls gives the same results with either line separator."},
 {"property": "C36", "status": "partial", "theorems": ["SyncStream.C36_violated", "SyncStream.C36_records_intact_partial", "SyncStream.C36_unfinished_partial"], "note": "The code violates the claim: C36_violated (for every state with records and a suitable text); C36_records_intact_partial and C36_unfinished_partial say what remains."},
 {"property": "C37", "status": "partial", "theorems": ["SyncStream.C37_one_record", "SyncStream.C37_order_violated"], "note": "The second part is violated: C37_order_violated, for every reachable state with an unfinished line."},
 {"property": "C38", "status": "proved", "theorems": ["SyncStream.C38_close_completes", "SyncStream.C38_closed_for_good", "SyncStream.C38_close_exc_keeps_unfinished"], "note": "C38_closed_for_good: every directory and every later history without clear()."},
 {"property": "C39", "status": "proved", "theorems": ["SyncStream.C39_len_is_read_length"], "note": "Every content of the directory, including gaps left by a crash."},
 {"property": "C40", "status": "proved", "theorems": ["SyncStream.C40_bounded", "SyncStream.C40_get_pure", "SyncStream.C40_error_changes_nothing", "SyncStream.C40_error_records", "SyncStream.C40_local_pure"], "note": "All requests and local calls, arbitrary JSON bodies."},
 {"property": "C41", "status": "partial", "theorems": ["SyncStream.C41_as_local", "SyncStream.C41_reader_reads", "SyncStream.C41_violated"], "note": "Proved for texts without surrogate code points, both modes: service state equals that of a local buffer; reader result for every size. False for surrogate pairs (C41_violated). Environment assumption: int() of a decimal numeral."},
 {"property": "C42", "status": "partial", "theorems": ["SyncStream.C42_survives", "SyncStream.C42_violated"], "note": "Proved for tracebacks, pending text and stored items without surrogates; false for surrogate pairs (C42_violated)."},
 {"property": "C43", "status": "partial", "theorems": ["SyncStream.C43_maxlen_partial", "SyncStream.C43_violated", "SyncStream.C43_reader_partial", "SyncStream.C43_reader_violated"], "note": "Positive part up to the first reset; reset removes maxlen from the states (C43_violated)."},
 {"property": "C44", "status": "proved", "theorems": ["SyncStream.C44_stop", "SyncStream.C44_stays", "SyncStream.C44_write_raises", "SyncStream.C44_leaving_delivers", "SyncStream.C44_resume", "SyncStream.C44_reader_closed", "SyncStream.C44_resumes"], "note": "All parts: stop (local and by reader), persistence, writes raise, leaving by StopIteration delivers, resume. Network failures are covered by an oracle."},
 {"property": "C45", "status": "partial", "theorems": ["SyncStream.C45_readable_partial", "SyncStream.C45_violated", "SyncStream.C45_mirrors_not_foreign"], "note": "Positive part for an open buffer and requests whose data is not foreign; violated by foreign data."},
 {"property": "C46", "status": "proved", "theorems": ["SyncStream.C46_recognised", "SyncStream.C46_roundtrip", "SyncStream.C46_injective", "SyncStream.C46_foreign_unchanged", "SyncStream.C46_recognised_iff"], "note": "All messages and all JSON values of the model (no floats, see DESIGN.md)."},
 {"property": "C47", "status": "proved", "theorems": ["SyncStream.C47_type", "SyncStream.C47_exception_lines", "SyncStream.C47_exception_clean", "SyncStream.C47_str", "SyncStream.C47_plain_string", "SyncStream.C47_exception_text"], "note": "The traceback module is a parameter: any list of formatted strings."},
 {"property": "C48", "status": "proved", "theorems": ["SyncStream.C48_restored", "SyncStream.C48_scoped", "SyncStream.C48_reentered"], "note": "Programs are arbitrary nestings of with-blocks of buffers, mirrors and redirect objects, prints, exceptions, try/except and try/finally. C48_restored: both streams are restored however the run ends; C48_scoped: every text went to the innermost enclosing redirection of its stream. C48_reentered proves the bracketed exception: entering an object inside its own context leaves both streams None."},
 {"property": "C49", "status": "partial", "theorems": ["SyncStream.C49_timeout_never_waits", "SyncStream.C49_violated", "SyncStream.C49_no_timeout_waits_partial"], "note": "The code violates the claim: C49_violated; C49_timeout_never_waits says what happens instead."},
 {"property": "C50", "status": "partial", "theorems": ["SyncStream.C50_same", "SyncStream.C50_kept", "SyncStream.C50_lazy", "SyncStream.C50_placeholder_dependency", "SyncStream.C50_placeholder_module", "SyncStream.C50_made", "SyncStream.C50_full_name", "SyncStream.C50_placeholder_violated", "SyncStream.C50_placeholder_use", "SyncStream.C50_path", "SyncStream.C50_protected", "SyncStream.C50_loads", "SyncStream.C50_order_partial", "SyncStream.C50_order_calls_partial", "SyncStream.C50_once_newer", "SyncStream.C50_once_partial", "SyncStream.C50_force_violated", "SyncStream.C50_order_violated", "SyncStream.C50_once_violated"], "note": "Both versions of importlib.util that the project supports are modelled. Proved for both: same object for the same name (C50_same), never replaced (C50_kept), nothing runs on import (C50_lazy), placeholders (C50_placeholder_*). At most once: proved for newer Pythons (C50_once_newer) and for older ones without cycles (C50_once_partial); C50_once_violated shows a double run with a cycle. Dependencies first: proved for older Pythons (C50_order_partial, C50_order_calls_partial); false in newer ones, where force_load runs nothing (C50_force_violated, C50_order_violated)."},
 {"property": "C51", "status": "partial", "theorems": ["SyncStream.C51_partial", "SyncStream.C51_violated"], "note": "C51_partial proves it when no placeholder is registered under the name; C51_violated proves for all later programs that a placeholder registered by an optional import is returned by a required import."},
 {"property": "C52", "status": "partial", "theorems": ["SyncStream.C52_context_partial", "SyncStream.C52_temporary_partial", "SyncStream.C52_nested_violated", "SyncStream.C52_after_violated"], "note": "The code violates the property (two witnesses); proved for contexts that are not nested and before any context."},
 {"property": "C53", "status": "proved", "theorems": ["SyncStream.C53_threads", "SyncStream.C53_files", "SyncStream.C53_host", "SyncStream.C53_process", "SyncStream.C53_process_lazy", "SyncStream.C53_host_mirror", "SyncStream.C53_host_system", "SyncStream.C53_host_retries", "SyncStream.C53_host_world"], "note": "Every thread in a call can go on or waits (indirectly) for one that can, all running calls can be finished, and they do end however they are scheduled. Proved for threads on one buffer, file buffers, the host service, the process mode (with the locks of the mirrors made already, and with the locks made on the first use), threads that share a host mirror, and the host mode as a whole: any number of processes whose requests are served by threads (C53_host_system), also with the attempts of urllib3 (C53_host_retries), and with any number of threads that share the mirrors of the processes, whose locks are made on the first use and held during the requests (C53_host_world). In C53_process_lazy no mirror is given out while calls run (take)."},
 {"property": "C54", "status": "partial", "theorems": ["SyncStream.C54_larger_writer_partial", "SyncStream.C54_smaller_writer_law", "SyncStream.C54_violated"], "note": "The code violates the claim: C54_violated; C54_smaller_writer_law gives the exact result of a write with a smaller maxlen, C54_larger_writer_partial the case in which the claim holds."},
 {"property": "C55", "status": "proved", "theorems": ["SyncStream.C55_creation", "SyncStream.C55_suffix_ignored"], "note": "Paths and tmp ids as strings."},
 {"property": "C56", "status": "partial", "theorems": ["SyncStream.C56_violated", "SyncStream.C56_close_loses", "SyncStream.C56_mode_change_partial"], "note": "The code violates the claim: C56_violated and C56_close_loses; it holds when nothing is buffered at the switch."},
 {"property": "C57", "status": "partial", "theorems": ["SyncStream.C57_no_reads_partial", "SyncStream.C57_bounds_partial", "SyncStream.C57_violated"], "note": "The code violates the claim: C57_violated is a schedule. C57_bounds_partial: in every race len() is between 1 and maxlen. C57_no_reads_partial: while nobody reads, clears or closes, len() is linearizable."},
 {"property": "C58", "status": "partial", "theorems": ["SyncStream.C58_after_partial", "SyncStream.C58_raises_partial", "SyncStream.C58_violated"], "note": "The code violates the claim: C58_violated is a schedule. C58_after_partial: calls started after a close has returned behave as on a closed buffer, in every race. C58_raises_partial: the exceptions that calls racing with close can raise."},
 {"property": "C59", "status": "partial", "theorems": ["SyncStream.C59_raises_partial", "SyncStream.C59_alone", "SyncStream.C59_violated"], "note": "The code violates the claim: C59_violated is a schedule; C59_alone: without concurrency the calls do not raise. C59_raises_partial: in every race without close only read can raise, only IndexError."},
 {"property": "C60", "status": "proved", "theorems": ["SyncStream.C60_linearizable", "SyncStream.C60_log"], "note": "All requests, not only those of mirrors. Requests are served by separate threads; the local methods read/clear/close of the buffer object are excluded (see C61)."},
 {"property": "C61", "status": "partial", "theorems": ["SyncStream.C61_violated", "SyncStream.C61_partial"], "note": "Violated for a local read(1) against one POST (witness schedule); proved when nobody uses the buffer locally or asks to clear it."},
 {"property": "C62", "status": "proved", "theorems": ["SyncStream.C62_host", "SyncStream.C62_process"], "note": "Both main buffers, every text and state."},
 {"property": "C63", "status": "partial", "theorems": ["SyncStream.C63_violated", "SyncStream.C63_one_thread_partial", "SyncStream.C63_receivers_partial"], "note": "Violated by an explicit schedule of mirror against receive; proved for one thread that takes and receives (with any other threads using the buffer), and for any number of receivers without takes. The two halves of += are separate steps, as in the language; CPython with a global lock rarely switches threads between them."},
 {"property": "C64", "status": "proved", "theorems": ["SyncStream.C64_none", "SyncStream.C64_define", "SyncStream.C64_show", "SyncStream.C64_first_use", "SyncStream.C64_replaced", "SyncStream.C64_same", "SyncStream.C64_again", "SyncStream.C64_has", "SyncStream.C64_failed", "SyncStream.C64_once_newer"], "note": "All programs of lazy imports, definitions and uses of lazy attributes, by an invariant over programs on top of the one for nested loading. The code of a module that is being loaded may use lazy modules but not lazy attributes. An attribute whose value is None is looked up again at every use; the claims about later uses are for other objects."},
 {"property": "C65", "status": "partial", "theorems": ["SyncStream.C65_linearizable_partial", "SyncStream.C65_first_use", "SyncStream.C65_writers_partial", "SyncStream.C65_receive_partial", "SyncStream.C65_lost", "SyncStream.C65_doubled", "SyncStream.C65_violated"], "note": "C65_lost and C65_doubled are schedules of two first uses; C65_violated is the negation of the claim. C65_linearizable_partial, C65_writers_partial, C65_receive_partial: all schedules, any number of threads and processes, if the locks exist; C65_first_use: they do after one call. send_eof, send_error, send_warning and close among threads that share a mirror: see C84. Not covered: the setters."},
 {"property": "C66", "status": "proved", "theorems": ["SyncStream.C66_streams", "SyncStream.C66_false_is_the_end", "SyncStream.C66_goes_on", "SyncStream.C66_wait", "SyncStream.C66_execution"], "note": "C66_streams: all schedules of all calls, at every moment; C66_false_is_the_end, C66_goes_on, C66_wait: programs that end with close(); C66_execution: an execution of two processes and the main process in turns. The queue has no size limit, the main process does not stop, close or reset, and each process has one thread (several: C65)."},
 {"property": "C67", "status": "partial", "theorems": ["SyncStream.C67_one_redirects_partial", "SyncStream.C67_crossed", "SyncStream.C67_violated", "SyncStream.C67_crossed_redirect"], "note": "Violated with contexts in two threads (C67_violated, C67_crossed, C67_crossed_redirect); proved in general for one redirecting thread among printing ones (C67_one_redirects_partial)."},
 {"property": "C68", "status": "partial", "theorems": ["SyncStream.C68_linearizable_partial", "SyncStream.C68_order_partial", "SyncStream.C68_writers_partial", "SyncStream.C68_failures_partial", "SyncStream.C68_first_use", "SyncStream.C68_lost", "SyncStream.C68_doubled", "SyncStream.C68_violated", "SyncStream.C68_system_partial"], "note": "C68_lost and C68_doubled are schedules of two first uses; C68_violated is the negation of the claim. C68_linearizable_partial, C68_order_partial, C68_writers_partial, C68_failures_partial: all schedules and failures, any number of threads, if the lock exists; C68_first_use: it does after one call. send_data, check_states, send_eof, send_error, send_warning and close (requests outside the lock) among threads: see C85. Not covered: the setter. C68_system_partial: the same in the host mode as a whole (C87), where no write fails if no request is lost and nobody stops the mirrors."},
 {"property": "C69", "status": "partial", "theorems": ["SyncStream.C69_count_partial", "SyncStream.C69_closed_partial", "SyncStream.C69_wait_partial", "SyncStream.C69_twice", "SyncStream.C69_violated", "SyncStream.C69_raises", "SyncStream.C69_late", "SyncStream.C69_host_violated"], "note": "Proved for mirrors that at most one thread closes; the negation of the full statement (several closing threads) is C69_violated, with C69_twice, C69_raises, C69_late and C69_host_violated for its forms."},
 {"property": "C70", "status": "partial", "theorems": ["SyncStream.C70_deaths", "SyncStream.C70_order_partial", "SyncStream.C70_no_missing_file", "SyncStream.C70_read_order_partial", "SyncStream.C70_order_violated"], "note": "Proved for all programs, interleavings and deaths: what the files can be at every moment, that no call misses a file, that read() shows one moment, that write() has stored its lines when it returns (C70_deaths, C70_no_missing_file). Order and no early loss are proved for calls that add at most one record (C70_order_partial, C70_read_order_partial); for calls that add several they are false (C70_order_violated)."},
 {"property": "C71", "status": "partial", "theorems": ["SyncStream.C71_names_apart", "SyncStream.C71_order_partial", "SyncStream.C71_no_missing_file", "SyncStream.C71_untouched", "SyncStream.C71_related_violated", "SyncStream.C71_related_clear_violated"], "note": "Proved for all programs, interleavings and deaths if no name is another one followed by - and more (C71_names_apart, C71_no_missing_file, C71_untouched); the order of the records as in C70 for calls that add at most one record (C71_order_partial). For names like x and x-y it is false (C71_related_violated, C71_related_clear_violated)."},
 {"property": "C72", "status": "partial", "theorems": ["SyncStream.C72_alive", "SyncStream.C72_alive_lazy", "SyncStream.C72_between_calls", "SyncStream.C72_arrives", "SyncStream.C72_waits", "SyncStream.C72_lost", "SyncStream.C72_reset_violated", "SyncStream.C72_waiting_violated"], "note": "Proved: who is alive goes on if nobody was killed at the state lock (C72_alive, C72_alive_lazy, C72_between_calls); what killed processes sent arrives, C66 with kills (C72_arrives); no False once a process was killed before its close (C72_waits); a lost state lock blocks stop_all_mirrors, write and reset_states for ever (C72_lost). Violated by the code: killed while holding the state lock, the documented force_stop and reset_states hang (C72_reset_violated); killed while waiting for it, the manager takes it for nobody (C72_waiting_violated). Not modelled: a kill in the middle of a message to the manager."},
 {"property": "C73", "status": "partial", "theorems": ["SyncStream.C73_once", "SyncStream.C73_loaded", "SyncStream.C73_after", "SyncStream.C73_no_deadlock", "SyncStream.C73_alone", "SyncStream.C73_path", "SyncStream.C73_placeholder_use", "SyncStream.C73_protected", "SyncStream.C73_first_use_violated", "SyncStream.C73_half_violated", "SyncStream.C73_twice_violated", "SyncStream.C73_cycle_violated"], "note": "Proved for newer versions of Python: code at most once, nothing half loaded, later accesses succeed; for all versions: no deadlock without cycles, and a thread that is alone loads the module and finds the attribute (C73_alone). Violated: one of two first accesses can fail with AttributeError (all versions), half-loaded modules and code run twice (older), deadlock of modules that use each other (newer). lazy_import itself in several threads is not modelled."},
 {"property": "C74", "status": "partial", "theorems": ["SyncStream.C74_same", "SyncStream.C74_mirror", "SyncStream.C74_finalizer", "SyncStream.C74_refused_read_partial", "SyncStream.C74_states_read", "SyncStream.C74_reader", "SyncStream.C74_outside_partial", "SyncStream.C74_context_partial", "SyncStream.C74_unread_violated"], "note": "GivenBack/OneOpen/ClearedIdle for all histories of mirrors and readers; erasure theorem to Model/Host; the answer of check_states is read before it is given back (C74_states_read); pools: one per mirror cleared by the finalizer, readers outside of contexts and in one context. Violated: a mirror gives back the answer to an accepted message unread."},
 {"property": "C75", "status": "partial", "theorems": ["SyncStream.C75_alone", "SyncStream.C75_one_importer_partial", "SyncStream.C75_settled", "SyncStream.C75_two_objects_violated", "SyncStream.C75_unfinished_violated"], "note": "Proved for all interleavings: names that one thread imports (C75_one_importer_partial), names that are registered and not being imported (C75_settled), and the agreement of an uninterrupted call with Model/Lazy (C75_alone). Violated with several importers of one name: two objects (C75_two_objects_violated), an unfinished object (C75_unfinished_violated). Not modelled: using a module while it is being imported; that two objects can share one spec."},
 {"property": "C76", "status": "proved", "theorems": ["SyncStream.C76_sequential", "SyncStream.C76_reader", "SyncStream.C76_delivery"], "note": "Proved for processes with one thread each. Requests whose answer is lost are processed before the client goes on (stated in Model/HostSystem). Local reading of the buffer by its owner is left out because of C61. C76_sequential covers stops and losses, C76_reader the readers, C76_delivery the end state."},
 {"property": "C77", "status": "proved", "theorems": ["SyncStream.C77_stop", "SyncStream.C77_resume"], "note": "Lean theorems about the step-by-step model of service, mirrors, readers and owner. The requests of the stopping call and of the write are not lost; everything else may be."},
 {"property": "C78", "status": "partial", "theorems": ["SyncStream.C78_linearizable", "SyncStream.C78_lines", "SyncStream.C78_default", "SyncStream.C78_self_violated"], "note": "Proved: with any lock-free override that may raise, every call by any number of threads takes effect in one moment and hands its completed lines over in one call (C78_linearizable); the lines handed over are those of the calls that did not raise (C78_lines); the default is the buffer of the other properties, step by step (C78_default). Violated by the code: an override that uses a method taking the lock waits for itself (C78_self_violated). Overrides that touch last_line are not modelled."},
 {"property": "C79", "status": "partial", "theorems": ["SyncStream.C79_fresh", "SyncStream.C79_when", "SyncStream.C79_unused", "SyncStream.C79_used_never", "SyncStream.C79_main_used_violated", "SyncStream.C79_fork_violated", "SyncStream.C79_own", "SyncStream.C79_pool", "SyncStream.C79_shared_violated", "SyncStream.C79_shared_write", "SyncStream.C79_pool_violated"], "note": "Proved: what arrives, when a message can be sent, that a used mirror can never be sent, the refinement to ProcSys if each reference is sent alone or forked before use, and Pool.map with at most four tasks per worker. Violated by the code: more than four tasks per worker (shared copies, wait() never returns), use in the main process before sending, and forks of mirrors with pending text."},
 {"property": "C80", "status": "partial", "theorems": ["SyncStream.C80_attempts", "SyncStream.C80_attempts_unique", "SyncStream.C80_bounds", "SyncStream.C80_covered", "SyncStream.C80_once", "SyncStream.C80_alone", "SyncStream.C80_mirror", "SyncStream.C80_clear_violated", "SyncStream.C80_reset_violated"], "note": "Proved: which attempts are made, the bounds, that GET and POST with their attempts are one request, that a mirror cannot tell, and DELETE if nobody uses the service between the attempts. Violated by the code: a repeated DELETE (clear, reset_states) with others in between is not one moment. The attempts in the threaded service are C82."},
 {"property": "C81", "status": "partial", "theorems": ["SyncStream.C81_lines", "SyncStream.C81_texts", "SyncStream.C81_default", "SyncStream.C81_deadlock", "SyncStream.C81_inner_violated"], "note": "C81_lines: rely/guarantee over all interleavings, what an override is given depends on its own process only. C81_texts: as long as it does not raise, all together are the completed lines of the texts. C81_default: the default gives the model of C31-C33 step by step. C81_deadlock: no lock of the buffer is held while the override runs. C81_inner_violated: a text that the override writes to its own buffer is lost, for all texts and directories. Not modelled: other overrides that change drafts."},
 {"property": "C82", "status": "proved", "theorems": ["SyncStream.C82_sequential", "SyncStream.C82_mirror", "SyncStream.C82_reader", "SyncStream.C82_owner", "SyncStream.C82_delivery", "SyncStream.C82_exactly_once"], "note": "Proved for processes with one thread each. Late requests are any requests at any time, more than can happen. A repeated DELETE is covered by C82_sequential and C82_reader only as its separate attempts (see C80). Local reading of the buffer by its owner is left out because of C61."},
 {"property": "C83", "status": "proved", "theorems": ["SyncStream.C83_stop", "SyncStream.C83_resume"], "note": "Proved. Late requests that let the mirrors go on must be counted like calls; an example beside the theorem shows that a late reset_states undoes a later stop."},
 {"property": "C84", "status": "partial", "theorems": ["SyncStream.C84_history_partial", "SyncStream.C84_texts_partial", "SyncStream.C84_before_partial", "SyncStream.C84_lost", "SyncStream.C84_violated"], "note": "Missing: the lock exists (C65_violated shows why); the setters of timeout and aggressive. With clear, read(size) and close the texts are not all kept, of course; that close loses what others write while it closes is C84_violated, and the moments (C84_history_partial) cover these calls too. Full claim in view in properties.jsonl."},
 {"property": "C85", "status": "partial", "theorems": ["SyncStream.C85_history_partial", "SyncStream.C85_texts_partial", "SyncStream.C85_before_partial", "SyncStream.C85_lost", "SyncStream.C85_violated"], "note": "Missing: the lock exists (C68_violated shows why); setting aggressive. With clear and close the texts are not all kept; that close loses what others write while it closes is C85_violated, and the moments (C85_history_partial) cover these calls too. Full claim in view in properties.jsonl."},
 {"property": "C86", "status": "partial", "theorems": ["SyncStream.C86_host_partial", "SyncStream.C86_proc_partial"], "note": "Proved in both modes for every race. Missing: the locks of the mirrors are assumed to exist (they are made at first use, and two threads may make two: C65, C68), and other threads do not call close, clear, read(size) (process mode) or the setters until the call is over. What others write during the call may be lost (C84_violated, C85_violated)."},
 {"property": "C87", "status": "proved", "theorems": ["SyncStream.C87_one_service", "SyncStream.C87_moment", "SyncStream.C87_delivery"], "note": "As in C76 a request whose answer is lost is processed before the client goes on, and local reading of the buffer by its owner is left out because of C61. C87_one_service: history and projection to each process; C87_moment: readers and owner; C87_delivery: the end state. The execution per process is one of hostMirrorThreads, to which C68, C85 and C86 apply; see C68_system_partial."},
 {"property": "C88", "status": "partial", "theorems": ["SyncStream.C88_same", "SyncStream.C88_mirror_responses", "SyncStream.C88_reader_responses", "SyncStream.C88_reader_pools", "SyncStream.C88_context_partial", "SyncStream.C88_one_pool_partial", "SyncStream.C88_first_use_violated", "SyncStream.C88_enter_violated", "SyncStream.C88_exit_violated"], "note": "C88_same: erasure to hostMirrorThreads, so what is proved there holds with responses and pools. C88_mirror_responses, C88_reader_responses: responses, full, all races. C88_reader_pools: readers outside contexts, full. C88_context_partial, C88_one_pool_partial: one pool for all once it exists. Violated: two first uses of a mirror at the same time, two threads entering a context at the same time, leaving a context while another thread reads."},
 {"property": "C89", "status": "partial", "theorems": ["SyncStream.C89_texts_partial", "SyncStream.C89_before_partial", "SyncStream.C89_close_partial", "SyncStream.C89_delivery_partial"], "note": "Partial: the locks of the mirrors exist, and the calls that take something away (clear, close of another thread, setting aggressive) are excluded; C85 shows that close loses text of the other threads."},
 {"property": "C90", "status": "partial", "theorems": ["SyncStream.C90_object", "SyncStream.C90_same", "SyncStream.C90_name", "SyncStream.C90_settled", "SyncStream.C90_once", "SyncStream.C90_loaded", "SyncStream.C90_no_deadlock", "SyncStream.C90_alone", "SyncStream.C90_first_use_violated", "SyncStream.C90_half_violated"], "note": "Threads that look names up, call what they find, call lazy attributes they have kept, and use attributes of them; the modules are loaded as in C73. All versions of Python: the object, the names, later uses, no deadlock if the modules can be ordered, a use while nobody else does anything. Newer versions: the code runs once and no half-loaded module is used. Partial because the code violates the claim that every first use gives the object (C90_first_use_violated, all versions) and, with older versions, that no half-loaded module is used (C90_half_violated). Lazy attributes are defined before the threads run."},
 {"property": "C91", "status": "partial", "theorems": ["SyncStream.C91_history", "SyncStream.C91_lines", "SyncStream.C91_receive", "SyncStream.C91_lost_violated", "SyncStream.C91_default", "SyncStream.C91_posts", "SyncStream.C91_accepted", "SyncStream.C91_host_default", "SyncStream.C91_wait", "SyncStream.C91_wait_same"], "note": "Partial because the last claim is false (C91_lost_violated). Main buffer: every history without close, and wait at the end of one (C91_wait, C91_wait_same); one thread on the side of the buffer. Overrides that touch last_line are not covered; those that store None are covered by C92_process and C93."},
 {"property": "C92", "status": "partial", "theorems": ["SyncStream.C92_exact", "SyncStream.C92_all_partial", "SyncStream.C92_no_none_partial", "SyncStream.C92_violated", "SyncStream.C92_twice_violated", "SyncStream.C92_fails_violated", "SyncStream.C92_closed", "SyncStream.C92_lost_violated", "SyncStream.C92_process", "SyncStream.C92_process_violated", "SyncStream.C92_linearizable"], "note": "violated by the code: read(n) takes a stored None for \"nothing preserved\" (C92_violated, C92_twice_violated, C92_fails_violated, C92_lost_violated, C92_process_violated). C92_exact says for every history of calls what happens, C92_linearizable for any number of threads, C92_process for every history of the process mode without close; C92_all_partial and C92_no_none_partial are the documented behaviour for read() and for overrides that store no None."},
 {"property": "C93", "status": "partial", "theorems": ["SyncStream.C93_exact", "SyncStream.C93_records_partial", "SyncStream.C93_same", "SyncStream.C93_violated", "SyncStream.C93_serialized_violated", "SyncStream.C93_newest", "SyncStream.C93_hidden_violated"], "note": "Partial because the claim is false for overrides that store values other than texts and messages (C93_violated, C93_serialized_violated, C93_hidden_violated); C93_records_partial covers the others, C93_exact says what happens in all cases. Requests come one after the other; the requests for the states are not in the sequences."}
]}
