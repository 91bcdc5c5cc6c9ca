{"id": "C01", "title": "read() shows the newest maxlen lines of everything written", "statement": "For a LineBuffer with any maxlen >= 1, after any finite sequence of write() calls, read() returns exactly the last maxlen entries of the list made of the completed lines of the written text, in order, followed by the unfinished line if it is not empty. A line is completed by any terminator that str.splitlines recognises (\\n, \\r, \\r\\n, \\v, \\f, \\x1c-\\x1e, \\x85, U+2028, U+2029); no character of any line is lost, duplicated or altered.", "quantifier": "every maxlen, every sequence of strings of every length", "why_tests_cant": "tests use three or ten fixed strings with \\n only; the claim ranges over all texts, all line terminators and all histories", "anchors": ["syncstream/mproc.py:_LineBuffer.write", "syncstream/mproc.py:_LineBuffer._LineBuffer__write", "syncstream/mproc.py:_LineBuffer.read", "syncstream/base.py:is_end_line_break"]}
{"id": "C02", "title": "The buffer never shows or stores more than maxlen items", "statement": "At every point of any history of write, new_line, clear, flush, read, len and close calls the buffer stores at most maxlen completed items, read() returns at most maxlen items and len() reports at most maxlen.", "quantifier": "every maxlen >= 1 and every finite history of API calls", "why_tests_cant": "a bound has to hold in every reachable state; a test visits a handful", "anchors": ["syncstream/mproc.py:_LineBuffer.__len__", "syncstream/mproc.py:_LineBuffer.read", "syncstream/mproc.py:_LineBuffer.parse_lines"]}
{"id": "C03", "title": "read() never changes what later calls observe", "statement": "Calling read() or read(size) any number of times, with any size, at any point of a history does not change the result of any later call: the records, the unfinished line and the order are left as they were (even though read(size) rotates and pops the internal storage).", "quantifier": "every reachable buffer state, every size", "why_tests_cant": "the implementation mutates the deque while reading; only an argument over all states shows that it always restores it", "anchors": ["syncstream/mproc.py:_LineBuffer._LineBuffer__read_n", "syncstream/mproc.py:_LineBuffer._LineBuffer__read_all"]}
{"id": "C04", "title": "read(size) is the tail of read()", "statement": "For every positive size, read(size) returns the last size items of what read() would return at that moment (all of them if there are fewer); for size <= 0 it returns an empty tuple.", "quantifier": "every reachable buffer state and every integer size", "why_tests_cant": "the arithmetic with the unfinished line and a full buffer has many boundaries; tests sample three sizes of one state", "anchors": ["syncstream/mproc.py:_LineBuffer.read", "syncstream/mproc.py:_LineBuffer._LineBuffer__read_n"]}
{"id": "C05", "title": "How the text is cut into write() calls does not matter", "statement": "Writing a text in one call or cut into any number of pieces gives the same records and the same unfinished line, provided no cut falls between a \\r and the \\n that follows it. (A cut inside \\r\\n produces one extra empty record.)", "quantifier": "every text and every way of cutting it", "why_tests_cant": "there are exponentially many cuts of every text", "anchors": ["syncstream/mproc.py:_LineBuffer._LineBuffer__write"]}
{"id": "C06", "title": "No record taken from written text contains a line terminator", "statement": "Every item that read() returns and that came from written text (completed or unfinished), in thread, process, host and file mode, contains no line terminator character.", "quantifier": "every history of calls, all four buffer kinds", "why_tests_cant": "it is an invariant of all reachable states, over all texts", "anchors": ["syncstream/mproc.py:_LineBuffer._LineBuffer__write", "syncstream/file.py:LineFileBuffer._LineFileBuffer__write"]}
{"id": "C07", "title": "len(buffer) is the number of items read() returns", "statement": "For LineBuffer, LineProcBuffer, LineHostBuffer (and LineHostReader through the service) len() equals the number of items read() returns at that moment. [The code violates this: the unfinished line is always counted, even when it is empty, because a StringIO object is always true.]", "quantifier": "every reachable buffer state", "why_tests_cant": "the only tested state has a non-empty unfinished line, where the two happen to agree", "anchors": ["syncstream/mproc.py:_LineBuffer.__len__", "syncstream/host.py:LineHostReader.__len__"]}
{"id": "C08", "title": "The value returned by write()", "statement": "write(data) returns the number of lines it wrote, as documented. [The code violates this: it returns 1 for a lone line terminator, otherwise the length in characters of the text left after the last terminator of data.]", "quantifier": "every data string", "why_tests_cant": "tests ignore the returned value", "anchors": ["syncstream/mproc.py:_LineBuffer._LineBuffer__write", "syncstream/file.py:LineFileBuffer._LineFileBuffer__write"]}
{"id": "C09", "title": "A closed LineBuffer refuses I/O and stays closed", "statement": "After close() every read() and write() raises OSError and changes nothing, closed is True and stays True, readable() and writable() are False, and closing again does nothing, for every history before and after the close().", "quantifier": "every history of API calls around a close()", "why_tests_cant": "no finite set of histories covers 'ever after'", "anchors": ["syncstream/mproc.py:_LineBuffer.close", "syncstream/mproc.py:_LineBuffer.readable", "syncstream/mproc.py:_LineBuffer.writable", "syncstream/mproc.py:_LineBuffer.read", "syncstream/mproc.py:_LineBuffer.write"]}
{"id": "C10", "title": "clear() returns the buffer to its initial behaviour", "statement": "After clear() on an open buffer, every later history of calls produces the same results as it would on a newly created buffer with the same maxlen.", "quantifier": "every history before and after a clear()", "why_tests_cant": "observational equivalence over all continuations", "anchors": ["syncstream/mproc.py:_LineBuffer.clear"]}
{"id": "C11", "title": "new_line() completes the unfinished line exactly once", "statement": "new_line() on an open buffer turns a non-empty unfinished line into a completed record, equal to write('\\n'), does nothing if the unfinished line is empty, and a second new_line() right after it does nothing.", "quantifier": "every reachable open buffer state", "why_tests_cant": "must hold in every state, including a full buffer", "anchors": ["syncstream/mproc.py:_LineBuffer.new_line"]}
{"id": "C12", "title": "Concurrent write/read/new_line/flush calls are linearizable", "statement": "When any number of threads run any scripts of write, read, new_line, flush, readable, writable and closed calls on one open LineBuffer, then under every interleaving of their primitive steps the results returned and the final contents are those of some sequential order of the calls which respects each thread's own order; in particular the lines of one write() are never mixed with another's.", "quantifier": "every number of threads, all scripts, all schedules", "why_tests_cant": "the number of interleavings is unbounded and a scheduler shows only a few", "anchors": ["syncstream/mproc.py:_LineBuffer.write", "syncstream/mproc.py:_LineBuffer.read", "syncstream/mproc.py:_LineBuffer.new_line", "syncstream/mproc.py:_LineBuffer.flush"]}
{"id": "C13", "title": "clear() is atomic with respect to concurrent writers", "statement": "A clear() running concurrently with a write() has the effect of running before or after it. [The code violates this: the storage is emptied outside the lock, so the completed lines of a concurrent write can vanish while its unfinished tail survives.]", "quantifier": "every schedule of clear() against other threads", "why_tests_cant": "needs one specific preemption between two statements", "anchors": ["syncstream/mproc.py:_LineBuffer.clear"]}
{"id": "C14", "title": "A warning or error that arrives during a read() is not lost", "statement": "If one thread calls read() while another thread delivers an error or warning to the same LineProcBuffer or LineHostBuffer, the item is in the buffer afterwards. [The code violates this: the item is appended without the lock that read() holds while an element is temporarily removed, and re-inserting that element pushes the new item out.]", "quantifier": "every schedule of read() against receive() / the POST service", "why_tests_cant": "needs one specific preemption on a full buffer", "anchors": ["syncstream/mproc.py:_LineBuffer._LineBuffer__read_all", "syncstream/mproc.py:LineProcBuffer.receive", "syncstream/host.py:LineHostBuffer.serve"]}
{"id": "C15", "title": "Creation accepts exactly the positive maxlen values", "statement": "Creating a buffer with an int maxlen succeeds if and only if maxlen >= 1, otherwise TypeError is raised; a new buffer reads as empty and reports that maxlen for its whole life.", "quantifier": "every integer maxlen and every history of calls on the created buffer", "why_tests_cant": "an infinite domain with one boundary, and an invariant over histories", "anchors": ["syncstream/mproc.py:_LineBuffer.__init__", "syncstream/file.py:LineFileBuffer.__init__"]}
{"id": "C16", "title": "A mirror transmits exactly the written text, in order", "statement": "For a LineProcMirror in either mode, at every point of any history of writes and new_line calls that do not fail, the concatenation of the texts put on the queue followed by the text still buffered in the mirror equals the concatenation of the texts written (plus one \\n for each new_line() that had something to finish).", "quantifier": "every sequence of write/new_line calls", "why_tests_cant": "all histories; a lost seek or truncate only shows on particular sequences", "anchors": ["syncstream/mproc.py:LineProcMirror._LineProcMirror__write", "syncstream/mproc.py:LineProcMirror.new_line"]}
{"id": "C17", "title": "A mirror never holds back a completed line", "statement": "In non-aggressive mode, after every write() the text buffered in the mirror contains no line terminator; a write whose data contains a terminator sends all pending text in one message, and a write without one sends nothing. In aggressive mode every write() sends exactly its data and nothing stays buffered.", "quantifier": "every reachable mirror state and every data", "why_tests_cant": "every text and every line terminator", "anchors": ["syncstream/mproc.py:LineProcMirror._LineProcMirror__write", "syncstream/host.py:LineHostMirror._LineHostMirror__write"]}
{"id": "C18", "title": "A failed transmission does not lose buffered text", "statement": "If the queue rejects a message (or the HTTP POST fails) during write() in non-aggressive mode, the exception reaches the caller and the pending text including the new data is still buffered, so the next transmission that succeeds carries it in the right order. For the host mirror, if the service processed the failed request the text is delivered twice, never zero times.", "quantifier": "every history of writes and every pattern of failures", "why_tests_cant": "all failure patterns over all histories", "anchors": ["syncstream/mproc.py:LineProcMirror._LineProcMirror__write", "syncstream/host.py:LineHostMirror._LineHostMirror__write"]}
{"id": "C19", "title": "Closing a mirror sends its pending text and exactly one end signal", "statement": "close() on an open, not stopped LineProcMirror sends the pending text completed by a line break (if any) and then exactly one end signal: an EOF, or the error if one is given; later close(), send_eof(), send_error(), send_warning() and send_data() calls send nothing, and later read() and write() raise OSError.", "quantifier": "every reachable mirror state, every history after the close", "why_tests_cant": "all histories", "anchors": ["syncstream/mproc.py:LineProcMirror.close", "syncstream/mproc.py:LineProcMirror.send_eof", "syncstream/mproc.py:LineProcMirror.send_error"]}
{"id": "C20", "title": "mirror.read(size) returns the last size characters of the buffered text", "statement": "LineProcMirror.read() returns the buffered text, and read(size) its last size items as documented. [The code violates the second part: read(size) always returns the empty string because the stream position is at the end.]", "quantifier": "every reachable mirror state and size", "why_tests_cant": "must hold in all reachable states", "anchors": ["syncstream/mproc.py:LineProcMirror.read"]}
{"id": "C21", "title": "After stop_all_mirrors() every mirror write raises StopIteration and sends nothing", "statement": "From the moment stop_all_mirrors() returns until reset_states(), every write() on any open mirror of the buffer raises StopIteration, and neither changes the mirror nor sends anything.", "quantifier": "every reachable system state, every mirror, every data", "why_tests_cant": "all reachable states", "anchors": ["syncstream/mproc.py:LineProcBuffer.stop_all_mirrors", "syncstream/mproc.py:LineProcMirror._LineProcMirror__write"]}
{"id": "C22", "title": "Leaving a mirror's context always sends an end signal, so wait() can finish", "statement": "Whatever happened inside 'with mirror:', leaving the context puts an end signal on the queue, also when the mirror was stopped. [The code violates this for LineProcMirror: if the stop arrives while a partial line is buffered, send_error()/send_eof() raise StopIteration again from new_line() before the signal is sent, and wait() blocks for ever. LineHostMirror skips the check for StopIteration.]", "quantifier": "every reachable mirror state, every stop time, every way of leaving the context", "why_tests_cant": "the stop has to fall between the partial writes of one print()", "anchors": ["syncstream/mproc.py:LineProcMirror.__exit__", "syncstream/mproc.py:LineProcMirror.close", "syncstream/mproc.py:LineProcMirror.send_error", "syncstream/host.py:LineHostMirror.send_error"]}
{"id": "C23", "title": "Aggressive mode changes the timing, not the result", "statement": "For a single mirror, writing the same pieces of text and closing gives the same records in the main buffer in aggressive and in non-aggressive mode, provided no \\r\\n is cut between two write() calls or at the close; the end-of-stream differs only in that the aggressive mode leaves the last unfinished line unfinished.", "quantifier": "every sequence of writes", "why_tests_cant": "all texts and cuts", "anchors": ["syncstream/mproc.py:LineProcMirror._LineProcMirror__write", "syncstream/mproc.py:LineProcBuffer.receive"]}
{"id": "C24", "title": "wait() returns exactly when the last mirror has ended, having received everything", "statement": "If N mirrors were taken from a LineProcBuffer and each sends any messages followed by exactly one end signal, then for every interleaving of their messages wait() consumes all of them and returns right after the last end signal; on any shorter prefix it keeps waiting. If some mirror sends two end signals, wait() can return early and leave messages unread.", "quantifier": "every N >= 1, all message streams, all interleavings", "why_tests_cant": "all interleavings of unboundedly many streams", "anchors": ["syncstream/mproc.py:LineProcBuffer.wait", "syncstream/mproc.py:LineProcBuffer.receive", "syncstream/mproc.py:LineProcBuffer.mirror"]}
{"id": "C25", "title": "The main buffer shows the messages in queue order", "statement": "After wait(), the LineProcBuffer holds what a LineBuffer would hold after the received texts were written to it in queue order, with each error and warning stored as one item; messages of one mirror keep their order.", "quantifier": "all message sequences", "why_tests_cant": "all histories", "anchors": ["syncstream/mproc.py:LineProcBuffer.receive"]}
{"id": "C26", "title": "Lines of different processes are never mixed into one record", "statement": "Every text record in the main buffer is a line written by one mirror only. [The code violates this: a mirror that writes 'a\\nb' sends the unfinished 'b' too, and the next message of another mirror is glued to it; an ordinary print('a\\nb') does that.] It holds when every transmitted text ends with a line terminator.", "quantifier": "all interleavings of all message streams of any number of mirrors", "why_tests_cant": "needs particular interleavings of particular texts", "anchors": ["syncstream/mproc.py:LineProcMirror._LineProcMirror__write", "syncstream/mproc.py:LineProcBuffer.receive", "syncstream/host.py:LineHostMirror._LineHostMirror__write"]}
{"id": "C27", "title": "Items are shown in the order in which they were sent", "statement": "A text sent by a mirror before an error or warning is shown by read() before it. [LineProcBuffer violates this when the text has no final line terminator: the unfinished line is shown after the error. LineHostBuffer completes the line first and keeps the order.]", "quantifier": "all message sequences", "why_tests_cant": "all histories", "anchors": ["syncstream/mproc.py:LineProcBuffer.receive", "syncstream/host.py:LineHostBuffer.serve"]}
{"id": "C28", "title": "force_stop() ends wait() and reset_states() detaches old mirrors", "statement": "After force_stop(), wait() returns as soon as the messages sent before it are consumed, whatever the number of live mirrors; reset_states() raises TypeError exactly when mirrors are still counted, and after it succeeds no message of an earlier mirror ever reaches the buffer, mirrors are not stopped, and the records are unchanged.", "quantifier": "all reachable states and all later histories", "why_tests_cant": "all histories after the reset", "anchors": ["syncstream/mproc.py:LineProcBuffer.force_stop", "syncstream/mproc.py:LineProcBuffer.reset_states", "syncstream/mproc.py:LineProcBuffer.wait"]}
{"id": "C29", "title": "A LineFileBuffer behaves like an in-memory LineBuffer", "statement": "For one process using a LineFileBuffer on a directory with no leftovers, after any history of write, new_line, clear and read calls, read() and read(size) return exactly what a LineBuffer with the same maxlen would return after the same history.", "quantifier": "every maxlen, every history, every size", "why_tests_cant": "refinement over all histories: file rotation has many boundary cases", "anchors": ["syncstream/file.py:LineFileBuffer.write", "syncstream/file.py:LineFileBuffer.read", "syncstream/file.py:LineFileBuffer._LineFileBuffer__update_records"]}
{"id": "C30", "title": "Processes sharing the files never mix or lose lines", "statement": "When several processes with distinct tmp_ids (and the same maxlen) write to the same file path, under every interleaving of their critical sections the shared records are the last maxlen completed lines in the order of commit, every record is a whole line of one process, each process's lines keep their order, and a process reading sees the last maxlen of these records plus its own unfinished line.", "quantifier": "any number of processes, all scripts, all interleavings", "why_tests_cant": "all interleavings", "anchors": ["syncstream/file.py:LineFileBuffer._LineFileBuffer__update_records", "syncstream/file.py:LineFileBuffer._LineFileBuffer__write"]}
{"id": "C31", "title": "A crash never destroys or alters a record that should be kept", "statement": "If a process dies at any point while completing lines in file mode, every record that the finished operation would have kept is still stored intact in exactly one record file, and every stored record file holds an old record, one of the new lines, or a prefix of a new line.", "quantifier": "every crash point between or inside file operations, every number of records and new lines", "why_tests_cant": "crash points inside a rotation cannot be enumerated by tests for all sizes", "anchors": ["syncstream/file.py:LineFileBuffer._LineFileBuffer__update_records"]}
{"id": "C32", "title": "After a crash the records are still readable", "statement": "After a crash during a write in file mode, another process's read() still returns the kept records. [The code violates this: between the renames and the writes there is no file number 0, so read() returns nothing; a crash can also leave an empty record, and acknowledged unfinished text can be shown twice.] Text acknowledged by an earlier write() is never lost by the crash itself.", "quantifier": "every crash point", "why_tests_cant": "needs a crash at a specific file operation", "anchors": ["syncstream/file.py:LineFileBuffer._LineFileBuffer__update_records", "syncstream/file.py:LineFileBuffer._LineFileBuffer__write", "syncstream/file.py:LineFileBuffer.read"]}
{"id": "C33", "title": "clear() in file mode removes this buffer's records and nothing else", "statement": "clear() deletes all records and the own unfinished line of this buffer, and no file of another buffer. [The code violates both parts: the glob pattern '<path>-*.log' also matches the records of a buffer named '<path>-x', and a path with glob characters such as '[1]' is not matched by its own pattern.] For names without glob characters all own records are removed, and nothing outside '<path>-*.log' is touched.", "quantifier": "all file names and directory contents", "why_tests_cant": "all names", "anchors": ["syncstream/file.py:LineFileBuffer.clear"]}
{"id": "C34", "title": "Buffers with different names or tmp_ids never share a file", "statement": "Record files of different (path, number) pairs are different files, also for different paths; record files never coincide with temporary files; for one path different tmp_ids give different temporary files. [For different paths temporary files can coincide: path 'a' with tmp_id 'b-c' and path 'a-b' with tmp_id 'c'.]", "quantifier": "all names, numbers and ids", "why_tests_cant": "injectivity over an infinite domain", "anchors": ["syncstream/file.py:LineFileBuffer.__init__", "syncstream/file.py:LineFileBuffer._LineFileBuffer__update_records"]}
{"id": "C35", "title": "Newline translation of text files is invisible", "statement": "With either platform line separator, a record or unfinished line stored by LineFileBuffer and read back is the same string, although files are opened in text mode with universal newlines.", "quantifier": "every text, every sequence of appends, both separators", "why_tests_cant": "all texts; \\r in a stored text would be altered", "anchors": ["syncstream/file.py:LineFileBuffer._LineFileBuffer__get_last_line", "syncstream/file.py:LineFileBuffer.read", "syncstream/file.py:LineFileBuffer._LineFileBuffer__write_last_line"]}
{"id": "C36", "title": "A write that cannot be encoded leaves the stored records readable", "statement": "If write() in file mode raises UnicodeEncodeError because a character is not encodable, the records stored before remain visible to read(). [The code violates this: the old records are renumbered first and an empty or missing file number 0 is left behind.]", "quantifier": "every state and data", "why_tests_cant": "depends on state, encoding and position of the character", "anchors": ["syncstream/file.py:LineFileBuffer._LineFileBuffer__update_records"]}
{"id": "C37", "title": "send_exc() stores an exception as one record after the text written before it", "statement": "send_exc() on an open LineFileBuffer adds exactly one record and drops the oldest one if the storage was full; an exception is shown after the text that preceded it. [The second part is violated when an unfinished line exists: it is shown after the exception, also when a context is left by an exception.]", "quantifier": "every reachable state", "why_tests_cant": "all states", "anchors": ["syncstream/file.py:LineFileBuffer.send_exc", "syncstream/file.py:LineFileBuffer.__exit__"]}
{"id": "C38", "title": "Closing a LineFileBuffer", "statement": "close() completes the unfinished line; afterwards read() and write() raise OSError, new_line(), send_exc() and close() change no file, for every later history (until clear()).", "quantifier": "every state, every later history", "why_tests_cant": "all histories", "anchors": ["syncstream/file.py:LineFileBuffer.close", "syncstream/file.py:LineFileBuffer.readable", "syncstream/file.py:LineFileBuffer.writable"]}
{"id": "C39", "title": "len() of a LineFileBuffer is the number of items read() returns", "statement": "For an open LineFileBuffer, in every state of the directory, len() equals the number of items read() returns, and is at most maxlen.", "quantifier": "every directory state, every unfinished line", "why_tests_cant": "all states", "anchors": ["syncstream/file.py:LineFileBuffer.__len__", "syncstream/file.py:LineFileBuffer.read"]}
{"id": "C40", "title": "The host service keeps the buffer consistent under any requests", "statement": "For every sequence of HTTP requests, valid or not, the number of stored items never exceeds maxlen, a request answered with an error status does not add or remove records (it may at most complete the unfinished line), and a GET request never changes anything.", "quantifier": "every sequence of requests with arbitrary JSON bodies", "why_tests_cant": "all request sequences and all JSON values", "anchors": ["syncstream/host.py:LineHostBuffer.serve"]}
{"id": "C41", "title": "What a host mirror writes is what a reader reads", "statement": "For a LineHostMirror writing any texts and then closing, with an open service and no failures, LineHostReader.read() returns the last maxlen lines of the text, as a local LineBuffer would; read(size) returns the last size of them, and nothing for size <= 0. [False for texts that contain a high surrogate directly followed by a low one: JSON joins the pair to one character.]", "quantifier": "every sequence of writes, every maxlen, every size", "why_tests_cant": "all texts and histories", "anchors": ["syncstream/host.py:LineHostMirror.write", "syncstream/host.py:LineHostMirror.close", "syncstream/host.py:LineHostReader.read", "syncstream/host.py:LineHostBuffer.serve"]}
{"id": "C42", "title": "Errors and warnings survive the way from mirror to reader unchanged", "statement": "The GroupedMessage a reader gets is equal (type and all lines) to the one the mirror created from the exception or warning, through serialisation, the service's storage, and the GET service. [False for tracebacks that contain a surrogate pair, as for C41.]", "quantifier": "all exceptions (all formatted tracebacks)", "why_tests_cant": "all message contents", "anchors": ["syncstream/host.py:LineHostMirror.send_error", "syncstream/host.py:LineHostBuffer.serve", "syncstream/host.py:LineHostReader._LineHostReader__read", "syncstream/base.py:GroupedMessage"]}
{"id": "C43", "title": "The service reports maxlen correctly for its whole life", "statement": "LineHostReader.maxlen is the maxlen the LineHostBuffer was created with, after any sequence of requests. [The code violates this: reset_states() empties the state dictionary and restores only 'closed', so maxlen becomes None.]", "quantifier": "every sequence of requests", "why_tests_cant": "all request sequences", "anchors": ["syncstream/host.py:LineHostBuffer.reset_states", "syncstream/host.py:LineHostReader.maxlen"]}
{"id": "C44", "title": "Stopping and resuming host mirrors", "statement": "After stop_all_mirrors() (local, or by LineHostReader) and until a reset or a false 'closed' post, every write() of every open host mirror raises StopIteration without sending text; leaving the context by that StopIteration still delivers the buffered text and the error; after reset_states() writes succeed again.", "quantifier": "all request sequences and all mirror states", "why_tests_cant": "all histories", "anchors": ["syncstream/host.py:LineHostMirror.check_states", "syncstream/host.py:LineHostMirror.send_error", "syncstream/host.py:LineHostBuffer.stop_all_mirrors", "syncstream/host.py:LineHostReader.stop_all_mirrors"]}
{"id": "C45", "title": "An accepted message cannot make the service unreadable", "statement": "After any POST answered with 201 a GET is answered with 200. [The code violates this: an error/warning post whose data is a mapping but not a serialised GroupedMessage is accepted and stored as a plain dict, and every GET that covers it fails.] It holds if every posted error or warning is a serialised GroupedMessage.", "quantifier": "all request sequences", "why_tests_cant": "needs a specific JSON shape", "anchors": ["syncstream/host.py:LineHostBuffer.serve", "syncstream/host.py:LineHostBuffer.read_serialized", "syncstream/base.py:GroupedMessage.deserialize"]}
{"id": "C46", "title": "Serialisation of GroupedMessage is lossless and recognisable", "statement": "For every GroupedMessage g, serialize(g) is recognised by is_serialized_grouped_message, and deserialize gives back an equal message, also after a JSON round trip; deserialize returns every other object unchanged; two different messages have different serialisations.", "quantifier": "all messages, all JSON values", "why_tests_cant": "all values", "anchors": ["syncstream/base.py:GroupedMessage.serialize", "syncstream/base.py:GroupedMessage.deserialize", "syncstream/base.py:is_serialized_grouped_message"]}
{"id": "C47", "title": "Construction of GroupedMessage", "statement": "A warning object gives type 'warning', any other exception type 'error', everything else 'str'; the lines of an exception message contain no line terminators, and their text is the formatted traceback up to terminators; str(message) joins the lines with \\n; a plain string is one item and str() gives it back.", "quantifier": "all inputs", "why_tests_cant": "all formatted tracebacks, e.g. messages with exotic line terminators", "anchors": ["syncstream/base.py:GroupedMessage.__init__", "syncstream/base.py:GroupedMessage.__str__"]}
{"id": "C48", "title": "Leaving a redirection restores stdout and stderr", "statement": "For properly nested contexts of distinct buffers/mirrors (and redirect_stdout/redirect_stderr, also re-entered), after any program run inside, normal or exceptional exit, sys.stdout and sys.stderr are what they were before. [For re-entering the same buffer or mirror object this is violated: sys.stdout ends as None.]", "quantifier": "all nesting structures and all ways of leaving them", "why_tests_cant": "all nestings", "anchors": ["syncstream/mproc.py:LineBuffer.__enter__", "syncstream/mproc.py:LineBuffer.__exit__", "syncstream/mproc.py:LineProcMirror.__exit__", "syncstream/file.py:LineFileBuffer.__exit__", "syncstream/base.py:redirect_stdout"]}
{"id": "C49", "title": "The timeout of a mirror bounds the waiting time of a transmission", "statement": "With a timeout set, a transmission to a full queue waits up to the timeout before it fails. [The code violates this: the queue is used in non-blocking mode whenever a timeout is set, so it fails at once and the value is never used.]", "quantifier": "all timeouts and queue states", "why_tests_cant": "timing dependent; all timeouts", "anchors": ["syncstream/mproc.py:LineProcMirror.__init__", "syncstream/mproc.py:LineProcMirror.send_data", "syncstream/mproc.py:LineProcMirror.timeout"]}
{"id": "C50", "title": "Lazy modules: one object per name, loaded once, after their dependencies", "statement": "For every sequence of lazy_import calls and attribute accesses, asking twice for a name gives the same module, an existing module is never replaced, a module's code runs at most once and only after all modules it declared as relative dependencies, and nothing runs before an attribute is used; a missing dependency gives a placeholder when required is False.", "quantifier": "all sequences of imports and accesses, all dependency graphs that can be built", "why_tests_cant": "all graphs and access orders", "anchors": ["syncstream/utils.py:_LazyImporter.lazy_import", "syncstream/utils.py:_LazyModule.force_load", "syncstream/utils.py:_LazyModule.load_deps", "syncstream/utils.py:_LazyModule.__getattribute__"]}
{"id": "C51", "title": "A required lazy import never yields a placeholder", "statement": "lazy_import(name, required=True) returns a usable module or raises. [The code violates this: if a placeholder was registered by an earlier optional import, it is returned.]", "quantifier": "all sequences of imports", "why_tests_cant": "needs a specific earlier call", "anchors": ["syncstream/utils.py:_LazyImporter.lazy_import", "syncstream/utils.py:_LazyImporter.create_module_placeholder"]}
{"id": "C52", "title": "A LineHostReader context keeps its connection pool for the whole context", "statement": "Between entering and the matching outermost exit of a LineHostReader the pool is not cleared, and after the exit the reader uses temporary pools again. [The code violates both: an inner exit clears the pool of the outer context, and after the exit the old pool is still used.]", "quantifier": "all sequences of enter/exit/use", "why_tests_cant": "all nestings", "anchors": ["syncstream/host.py:LineHostReader.__enter__", "syncstream/host.py:LineHostReader.__exit__"]}
{"id": "C53", "title": "The locks cannot deadlock", "statement": "No set of threads/processes executing buffer operations (with the default parse_lines) can reach a state where each waits for a lock held by another one: whenever some operation is unfinished and no queue or network wait is involved, some step is possible. This includes the locks of the mirrors, which are made on the first use, several of them if several threads use a mirror for the first time.", "quantifier": "any number of threads, all scripts, all schedules", "why_tests_cant": "deadlocks depend on the schedule", "anchors": ["syncstream/mproc.py:_LineBuffer", "syncstream/file.py:LineFileBuffer", "syncstream/host.py:LineHostBuffer.serve", "syncstream/mproc.py:LineProcMirror.__buffer_lock", "syncstream/host.py:LineHostMirror.__buffer_lock"]}
{"id": "C54", "title": "Buffers of one file path with different maxlen", "statement": "A record is kept as long as it is among the newest maxlen records of a reader. [Violated when another process writes with a smaller maxlen: records beyond the smaller limit are dropped or shadowed.]", "quantifier": "all pairs of maxlen and histories", "why_tests_cant": "all pairs", "anchors": ["syncstream/file.py:LineFileBuffer._LineFileBuffer__update_records"]}
{"id": "C55", "title": "Path handling at creation of a LineFileBuffer", "statement": "Creation fails with TypeError exactly for a non-positive maxlen, an empty (blank) path, an empty tmp_id or a path without a file name; the file suffix is ignored, so 'x.log' and 'x' denote the same buffer.", "quantifier": "all path strings", "why_tests_cant": "all strings", "anchors": ["syncstream/file.py:LineFileBuffer.__init__"]}
{"id": "C56", "title": "Switching the mode of a mirror keeps the text and its order", "statement": "Setting the public attribute aggressive of a LineProcMirror between two calls does not change which text is transmitted nor its order. [The code violates this: text buffered before the switch to aggressive mode is overtaken by later writes, and close() then sends only a line break and drops it.] It holds if nothing is buffered at the switch.", "quantifier": "every sequence of writes and mode changes", "why_tests_cant": "all sequences", "anchors": ["syncstream/mproc.py:LineProcMirror.aggressive", "syncstream/mproc.py:LineProcMirror.__write"]}
{"id": "C57", "title": "len() is linearizable with concurrent reads and writes", "statement": "When threads call len() and the methods of C12 on one open LineBuffer, the results are those of some sequential order. [The code violates this: len() looks at the storage before it takes the lock, so it can count while read(size) has an item taken out.]", "quantifier": "every number of threads, all scripts, all schedules", "why_tests_cant": "needs a preemption between a pop and the append that follows it", "anchors": ["syncstream/mproc.py:_LineBuffer.__len__", "syncstream/mproc.py:_LineBuffer._LineBuffer__read_n"]}
{"id": "C58", "title": "close() is linearizable with concurrent reads and writes", "statement": "A write() or read() that races with close() either takes effect before it or raises OSError, like after it. [The code violates this: the check and the body are separate critical sections, so a write can raise ValueError from the closed StringIO.]", "quantifier": "every number of threads, all scripts, all schedules", "why_tests_cant": "needs a whole close() between two adjacent critical sections of write()", "anchors": ["syncstream/mproc.py:_LineBuffer.close", "syncstream/mproc.py:_LineBuffer.write"]}
{"id": "C59", "title": "A read() that races with clear() does not raise", "statement": "If threads only write, read and clear an open LineBuffer, no call raises. [The code violates this: clear() empties the storage outside the lock, so read() can fail with IndexError when it takes the oldest item out.]", "quantifier": "every number of threads, all scripts, all schedules", "why_tests_cant": "needs a full buffer, an unfinished line and two specific preemptions", "anchors": ["syncstream/mproc.py:_LineBuffer.clear", "syncstream/mproc.py:_LineBuffer._LineBuffer__read_all"]}
{"id": "C60", "title": "Concurrent requests to a host service are linearizable", "statement": "Any number of threads serve any requests while others call stop_all_mirrors and the like: the answers and the final state are those of some order of the operations, each taking effect at one moment between its beginning and its end. For the requests of mirrors and readers this order is an execution of a plain log of lines with a stop flag.", "quantifier": "any number of threads, all requests, all schedules", "why_tests_cant": "all schedules of all requests", "anchors": ["syncstream/host.py:LineHostBuffer.serve", "syncstream/host.py:LineHostBuffer"]}
{"id": "C61", "title": "An error reported to a host service is not lost when the main process reads at the same time", "statement": "If a POST of an error is answered with success while another thread calls read() on the LineHostBuffer itself, the error is in the storage afterwards. [The code violates this: errors are stored under the config lock only, so a read() that takes the records out and puts them back can drop an error that arrives in between. It holds if nobody uses the buffer locally.]", "quantifier": "all services, all schedules of the two calls", "why_tests_cant": "needs the POST to run between two adjacent steps of read()", "anchors": ["syncstream/host.py:LineHostBuffer.serve", "syncstream/mproc.py:_LineBuffer.read"]}
{"id": "C62", "title": "The main buffers of process and host mode refuse to be written", "statement": "write() of a LineProcBuffer or a LineHostBuffer raises NotImplementedError for every text and changes nothing: neither the stored items, nor the unfinished line, nor the states and queues shared with the mirrors.", "quantifier": "every text, every state of the buffer", "why_tests_cant": "a test tries one text on a new buffer", "anchors": ["syncstream/mproc.py:LineProcBuffer.write", "syncstream/host.py:LineHostBuffer.write"]}
{"id": "C63", "title": "The number of mirrors in use stays right when threads take mirrors while another receives", "statement": "Threads of the main process take mirrors (LineProcBuffer.mirror), receive messages, stop the mirrors and use the buffer: whenever no call is running, n_mirrors is the number before plus the mirrors handed out minus the end signals received. [The code violates this: the property mirror does n_mirrors += 1 without the config lock under which receive() does n_mirrors -= 1, so one of the two updates can be lost and wait() returns too early or never. It holds if one thread takes the mirrors and receives, and for any number of receiving threads if no mirror is taken.]", "quantifier": "any number of threads, all schedules, all messages without a forced stop", "why_tests_cant": "needs one thread to run between the load and the store of a += of another", "anchors": ["syncstream/mproc.py:LineProcBuffer.mirror", "syncstream/mproc.py:LineProcBuffer.receive"]}
{"id": "C64", "title": "A lazy attribute of the package loads its module at its first use and is then replaced by the object", "statement": "get_lazy_attribute gives None exactly for a placeholder, and neither defining nor showing a lazy attribute loads anything. The first use that succeeds (a call or the use of an attribute) has started the code of the module, binds the name in the parent module to the object and keeps the object; the name is bound to no lazy attribute from then on unless it is defined again. Every use, through whatever reference and whenever, is a use of the object the module has under the name; after a use of an object no use loads or changes anything. A use that does not find the object changes neither the lazy attribute nor any name. With newer versions of Python the code of a module runs at most once whatever lazy modules and attributes are used.", "quantifier": "all programs of lazy imports, definitions and uses, all module codes, nested loading, both versions of importlib", "why_tests_cant": "a test uses one attribute of one module; the claims are about all orders of uses and about failures in the middle", "anchors": ["syncstream/utils.py:_LazyAttribute", "syncstream/utils.py:get_lazy_attribute", "syncstream/utils.py:is_module_invalid", "syncstream/__init__.py"]}
{"id": "C65", "title": "Threads of one process can write through the shared mirror without losing or doubling text", "statement": "Any number of threads of any number of processes write through the LineProcMirror of their process while threads of the main process receive: for every process the texts sent and the text held back are the texts written by its threads in some interleaving, each write as a whole, and every call on the mirror takes effect in one moment. [The code violates this: __buffer_lock is made at its first use without protection, so two threads that use a mirror for the first time can make two locks; text is then lost or sent twice. It holds once any method of the mirror has been called by one thread, for all calls but send_eof, send_error, send_warning, close and changes of mode and timeout.]", "quantifier": "any number of processes and threads, all texts, all schedules", "why_tests_cant": "the race is a window of two adjacent steps at the first use of a mirror; the positive part is about all schedules", "anchors": ["syncstream/mproc.py:LineProcMirror.__buffer_lock", "syncstream/mproc.py:LineProcMirror.write", "syncstream/mproc.py:LineProcBuffer.receive"]}
{"id": "C66", "title": "Processes at work, step by step, while the main process receives", "statement": "N processes with one thread each use their mirrors (any calls, the lazily made locks included) while the main process calls receive() and methods of the buffer, and their primitive steps are interleaved in any way. At every moment the messages received and those in the queue are an interleaving of what the processes have sent; the calls of each process send and return what they send and return when the process is alone; the calls of the main process act on the records one after the other, fed with the messages in the order of the queue. If every process runs a program that ends with close(), then receive() returns False only after everything has been sent and received, and as long as it has not returned False and the processes have finished there is a message for the next receive(), so wait() returns with all records.", "quantifier": "any number of processes, all programs, all interleavings of primitive steps", "why_tests_cant": "the interleavings of steps within calls cannot be enumerated; a test sees a few of them", "anchors": ["syncstream/mproc.py:LineProcMirror", "syncstream/mproc.py:LineProcBuffer.receive", "syncstream/mproc.py:LineProcBuffer.wait"]}
{"id": "C67", "title": "Redirection by several threads", "statement": "sys.stdout and sys.stderr belong to the process. When one thread uses contexts that redirect them (none inside itself) while other threads print, then whenever this thread is outside its code the two streams are what they were at the beginning, what it printed went where its own nesting says, and every text of the other threads was written exactly once and in order, to whatever the streams were at that moment. The same should hold when several threads use contexts of objects of their own. [The code violates this: if thread 1 enters its context while thread 0 is inside its own and leaves it later, the streams remain the mirror of thread 0 after all contexts are left, and texts go to the wrong mirror. The part for one redirecting thread holds.]", "quantifier": "all nested programs of all threads, all interleavings of the single statements", "why_tests_cant": "a test sees a few schedules; the crossing needs a switch between particular statements", "anchors": ["syncstream/mproc.py:LineProcMirror.__enter__", "syncstream/mproc.py:LineProcMirror.__exit__", "syncstream/base.py:redirect_stdout"]}
{"id": "C68", "title": "Several threads share one host mirror", "statement": "Any number of threads of a process use one LineHostMirror, and their primitive steps are interleaved in any way; requests may fail in any way. Every call of write, new_line, read, clear, flush, closed, readable and writable takes effect in one moment, with all its requests: there is an order of all calls, in which every thread's calls come in its own order, such that one thread that makes them in this order gets the same results and leaves the same mirror, service and requests behind. In particular, if no write fails, the texts posted to the service and the text held back are the texts written by the threads, interleaved in some way, each write as a whole; with failures nothing accepted is lost. [The code violates this for a mirror that has not been used yet: its lock is made on the first use without protection, so two threads can use two locks, and a text can be lost or posted twice. It holds once any method has been called.]", "quantifier": "any number of threads, all programs, all outcomes of the requests, all interleavings of primitive steps", "why_tests_cant": "the interleavings of steps within calls cannot be enumerated; the race of the first use needs a switch between two particular statements", "anchors": ["syncstream/host.py:LineHostMirror", "syncstream/host.py:LineHostMirror.write", "syncstream/host.py:LineHostMirror.__write"]}
{"id": "C69", "title": "Closing a mirror that threads share takes effect once", "statement": "Threads of several processes share the mirrors of their process, and the main process receives, all steps interleaved in any way. If at most one thread of each process closes its mirror, then at every moment when no close() and no receive() is going on n_mirrors equals the number of open mirrors and of end signals in the queue; a mirror whose close() has returned is closed; and from the moment on when a receive() has returned False (so that wait() returns) every mirror is closed, but for those whose closing thread is in the last part of close(). The same should hold when several threads close a mirror, since 'the second call will do nothing'. [The code violates this: close() looks at the flag and sets it in two sections, so two threads can send two end signals, and wait() returns while the mirror of another process is open; the second close() can raise ValueError; a host mirror posts the error twice. And even with one closing thread a text written at the same time can follow the end signal and is never received.]", "quantifier": "any number of processes and threads, all programs, all interleavings of primitive steps", "why_tests_cant": "a test sees a few schedules; the double end signal needs a switch between the check and the setting of the flag", "anchors": ["syncstream/mproc.py:LineProcMirror.close", "syncstream/mproc.py:LineProcMirror.send_eof", "syncstream/mproc.py:LineProcBuffer.receive", "syncstream/mproc.py:LineProcBuffer.wait", "syncstream/host.py:LineHostMirror.close"]}
{"id": "C70", "title": "File mode when processes are killed among processes that go on", "statement": "Processes have LineFileBuffers of one name; any of them can be killed between any two primitive steps of any call (the operating system releases its file locks), another one takes its place, and the calls of the others overlap and go on. At every moment each record file is a beginning of one text that a call was to store, no record is in two files, and a text is only ever appended to the record begun last; calls that add nothing change nothing; no call ends with FileNotFoundError; a read() that returns shows the record files as they were at one single moment of the call; and when write() returns, the newest maxlen of the lines that it completed were stored whole at a moment of the call; clear(), which removes the files one by one in any order, raises nothing and leaves no record at a moment of the call. If no call adds more than one record, then the files are always in order (a higher number, an older record), read() returns records in the order in which they were begun, and if all buffers keep M records a record is lost only after M - 1 newer ones were begun, whoever died. The order should also hold for calls that add several records. [The code violates this: a process that dies while __update_records moves the files by several places leaves a gap that the next writer closes in the wrong way, so read() then shows records in a wrong order.]", "quantifier": "any number of processes, all programs, all interleavings of primitive steps, deaths at any moments", "why_tests_cant": "a test would have to kill a process at each of its primitive steps under each interleaving of the others", "anchors": ["syncstream/file.py:LineFileBuffer.__update_records", "syncstream/file.py:LineFileBuffer.write", "syncstream/file.py:LineFileBuffer.read", "syncstream/file.py:LineFileBuffer.clear"]}
{"id": "C71", "title": "Buffers of different names in one directory do not disturb each other", "statement": "Processes have LineFileBuffers of several names in one directory (several processes may have the same name); their calls overlap and any process can be killed between any two primitive steps. Then the record files of each name change only by steps of calls of processes with that name, in the ways of C70; what a call returns depends on the records of its own name only; no call ends with FileNotFoundError; if no process with a name ever adds text or clears, the record files of that name stay as they are, whatever the others (also their clear()) do. [The code violates this if one name is another one followed by '-' and more, as 'x' and 'x-y': a clear() of 'x' that overlaps with a write() of 'x-y' makes that write() end with FileNotFoundError and lose its text, or ends itself with FileNotFoundError.]", "quantifier": "any number of names and processes, all programs, all interleavings of primitive steps, deaths at any moments", "why_tests_cant": "whether the files of two names are ever mixed up depends on every pair of names and every interleaving", "anchors": ["syncstream/file.py:LineFileBuffer.clear", "syncstream/file.py:LineFileBuffer.__init__", "syncstream/file.py:LineFileBuffer.__update_records"]}
{"id": "C72", "title": "Processes of the process mode are killed", "statement": "Processes with mirrors of one LineProcBuffer (and any number of threads) are killed between any two primitive steps (Process.terminate() or Process.kill(), which the documentation of force_stop() recommends), while the others and the main process go on. A killed process moves no more; its own locks vanish with it, the state lock is one of the manager and stays as it is. If no process was killed while it held or waited for the state lock, then everybody alive who is in a call can go on or waits for somebody alive who can, and all their calls come to an end. Whoever was killed: what the main process has received and what is in the queue is an interleaving of what the processes have sent, and every killed process has sent the messages of its finished calls and a first part of those of the last one; if it was killed before its closing call, then no receive() returns False any more, so wait() does not end without force_stop(). If a killed thread holds the state lock, then no stop_all_mirrors() returns, no write() returns except with OSError, and no reset_states() except with TypeError. After killing all processes, force_stop() and a receive() that returns False, reset_states() should make the buffer usable again, as documented. [The code violates this: if a process was killed while it checked the state in write() or close(), or while it waited to do so, then reset_states(), or the next stop_all_mirrors(), never returns.]", "quantifier": "any number of processes and threads, all programs, all interleavings of primitive steps, kills at any moments", "why_tests_cant": "a test would have to kill a process at each of its primitive steps under each interleaving of the others, and cannot observe that a call never returns", "anchors": ["syncstream/mproc.py:LineProcBuffer.force_stop", "syncstream/mproc.py:LineProcBuffer.reset_states", "syncstream/mproc.py:LineProcBuffer.stop_all_mirrors", "syncstream/mproc.py:LineProcMirror.write", "syncstream/mproc.py:LineProcBuffer.receive"]}
{"id": "C73", "title": "Lazy modules used by several threads", "statement": "Several threads use lazily imported modules (attribute accesses and force_load(), in any programs, also from the code of the modules). With the versions of Python in which importlib takes a lock (3.11.8, 3.12.2, 3.13 and later): the code of a module is run at most once; a program that comes to its end without an exception has used only modules that were loaded to the end (or whose code raised), never half-loaded ones; and once a module has been loaded, every access that begins later finds its attributes, whatever the others do. With all versions: if the code and the declared dependencies of the modules use one another without cycles, the threads do not wait for one another forever and all programs end. The first accesses of two threads to a module should both find its attributes, with older versions too. [The code violates this: with all versions _LazyModule.__getattribute__ looks at the class twice without a lock, so one of two first accesses can end with AttributeError ('load_deps'); with older versions a thread gets AttributeError from a module that another one is loading, and the code can be run twice; with newer ones two modules whose code uses the other one let two threads wait for each other forever.]", "quantifier": "any number of threads, modules, programs and nested loads, all interleavings of primitive steps", "why_tests_cant": "the windows are a few bytecodes wide and open once per module; that nothing else can go wrong needs all interleavings of all programs", "anchors": ["syncstream/utils.py:_LazyModule.__getattribute__", "syncstream/utils.py:_LazyModule.load_deps", "syncstream/utils.py:_LazyModule.force_load"]}
{"id": "C74", "title": "HTTP responses and connection pools are given back", "statement": "Every response that a host mirror or a LineHostReader gets is given back on every way out: its connection is released once, then the response is closed once, and nothing is done with it afterwards; at most one response is open at a time. Pools are cleared only while no response is open. A mirror makes at most one pool, on its first use, and clears it exactly once, when the mirror is collected. A reader makes a pool for a context or for a call outside of contexts and clears it afterwards (for contexts that are nested or used after their end see C52). A reader reads every response to its end before it gives the connection back. A mirror reads those the service refused. [The code violates this for mirrors: the answer to an accepted message is not read, so the connection goes back to the pool with the body still unread.]", "quantifier": "all sequences of calls of mirrors and readers, all states of the service, all losses and failures of requests, answers with any status and body", "why_tests_cant": "The ways out are many (accepted, refused, not JSON, lost before or after processing, StopIteration), each in every method; a leaked connection shows only after many calls and under load.", "anchors": ["syncstream/webtools.py:71-90", "syncstream/webtools.py:93-151", "syncstream/webtools.py:154-166", "syncstream/host.py:149-162", "syncstream/host.py:266-424", "syncstream/host.py:838-864", "syncstream/host.py:1003-1209"]}
{"id": "C75", "title": "lazy_import called by several threads", "statement": "Several threads call lazy_import at the same time. All calls with one name give the same module object, which is the one in sys.modules, and the object a call gives is complete: a lazy module that has its dependencies, or a placeholder. This holds, whatever the others import at the same time, for a name that only one thread imports; and once a name is registered and no call with it is running, all later calls by all threads give the registered object. A call that is not interrupted does what C50 and C51 describe. [The code violates the general claim: there is no lock between the look into sys.modules and the registration, so two threads that import a name for the first time get two objects, one of which is replaced in sys.modules; and the object is registered before it is made lazy, so another thread can get a normal module that is empty and has never been loaded.]", "quantifier": "any number of threads, names, dependencies and calls, all interleavings of primitive steps, both versions of importlib", "why_tests_cant": "The windows are a few bytecodes wide and open once per name; that names imported by one thread are safe from what others import needs all interleavings.", "anchors": ["syncstream/utils.py:_LazyImporter.lazy_import", "syncstream/utils.py:_LazyImporter.create_module_placeholder", "syncstream/utils.py:_LazyLoader.exec_module", "syncstream/utils.py:_LazyImporter.check_is_dep_missing", "syncstream/utils.py:_LazyImporter.gather_relative_module_dependencies"]}
{"id": "C76", "title": "The host mode as a whole", "statement": "Any number of processes use host mirrors, LineHostReaders and the owner's stop_all_mirrors and reset_states at the same time, while the service serves their requests in threads, step by step. There is one order of all operations of the service, each within the call that asked for it, such that all answers and (when nobody is in a call) the state of the buffer are those of a service that performs the operations one after the other. To a process that uses only its mirror everything looks as in the sequential model: results, mirror and requests are those of a mirror whose network performs some requests of others before each of its own and loses some. A reader's call returns what the buffer was at one moment during the call. If no request of a mirror is lost and nobody stops mirrors or clears the buffer, then at the end every mirror has returned what it would return alone with a new service, and the buffer is the log of exactly the messages that the mirrors would send alone: those of each mirror in their order, none lost, doubled or changed, except that JSON joins surrogate pairs.", "quantifier": "any number of processes, all methods of mirrors and readers, all maxlen, all losses of requests and answers (first three claims), all interleavings of primitive steps", "why_tests_cant": "End-to-end runs show a few schedules of a few processes; that the step-by-step threaded service together with the multi-request methods of the mirrors never loses, doubles or reorders messages needs all interleavings and all programs.", "anchors": ["syncstream/host.py:LineHostBuffer", "syncstream/host.py:LineHostMirror", "syncstream/host.py:LineHostReader", "syncstream/base.py:LineBuffer", "syncstream/webtools.py:71-90"]}
{"id": "C77", "title": "Stopping and resuming the mirrors in the host mode as a whole", "statement": "Any number of processes use mirrors, readers and the owner's methods at the same time, requests are lost in any way, and the service serves in threads. Once a call that stops the mirrors has returned (stop_all_mirrors of the owner, or of a reader whose request is not lost), every write that any mirror begins afterwards raises StopIteration (OSError if that mirror is closed) and asks the service for nothing but the flag, so no text of it arrives, as long as no call that resets the states is under way or begins. Once a call that resets the states has returned, no write that begins afterwards raises StopIteration, as long as no call that stops the mirrors is under way or begins.", "quantifier": "any number of processes, all calls of mirrors and readers with all losses, all texts, all initial buffers and mirrors, all interleavings of primitive steps", "why_tests_cant": "A test sees a few schedules; that no interleaving of the service's threads lets a write pass after a stop that has returned, or stops one after a reset, needs all interleavings of all programs.", "anchors": ["syncstream/host.py:392-424", "syncstream/host.py:470-494", "syncstream/host.py:664-730", "syncstream/host.py:747-767", "syncstream/host.py:LineHostReader.stop_all_mirrors","syncstream/host.py:LineHostReader.reset_states"]}
{"id": "C78", "title": "A user's parse_lines", "statement": "A subclass of LineBuffer overrides parse_lines with any program that uses the storage and attributes of its own, in any number of steps, and may raise. With any number of threads writing, reading, starting new lines and asking for the state of one instance, every call takes effect in one moment, in which parse_lines runs as a whole: a call hands the lines it completes to parse_lines in one call, and does not call it if it completes none; if parse_lines raises, the call raises the same exception and the unfinished line stays what it was. The lines handed over (by calls that did not raise) are exactly the lines completed by the texts of the calls that did not raise, in one order that respects the order of each thread. With the default parse_lines every method is step by step that of the other properties. An override may also use the methods of the buffer. [The code violates the last claim: parse_lines is called while the lock of the buffer is held and this lock is not reentrant, so an override that begins with self.closed, self.read() or another method taking the lock waits for itself, and no write of a text with a line break ever returns, in any thread.]", "quantifier": "all overrides, all attributes, any number of threads, all calls and texts, all initial contents, all interleavings of primitive steps", "why_tests_cant": "Overrides are arbitrary user code; that the buffer hands over each line exactly once, under every interleaving and after every exception, is a statement about all of them.", "anchors": ["syncstream/mproc.py:_LineBuffer.parse_lines", "syncstream/mproc.py:_LineBuffer.write", "syncstream/mproc.py:292-317", "syncstream/mproc.py:_LineBuffer.new_line"]}
{"id": "C79", "title": "Mirrors that are sent to other processes", "statement": "A mirror that arrives in another process is new: open, with no text, and with the queue, flag and configuration of the one sent; nothing else changes. A message can be sent if and only if none of its mirrors is closed, in its context, or has been used. If each reference obtained by pbuf.mirror is sent alone in its message or forked before its mirror is used, then everything is as if everyone who took a mirror had one of their own (so that the properties of process mode apply), in particular Pool(p).map with n mirrors and any interleaving of the tasks ends with wait() returning with everything received. [The code violates this for n > 4p: the chunks of the pool then have several references to the one object pbuf.mirror always returns, pickle copies it once, the tasks share the copy, and wait() never returns. It also violates that the mirror can be used in the main process before: afterwards it can never be sent. A fork copies pending text, which is then sent twice.]", "quantifier": "all maxlen, all numbers of workers, tasks and mirrors, all histories of taking, sending, forking and using mirrors in any order", "why_tests_cant": "The tests use four mirrors and four workers, where each chunk has one mirror; that sharing never or always occurs depends on the sizes and on all histories of sending and using.", "anchors": ["syncstream/mproc.py:429-482", "syncstream/mproc.py:762-772", "syncstream/mproc.py:804-814", "syncstream/mproc.py:LineProcMirror.close", "syncstream/mproc.py:LineProcBuffer.wait"]}
{"id": "C80", "title": "Requests that urllib3 makes again", "statement": "A request of a mirror or reader is the attempts that urllib3 makes with Retry(connect=5, read=2): it is made again after a failure if and only if at most 10 attempts, 5 connections and 2 reads have failed, and no read of a POST; it returns an answer if and only if the last attempt was answered. So there are at most 11 attempts, at most 3 are processed, and a POST is processed at most once, and exactly once if it is answered. Whatever the others do between the attempts, a GET or POST with its attempts is one request, before which only the others used the service; therefore every history of calls of a mirror gives the results, the service and the processed POSTs of the model without attempts. If nobody uses the service between the attempts, this holds for DELETE, too. [The code violates this for DELETE in general: clear() of a reader whose answer is lost is made again and also removes what others wrote after they had seen the effect of the first attempt, and reset_states() undoes a stop_all_mirrors in the same way.]", "quantifier": "all requests, all failures of attempts, all operations of others before each attempt, all reachable states of the service, all histories of calls of a mirror", "why_tests_cant": "The tests run on one host where no connection fails; which attempts fail, and what others do between two attempts, cannot be enumerated.", "anchors": ["syncstream/host.py:158", "syncstream/host.py:846", "syncstream/host.py:LineHostReader.clear", "syncstream/host.py:LineHostReader.reset_states", "syncstream/host.py:LineHostMirror.check_states", "syncstream/host.py:LineHostMirror.write"]}
{"id": "C81", "title": "A user's parse_lines in file mode", "statement": "Any number of processes with drafts of their own, each with its own override of parse_lines that may take any number of steps, use locks, change other files and raise, making any calls in any interleaving. What the override of a process is given is determined by the calls of that process alone: the lines that its own texts complete, those of one call in one piece, each of them once and in order, unless the override raised; then the call raises the same exception and the draft is what it was, so the line is given again. With the default parse_lines every call is the program of LineFileBuffer step by step. No lock of the buffer is held while parse_lines runs, so if each override takes locks as the methods of the buffer do, nobody waits for ever and all calls end; in particular an override may use the methods of its own buffer. [The code violates what one expects of the latter: a text that parse_lines writes to its own buffer is accepted and then lost, because the draft is cleaned after parse_lines has returned.]", "quantifier": "all numbers of processes, all overrides that leave the drafts alone, all calls, all interleavings, all directories", "why_tests_cant": "The tests define one override and run it in one process; what overrides do and when the processes run cannot be enumerated.", "anchors": ["syncstream/file.py:LineFileBuffer.parse_lines", "syncstream/file.py:LineFileBuffer.write", "syncstream/file.py:LineFileBuffer.new_line", "syncstream/file.py:438"]}
{"id": "C82", "title": "The host mode as a whole, with the attempts of urllib3", "statement": "Any number of processes use mirrors and readers; every request is attempted as urllib3 does it with Retry(connect=5, read=2), attempts fail in any way, requests that were given up may still be processed later, and the service serves all of them in threads, step by step. There is one history of all calls and of the operations of the service, each in one moment during the call that asked for it, with the observed results; to a process that uses its mirror everything looks as to one client whose attempts end that way, with what the service does for others before each attempt that arrives, and not even the attempts show: its results and its mirror are those of the model in which each request is made once, and the POSTs processed for it are the same. A reader returns what it would return at one moment during its call, or raises the exception of one of its attempts. If nobody stops the mirrors or clears the buffer, then when all calls have ended the buffer is the log of exactly the messages that the mirrors brought to it or that arrived late, each once, those of each mirror in their order; and if no mirror has raised the exception of an attempt, these are all the messages the mirrors sent, whatever attempts failed.", "quantifier": "all numbers of processes, all calls, all failures of attempts, all late requests, all interleavings of the steps, all maxlen", "why_tests_cant": "The tests run on one host where no connection fails; failures at any attempt of any request of any process, with any interleaving of the threads of the service, cannot be enumerated.", "anchors": ["syncstream/host.py:158", "syncstream/host.py:846", "syncstream/host.py:LineHostMirror.write", "syncstream/host.py:LineHostMirror.check_states", "syncstream/host.py:LineHostReader.read", "syncstream/host.py:LineHostBuffer.serve"]}
{"id": "C83", "title": "Stopping and resuming the mirrors, with attempts and late requests", "statement": "Any number of processes use mirrors and readers in any way; every request is attempted as urllib3 does it, attempts fail in any way, and requests that were given up may be processed later, while the service serves in threads. If stop_all_mirrors() of the owner or of a reader has returned (the reader's without an exception), and no call and no late request that lets the mirrors go on is under way at its beginning or begins later, then every write that begins afterwards raises StopIteration or the exception of one of its attempts (or OSError, if its mirror is closed), and nothing but the flag is asked for: no text is sent. After a call that lets the mirrors go on, as long as nothing stops them, no write raises StopIteration.", "quantifier": "all numbers of processes, all calls, all failures of attempts, all late requests, all interleavings of the steps", "why_tests_cant": "The tests stop and resume on one host without failures; failures at any attempt and the moments of late requests cannot be enumerated.", "anchors": ["syncstream/host.py:LineHostBuffer.stop_all_mirrors", "syncstream/host.py:LineHostReader.stop_all_mirrors", "syncstream/host.py:LineHostReader.reset_states", "syncstream/host.py:LineHostMirror.check_states", "syncstream/host.py:LineHostMirror.write"]}
{"id": "C84", "title": "All calls of a process mirror among threads that share it", "statement": "Threads of any number of processes make any calls on the mirrors of their processes (write, new_line, read, clear, flush, send_data, send_eof, send_error, send_warning, close, ...), others receive in the main process, stop the mirrors or call force_stop. If every mirror has its lock, every race is an order of moments (sections of the lock, looks at the state, messages put into the queue), each call being its moments in their order between its start and its return. As long as nothing takes text away, nothing is lost, doubled, torn or out of order: every message of a call that does not fail is in the queue once, in the order of the thread; the text sent from a mirror's buffer and the text held back are the texts written by the threads of its process, each as a whole, interleaved; and all text added before send_eof, send_error or send_warning begins is in the queue before its message. Stops, failing puts and aggressive mirrors are included.", "quantifier": "all numbers of processes and threads, all calls and arguments, all failures of the queue, all interleavings of the steps", "why_tests_cant": "The tests use one thread per mirror; calls with several sections of the lock can be interleaved by others at each boundary, which cannot be enumerated.", "anchors": ["syncstream/mproc.py:LineProcMirror.write", "syncstream/mproc.py:LineProcMirror.new_line", "syncstream/mproc.py:LineProcMirror.send_eof", "syncstream/mproc.py:LineProcMirror.send_error", "syncstream/mproc.py:LineProcMirror.send_warning", "syncstream/mproc.py:LineProcMirror.send_data", "syncstream/mproc.py:LineProcMirror.close", "syncstream/mproc.py:LineProcBuffer.receive"]}
{"id": "C85", "title": "All calls of a host mirror among threads that share it", "statement": "Any number of threads make any calls on a host mirror that they share (write, new_line, read, clear, flush, send_data, send_eof, send_error, send_warning, check_states, close, ...), while requests or their answers may be lost. If the mirror has its lock, every race is an order of moments (sections of the lock, looks at the state, requests), each call being its moments in their order between its start and its return. As long as nothing takes text away: every message of a call that succeeds has been posted once and acknowledged, that of a call that fails at most once, in the order of the thread; the text posted from the buffer with an acknowledgement and the text held back are the texts written by the threads, each as a whole, interleaved; text posted without an acknowledgement is posted again or still held back (unless the mirror is aggressive); and all text added before send_eof, send_error or send_warning begins has been posted before its message, if the call succeeds.", "quantifier": "all numbers of threads, all calls and arguments, all failures of requests, all interleavings of the steps", "why_tests_cant": "The tests use one thread per mirror and a working network; where others get between the sections and requests of a call, and which requests fail, cannot be enumerated.", "anchors": ["syncstream/host.py:LineHostMirror.write", "syncstream/host.py:LineHostMirror.new_line", "syncstream/host.py:LineHostMirror.send_eof", "syncstream/host.py:LineHostMirror.send_error", "syncstream/host.py:LineHostMirror.send_warning", "syncstream/host.py:LineHostMirror.send_data", "syncstream/host.py:LineHostMirror.check_states", "syncstream/host.py:LineHostMirror.close"]}
{"id": "C86", "title": "close among threads comes after the text", "statement": "Threads share a mirror (host mode: one mirror of a host buffer, with requests or their answers lost; process mode: the mirrors of many processes, with threads in each). A thread calls close, with or without an error, and the call does not fail. All text that the mirror held back, or that any thread has written before this call begins, has been delivered (host mode: posted and acknowledged; process mode: put into the queue) before the end message of the call, which has been delivered too, whatever the other threads do during the call, as long as they do not close, clear or change the mirrors themselves and the locks exist.", "quantifier": "all numbers of processes and threads, all calls and arguments, all failures of requests, all interleavings of the steps", "why_tests_cant": "The tests close a mirror while nobody else uses it; close is four sections and one or two messages, between which others may write, send or end lines.", "anchors": ["syncstream/host.py:LineHostMirror.close", "syncstream/host.py:LineHostMirror.send_eof", "syncstream/host.py:LineHostMirror.send_error", "syncstream/mproc.py:LineProcMirror.close", "syncstream/mproc.py:LineProcMirror.send_eof", "syncstream/mproc.py:LineProcMirror.send_error"]}
{"id": "C87", "title": "the host mode as a whole, with mirrors that threads share", "statement": "Any number of processes, each with a host mirror that any number of its threads share, with the mirror's lock made on its first use; readers; the owner's stop_all_mirrors and reset_states; requests and answers that get lost; the service serving any number of requests at a time, step by step. There is one history of all calls and of the operations of the service, each operation in one moment, with the observed calls and results, in which the answers and the final state of the buffer are those of a service that performs the operations one after the other; what the threads of one process see and leave behind is an execution in which they share the mirror and an oracle decides on their requests. A reader's call returns the state of one moment during the call; stop_all_mirrors and reset_states happen in one moment during their call. If no request is lost and nobody stops the mirrors or clears the buffer, then, when all calls have ended, a new buffer is the log of all messages that the mirrors sent, those of each process in the order in which its mirror sent them, none lost, doubled or changed but by JSON.", "quantifier": "all numbers of processes and threads, all assignments of threads to processes, all calls and arguments, all losses, all interleavings of the steps, all states of the mirrors and of the service", "why_tests_cant": "The tests use one thread in each process; races between threads that share a mirror, while other processes' requests are served, happen only for particular schedules.", "anchors": ["syncstream/host.py:LineHostMirror", "syncstream/host.py:LineHostReader", "syncstream/host.py:LineHostBuffer.stop_all_mirrors", "syncstream/host.py:LineHostBuffer.reset_states", "syncstream/host.py:LineHostBuffer.serve"]}
{"id": "C88", "title": "responses and connection pools when threads share a mirror or a reader", "statement": "Any number of threads share a host mirror, or a reader, whose connection pool is made on the first use of the mirror or when a context of the reader is entered, without a lock. In every race every response belongs to the one running call that got it or has been given back: read at most once (for readers: read once), then released once, then closed once. A reader used outside contexts makes a pool for every call, uses it at most once, and clears it once, after its response is closed. Once a pool of a mirror has been made by a first use that no other overlaps, or a context of a reader has been entered and nobody leaves it, all requests of all threads go through this pool and no other is made; the pool of a mirror is cleared once, when the mirror has been collected. The responses and pools change nothing in what the calls do and return. Every pool that is made is cleared, once, and not while a response that came through it is open.", "quantifier": "all numbers of threads, all calls and arguments, all answers and losses of requests, all interleavings of the steps, all states of the mirror and of the service", "why_tests_cant": "The tests use a mirror and a reader in one thread each; two first uses at the same time, or a thread that leaves a context while another one reads an answer, need particular schedules, and a pool that is never cleared shows up in no result.", "anchors": ["syncstream/host.py:LineHostMirror.__http", "syncstream/host.py:LineHostReader.__enter__", "syncstream/host.py:LineHostReader.__exit__", "syncstream/webtools.py:SafeRequest", "syncstream/webtools.py:clean_http_manager"]}
{"id": "C89", "title": "the text of all threads of all processes in the host mode", "statement": "The threads of any number of processes share the mirror of their process and write, end lines, send data, announce ends, errors and warnings; readers and the owner of the buffer do anything at the same time; requests or their answers may be lost. There is one order of all operations of the service. What the threads of a process bring to it are, in this order, messages such that the text posted from the mirror with an acknowledgement is what the mirror held back and then what the threads of the process have added, each text as a whole and those of each thread in its order, up to what the mirror still holds back; direct messages are those of the calls, once each if the call succeeds; text posted without an acknowledgement comes from a call that fails, and is posted again or still held back unless the mirror is aggressive. A successful send_eof, send_error, send_warning or close comes after all text added before it began. If no request is lost and nobody stops the mirrors, no call fails, and the buffer is the log of all these messages, those of each process in their order, none lost, doubled or changed but by JSON.", "quantifier": "all numbers of processes and threads, all calls and arguments, all losses of requests and answers, all interleavings of the steps, all states of the mirrors and of the service", "why_tests_cant": "The tests run each process with one thread that uses its mirror, against a server on the same machine that loses nothing; they cannot enumerate the interleavings of threads of several processes nor losses of answers.", "anchors": ["syncstream/host.py:LineHostMirror.write", "syncstream/host.py:LineHostMirror.send_eof", "syncstream/host.py:LineHostMirror.send_error", "syncstream/host.py:LineHostMirror.close", "syncstream/host.py:LineHostBuffer.write"]}
{"id": "C90", "title": "lazy attributes used by several threads", "statement": "Several threads use the lazy attributes of a package: they look the names up, call what they find, call lazy attributes that they have kept, and use attributes of them. Whoever uses a lazy attribute, and whenever, uses the object the module has under this name; all threads use the same object, and from then on the name of the package is bound to the object and remains so. Once an attribute has been used, later uses wait for nobody, load and change nothing and give the same object. With versions of Python whose lazy loader has a lock the code of the module is run once and nobody gets an object of a module that is half loaded. If the modules can be ordered, the threads do not wait for one another forever. A thread that uses the attribute while nobody else does anything gets the object, and the module has been loaded.", "quantifier": "all packages, modules and lazy attributes, all numbers of threads and calls, all interleavings of the steps", "why_tests_cant": "The tests import the package in one thread; the first use of a name happens once per process, and a test cannot enumerate the interleavings of several first uses.", "anchors": ["syncstream/utils.py:_LazyAttribute.__load_module", "syncstream/utils.py:_LazyAttribute.__call__", "syncstream/utils.py:_LazyAttribute.__getattribute__", "syncstream/__init__.py"]}
{"id": "C91", "title": "A user's parse_lines in the process mode and in the host mode", "statement": "A subclass of LineProcBuffer or LineHostBuffer overrides parse_lines with any program that uses the storage and attributes of its own, and may raise. Process mode: in every history of the mirrors and of the main buffer the mirrors, the queues, the states and the number of mirrors are what they would be without the override, even if it raises; every text that is received is cut into lines as by write, the lines it completes are handed over in one call and in order, and errors and warnings go to the storage without a call of the override; an override that does not raise is given exactly the completed lines. wait() receives the messages in turn until all mirrors have ended or a stop arrives, as without the override; if the override raises, wait raises the same exception and leaves the later messages in the queue. Host mode: the same for the texts that are posted; an error or a warning first hands over the unfinished line; if the override raises, the request is refused, stores nothing, and completes and adds nothing, so that it may be posted again. With the default parse_lines both modes are those of the other properties. No text is lost when the override raises. [The code violates the last claim in the process mode: receive takes the message from the queue before it writes the text, so the end of the text after its last line break is neither handed over nor kept.]", "quantifier": "all overrides, all attributes, all histories of mirrors and main buffer, all posted messages, all texts, all initial contents", "why_tests_cant": "Overrides are arbitrary user code and may raise at any moment of a history; tests use the default parse_lines only.", "anchors": ["syncstream/mproc.py:_LineBuffer.parse_lines", "syncstream/mproc.py:LineProcBuffer.receive", "syncstream/host.py:LineHostBuffer", "syncstream/mproc.py:LineProcBuffer.wait"]}
{"id": "C92", "title": "Reading a buffer whose parse_lines stores None", "statement": "A user's parse_lines may store any values, also None (what re.search gives for a line without a match). read() and read(n) show the last items of the storage and the unfinished line, and change nothing, whatever is stored and however many threads write and read; in the process mode also whatever the mirrors send. A closed buffer cannot be read. [The code violates this for read(n): __read_n takes a stored None for 'nothing preserved'. When a line is unfinished, the storage is full and its oldest item is None, every read(n) with n > 0 takes the None out of the storage; if n is more than the storage can hold, it moreover shows the newest item a second time in front of the others, or raises IndexError if the storage has room for one item only. In all other cases, in particular for read() and for overrides that store no None, the documented behaviour is what happens.]", "quantifier": "all overrides, all stored values, all sizes, all histories of calls and of mirrors, all initial contents", "why_tests_cant": "The failure needs a value that only a user's override stores, a full storage, an unfinished line and a bounded reading at once; the shipped tests store texts and messages only.", "anchors": ["syncstream/mproc.py:_LineBuffer.__read_n", "syncstream/mproc.py:_LineBuffer.read", "syncstream/mproc.py:_LineBuffer.parse_lines"]}
{"id": "C93", "title": "Serving what a user's parse_lines stores in the host mode", "statement": "A subclass of LineHostBuffer overrides parse_lines (the documented way to store parsed values) and may store any values. read_serialized is documented to return what read returns, serialized and compatible with JSON: a GET request for the records, with or without a number n, shows what read shows, and changes nothing; n that is not a number is refused. A DELETE request empties the service. In every sequence of these requests: if the override stores texts and messages only, this is so, and the service is the one of C91. [The code violates this for other values, also for None: read_serialized hands everything that is not a text to GroupedMessage.serialize, which raises AttributeError, so one such value among the items shown makes the request fail with 500; the other items, errors of the mirrors included, cannot be read by any LineHostReader until the value has been pushed out or the records are deleted, unless the reader asks for newer items only, although read of the service itself shows them all.]", "quantifier": "all overrides, all attributes, all sequences of posts, GET and DELETE requests, all numbers, all initial contents", "why_tests_cant": "Overrides are arbitrary user code; tests use the default parse_lines only, which stores texts.", "anchors": ["syncstream/host.py:LineHostBuffer.read_serialized", "syncstream/host.py:LineHostBuffer.serve", "syncstream/base.py:GroupedMessage.serialize", "syncstream/mproc.py:_LineBuffer.parse_lines"]}
