# Formal model of sync-stream in Lean 4

This file says what is modelled, how each property of `properties.jsonl` is stated and
proved, and what has to be trusted.  `MANIFEST.json` lists the theorems of each property.
`seeded/LOG.jsonl` lists the wrong programs the theorems were tried on.

## 1. Layout

| Directory | Content |
|---|---|
| `lean/Verif/Py/` | the parts of Python the code uses: strings and `str.splitlines`, `io.StringIO`, `collections.deque`, exceptions as values, JSON values, paths and `fnmatch` |
| `lean/Verif/Model/` | the code of `/repo/syncstream`, function by function, with file and line references |
| `lean/Verif/Spec/` | small independent specifications: what a line is, what a window of lines is, a log, interleavings, linearizability, waiting for locks, lexical scope, ... |
| `lean/Verif/Lemmas/` | proof machinery |
| `lean/Verif/Props/` | the property theorems, named after the properties (`C01_...`), with `example`s that meet their hypotheses |

Names: `Cnn_..._partial` proves a part of the claim and its comment says what is missing.
`Cnn_..._violated` proves that the code does not have the property (a witness, or a whole
class of witnesses).  A property with one of these is `partial` in the manifest.

## 2. Modelling decisions

* A Python `str` is a `List Nat` of code points (a superset of all Python strings,
  lone surrogates included).
* Exceptions are values: a method of an object with state `σ` is a function
  `σ → Except Exc α × σ`; the state returned next to an error is the state the object
  is left in.
* `io.StringIO` has content, position and closed flag, with the overwriting and padding behaviour
  of `write`, so that a forgotten `seek`/`truncate` is visible.
* `deque(maxlen)` drops from the other end on overflow, for both `append` and
  `appendleft`.
* Threads and processes: a method is a program (`Prog`) whose steps are single operations on a shared
  object or lock operations.  `seq` runs it alone, `Crash` stops it anywhere, `Conc` interleaves it with the
  programs of any number of other threads.  Which call a thread makes next is left open, so
  all scripts are covered, also those that depend on results.
* Each step-by-step program is proved to do, when it runs alone, what the function-by-function model does
  (`Lemmas/Threads`, `Lemmas/HostThreads`, `Lemmas/ProcThreads`, `Lemmas/File`).
* The multiprocessing queue is a FIFO list with atomic put and get.  An oracle decides whether there is
  room, and when.
* The file system is a map from file names to contents; a method is a sequence of primitive
  file operations.  Each character written is a step.
* HTTP: a request handler is a state transformer.  An oracle decides what happens to a request
  of a client: other requests come first, it gets lost before or after being processed.
* JSON: `wire` is what `loads(dumps(x))` does (surrogate pairs are joined).
* Parameters instead of models: formatting of tracebacks, `int()` and `str()` of unusual values, the results of
  `find_spec`, the code of lazily loaded modules.

## 3. What is modelled, what is not

| Code | Model | Not modelled |
|---|---|---|
| `base.py` `is_end_line_break`, `is_serialized_grouped_message`, `GroupedMessage` | `Model/Message` | the text made by the `traceback` module (a parameter), `__repr__` |
| `base.py` `redirect_stdout`, `redirect_stderr`; `__enter__`/`__exit__` of all buffers and mirrors | `Model/Redirect` (alone), `Model/RedirectThreads` (step by step) | signals |
| `mproc.py` `_LineBuffer`, `LineBuffer` | `Model/LineBuffer` (alone), `Model/Threads` (step by step), `Model/Override` (with a user's `parse_lines`), `Model/ModeOverride`, `Model/ModeWait`, `Model/HostParsed` (the same in the process and host modes), `Model/NoneItems`, `Model/NoneThreads`, `Model/NoneProc` (reading when `None` is stored) | overrides of `parse_lines` that touch `last_line`; `fileno`, `isatty`, `seekable`, `seek` (constants) |
| `mproc.py` `LineProcMirror`, `LineProcBuffer` | `Model/Proc` (alone and as a system of calls), `Model/ProcThreads` (step by step), `Model/Kill` (processes killed among others that go on), `Model/Sending` (mirror objects, how they are pickled and forked, chunks of `Pool.map`) | the manager process itself (a process killed in the middle of a message to the manager or of a queue's own locks); pickle beyond which objects it copies and which it refuses; saved streams that can be pickled; everything else a fork copies |
| `file.py` `LineFileBuffer` | `Model/File`, `Model/FileProcs`, `Model/Death` (a process killed among others that go on), `Model/FileOverride` (with a user's `parse_lines`) | overrides that change drafts among processes (only `C81_inner_violated`); subdirectories and special files, encodings beyond "which characters can be encoded", a power failure (file contents lost after a write), `fasteners` itself (a reader-writer lock released at the death of a process) |
| `host.py` `LineHostBuffer`, `LineHostMirror`, `LineHostReader` | `Model/Host`, `Model/HostThreads`, `Model/HostMirrorThreads`, `Model/HostSystem` (all together, with one thread in every process), `Model/HostWorld` (the same with any number of threads in every process; in both the owner uses the buffer only through `stop_all_mirrors` and `reset_states`), `Model/Retries` (the attempts of urllib3 for a request, one client with the others between its attempts), `Model/HostRetries` (the same in the whole host mode) | Flask and urllib3 (routing, headers, connection pools beyond "which pool is used") |
| `utils.py` lazy modules and lazy attributes, the imports of `__init__.py` | `Model/Lazy`, `Model/LazyAttr`; several threads that use modules: `Model/LazyThreads`, that use lazy attributes: `Model/LazyAttrThreads`, that import modules: `Model/LazyImports` | the texts of `__repr__`, defining lazy attributes while other threads run, importing and using the same modules at the same time, code of modules that uses lazy attributes |
| `webtools.py` and its uses in `host.py` | `Model/WebTools` (which pools and responses there are and what happens to them), `Model/WebThreads` (the same step by step, for threads that share a mirror or a reader) | urllib3 itself (connections; its retries are in `Model/Retries`; what a connection with an unread body does next), type hints |
| `__init__.py`, `version.py` | the lazy imports as an example in `Props/Lazy` | |

Every definition in `Model/` has a comment with the lines it models; the simplifications are in the
comment at the head of each file.

## 4. Properties: how they are proved

| id | model | proof |
|---|---|---|
| C01-C06, C10, C11, C15 | `_LineBuffer` alone | refinement to (list of completed items, unfinished line), induction over calls |
| C07, C08 | same | exact characterisation, and the negation of the claim |
| C09 | same | invariant over calls |
| C12-C14, C57-C59 | threads with locks | critical sections are atomic (`Conc.exec_rel`), simulation by an atomic log; negations by explicit schedules, which are run by the model and compared with all orders of the calls; what every race guarantees by rely and guarantee (`Lemmas/Rely`); `clear` by a simulation in which it takes effect twice (`Lemmas/TwoMoments`) |
| C16-C22, C49, C56 | `LineProcMirror` with a queue that may reject | invariants over calls and behaviours of the queue; C21 also for all interleavings of steps, by rely and guarantee |
| C23-C28, C62 | `LineProcBuffer` and mirrors | induction over message sequences, interleavings and histories of the system; non-interference for C28 |
| C29, C37-C39, C55 | `LineFileBuffer` on a file map | refinement |
| C30, C54 | several file buffers on one map | critical sections are atomic, simulation by a shared log |
| C31, C32, C36 | primitive file operations | invariants over all prefixes of a run |
| C33-C35 | names, `fnmatch`, newline translation | lemmas about strings |
| C40-C45, C52 | Flask handlers, mirror, reader | induction over requests, oracles for the network |
| C46, C47 | `GroupedMessage` | algebraic laws |
| C48 | nested programs | structural induction, comparison with lexical scope |
| C50, C51 | registry of lazy modules | invariants over nested loading; both versions of `importlib` |
| C64 | lazy attributes on top of it | invariant over programs; every relation that loading follows is followed by programs with lazy attributes |
| C53 | programs of all modes with their locks | an order of the locks, and termination of every call; locks made on the first use are ordered by when they were made, under an invariant of the state (`Rising`, `Lemmas/LazyLocks`); in the host mode as a whole a process holds nothing between two requests (`orderly_clients`, `Props/DeadlockHost`); with mirrors that threads share a thread holds the lock of its mirror during a request, and the locks of the service come after those of the mirrors (`rising_mixSys`, `Props/DeadlockWorld`) |
| C63 | process mode with threads | ownership: a part of the state that one thread or one lock protects (`Lemmas/Owner`); the negation by a schedule |
| C65 | process mode, several threads in a process | sections of a lock that use what is shared once are one step (`Lemmas/Coarse`, `Lemmas/Blocks`: a simulation in which a thread that has used it runs ahead); then every call has one moment; texts by an invariant of the atomic object; the negation by a schedule |
| C66 | process mode, one thread in each process, all steps | a step of a process changes its own mirror and appends to the queue, and does not depend on the others (`Lemmas/ProcSteps`: `LocP`); so what remains of a call, run alone on the process's own messages, ends as in the sequential model; the same for the main process (`LocM`) after it has taken its message; the ends are counted |
| C67 | redirection, all statements of all threads | what the redirecting thread does does not depend on the texts of the others (`Blind`), so its rest, run alone, ends with the original streams; a program that only prints says the same whatever the streams are (`Says`); a schedule for the crossing |
| C68 | one host mirror, several threads | the machinery of C65 with the mirror and the network as what the lock protects (`Lemmas/HostMirrorThreads`); the order of the moments is the order of calls (`Lemmas/Order`), so the theorems for one thread (C18) carry over; the negation by two schedules |
| C69 | process mode with threads, closing | a protocol of stages for the thread that closes (`Lemmas/Protocol`: `Follows`, `exec_follows`), with a ledger: open mirrors, waiting end signals and what each thread is in the middle of; the negations by schedules |
| C70 | file mode with deaths | ghost state per lock (`Lemmas/Guarded`: `Prog.Under`, `tracks_step`): whoever takes a lock may rely on what the last holder left, at every step and not only at the release; a shelf of entries (`Spec/Records`) simulates the record files; the negation by a schedule |
| C71 | several names in file mode | the ghosts of C70 for a family of names; a step under the lock of one name is framed for every other (`FileBuf.under_change`); the negations by schedules |
| C72 | killed processes | every execution with kills is an execution without them in which some threads never move again (`kexec_exec`), so C66 carries over; a thread takes only locks of its own process and the state lock (`Prog.Touches`), so the chain of waiting threads of C53 stays among those alive; a call that needs a lost lock stays before it (`Prog.Needs`); the negations by schedules |
| C73 | lazy modules in several threads | every thread at a stage of a protocol that depends on the (reentrant) locks it holds (`Lemmas/LockProtocol`); locks in ascending order; concrete executions for the violations |
| C74 | mirror and reader with a log of responses and pools | erasing the log gives the model of the other properties (`Same`); the log consists of whole blocks (`Tidy`), which is kept by every method; the negation by an execution |
| C75 | `lazy_import` in several threads | stages of a protocol per thread (`Lemmas/Protocol`): who makes which object for which name; agreement with `Model/Lazy` when not interrupted; the negations by schedules |
| C76 | many mirrors, readers and the service together (`Model/Clients`, `Model/HostSystem`) | a generic theorem for clients of an orderly, disciplined service (`exec_clients`): an execution has a history of operations, each in one moment; agreement of the clients with the sequential model (`exec_onNet`); induction over the operations for a service that nobody stops |
| C77 | stopping and resuming in the whole host mode (`Model/HostSystem`) | the history of C76; `op_call`: an operation of the history belongs to a call that has begun and not returned; `flag_step`: what operations do to the flag; hence between the operation of the stop and the question of the write nothing can reset the flag (`flag_history`); the write is then computed (`write_asks`) |
| C78 | a subclass with its own `parse_lines` (`Model/Override`: any lock-free program on the storage and its own attributes) | as C12, with the override as part of the critical section; the order of the calls (`Lemmas/Order`) gives the lines handed over; program equality for the default; an invariant of programs that wait for their own lock (`Stuck`) for the violation |
| C79 | the mirror objects and references to them (`Model/Sending`) | an invariant on objects and locks; a refinement (`Sim`, `run_sim`) to `ProcSys` for histories that keep the rules; counting end signals against closed objects (`Counted`) for the violations |
| C80 | the attempts that urllib3 makes for a request (`Model/Retries`) | induction on the attempts (`urlopen_does`): which ones are made is said by counting failures (`Made`, which leaves no choice), and the whole is one request of `Model/Host`; GET changes nothing (C40) and a DELETE twice is a DELETE once (`handle_twice`); induction on clients (`onTries_onNet`) |
| C81 | a subclass with its own `parse_lines` in file mode (`Model/FileOverride`: any program, with locks, on the files and its own attributes) | rely/guarantee for one process whose draft and attributes the others leave alone (`Lemmas/Private.exec_private`, `call_meets`); orders of locks (`Lemmas/Deadlock`) |
| C82 | many mirrors and readers whose requests are attempted by urllib3, and the service (`Model/HostRetries`) | the generic theorem of C76 for other clients (`retry_history`); induction on the attempts that the attempts of a call, with what the service does for others, are those of `Model/Retries` (`urlopen_onTries`, `run_onTries`), then C80; for the delivery, a failing attempt is followed by another or its exception is raised (`urlopen_calm`, `exec_strict`) |
| C83 | C77 with attempts and late requests (`Model/HostRetries`) | `flag_history` of C77, for any clients whose calls say which way they set the flag; a request with its attempts ends with an exception of an attempt or with an answer (`urlopen_result`) |
| C84 | C65 for all calls of a mirror but the setters | the machinery of C65 for sections: each section of the lock is one step whatever the call does elsewhere (`Lemmas/ProcSections`), so the race is one of clients of an atomic service (`Lemmas/AtomClients`); what each moment sends and keeps (`Lemmas/ProcFlow`), composed along the history; what each call contributes by its moments; the negation for `close` by a schedule |
| C85 | C68 for all calls of a host mirror but setting `aggressive` | as C84 (`Lemmas/HostSections`, `Lemmas/HostFlow`); the answer of a moment also tells whether the service has processed a request, so that posts without an acknowledgement are accounted for; the negation for `close` by a schedule |
| C86 | what `close` keeps when threads race | from C84 and C85: up to the first moment that takes something away the history is one of calls that take nothing away; `close` comes to that moment only after it has emptied the buffer and sent its message; afterwards messages are only added (`Props/CloseShared`) |
| C87 | the host mode with mirrors that threads share | programs that use the state and locks of their process and ask the service (`Model/Mix`); their steps and those of the service commute where they belong to different parts, so every execution is one of clients that ask for one operation at a time (`Lemmas/Mix`, `Lemmas/MixRun`), for which C76's machinery gives one history; the methods are those of C68's model (`alone_prog`), and the history seen from one process is an execution of C68's model with an oracle (`Lemmas/HostWorld`); so C68, C85 and C86 hold in the whole (`C68_system_partial`) |
| C88 | mirror or reader shared by threads, with responses and pools | every thread follows a protocol whose stages say which response (or pool) it has and what has happened to it (`Lemmas/WebThreads`, `Lemmas/WebPools`, `Lemmas/WebFirst`, with the stage theorem `exec_protocol`); leaving out the responses and pools gives an execution of C68's model (`Lemmas/Erase`); the negations by schedules |
| C89 | the host mode with mirrors that threads share: text, announcements, closing | the share of one process in the history of C87 is an execution of C85's and C86's model, so their histories of moments apply; without losses every moment succeeds (`Good.calm`), and a call fails only if one of its moments does (`Lemmas/HostFlow`: `failures`), so nothing is posted twice |
| C90 | lazy attributes in several threads | a relation that every step keeps (objects and replaced names remain, `Lemmas/Rely`), the protocol of C73 lifted to the larger state, locks in ascending order; `__load_module` alone step by step; the negations by schedules |
| C91 | subclasses of `LineProcBuffer` and `LineHostBuffer` with their own `parse_lines` (`Model/ModeOverride`, `Model/ModeWait`, one thread on the side of the buffer; `wait` when the messages in the queue are all that arrive) | refinement, one step as in C78; everything but the line buffer is that of the system without the override (`OvSys.Same`); equality of the systems for the default |
| C92 | a subclass whose `parse_lines` stores any values, `None` included (`Model/NoneItems`; `None` is `Item.raw Json.null`), calls one after the other, several threads (`Model/NoneThreads`), and histories of the process mode (`Model/NoneProc`) | refinement and linearization; `__read_n` is compared with the one of C03 except where the oldest item of a full storage is `None`, there its loop is computed |
| C93 | a subclass of `LineHostBuffer` whose `parse_lines` stores any values, posts, GET and DELETE requests one after the other (`Model/HostParsed`; a value of the subclass is an `Item.raw`) | refinement: posts as in C91, reading as in C92, then serialization item by item; equality with the service of C91 as long as only texts and messages are stored |
| C60, C61 | service with threads | as C12 |

Properties whose English text contains a bracketed "[The code violates this ...]" are false
of the code.  For these the negation is proved, and the part that
does hold is proved in general as `..._partial`.

## 5. Where the code differs from its documentation

* C07: `len` counts an empty unfinished line.  C08: `write` returns 0 for a text that ends a line.
* C13, C57, C58, C59: `clear`, `len` and `close` are not atomic among threads.
* C14, C61: an error that arrives during a `read` can be lost.
* C20: `mirror.read(size)` is always empty.
* C22: a mirror that is stopped while a partial line is pending never sends its end signal; `wait()` then blocks.
* C26: unfinished lines of two processes are glued to one record.  C27: a warning overtakes an unfinished line.
* C32: after a crash records can be hidden, shown twice, or an empty one can appear.
* C33: `clear` removes records of other buffers, or not its own (names with `*`, `?`, `[`).  C34: two buffers can share a temporary file.
* C36: an encoding error hides all the records.  C37: an exception is shown before the text that precedes it.
* C41, C42: JSON joins surrogate pairs.
* C43: a reset loses `maxlen`.  C45: a message is accepted that makes the service unreadable.
* C49: with a timeout a transmission does not wait at all.
* C50: with newer versions of Python the dependencies are not loaded first, with older ones a cycle can run code twice; a
  placeholder as a dependency raises.  C51: a required import can return a placeholder.
* C52: leaving a context of a reader breaks the pool of an outer one, and later calls use a cleared pool.
* C54: buffers of one path with different `maxlen` lose records.  C56: switching the mode of a mirror loses or reorders text.
* C63: `mirror` counts with an unprotected `n_mirrors += 1`.  (The two halves of `+=` are separate steps of the model, as in the
  language; CPython with a global lock rarely switches threads between them.)
* C65: `__buffer_lock` makes the lock without protection; two threads that use a mirror for the first time can use two locks.
  (A mirror used by one thread before it is shared is safe.)
* C67: contexts of two threads that cross leave `sys.stdout` redirected to a mirror whose context has been left (inherent in
  redirecting a stream of the process; `contextlib.redirect_stdout` has the same fault).
* C68: the same race as C65 in `LineHostMirror.__buffer_lock`: a text written by a first use can be lost or posted twice.
* C69: `close()` checks `closed` and sets it in two sections of the lock, with the end signal in between; two threads that
  close a mirror send two end signals, so `wait()` can return too early.
* C70: if a process is killed while it adds several records at once (files moved by more than one place), then the next `write`
  moves files past each other's age: `read()` shows `c` before `b`. With calls that add one record each the order is kept.
* C71: with the names `x` and `x-y`, `clear` of `x` sees the record files of `x-y` without holding their lock; overlapping with a
  `write` to `x-y`, one of the two ends with `FileNotFoundError`.
* C72: the state lock belongs to the manager, which does not notice that a process was killed; if that happens in the check of
  `write()` or `close()`, the lock is held for ever, and `reset_states()` (documented as the way on after killing processes) hangs.
* C73: `_LazyModule.__getattribute__` has no lock: if another thread loads the module between its look at the class (by which it was
  called) and `object.__getattribute__(self, "load_deps")`, it ends with `AttributeError`.  The lock in newer versions of `importlib`
  comes too late to help, and adds a deadlock for modules that use each other.
* C90: the same happens with lazy attributes: two threads call `package.Name` for the first time, and one gets `AttributeError`
  (`C90_first_use_violated`).  With older versions of Python a thread may call an object of a module that another thread is still loading
  (`C90_half_violated`).
* C74: a mirror does not read the answer to an accepted message before it gives the connection back to the pool.
* C75: `lazy_import` looks into `sys.modules` and registers later, without a lock: two threads can get two objects for one name.  It registers the
  object before it makes it lazy: another thread can get an empty normal module.
* C91: in the process mode a text is taken from the queue before it is written; if a user's `parse_lines` raises, what follows the last line break of the
  text is lost (`C91_lost_violated`).  In the host mode the request is refused and may be repeated.
* C92: `__read_n` marks "nothing preserved" by `None`.  If an override of `parse_lines` stores `None` (regular expression searching is the documented
  use), then `read(n)` on a full storage with an unfinished line and `None` as the oldest item takes the `None` out of the storage, and for `n` larger
  than the storage shows an item twice or raises `IndexError` (`C92_violated`, `C92_twice_violated`, `C92_fails_violated`, `C92_lost_violated`).
* C93: `read_serialized` hands every item that is not a text to `GroupedMessage.serialize`.  If an override of `parse_lines` in the host mode stores any
  other value, every GET request that would show it fails with 500 (`C93_violated`); errors of the mirrors are hidden with it (`C93_hidden_violated`).
* C78: `parse_lines` is documented as something users override, but it is called with the (non-reentrant) `__last_line_lock` held: an override that
  uses a method of the buffer that takes the lock (`closed`, `read`, `write`, ...) blocks for ever.
* C79: `pbuf.mirror` is the same object each time.  `Pool(p).map` with more than four tasks per worker puts several references into one
  message; pickle copies the object once, the tasks share it, the first one closes it, the writes of the others raise `OSError`, and `wait()`
  never returns.  After any use of `pbuf.mirror` in the main process it cannot be pickled at all.  A fork copies text that has not been sent,
  which is then sent twice.
* C80: `clear()` and `reset_states()` of a reader are DELETE requests, which urllib3 repeats after a lost answer.  If others use the service
  between the attempts, what they wrote after they had seen the effect is removed, too, and a `stop_all_mirrors` after it is undone.
* C81: an override of `LineFileBuffer.parse_lines` may call `self.write(...)` (no lock is held), but the text is lost: it is appended to the draft, and
  `__write` cleans the draft after `parse_lines` has returned.
* C84: `LineProcMirror.close` ends the stream and then empties and closes the buffer in another section: what another thread writes in between is lost,
  though its `write` returns.  (`LineProcMirror.close`, `mproc.py:491-511`.)
* C85: the same in the host mode: `LineHostMirror.close` posts the end and then empties and closes the buffer in another section: what another
  thread writes in between is lost, although its call has succeeded, the lock exists and no request is lost (`C85_lost`, `C85_violated`).
* C88: `LineHostMirror.__http` makes the pool without a lock and looks `self.__http_` up again for the finalizer: after two first uses at the same
  time a pool that was used may never be cleared, and another one is cleared twice.  Two threads that enter a context of a reader at the same time
  make two pools, of which one is never cleared; a thread that leaves a context clears the pool while others read from it.

## 6. Trusted base

* Lean's kernel (Lean 4.33.0).  No axioms are added, there is no `sorry`, `admit`, `native_decide` or
  `bv_decide`; `decide +kernel` is evaluated by the kernel.
* The axioms `propext`, `Classical.choice`, `Quot.sound` of Lean; section 7 lists them for each theorem.
* That the definitions in `Model/` and `Py/` do what the Python code and the CPython standard
  library do.  They were written by reading; nothing was executed.  In particular:
  - a single operation of `StringIO`, `deque`, a dictionary or an attribute is not interrupted by other threads;
  - a `put`/`get` of a manager's queue is atomic;
  - `os.rename`, `os.remove` and `open` are atomic; a write leaves a prefix when the process dies;
  - pickle copies an object once per message, and refuses objects with locks, open text files or a closed `StringIO`; `Pool.map` sends each of its chunks as one message,
    with the chunk size of CPython's `Pool._map_async`;
  - urllib3 makes a request again as `Retry.increment` of version 1.26.17 says (also allowed: a refused connection that counts only in `total`, as in
    version 2), and the service sends no redirects and no `Retry-After`;
  - Flask answers an exception with status 500 and malformed JSON with 400, and serves each request in one thread.
* The statements in `Spec/` and `Props/`: that they say what `properties.jsonl` says.

## 7. Axioms of each theorem

Generated with `#print axioms` from the theorems in `MANIFEST.json`.

**`propext`**: C25_streams_keep_order, C27_host_order, C35_round_trip, C64_none

**`propext`, `Quot.sound`**: C01_lines_sound, C15_creation, C48_reentered, C48_restored, C48_scoped, C67_crossed_redirect,
C67_one_redirects_partial, C80_attempts_unique

**`propext`, `Classical.choice`, `Quot.sound`**: C01_feeds_total, C01_history_refines, C01_lines_unique, C01_log_deterministic, C01_read_newest, C02_bounded,
C02_process, C02_threads, C03_read_pure, C03_read_unobservable, C04_read_size, C05_cut_independent,
C05_split_crlf_extra_record, C05_two_cuts, C06_file, C06_host_no_terminators, C06_no_terminators, C06_process,
C07_host_len_partial, C07_host_violated, C07_len_partial, C07_reader_partial, C07_reader_violated,
C07_violated, C08_violated, C08_write_return_partial, C09_closed, C10_clear_resets, C10_clear_succeeds,
C10_host_clear, C11_new_line, C11_new_line_completes, C11_new_line_idempotent, C12_linearizable,
C13_two_moments_partial, C13_violated, C14_no_reads_partial, C14_read_too_long, C14_violated, C15_file,
C15_new_buffer, C16_conservation, C16_conservation_writes, C17_aggressive_sends, C17_host_aggressive_sends,
C17_host_write_sends, C17_no_line_held, C17_write_sends, C18_failed_write_keeps, C18_host_failed_write_keeps,
C18_host_no_loss, C18_no_loss, C19_after_close, C19_close_returns, C19_close_sends, C19_host_after_close,
C19_host_close_sends, C20_read_partial, C20_read_size_always_empty, C20_violated, C21_race, C21_race_open,
C21_race_silent, C21_stopped, C22_host_violated, C22_leave_sends_end_partial, C22_violated, C22_wait_blocks,
C23_modes_agree, C24_programs, C24_queue_interleaves, C24_system, C24_two_ends_return_early, C24_wait_returns,
C24_wait_waits, C25_system, C26_host_partial, C26_host_violated, C26_mirror_sends_whole_lines,
C26_one_process_partial, C26_violated, C27_host_replays, C27_order_partial, C27_violated,
C28_force_stop_consumes, C28_force_stop_returns, C28_old_mirrors_detached, C28_reset, C29_history_refines,
C29_like_memory, C29_log_deterministic, C30_linearizable, C30_own_order, C31_completes, C31_completes_total,
C31_crash_safe, C32_empty_record_violated, C32_hidden_violated, C32_shown_twice_violated,
C32_text_kept_partial, C33_foreign_violated, C33_own_violated, C33_removes_own_partial,
C33_touches_only_partial, C34_record_not_tmp, C34_records_distinct, C34_tmp_distinct, C34_tmp_violated,
C35_platform_invisible, C35_stored_texts, C36_records_intact_partial, C36_unfinished_partial, C36_violated,
C37_one_record, C37_order_violated, C38_close_completes, C38_close_exc_keeps_unfinished, C38_closed_for_good,
C39_len_is_read_length, C40_bounded, C40_error_changes_nothing, C40_error_records, C40_get_pure,
C40_local_pure, C41_as_local, C41_reader_reads, C41_violated, C42_survives, C42_violated, C43_maxlen_partial,
C43_reader_partial, C43_reader_violated, C43_violated, C44_leaving_delivers, C44_reader_closed, C44_resume,
C44_resumes, C44_stays, C44_stop, C44_write_raises, C45_mirrors_not_foreign, C45_readable_partial,
C45_violated, C46_foreign_unchanged, C46_injective, C46_recognised, C46_recognised_iff, C46_roundtrip,
C47_exception_clean, C47_exception_lines, C47_exception_text, C47_plain_string, C47_str, C47_type,
C49_no_timeout_waits_partial, C49_timeout_never_waits, C49_violated, C50_force_violated, C50_full_name,
C50_kept, C50_lazy, C50_loads, C50_made, C50_once_newer, C50_once_partial, C50_once_violated,
C50_order_calls_partial, C50_order_partial, C50_order_violated, C50_path, C50_placeholder_dependency,
C50_placeholder_module, C50_placeholder_use, C50_placeholder_violated, C50_protected, C50_same, C51_partial,
C51_violated, C52_after_violated, C52_context_partial, C52_nested_violated, C52_temporary_partial, C53_files,
C53_host, C53_host_mirror, C53_host_retries, C53_host_system, C53_host_world, C53_process, C53_process_lazy,
C53_threads, C54_larger_writer_partial, C54_smaller_writer_law, C54_violated, C55_creation,
C55_suffix_ignored, C56_close_loses, C56_mode_change_partial, C56_violated, C57_bounds_partial,
C57_no_reads_partial, C57_violated, C58_after_partial, C58_raises_partial, C58_violated, C59_alone,
C59_raises_partial, C59_violated, C60_linearizable, C60_log, C61_partial, C61_violated, C62_host, C62_process,
C63_one_thread_partial, C63_receivers_partial, C63_violated, C64_again, C64_define, C64_failed, C64_first_use,
C64_has, C64_once_newer, C64_replaced, C64_same, C64_show, C65_doubled, C65_first_use,
C65_linearizable_partial, C65_lost, C65_receive_partial, C65_violated, C65_writers_partial, C66_execution,
C66_false_is_the_end, C66_goes_on, C66_streams, C66_wait, C67_crossed, C67_violated, C68_doubled,
C68_failures_partial, C68_first_use, C68_linearizable_partial, C68_lost, C68_order_partial,
C68_system_partial, C68_violated, C68_writers_partial, C69_closed_partial, C69_count_partial,
C69_host_violated, C69_late, C69_raises, C69_twice, C69_violated, C69_wait_partial, C70_deaths,
C70_no_missing_file, C70_order_partial, C70_order_violated, C70_read_order_partial, C71_names_apart,
C71_no_missing_file, C71_order_partial, C71_related_clear_violated, C71_related_violated, C71_untouched,
C72_alive, C72_alive_lazy, C72_arrives, C72_between_calls, C72_lost, C72_reset_violated, C72_waiting_violated,
C72_waits, C73_after, C73_alone, C73_cycle_violated, C73_first_use_violated, C73_half_violated, C73_loaded,
C73_no_deadlock, C73_once, C73_path, C73_placeholder_use, C73_protected, C73_twice_violated,
C74_context_partial, C74_finalizer, C74_mirror, C74_outside_partial, C74_reader, C74_refused_read_partial,
C74_same, C74_states_read, C74_unread_violated, C75_alone, C75_one_importer_partial, C75_settled,
C75_two_objects_violated, C75_unfinished_violated, C76_delivery, C76_reader, C76_sequential, C77_resume,
C77_stop, C78_default, C78_linearizable, C78_lines, C78_self_violated, C79_fork_violated, C79_fresh,
C79_main_used_violated, C79_own, C79_pool, C79_pool_violated, C79_shared_violated, C79_shared_write,
C79_unused, C79_used_never, C79_when, C80_alone, C80_attempts, C80_bounds, C80_clear_violated, C80_covered,
C80_mirror, C80_once, C80_reset_violated, C81_deadlock, C81_default, C81_inner_violated, C81_lines, C81_texts,
C82_delivery, C82_exactly_once, C82_mirror, C82_owner, C82_reader, C82_sequential, C83_resume, C83_stop,
C84_before_partial, C84_history_partial, C84_lost, C84_texts_partial, C84_violated, C85_before_partial,
C85_history_partial, C85_lost, C85_texts_partial, C85_violated, C86_host_partial, C86_proc_partial,
C87_delivery, C87_moment, C87_one_service, C88_context_partial, C88_enter_violated, C88_exit_violated,
C88_first_use_violated, C88_mirror_responses, C88_one_pool_partial, C88_reader_pools, C88_reader_responses,
C88_same, C89_before_partial, C89_close_partial, C89_delivery_partial, C89_texts_partial, C90_alone,
C90_first_use_violated, C90_half_violated, C90_loaded, C90_name, C90_no_deadlock, C90_object, C90_once,
C90_same, C90_settled, C91_accepted, C91_default, C91_history, C91_host_default, C91_lines, C91_lost_violated,
C91_posts, C91_receive, C91_wait, C91_wait_same, C92_all_partial, C92_closed, C92_exact, C92_fails_violated,
C92_linearizable, C92_lost_violated, C92_no_none_partial, C92_process, C92_process_violated,
C92_twice_violated, C92_violated, C93_exact, C93_hidden_violated, C93_newest, C93_records_partial, C93_same,
C93_serialized_violated, C93_violated
