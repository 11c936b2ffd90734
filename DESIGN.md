# Falcon2 formal model: design

The object of study is falconpl/Falcon2 at the pinned commit in `/repo` (C++17).  The
properties are in `properties.jsonl`; `MANIFEST.json` maps each to its theorems.  This file says what
is modelled, how each property is proved, what is trusted, and where the code does not have
the property.

## 1. Trusted base

* Lean 4.33.0's kernel (and `lake` to run it).  No axiom is declared; the theorems depend on at
  most `propext`, `Classical.choice`, `Quot.sound` (`vcheck` replays every module and lists the axioms).
  No `native_decide`, `bv_decide`, no compiled evaluation; `decide +kernel` (used for closed examples only)
  is evaluated by the kernel.
* The hand translation of the C++ text into the definitions of `lean/Verif/Model/*.lean`.  Every
  definition cites the file and lines it models.  The code was never run.
* The statement of each property theorem (`lean/Verif/Props/*.lean`) together with the small
  specifications (`lean/Verif/Spec/*.lean`).
* The following facts about the C++ runtime, which are inputs of the model:
  - `std::list`/`std::vector` behave as finite sequences; the operations with a precondition
    (`back`, `pop_back` of an empty vector, dereferencing `end`, decrementing `begin`, comparing
    iterators of different lists, ...) are *faults* (`UB`) of the model whenever the precondition
    fails.  Two exceptions, which the code relies on: forming the pointer `begin()-1` of a vector
    (the end mark of the forward iterator) is taken to yield a comparable pointer that may not be
    dereferenced; `capacity` never shrinks.
  - `assert` is treated as compiled out (`NDEBUG`): what the code does *after* a failed
    assertion is what the model shows.  With assertions on, the program aborts instead.  (C122 looks at
    the asserts themselves.)
  - `size_t`/counters are unbounded naturals except where the property is about wrap-around
    (Futex spin counter, atomics, RFutex ids, items, version number, waiting times): there `BitVec`/modulo.
  - allocation does not fail, except in `Model/PSAlloc` (C124, C125) and `Model/LogFail` (C135), where every allocation may.
  - sequential consistency for `std::atomic`: the code uses the default memory order except in `Futex`, whose
    acquire/release orders are modelled by a view-based weak memory machine in `Model/FutexWeak` (C136: sections
    guarded by a Futex behave as under sequential consistency); the log system's accesses are shown free of data races
    where they are (C134).
  - `std::mutex`, `std::condition_variable`, `std::thread`, `std::unique_ptr` have their
    standard semantics; a critical section that contains no wait is one atomic step of the
    log system model. Both simplifications are *proved* harmless: C164 for the log system (a second
    model has every mutex operation and every assignment as its own step), C25 for Futex.
  - `std::regex` is a parameter (`valid : Regex -> Bool`, `match : Regex -> String -> Bool`).
  - doubles are IEEE binary64: a finite double is modelled as an exact dyadic rational (`FloatEq`,
    `FloatText`), the rounding of the operations the code performs is round-to-nearest-even on these, and
    `ostream <<` of a double is `printf %.*g` with correct rounding.  Lean's `Float` is not used.
  - the default stream formatting of integers, fill and width follows the standard.

## 2. What is modelled

| code | model | specifications | property theorems |
|---|---|---|---|
| `engine/pagedstack.h` (all public members), `distribute.h` | `Model/PagedStack`, `StackAssign`, `PSSync`, `PSLoop`, `Distribute` | `Spec/Stack`, `StackIter`, `StackObs`, `StackSync`, `StackLoop`, `StackSyncPos` | `Props/PagedStack`, `PSSync`, `PSLoop`, `PSSyncDec`, `PSThrow`, `Distribute` |
| `pagedstack.h`: implicit copy/move/swap, exceptions of element operations, failing allocations, check-then-act | `Model/PSCopy`, `PSGuard`, `PSAlloc` | `Spec/StackValue` | `Props/PSCopy`, `PSCopyMore`, `PSGuard`, `PSGuardMore`, `PSAlloc`, `PSAllocBack` |
| `pagedstack.h`: lifetime of the elements; `PagedStack<Item>` | `Model/PSLife`, `ItemStack` | `Spec/StackLife`, `ItemStack` | `Props/StackLife`, `ItemStack` |
| `pagedstack.h`: calls made by the elements' own copy constructors and destructors | `Model/PSNested` | `Spec/PSNested` | `Props/PSNested` |
| `pagedstack.h`: what destructors find while pop, discard and clear remove elements | `Model/PSRemove` | `Spec/PSRemove` | `Props/PSRemove` |
| `pagedstack.h`: memory accesses of calls and of plain iterators, with a real mutex | `Model/StackRace` | `Spec/StackRace`, `DataRace` | `Props/StackRace` |
| `futex.h`, `futex.cpp` | `Model/Futex`, `FutexWeak` (weak memory) | `Spec/Mutex`, `FutexWeak`, `FutexFair` | `Props/Futex`, `FutexWeak`, `FutexFair` |
| `atomic_gcc.h`, `atomic_vc.h` | `Model/Atomic` | | `Props/Atomic` |
| `logsystem.h`, `logsystem.cpp` | `Model/LogSystem` (transition system), `Model/LogLeak` (string buffers), `Model/LogReact` (what listeners do inside onMessage), `Model/LogRace` (memory accesses), `Model/LogFail` (failing allocations), `Model/LogDiags` (getDiags() read by read), `Model/LogMutex` (every mutex operation and assignment a step), `Model/LogMutexReact` (the same, with listeners that use the system) | `Spec/LogTrace`, `DataRace`, `LogDiags`, `LogFair` (endless executions), `LogMutex`, `LogMutexRest`, `LogMutexWork`, `LogMutexReact`, `LogMutexFeed`, `LogMutexWait`, `LogMutexReads` | `Props/LogSystem`, `LogHistory`, `LogFile`, `LogLeak`, `LogReact`, `LogRace`, `LogFail`, `LogDiags`, `LogFair`, `LogLatency`, `LogMutex`, `LogMutexRest`, `LogMutexWork`, `LogMutexReact`, `LogMutexFeed`, `LogMutexWait` |
| `logger.h`, `logger.cpp`, `logproxy.h` | `Model/Logger`, `LoggerThrow`, `FilterRace` | `Spec/Logger`, `LogFilter`, `LoggerThrow`, `LoggerNest`, `FilterRace` | `Props/Logger`, `LoggerExact`, `LogFilter`, `LoggerThrow`, `LoggerNest`, `FilterRace`, `FilterLast` |
| `logger.h` and `logsystem.cpp` together: from statements to lines | `Model/LoggerJoint` | `Spec/LoggerJoint`, `LoggerLive` | `Props/LoggerJoint`, `LoggerLive` |
| `logstream.h`, `logstream.cpp` | `Model/LogStream`, `LogStreamFail` (a stream that fails) | `Spec/LogStream`, `LogStreamFail` | `Props/LogStream`, `LogStreamFail`, `FormatState` |
| `item.h`, `itemdata.h`, `*handler.h`, `*handler.cpp` | `Model/Item`, `FloatText` | `Spec/Item`, `FloatText` | `Props/Item`, `FloatText` |
| `code.h/.cpp`, `compiler.h/.cpp` | `Model/Code` | `Spec/Code` | `Props/Code` |
| `item.h`, `*handler.h`, `code.cpp`, `compiler.cpp` with failing allocations | `Model/ValueMem` | `Spec/ValueMem` | `Props/ValueMem` |
| `UnitTest::singleton` called by threads | `Model/UTSingleton` | `Spec/UTSingleton` | `Props/UTSingleton` |
| `singleton.h` | `Model/Singleton` | `Spec/Singleton` | `Props/Singleton` |
| start and exit of the process (`singleton.h`, `logger.h`, `logger.cpp`, `unittest.cpp` statics) | `Model/Lifetime` | `Spec/Lifetime` | `Props/Lifetime` |
| `fut/testcase.*`, `timelapse`, `marktime`, `fut.h` macros | `Model/TestCase`, `Checks`, `FloatEq` | `Spec/TestCase`, `FloatEq` | `Props/TestCase`, `Checks`, `ChecksAny`, `FloatEq`, `Times` |
| `fut/unittest.*`, `fut_main.cpp` | `Model/UnitTest`, `FutFormat` (format state of std::cout), `FutNested` (tests that call the runner), `FutRunners` (several runners, lifetimes) | `Spec/UnitTest`, `Xml`, `Console`, `Suite`, `Nested`, `Runners`, `Complete`, `FutDirect` | `Props/UnitTest`, `FutDirect`, `Nested`, `Level`, `Xml`, `Console`, `FailedCases`, `Suite`, `FutFormat`, `Complete`, `Runners`, `RunnersBad`, `RunnersDefined` |
| `fut/testcase.cpp` and the check macros used by threads of a test | `Model/FutThreads` | `Spec/FutThreads`, `DataRace` | `Props/FutThreads` |
| `config.h.in` version macro | `Model/Version` | | `Props/Version` |

Not modelled: the CMake build and shell tools, `setup.h`, `types.h`, `error.h`, `parseerror.h` (empty classes and
macros), the body of BigNum arithmetic (the class is only declared), `Item::get<T>` (does not compile when
instantiated), the wording of `usage`; of std::cout's format state: showbase, uppercase,
internal, scientific and imbued locales.

## 3. Method

* *Sequential containers*: a structural invariant (`Shape`: full pages, then the current
  page, then spare pages) and a refinement to a list-stack that also counts pages.  Every history
  property is an induction over the list of calls.
* *Concurrency*: a small-step transition system with one step per atomic
  action, any number of threads; properties are inductive invariants of all reachable states or
  statements about all traces.
* *Text and numbers*: functions on `List Char`, `BitVec`, `Int`, with round-trip theorems (a decoder that is
  defined in the specification and inverts the writer for every input).
* *Refuted properties*: where the code does not have the property, a theorem `..._refuted` gives a
  concrete execution that violates it, and a `..._partial` theorem gives the strongest part that
  holds, if possible with the exact boundary (an "iff").  Those have status `partial` in the manifest: the English
  property is kept as it is, since it is what a user relies on.
* *Non-vacuity*: beside each theorem an `example` shows a concrete non-trivial case that meets its hypotheses;
  `lean/Verif/Witness/*.lean` apply the theorems on the stack, the log system, the Logger, locks, singletons, tests and runners, one by one, to such data.
* *Validation against the project's tests*: `lean/Verif/Check/*.lean` transcribe the tests in `/repo/src/test` (all of
  pagedstack, item, compiler, singleton, logsystem, logger, logstream, fut_*; futex: the smoke tests) call by call and evaluate them on the
  model; every expectation the project states about the code holds of the model.  These are tests of the translation, not
  proofs; no theorem depends on them.
* *Mutation tests*: `seeded/LOG.jsonl` lists edits of the model (wrong boundary, missed case, dropped update, and repairs of the
  bugs that were found) with the theorems that stop proving.  Theorems that survived an edit that falsified their
  English claim were tightened (field `tightened`).

## 4. Per property

* C01 (proved) PagedStack is a LIFO stack over any history: refinement of `run init ops` to a list stack, induction over the calls.
* C02 (proved) PagedStack precondition boundary is exact: for every call an iff between "faults" and the violated precondition.
* C03 (proved) push(a,b,...) equals consecutive single pushes: equality of states, induction over the arguments.
* C04 (proved) pop(v1..vn) undoes push(x1..xn): equality of contents and of values via `Shape`.
* C05 (proved) discard(n) equals n pops: equality of states, induction over n.
* C06 (partial) clear() empties the stack: false: `clear` leaves the elements of the first page; exact: the bottom page stays.
* C07 (partial) pop_reverse reads FIFO and removes what it read: false once pages were left behind; exact iff on the remaining size.
* C08 (partial) discard(iterator) removes everything from the top through the position: as C07, for both iterator kinds.
* C09 (proved) peek, peek_reverse and peek_depth read the right elements and change nothing: values read = take/drop of the list; the state is unchanged.
* C10 (proved) forward iteration visits every element once, top to bottom: loop with fuel: for all sufficiently large fuel it stops with exactly the contents.
* C11 (proved) ++ and -- on iterators are inverse: inverse laws at all valid positions.
* C12 (partial) reverse iteration rbegin()..rend() visits every element once, bottom to top: false when spare pages exist; exact iff.
* C13 (proved) from_top(d)..rend() visits the d topmost elements, deepest first: as C10.
* C14 (proved) size, empty and getStats describe the contents: corollary of the refinement (the specification counts pages).
* C15 (proved) shrink_to_fit keeps the contents and frees every spare page: corollary of the refinement.
* C16 (proved) shrink is deferred while sync iterators live and performed when the last dies: system of a stack and any number of sync iterators, invariant over all histories.
* C17 (partial) sync iterators are safe under concurrent modification: invariant over all histories; false after a throw at a page boundary and for pop_reverse.
* C18 (proved) sync iteration of a quiescent stack equals forward iteration: as C10 in the sync system.
* C19 (partial) sync iterators may be copied: false: a copy is not counted; exact for copies that die before the original.
* C20 (proved) push never moves existing elements: position of every element before = after.
* C21 (proved) pages are allocated only when all are full: page counts of the refinement.
* C22 (partial) push is all-or-nothing when copying the element throws: false at a page boundary; exact iff.
* C23 (partial) every page size and preallocation works: false at 0; exact for positive sizes.
* C24 (proved) Futex mutual exclusion: invariant of the Futex transition system, any number of threads.
* C25 (proved) critical sections guarded by a Futex are atomic: commutation of critical sections: every trace has the effect of a sequential one.
* C26 (proved) Futex is deadlock-free and acquires when free: from every reachable state the lock is free or its holder can step.
* C27 (partial) Futex yields as documented: false for the spin counter as documented; exact number of yields.
* C28 (proved) Futex::isLocked tells whether someone holds it: invariant.
* C29 (partial) RFutex::lock acquires and is re-entrant: false: `lock` never returns; exact.
* C30 (partial) RFutex thread identities are unique: false after 2^32 threads; unique below.
* C31 (partial) RFutex::isOwner is true only for the owner: false in the named case; exact iff.
* C32 (proved) a mutex-parameterised PagedStack is linearizable: refinement of the threads' histories to a sequential one with real-time order.
* C33 (proved) atomic counters lose no update: sum of increments modulo 2^32, for every interleaving.
* C34 (proved) atomicInc returns distinct tickets: as C33, exact bound 2^32.
* C35 (proved) atomicCAS has exactly one winner: trace induction.
* C36 (proved) atomicXor/And/Or and Exchange return the previous value: bit-vector identities.
* C37 (partial) atomicAdd means the same on every platform: false for one platform; exact difference.
* C38 (proved) log messages are dispatched in order, exactly once: trace invariant: delivered ++ queued = logged.
* C39 (proved) a delivered message is the message that was logged: trace invariant with object identities; no double use.
* C40 (proved) message accounting balances and the pool is bounded: counting invariant.
* C41 (proved) the system level filters messages: trace theorem on the outcome of each log call.
* C42 (proved) a listener gets exactly the messages it accepts: protocol invariant for listeners: offered, answered, delivered.
* C43 (proved) category filter rules: exact rule.
* C44 (proved) setting an invalid category leaves the filter unchanged: case analysis on the call.
* C45 (partial) detach() stops delivery: false: a message may be in flight; exact.
* C46 (proved) a listener added before a log call receives that message: trace theorem.
* C47 (proved) no lost wake-up: invariant: a waiting consumer and a non-empty queue imply a pending notification.
* C48 (proved) the queue drains: termination measure.
* C49 (partial) stop() delivers everything logged before it: false: stop() discards the queue; true for what was drained.
* C50 (proved) after stop() returns no listener is called: trace invariant.
* C51 (partial) start() after stop() resumes the service: false: the terminate flag stays; exact.
* C52 (partial) a newly constructed LogSystem works: false: uninitialised members; exact for initialised ones.
* C53 (proved) the reported maximum queue size is the true high-water mark: trace maximum.
* C54 (proved) destruction frees every message object once: ownership invariant at destruction.
* C55 (proved) level names are fixed-width and distinct: case analysis.
* C56 (proved) a LOG statement emits one message with its own text, level and location: effect of every statement on the emitted messages.
* C57 (partial) a temporary category applies to one message only: effect of a statement sequence; false for the empty category.
* C58 (partial) log statements may be nested: false; exact text of nested statements.
* C59 (partial) a LOG_BLOCK emits one message, even when left early: false when left early; exact.
* C60 (proved) log statements of different threads do not mix: thread-indexed composers, isolation for all interleavings.
* C61 (partial) LOG_CATEGORY sets the category for the statements that follow: false in the default build; exact.
* C62 (partial) clearFilter() restores the state before categoryFilter(): false; exact for one filter.
* C63 (partial) categoryFilter shows matching detail only once and hides the rest: false; exact lines written.
* C64 (partial) categoryFilter with an invalid expression changes nothing: false; exact.
* C65 (proved) only one category filter is active at a time: invariant.
* C66 (proved) a log line can be decoded back: decoder in the specification inverts the writer.
* C67 (proved) the written file name is the part after the last separator: last separator, for all names.
* C68 (proved) the date prefix has fixed width: width for all dates.
* C69 (proved) one message is one line: number of newlines.
* C70 (proved) the stream in use is alive: ownership of the stream.
* C71 (proved) integer items keep their value: bit-vector round trip.
* C72 (partial) unsigned 64 bit items print their value: false above 2^63; exact.
* C73 (proved) integer to string to integer round trip: parse of print.
* C74 (partial) toInt on a string item never brings the program down: false: out of range terminates; exact.
* C75 (proved) string and bool and nil conversions: case analysis.
* C76 (partial) items may be copied and destroyed freely: false: copies double-free; exact lifetime.
* C77 (partial) handler allocate/destroy are matched: false for deep handlers.
* C78 (proved) float items convert by truncation: exact value of the truncation.
* C79 (partial) Code keeps its source text: false: 4096 bytes / NUL; exact iff.
* C80 (partial) Code objects may be copied, moved and destroyed: false; exact lifetime.
* C81 (partial) compile reads one word at a time: false for long words; exact words.
* C82 (proved) Singleton accessors all reach one instance: transition system of accessor calls.
* C83 (partial) test status reflects what the test did: false when the streams are exchanged; exact status.
* C84 (partial) TearDown follows every SetUp: false when SetUp throws; exact order of calls.
* C85 (partial) -e decides whether stderr output fails a test: false: -e has no effect.
* C86 (proved) exit status is zero iff all performed tests passed: induction over the performed tests.
* C87 (proved) every selected test runs exactly once, grouped by component: sorted grouping, exact order.
* C88 (proved) failure counts add up: sums over the log.
* C89 (partial) performUnitTests can be repeated: false: components accumulate; exact k-th run.
* C90 (partial) a test's verdict does not depend on earlier runs: false: captured text stays; exact.
* C91 (partial) standard streams are restored after every test: false without capture.
* C92 (partial) -q prints nothing: false for tests that write past the capture.
* C93 (proved) command line options are parsed left to right: grammar of options: accepted iff a list of valid options.
* C94 (partial) -v rejects anything that is not a level: false for garbage after digits; exact.
* C95 (partial) the failed-cases list names exactly the tests that failed: false with -t; exact.
* C96 (partial) the XML report is well formed: false: values are not escaped; exact iff on the texts.
* C97 (proved) full test names identify tests: injectivity of component::name.
* C98 (proved) the default test name is the bare program name: last separator.
* C99 (proved) elapsed time is exact modulo one day: modulo arithmetic.
* C100 (partial) EXPECT_FLOAT_EQ is a tolerance comparison: false: truncation; exact.
* C101 (partial) FAIL ends the test and the reported failure is the first one: false; exact first failure.
* C102 (partial) version number packing is injective: injective up to the field widths, false as signed order from major 128.
* C103 (proved) a thread in stop() is never stuck: from every reachable state a path to return.
* C104 (partial) formatting used in one log statement does not influence later ones: false; exact.
* C105 (partial) logging leaves the format state of a shared stream alone: false: fill character; exact.
* C106 (proved) log lines are never mixed, lost or split: interleavings of lines under the mutex.
* C107 (partial) an Item can be made from every arithmetic C++ type: false for the types named; exact.
* C108 (partial) distribute gives the k-th target the k-th value: false with aliasing; exact.
* C109 (proved) a single named test can be performed: as C86 for one test.
* C110 (partial) waitTime waits as long as asked: false beyond 2^32; exact.
* C111 (proved) exception checks decide what they say: case analysis on what the expression throws.
* C112 (partial) a check evaluates its arguments once: false: failing checks evaluate twice; exact.
* C113 (proved) the log diagnostics count correctly: counting invariant over traces.
* C114 (partial) handlers describe their type truthfully: false for copy-flatness of string items.
* C115 (partial) a float item's text is its value to six digits: printf %g on exact rationals; distinctness false.
* C116 (partial) reported test times are the measured times: as C115, exact up to 999 s.
* C117 (partial) status lines have fixed columns: exact line; columns false from test 1000 on.
* C118 (partial) a float item survives text on the way to an integer: false (six digits); exact.
* C119 (partial) a copy of a PagedStack is a stack of its own: false: copies push into the source; exact.
* C120 (proved) a moved or swapped PagedStack keeps working: world of stack variables, refinement to value semantics.
* C121 (partial) shrink_to_fit works on a moved stack: false: the iterator count moves; exact.
* C122 (partial) a pop guarded by empty() is safe: false: check-then-act; conservation proved.
* C123 (partial) multi-element calls lose nothing when an element operation throws: false at page boundaries; exact.
* C124 (partial) push is all-or-nothing when memory runs out: every allocation may fail; false; exact.
* C125 (partial) elements stay where they are even after memory ran out once: false; exact.
* C126 (partial) a test's reported time is the time its test() took: false when SetUp throws; exact.
* C127 (proved) the console shows exactly what happened: exact text by induction over the performed tests.
* C128 (proved) the exit code tells whether all tests deserved to pass: composition of C83, C86, C87, C93.
* C129 (partial) reported times add up: false when SetUp throws; otherwise by telescoping the clock.
* C130 (proved) the log file tells exactly what was logged: ledger invariant along the dispatch protocol, composed with C38, C41, C42, C46, C66, C69.
* C131 (partial) logging does not leak memory: account of the string buffers along executions (Model/LogLeak.lean); conservation by induction over the steps on top of the ownership invariant of C39.
* C132 (partial) Listeners may use the log system from onMessage, and may fail: Model/LogReact spreads onMessage out into the calls it makes, performed by the logging thread interleaved with all others; a forward simulation shows the executions are executions of the base model with one more client, so its theorems apply; an invariant gives survival, progress and a bound for harmless listeners; witnesses for throw, stop() and start() inside, with a deadlock that persists in every continuation..
* C133 (partial) The queue empties once threads stop logging: Well-founded descent over (queue length, remaining work of the round, remaining calls of the listener) for listeners that do not log; for a listener that logs, a two-step cycle of states is iterated any number of times..
* C134 (partial) The log system is free of data races: Model/LogRace gives every step its memory accesses with the mutexes held (proved complete against the step function: C134_writes_complete, C134_reads_complete); a discipline - atomic, mutex, only the logging thread, or the holder of the message object - holds in every reachable state, the last by the memory invariant; getDiags() and category() are added as queries and their races characterised exactly..
* C135 (partial) The log system when memory runs out: Model/LogFail extends the step relation of Model/LogSystem: every allocating step may fail, at its first or second allocation. The memory invariant of the log system is carried over with the lost and phantom objects counted as discarded..
* C136 (proved) A Futex protects data on weakly ordered machines: Model/FutexWeak: view-based release/acquire machine with timestamps for m_owned, versions of the guarded data, and the memory orders of the code as parameters; invariant (only the newest `false` message is not already followed by a read-modify-write, the holder knows the newest version) and simulation by Model/Futex, so that C25 carries over; the converse by a two-thread execution that races when an order is weakened..
* C137 (partial) getDiags() is a snapshot: Model/LogDiags adds any number of observers, whose calls read one number per step, to the system of Model/LogSystem; an invariant says which moments a call in progress has passed; the counters are shown to be monotone; the two refutations are executed witnesses..
* C138 (partial) Formatting a test leaves on std::cout does not change the report: the insertions of endTest and report are modelled as tokens printed through a format state (base, showpos, width, fill, adjustment, precision, fixed), and proved to give the text of C127 whenever every test keeps base, showpos, width and fixed neutral; refuted by runs with std::hex, with a pending std::setw, and by the precision 4 that report leaves.
* C139 (partial) Static objects can use the logger and singletons from constructors and destructors: the process from the first static constructor to the end of exit as a small-step machine with nested constructions; invariants for lifetimes and order; termination by a rank on constructors for careful programs; refuted for every program that logs in main and in a static destructor, and for every one whose destructor uses a singleton first used by main.
* C140 (partial) A sync-iterator loop beside other threads visits what stays, top to bottom, and ends: transition system of the loop's calls interleaved with arbitrary allowed calls (Model/PSLoop); an invariant gives the number of heights still to visit, which each get() and ++ lowers to min(r,n)-1 and min(r,n); induction over the execution.
* C141 (partial) -- on a sync iterator undoes ++: exact effect of operator-- by cases on the position (Proofs/PSSync3), stated as height before and after; undo and upward traversal follow by induction.
* C142 (partial) A test may run other tests through the runner without spoiling the run it is part of: Model/FutNested: the statements of a test extended by calls of the runner; performTest nested to a given depth works on the same members as the run under way, and a record of resets, beginnings and verdicts is kept. Invariants carried through statements, runs and nested calls (Proofs/Nested, Nested2) tie the status, the failure count, the list of failed cases and the streams to the record. For tests that make no such call the model equals the plain one (C142_plain)..
* C143 (partial) One test case, several runners: Model/FutRunners gives programs over several runners as a step relation; Spec/Runners reads registrations, names and lifetimes off the history; an invariant ties them together, a relational argument (Agree, Core, Rel) gives noninterference..
* C144 (partial) Lifetime of runners and test cases: Same model: dead runners and deleted tests are tracked, each call faults iff it touches one; Sound in Spec/Runners states the rules on the history only..
* C145 (partial) an iterator keeps its element while the stack changes above it, and writes only to it: positions are page = height / pageSize, offset = height mod pageSize in every well-formed stack, so an undisturbed history (relation on the ideal stack) leaves the iterator's coordinates right; the reverse loop is followed by induction for a bound below, at and above the current page; assignment by induction over the pages.
* C146 (partial) an element is destroyed when it leaves the stack, exactly once: Model/PSLife.lean runs the calls again with the constructor and destructor calls of vector and list, for any element type; with numbered objects, a counting invariant gives exactly-once for all histories, and a simulation by an ideal stack of objects shows which objects exist after each call..
* C147 (partial) items can be kept on a PagedStack: Model/ItemStack.lean combines Model/Item.lean and Model/PSLife.lean: a program state is the heap, the item variables and the stack. Ownership of heap objects by variables and elements is an invariant of the programs that copy flat items only..
* C148 (partial) Futex::lock() returns in the end: Infinite executions of the transition system of Model/Futex (a function from times to states, driven by a schedule). Refuted by an explicit periodic fair schedule of two endless threads (invariant by induction over the periods). What holds: completion for finite programs (potential argument over a fair schedule), the lock is taken infinitely often, and the exact condition under which a waiting thread gets it..
* C149 (partial) logging survives a failing stream: Model of an ostream with a device of limited room, badbit and exception mask (Model/LogStreamFail); induction over the insertions of a message, then over the history of messages, device changes and repairs, against a three-line specification of what is in the file..
* C150 (partial) every accepted message is processed in the end, under any load: Endless executions of Model/LogSystem as functions of a schedule (Spec/LogFair `forever`). A measure on the logging thread that no client step can change and every step of the logging thread lowers (rank) leads to the next dispatch and to the end of each round; FIFO order of the queue carries it to each message; an invariant of the round carries it to each listener..
* C151 (partial) stop() returns under a fair scheduler: Endless executions (Spec/LogFair). Leads-to arguments: flag set - logging thread ends - holder of the mutex joins - the caller gets the mutex or finds no thread. Refutation: an 8-periodic schedule in which another thread calls stop() and start() for ever..
* C152 (partial) Plain iterators of a PagedStack beside other threads: Model/StackRace lists the memory cells (current page, node pointers, page bounds, elements) every public call writes and every unlocked operation reads; theorems show the lists complete against the sequential model (C152_written, C152_read, C152_assigned, C152_elements) and give, for each unlocked operation, exactly the calls it races with..
* C153 (proved) What a Logger writes after any history of level, filter and clear calls: Refinement of the filter model (Model/Logger: fstep) by a four-field specification (Spec/LogFilter); simulation relation over the registered listeners; counting of the listeners that pass a message..
* C154 (partial) Exceptions thrown while a log statement is composed: A structured language of log statements with exceptions and handlers, evaluated with the thread-local members of Model/Logger and an oracle for commit(); induction over programs. Three refutations (incomplete message, block text in the next message, terminate), exact behaviour of each; control flow is that of the program without logging; programs whose blocks are not left by exceptions leave nothing behind; equivalence with the small-step model of C56-C61 on programs without exceptions..
* C155 (partial) Setting and clearing the category filter while other threads use the logger: The two functions as sequences of atomic steps, calls of other threads between any two of them. Commutation of each step with the environment's writes; invariant that relates every state to a sequential history of C153; the exact set of level() calls that get lost; in-call lines; faults; data races by access lists..
* C156 (partial) A run of tests is always defined: False: m_failLine has no initialiser, and a test that ends in FAIL through status(FAIL) is printed with it; a test that throws is written to the XML report with it. Exact: a specification `Blind` over the scripts of the tests in the order they are performed (a test ends failed and neither this nor an earlier run of it said where), and performUnitTests is undefined iff messages are on and the order is Blind; with a report, also iff some test did not succeed and never said where. Nothing else can go wrong..
* C157 (partial) Items, code objects and the compiler when memory runs out: The programs of Model/Item and Model/Code with an oracle that grants or refuses each allocation; std::string's inline capacity and boost's allocations are parameters. Proved: a run that goes on equals the run of the plain model without the statements that threw (items, code objects); exact conditions for std::bad_alloc, for termination and for a cut text; compile under memory shortage returns code for a prefix of the word (operator>> swallows the exception)..
* C158 (partial) UnitTest::singleton() is one runner for all threads: Transition system of threads in singleton() (read, make, store, read), invariant on the pointer. Refuted by two (or any number of) overlapping first calls that return different runners, and by the data race on the pointer. Proved: never null; no thread makes more than one; once a call has returned, calls that begin later make none; after any moment with no call under way everything is stable and race free; if the first call is alone all calls return its runner; the exact racing states..
* C159 (partial) Elements may use the stack they are put on or taken from: Model: every call carries the calls its element operation makes; places under construction or destruction are tracked, in the order in which libstdc++'s push_back and pop_back move the end pointer. Refuted by explicit stacks (pushing from a copy constructor always constructs two elements in one place; reading the top from a destructor fails at a page boundary; popping from a copy constructor leaves a destroyed element on the stack; with a Futex any nested call hangs). The exact rule is proved by mutual induction over call trees: a tree works iff it is permitted by a rule on heights modulo the page size..
* C160 (proved) From LOG statements to lines of the log file: Model/LoggerJoint runs the thread model of Logger (composition steps) and the transition system of LogSystem side by side: a composed message becomes a pending log() call of the same thread and the thread composes no further until that call has returned. The file is the one of LogStream for the messages the listener received. The theorem composes the per-thread statement semantics (C59..), program order and completeness of the log system (C130) and the line format (C67..)..
* C161 (partial) The line of every LOG statement finally appears in the log file: Endless joint executions (`jforever`) of the threads (Model/Logger) and the log system (Model/LogSystem) under weak fairness. Each thread has a measure (statements left, progress inside log()) that never grows and falls when the thread is chosen; the messages in the queue are served by the argument of C150; at the end C160 gives the file..
* C162 (partial) Checks made by the threads of a test: small-step model of test() with threads, checkFail as four separate assignments; invariant for every schedule plus construction of the bad schedules, giving exact characterisations of the race, of termination, and of the record at the end.
* C163 (partial) A logged message waits for a bounded amount of work only: potential function on the model of the log system: messages to process times 6 L + 5 plus the steps left in the current round never increases and decreases with every step of the logging thread; the bound is shown to be exact by an example.
* C164 (proved) The log system's locking: atomic sections, no deadlock, no data race, step by step: Model/LogMutex has a step per mutex operation and per assignment; refinement mapping onto Model/LogSystem (each fine step is one atomic step or none), invariant: every thread has the mutex its program point says; converse by scheduling each critical section without interruption; accesses listed per step and proved complete for writes..
* C165 (proved) When no new calls are made the log system comes to rest: a rank over the states of Model/LogMutex (steps left in each call, plus messages times listeners, plus what is left of the message being served) decreases with every step of every thread; rest states characterised by C164's absence of deadlock; served messages by the refinement of C164 and C38..
* C166 (proved) The log system does no more than it was asked to do: amortised account over the states of Model/LogMutex: the rank of C165 with a fixed bound for the number of listeners falls with every step of every thread and rises with a call by no more than the call's budget..
* C167 (partial) Listeners may use the log system from onMessage: the locking, step by step: Model/LogMutexReact: the calls of onMessage are those of one more client of Model/LogMutex, which moves only while the logging thread is inside onMessage; every run is a run of Model/LogMutex with one more client (simulation), so C164-C166 carry over; deadlock freedom by following the chain of waiting threads; the return of onMessage by the rank of C165..
* C168 (proved) Listeners can keep the log system busy only by logging: an account kept along every execution of Model/LogMutexReact: the steps, calls, deliveries and dispatches so far against the messages logged, with the listeners still to be offered the message in hand as potential (at a dispatch the number of listeners grows by a factor 1+q at most); the steps outside onMessage by C166 for the run with one more client..
* C169 (proved) However much listeners log, a message waits only for those before it: Model/LogMutexReact; a potential that every step of the logging thread lowers and no step of another thread raises: the messages before it, the place in the loop, the listeners still to be asked, what the running onMessage has still to do.
* C170 (proved) Listeners are called one at a time, and their own calls take place once and in order: Model/LogMutexReact; invariant: calls made = calls seen as those of the logging thread ++ the one begun and not seen yet; only steps of the loop produce its events.
* C171 (partial) Removing several elements at once is like popping them one by one: Model/PSRemove: the plain model with what every destructor finds; elements are named by their height; induction over the pages from the top down, Before is the exact order.

## 5. Findings

Faults of the code that the model exhibits (each is a `_refuted` theorem unless marked "reading").

PagedStack
* `clear()` leaves the first page's elements (C06); `pop_reverse`/`discard(iterator)` leave the stack on an empty page (C07, C08);
  `rend()` is wrong when spare pages exist (C12); copies of sync iterators are not counted (C19); a throwing copy at a
  page boundary leaves an empty current page (C22, C123); page size or preallocation 0 is undefined (C23).
* Copying a stack copies the iterator `m_curBase` into the *source*: pushes on the copy land on the source,
  `size()`/`empty()` are undefined (C119).  Moving carries the iterator count but not the iterators (C121).
* A failed page reserve leaves a page of capacity 0 whose elements later move; a second failure makes `top()` undefined (C124, C125).
* `assert(!empty())` and a caller's `if(!empty()) pop()` are outside the lock (C122).
* `begin()`, `rbegin()`, `rend()`, the plain iterators and the reference `top()` returns are used without the lock: data races (C152).
* Calls are not re-entrant: an element whose copy constructor or destructor uses the stack can construct two elements in one
  place, read an empty page or leave a destroyed element on the stack; with a Futex it hangs (C159).

Synchronisation
* `RFutex::lock` never returns (C29); ids repeat after 2^32 threads (C30); `atomicAdd` differs between platforms (C37).

Logging
* `stop()` discards what is queued (C49); `start()` after `stop()` stops at once (C51); members are uninitialised (C52).
* A detached listener can still be called once (C45).  Nested LOG statements share one buffer (C58); a LOG_BLOCK
  left early emits with the next statement (C59); LOG_CATEGORY has no effect in the default build (C61).
* An operand that throws logs the incomplete message; a LOG_BLOCK left by an exception puts its text in front of the next
  message; memory running out in a LOG statement terminates the program (C154).
* `categoryFilter` twice loses the first state (C62), writes matching lines twice and does not lower the default listener (C63),
  changes state before the expression is checked (C64).  A level() call in another thread during categoryFilter can
  be lost, and while a filter is replaced there is none (C155).  `LogStream` leaves the fill character of shared streams at '0' (C105).
* The placement new over a pooled message loses the buffers of the message logged before (C131).
* An exception leaving onMessage, or stop() called in it, terminates the program; start() or stop() in onMessage
  deadlocks with a stop() in another thread (C132). A listener that logs feeds itself for ever (C133).
* getDiags() walks the list of active listeners without a lock, category() hands out a reference to guarded text:
  data races (C134).
* A message that cannot be built takes its pool object with it; a failing push_back under the noexcept log(Message*)
  ends the program; category() failing late leaves text and expression apart; msgsCreated counts what was not made (C135).
* getDiags() is no snapshot: it can report more messages discarded than created, and more listeners enabled than ever
  were at the same time (C137).
* stop() may wait for ever while another thread calls stop() and start() again and again (C151).
* LOG in the destructor of a static object uses destroyed thread-local objects; a logger or Singleton first used in main is
  destroyed before static objects that may still use it (C139).
* reading: `getDiags` reads the listener count unsynchronised; `checkCategory`
  prints debug output; a non-inline function is defined in logger.h.

Items and code
* Copied items double-free (C76, C114); `toInt` of an out-of-range string terminates (C74); unsigned items print signed (C72); float
  items print six digits (C115, C118); long words overflow the compiler's buffer (C81); `Code` copies double-free (C80).
* When memory runs out: toString and the constructors of Code end the program; a number longer than the stream's inline buffer
  is returned cut short, and compile returns code for a part of the word, both without notice (C157).

Test framework
* `-e` has no effect (C85); repeated runs run tests k times (C89); capture buffers are never cleared (C90); XML values are not escaped and
  the failure line is printed uninitialised (C96); EXPECT_FLOAT_EQ truncates instead of comparing with a tolerance (C100);
  failing checks evaluate their argument twice (C112); `waitTime` wraps (C110); a throwing SetUp makes the test's time the time since the
  epoch (C126, C129); status columns move from test 1000 on (C117); `std::hex` or `std::setw` left on std::cout by a test show in the report, and
  the report leaves precision 4 there (C138); performTest called from inside a test wipes the
  results of the run under way, which then returns 0 although a test failed (C142); registering a test with a second runner under another
  name renames it in the reports of the first (C143); UnitTest::singleton() hands out the runner that main() has deleted (C144);
  a test that calls status(FAIL), or one that throws when a report is written, makes the runner print a line number never set (C156);
  overlapping first calls of UnitTest::singleton() return different runners, and race (C158);
  failing checks in two threads of a test race, and an EXPECT that fails between the start of a thread and its join ends the whole program (C162).
