{
 "C130": "ledger invariant along the dispatch protocol, composed with C38, C41, C42, C46, C66, C69",
 "C131": "account of the string buffers along executions (Model/LogLeak.lean); conservation by induction over the steps on top of the ownership invariant of C39",
 "C132": "Model/LogReact spreads onMessage out into the calls it makes, performed by the logging thread interleaved with all others; a forward simulation shows the executions are executions of the base model with one more client, so its theorems apply; an invariant gives survival, progress and a bound for harmless listeners; witnesses for throw, stop() and start() inside, with a deadlock that persists in every continuation.",
 "C133": "Well-founded descent over (queue length, remaining work of the round, remaining calls of the listener) for listeners that do not log; for a listener that logs, a two-step cycle of states is iterated any number of times.",
 "C134": "Model/LogRace gives every step its memory accesses with the mutexes held (proved complete against the step function: C134_writes_complete, C134_reads_complete); a discipline - atomic, mutex, only the logging thread, or the holder of the message object - holds in every reachable state, the last by the memory invariant; getDiags() and category() are added as queries and their races characterised exactly.",
 "C135": "Model/LogFail extends the step relation of Model/LogSystem: every allocating step may fail, at its first or second allocation. The memory invariant of the log system is carried over with the lost and phantom objects counted as discarded.",
 "C136": "Model/FutexWeak: view-based release/acquire machine with timestamps for m_owned, versions of the guarded data, and the memory orders of the code as parameters; invariant (only the newest `false` message is not already followed by a read-modify-write, the holder knows the newest version) and simulation by Model/Futex, so that C25 carries over; the converse by a two-thread execution that races when an order is weakened.",
 "C137": "Model/LogDiags adds any number of observers, whose calls read one number per step, to the system of Model/LogSystem; an invariant says which moments a call in progress has passed; the counters are shown to be monotone; the two refutations are executed witnesses.",
 "C138": "the insertions of endTest and report are modelled as tokens printed through a format state (base, showpos, width, fill, adjustment, precision, fixed), and proved to give the text of C127 whenever every test keeps base, showpos, width and fixed neutral; refuted by runs with std::hex, with a pending std::setw, and by the precision 4 that report leaves",
 "C139": "the process from the first static constructor to the end of exit as a small-step machine with nested constructions; invariants for lifetimes and order; termination by a rank on constructors for careful programs; refuted for every program that logs in main and in a static destructor, and for every one whose destructor uses a singleton first used by main",
 "C140": "transition system of the loop's calls interleaved with arbitrary allowed calls (Model/PSLoop); an invariant gives the number of heights still to visit, which each get() and ++ lowers to min(r,n)-1 and min(r,n); induction over the execution",
 "C141": "exact effect of operator-- by cases on the position (Proofs/PSSync3), stated as height before and after; undo and upward traversal follow by induction",
 "C142": "Model/FutNested: the statements of a test extended by calls of the runner; performTest nested to a given depth works on the same members as the run under way, and a record of resets, beginnings and verdicts is kept. Invariants carried through statements, runs and nested calls (Proofs/Nested, Nested2) tie the status, the failure count, the list of failed cases and the streams to the record. For tests that make no such call the model equals the plain one (C142_plain).",
 "C143": "Model/FutRunners gives programs over several runners as a step relation; Spec/Runners reads registrations, names and lifetimes off the history; an invariant ties them together, a relational argument (Agree, Core, Rel) gives noninterference.",
 "C144": "Same model: dead runners and deleted tests are tracked, each call faults iff it touches one; Sound in Spec/Runners states the rules on the history only.",
 "C145": "positions are page = height / pageSize, offset = height mod pageSize in every well-formed stack, so an undisturbed history (relation on the ideal stack) leaves the iterator's coordinates right; the reverse loop is followed by induction for a bound below, at and above the current page; assignment by induction over the pages",
 "C146": "Model/PSLife.lean runs the calls again with the constructor and destructor calls of vector and list, for any element type; with numbered objects, a counting invariant gives exactly-once for all histories, and a simulation by an ideal stack of objects shows which objects exist after each call.",
 "C147": "Model/ItemStack.lean combines Model/Item.lean and Model/PSLife.lean: a program state is the heap, the item variables and the stack. Ownership of heap objects by variables and elements is an invariant of the programs that copy flat items only.",
 "C148": "Infinite executions of the transition system of Model/Futex (a function from times to states, driven by a schedule). Refuted by an explicit periodic fair schedule of two endless threads (invariant by induction over the periods). What holds: completion for finite programs (potential argument over a fair schedule), the lock is taken infinitely often, and the exact condition under which a waiting thread gets it.",
 "C149": "Model of an ostream with a device of limited room, badbit and exception mask (Model/LogStreamFail); induction over the insertions of a message, then over the history of messages, device changes and repairs, against a three-line specification of what is in the file.",
 "C150": "Endless executions of Model/LogSystem as functions of a schedule (Spec/LogFair `forever`). A measure on the logging thread that no client step can change and every step of the logging thread lowers (rank) leads to the next dispatch and to the end of each round; FIFO order of the queue carries it to each message; an invariant of the round carries it to each listener.",
 "C151": "Endless executions (Spec/LogFair). Leads-to arguments: flag set - logging thread ends - holder of the mutex joins - the caller gets the mutex or finds no thread. Refutation: an 8-periodic schedule in which another thread calls stop() and start() for ever.",
 "C152": "Model/StackRace lists the memory cells (current page, node pointers, page bounds, elements) every public call writes and every unlocked operation reads; theorems show the lists complete against the sequential model (C152_written, C152_read, C152_assigned, C152_elements) and give, for each unlocked operation, exactly the calls it races with.",
 "C153": "Refinement of the filter model (Model/Logger: fstep) by a four-field specification (Spec/LogFilter); simulation relation over the registered listeners; counting of the listeners that pass a message.",
 "C154": "A structured language of log statements with exceptions and handlers, evaluated with the thread-local members of Model/Logger and an oracle for commit(); induction over programs. Three refutations (incomplete message, block text in the next message, terminate), exact behaviour of each; control flow is that of the program without logging; programs whose blocks are not left by exceptions leave nothing behind; equivalence with the small-step model of C56-C61 on programs without exceptions.",
 "C155": "The two functions as sequences of atomic steps, calls of other threads between any two of them. Commutation of each step with the environment's writes; invariant that relates every state to a sequential history of C153; the exact set of level() calls that get lost; in-call lines; faults; data races by access lists.",
 "C156": "False: m_failLine has no initialiser, and a test that ends in FAIL through status(FAIL) is printed with it; a test that throws is written to the XML report with it. Exact: a specification `Blind` over the scripts of the tests in the order they are performed (a test ends failed and neither this nor an earlier run of it said where), and performUnitTests is undefined iff messages are on and the order is Blind; with a report, also iff some test did not succeed and never said where. Nothing else can go wrong.",
 "C157": "The programs of Model/Item and Model/Code with an oracle that grants or refuses each allocation; std::string's inline capacity and boost's allocations are parameters. Proved: a run that goes on equals the run of the plain model without the statements that threw (items, code objects); exact conditions for std::bad_alloc, for termination and for a cut text; compile under memory shortage returns code for a prefix of the word (operator>> swallows the exception).",
 "C158": "Transition system of threads in singleton() (read, make, store, read), invariant on the pointer. Refuted by two (or any number of) overlapping first calls that return different runners, and by the data race on the pointer. Proved: never null; no thread makes more than one; once a call has returned, calls that begin later make none; after any moment with no call under way everything is stable and race free; if the first call is alone all calls return its runner; the exact racing states.",
 "C159": "Model: every call carries the calls its element operation makes; places under construction or destruction are tracked, in the order in which libstdc++'s push_back and pop_back move the end pointer. Refuted by explicit stacks (pushing from a copy constructor always constructs two elements in one place; reading the top from a destructor fails at a page boundary; popping from a copy constructor leaves a destroyed element on the stack; with a Futex any nested call hangs). The exact rule is proved by mutual induction over call trees: a tree works iff it is permitted by a rule on heights modulo the page size.",
 "C160": "Model/LoggerJoint runs the thread model of Logger (composition steps) and the transition system of LogSystem side by side: a composed message becomes a pending log() call of the same thread and the thread composes no further until that call has returned. The file is the one of LogStream for the messages the listener received. The theorem composes the per-thread statement semantics (C59..), program order and completeness of the log system (C130) and the line format (C67..).",
 "C161": "Endless joint executions (`jforever`) of the threads (Model/Logger) and the log system (Model/LogSystem) under weak fairness. Each thread has a measure (statements left, progress inside log()) that never grows and falls when the thread is chosen; the messages in the queue are served by the argument of C150; at the end C160 gives the file.",
 "C162": "small-step model of test() with threads, checkFail as four separate assignments; invariant for every schedule plus construction of the bad schedules, giving exact characterisations of the race, of termination, and of the record at the end",
 "C163": "potential function on the model of the log system: messages to process times 6 L + 5 plus the steps left in the current round never increases and decreases with every step of the logging thread; the bound is shown to be exact by an example",
 "C164": "Model/LogMutex has a step per mutex operation and per assignment; refinement mapping onto Model/LogSystem (each fine step is one atomic step or none), invariant: every thread has the mutex its program point says; converse by scheduling each critical section without interruption; accesses listed per step and proved complete for writes.",
 "C165": "a rank over the states of Model/LogMutex (steps left in each call, plus messages times listeners, plus what is left of the message being served) decreases with every step of every thread; rest states characterised by C164's absence of deadlock; served messages by the refinement of C164 and C38.",
 "C166": "amortised account over the states of Model/LogMutex: the rank of C165 with a fixed bound for the number of listeners falls with every step of every thread and rises with a call by no more than the call's budget.",
 "C167": "Model/LogMutexReact: the calls of onMessage are those of one more client of Model/LogMutex, which moves only while the logging thread is inside onMessage; every run is a run of Model/LogMutex with one more client (simulation), so C164-C166 carry over; deadlock freedom by following the chain of waiting threads; the return of onMessage by the rank of C165.",
 "C168": "an account kept along every execution of Model/LogMutexReact: the steps, calls, deliveries and dispatches so far against the messages logged, with the listeners still to be offered the message in hand as potential (at a dispatch the number of listeners grows by a factor 1+q at most); the steps outside onMessage by C166 for the run with one more client.",
 "C169": "Model/LogMutexReact; a potential that every step of the logging thread lowers and no step of another thread raises: the messages before it, the place in the loop, the listeners still to be asked, what the running onMessage has still to do",
 "C170": "Model/LogMutexReact; invariant: calls made = calls seen as those of the logging thread ++ the one begun and not seen yet; only steps of the loop produce its events",
 "C171": "Model/PSRemove: the plain model with what every destructor finds; elements are named by their height; induction over the pages from the top down, Before is the exact order"
}