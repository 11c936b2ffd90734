import json,re
L=open('/verif/DESIGN.md').read()
head='''# Falcon2 formal model: design

The object of study is falconpl/Falcon2 at the pinned commit in `/repo` (C++17).  The
properties are in `properties.jsonl`; `MANIFEST.json` maps each to its theorems.  This file says what
is modelled, how each property is proved, what is trusted, and where the code does not have
the property.

## 1. Trusted base

* Lean 4.33.0's kernel (and `lake` to run it).  No axiom is declared; the theorems depend on at
  most `propext`, `Classical.choice`, `Quot.sound` (`vcheck` replays every module and lists the axioms).
  No `native_decide`, `bv_decide`, no compiled evaluation; `decide +kernel` (used for closed examples only)
  is evaluated by the kernel.
* The hand translation of the C++ text into the definitions of `lean/Verif/Model/*.lean`.  Every
  definition cites the file and lines it models.  The code was never run.
* The statement of each property theorem (`lean/Verif/Props/*.lean`) together with the small
  specifications (`lean/Verif/Spec/*.lean`).
* The following facts about the C++ runtime, which are inputs of the model:
  - `std::list`/`std::vector` behave as finite sequences; the operations with a precondition
    (`back`, `pop_back` of an empty vector, dereferencing `end`, decrementing `begin`, comparing
    iterators of different lists, ...) are *faults* (`UB`) of the model whenever the precondition
    fails.  Two exceptions, which the code relies on: forming the pointer `begin()-1` of a vector
    (the end mark of the forward iterator) is taken to yield a comparable pointer that may not be
    dereferenced; `capacity` never shrinks.
  - `assert` is treated as compiled out (`NDEBUG`): what the code does *after* a failed
    assertion is what the model shows.  With assertions on, the program aborts instead.  (C122 looks at
    the asserts themselves.)
  - `size_t`/counters are unbounded naturals except where the property is about wrap-around
    (Futex spin counter, atomics, RFutex ids, items, version number, waiting times): there `BitVec`/modulo.
  - allocation does not fail, except in `Model/PSAlloc` (C124, C125) and `Model/LogFail` (C135), where every allocation may.
  - sequential consistency for `std::atomic`: the code uses the default memory order except in `Futex`, whose
    acquire/release orders are modelled by a view-based weak memory machine in `Model/FutexWeak` (C136: sections
    guarded by a Futex behave as under sequential consistency); the log system's accesses are shown free of data races
    where they are (C134).
  - `std::mutex`, `std::condition_variable`, `std::thread`, `std::unique_ptr` have their
    standard semantics; a critical section that contains no wait is one atomic step of the
    log system model. Both simplifications are *proved* harmless: C164 for the log system (a second
    model has every mutex operation and every assignment as its own step), C25 for Futex.
  - `std::regex` is a parameter (`valid : Regex -> Bool`, `match : Regex -> String -> Bool`).
  - doubles are IEEE binary64: a finite double is modelled as an exact dyadic rational (`FloatEq`,
    `FloatText`), the rounding of the operations the code performs is round-to-nearest-even on these, and
    `ostream <<` of a double is `printf %.*g` with correct rounding.  Lean's `Float` is not used.
  - the default stream formatting of integers, fill and width follows the standard.

## 2. What is modelled

| code | model | specifications | property theorems |
|---|---|---|---|
| `engine/pagedstack.h` (all public members), `distribute.h` | `Model/PagedStack`, `StackAssign`, `PSSync`, `PSLoop`, `Distribute` | `Spec/Stack`, `StackIter`, `StackObs`, `StackSync`, `StackLoop`, `StackSyncPos` | `Props/PagedStack`, `PSSync`, `PSLoop`, `PSSyncDec`, `PSThrow`, `Distribute` |
| `pagedstack.h`: implicit copy/move/swap, exceptions of element operations, failing allocations, check-then-act | `Model/PSCopy`, `PSGuard`, `PSAlloc` | `Spec/StackValue` | `Props/PSCopy`, `PSCopyMore`, `PSGuard`, `PSGuardMore`, `PSAlloc`, `PSAllocBack` |
| `pagedstack.h`: lifetime of the elements; `PagedStack<Item>` | `Model/PSLife`, `ItemStack` | `Spec/StackLife`, `ItemStack` | `Props/StackLife`, `ItemStack` |
| `pagedstack.h`: calls made by the elements' own copy constructors and destructors | `Model/PSNested` | `Spec/PSNested` | `Props/PSNested` |
| `pagedstack.h`: what destructors find while pop, discard and clear remove elements | `Model/PSRemove` | `Spec/PSRemove` | `Props/PSRemove` |
| `pagedstack.h`: memory accesses of calls and of plain iterators, with a real mutex | `Model/StackRace` | `Spec/StackRace`, `DataRace` | `Props/StackRace` |
| `futex.h`, `futex.cpp` | `Model/Futex`, `FutexWeak` (weak memory) | `Spec/Mutex`, `FutexWeak`, `FutexFair` | `Props/Futex`, `FutexWeak`, `FutexFair` |
| `atomic_gcc.h`, `atomic_vc.h` | `Model/Atomic` | | `Props/Atomic` |
| `logsystem.h`, `logsystem.cpp` | `Model/LogSystem` (transition system), `Model/LogLeak` (string buffers), `Model/LogReact` (what listeners do inside onMessage), `Model/LogRace` (memory accesses), `Model/LogFail` (failing allocations), `Model/LogDiags` (getDiags() read by read), `Model/LogMutex` (every mutex operation and assignment a step), `Model/LogMutexReact` (the same, with listeners that use the system) | `Spec/LogTrace`, `DataRace`, `LogDiags`, `LogFair` (endless executions), `LogMutex`, `LogMutexRest`, `LogMutexWork`, `LogMutexReact`, `LogMutexFeed`, `LogMutexWait`, `LogMutexReads` | `Props/LogSystem`, `LogHistory`, `LogFile`, `LogLeak`, `LogReact`, `LogRace`, `LogFail`, `LogDiags`, `LogFair`, `LogLatency`, `LogMutex`, `LogMutexRest`, `LogMutexWork`, `LogMutexReact`, `LogMutexFeed`, `LogMutexWait` |
| `logger.h`, `logger.cpp`, `logproxy.h` | `Model/Logger`, `LoggerThrow`, `FilterRace` | `Spec/Logger`, `LogFilter`, `LoggerThrow`, `LoggerNest`, `FilterRace` | `Props/Logger`, `LoggerExact`, `LogFilter`, `LoggerThrow`, `LoggerNest`, `FilterRace`, `FilterLast` |
| `logger.h` and `logsystem.cpp` together: from statements to lines | `Model/LoggerJoint` | `Spec/LoggerJoint`, `LoggerLive` | `Props/LoggerJoint`, `LoggerLive` |
| `logstream.h`, `logstream.cpp` | `Model/LogStream`, `LogStreamFail` (a stream that fails) | `Spec/LogStream`, `LogStreamFail` | `Props/LogStream`, `LogStreamFail`, `FormatState` |
| `item.h`, `itemdata.h`, `*handler.h`, `*handler.cpp` | `Model/Item`, `FloatText` | `Spec/Item`, `FloatText` | `Props/Item`, `FloatText` |
| `code.h/.cpp`, `compiler.h/.cpp` | `Model/Code` | `Spec/Code` | `Props/Code` |
| `item.h`, `*handler.h`, `code.cpp`, `compiler.cpp` with failing allocations | `Model/ValueMem` | `Spec/ValueMem` | `Props/ValueMem` |
| `UnitTest::singleton` called by threads | `Model/UTSingleton` | `Spec/UTSingleton` | `Props/UTSingleton` |
| `singleton.h` | `Model/Singleton` | `Spec/Singleton` | `Props/Singleton` |
| start and exit of the process (`singleton.h`, `logger.h`, `logger.cpp`, `unittest.cpp` statics) | `Model/Lifetime` | `Spec/Lifetime` | `Props/Lifetime` |
| `fut/testcase.*`, `timelapse`, `marktime`, `fut.h` macros | `Model/TestCase`, `Checks`, `FloatEq` | `Spec/TestCase`, `FloatEq` | `Props/TestCase`, `Checks`, `ChecksAny`, `FloatEq`, `Times` |
| `fut/unittest.*`, `fut_main.cpp` | `Model/UnitTest`, `FutFormat` (format state of std::cout), `FutNested` (tests that call the runner), `FutRunners` (several runners, lifetimes) | `Spec/UnitTest`, `Xml`, `Console`, `Suite`, `Nested`, `Runners`, `Complete`, `FutDirect` | `Props/UnitTest`, `FutDirect`, `Nested`, `Level`, `Xml`, `Console`, `FailedCases`, `Suite`, `FutFormat`, `Complete`, `Runners`, `RunnersBad`, `RunnersDefined` |
| `fut/testcase.cpp` and the check macros used by threads of a test | `Model/FutThreads` | `Spec/FutThreads`, `DataRace` | `Props/FutThreads` |
| `config.h.in` version macro | `Model/Version` | | `Props/Version` |

Not modelled: the CMake build and shell tools, `setup.h`, `types.h`, `error.h`, `parseerror.h` (empty classes and
macros), the body of BigNum arithmetic (the class is only declared), `Item::get<T>` (does not compile when
instantiated), the wording of `usage`; of std::cout's format state: showbase, uppercase,
internal, scientific and imbued locales.

## 3. Method

* *Sequential containers*: a structural invariant (`Shape`: full pages, then the current
  page, then spare pages) and a refinement to a list-stack that also counts pages.  Every history
  property is an induction over the list of calls.
* *Concurrency*: a small-step transition system with one step per atomic
  action, any number of threads; properties are inductive invariants of all reachable states or
  statements about all traces.
* *Text and numbers*: functions on `List Char`, `BitVec`, `Int`, with round-trip theorems (a decoder that is
  defined in the specification and inverts the writer for every input).
* *Refuted properties*: where the code does not have the property, a theorem `..._refuted` gives a
  concrete execution that violates it, and a `..._partial` theorem gives the strongest part that
  holds, if possible with the exact boundary (an "iff").  Those have status `partial` in the manifest: the English
  property is kept as it is, since it is what a user relies on.
* *Non-vacuity*: beside each theorem an `example` shows a concrete non-trivial case that meets its hypotheses;
  `lean/Verif/Witness/*.lean` apply the theorems on the stack, the log system, the Logger, locks, singletons, tests and runners, one by one, to such data.
* *Validation against the project's tests*: `lean/Verif/Check/*.lean` transcribe the tests in `/repo/src/test` (all of
  pagedstack, item, compiler, singleton, logsystem, logger, logstream, fut_*; futex: the smoke tests) call by call and evaluate them on the
  model; every expectation the project states about the code holds of the model.  These are tests of the translation, not
  proofs; no theorem depends on them.
* *Mutation tests*: `seeded/LOG.jsonl` lists edits of the model (wrong boundary, missed case, dropped update, and repairs of the
  bugs that were found) with the theorems that stop proving.  Theorems that survived an edit that falsified their
  English claim were tightened (field `tightened`).

## 4. Per property

'''
how='''C01|refinement of `run init ops` to a list stack, induction over the calls
C02|for every call an iff between "faults" and the violated precondition
C03|equality of states, induction over the arguments
C04|equality of contents and of values via `Shape`
C05|equality of states, induction over n
C06|false: `clear` leaves the elements of the first page; exact: the bottom page stays
C07|false once pages were left behind; exact iff on the remaining size
C08|as C07, for both iterator kinds
C09|values read = take/drop of the list; the state is unchanged
C10|loop with fuel: for all sufficiently large fuel it stops with exactly the contents
C11|inverse laws at all valid positions
C12|false when spare pages exist; exact iff
C13|as C10
C14|corollary of the refinement (the specification counts pages)
C15|corollary of the refinement
C16|system of a stack and any number of sync iterators, invariant over all histories
C17|invariant over all histories; false after a throw at a page boundary and for pop_reverse
C18|as C10 in the sync system
C19|false: a copy is not counted; exact for copies that die before the original
C20|position of every element before = after
C21|page counts of the refinement
C22|false at a page boundary; exact iff
C23|false at 0; exact for positive sizes
C24|invariant of the Futex transition system, any number of threads
C25|commutation of critical sections: every trace has the effect of a sequential one
C26|from every reachable state the lock is free or its holder can step
C27|false for the spin counter as documented; exact number of yields
C28|invariant
C29|false: `lock` never returns; exact
C30|false after 2^32 threads; unique below
C31|false in the named case; exact iff
C32|refinement of the threads' histories to a sequential one with real-time order
C33|sum of increments modulo 2^32, for every interleaving
C34|as C33, exact bound 2^32
C35|trace induction
C36|bit-vector identities
C37|false for one platform; exact difference
C38|trace invariant: delivered ++ queued = logged
C39|trace invariant with object identities; no double use
C40|counting invariant
C41|trace theorem on the outcome of each log call
C42|protocol invariant for listeners: offered, answered, delivered
C43|exact rule
C44|case analysis on the call
C45|false: a message may be in flight; exact
C46|trace theorem
C47|invariant: a waiting consumer and a non-empty queue imply a pending notification
C48|termination measure
C49|false: stop() discards the queue; true for what was drained
C50|trace invariant
C51|false: the terminate flag stays; exact
C52|false: uninitialised members; exact for initialised ones
C53|trace maximum
C54|ownership invariant at destruction
C55|case analysis
C56|effect of every statement on the emitted messages
C57|effect of a statement sequence; false for the empty category
C58|false; exact text of nested statements
C59|false when left early; exact
C60|thread-indexed composers, isolation for all interleavings
C61|false in the default build; exact
C62|false; exact for one filter
C63|false; exact lines written
C64|false; exact
C65|invariant
C66|decoder in the specification inverts the writer
C67|last separator, for all names
C68|width for all dates
C69|number of newlines
C70|ownership of the stream
C71|bit-vector round trip
C72|false above 2^63; exact
C73|parse of print
C74|false: out of range terminates; exact
C75|case analysis
C76|false: copies double-free; exact lifetime
C77|false for deep handlers
C78|exact value of the truncation
C79|false: 4096 bytes / NUL; exact iff
C80|false; exact lifetime
C81|false for long words; exact words
C82|transition system of accessor calls
C83|false when the streams are exchanged; exact status
C84|false when SetUp throws; exact order of calls
C85|false: -e has no effect
C86|induction over the performed tests
C87|sorted grouping, exact order
C88|sums over the log
C89|false: components accumulate; exact k-th run
C90|false: captured text stays; exact
C91|false without capture
C92|false for tests that write past the capture
C93|grammar of options: accepted iff a list of valid options
C94|false for garbage after digits; exact
C95|false with -t; exact
C96|false: values are not escaped; exact iff on the texts
C97|injectivity of component::name
C98|last separator
C99|modulo arithmetic
C100|false: truncation; exact
C101|false; exact first failure
C102|injective up to the field widths, false as signed order from major 128
C103|from every reachable state a path to return
C104|false; exact
C105|false: fill character; exact
C106|interleavings of lines under the mutex
C107|false for the types named; exact
C108|false with aliasing; exact
C109|as C86 for one test
C110|false beyond 2^32; exact
C111|case analysis on what the expression throws
C112|false: failing checks evaluate twice; exact
C113|counting invariant over traces
C114|false for copy-flatness of string items
C115|printf %g on exact rationals; distinctness false
C116|as C115, exact up to 999 s
C117|exact line; columns false from test 1000 on
C118|false (six digits); exact
C119|false: copies push into the source; exact
C120|world of stack variables, refinement to value semantics
C121|false: the iterator count moves; exact
C122|false: check-then-act; conservation proved
C123|false at page boundaries; exact
C124|every allocation may fail; false; exact
C125|false; exact
C126|false when SetUp throws; exact
C127|exact text by induction over the performed tests
C128|composition of C83, C86, C87, C93
C129|false when SetUp throws; otherwise by telescoping the clock'''
H=dict(x.split('|',1) for x in how.split('\n'))
import sys
extra=sys.argv[1:] 
E2='/verif/tools/how.json'
try: H.update(json.load(open(E2)))
except FileNotFoundError: pass
M={c['property']:c for c in json.load(open('/verif/MANIFEST.json'))['claims']}
body=''
for l in open('/verif/properties.jsonl'):
    d=json.loads(l)
    body+=f"* {d['id']} ({M[d['id']]['status']}) {d['title']}: {H[d['id']]}.\n"
find=open('/verif/tools/findings.md').read()
open('/verif/DESIGN.md','w').write(head+body+'\n'+find)
