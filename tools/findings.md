## 5. Findings

Faults of the code that the model exhibits (each is a `_refuted` theorem unless marked "reading").

PagedStack
* `clear()` leaves the first page's elements (C06); `pop_reverse`/`discard(iterator)` leave the stack on an empty page (C07, C08);
  `rend()` is wrong when spare pages exist (C12); copies of sync iterators are not counted (C19); a throwing copy at a
  page boundary leaves an empty current page (C22, C123); page size or preallocation 0 is undefined (C23).
* Copying a stack copies the iterator `m_curBase` into the *source*: pushes on the copy land on the source,
  `size()`/`empty()` are undefined (C119).  Moving carries the iterator count but not the iterators (C121).
* A failed page reserve leaves a page of capacity 0 whose elements later move; a second failure makes `top()` undefined (C124, C125).
* `assert(!empty())` and a caller's `if(!empty()) pop()` are outside the lock (C122).
* `begin()`, `rbegin()`, `rend()`, the plain iterators and the reference `top()` returns are used without the lock: data races (C152).
* Calls are not re-entrant: an element whose copy constructor or destructor uses the stack can construct two elements in one
  place, read an empty page or leave a destroyed element on the stack; with a Futex it hangs (C159).

Synchronisation
* `RFutex::lock` never returns (C29); ids repeat after 2^32 threads (C30); `atomicAdd` differs between platforms (C37).

Logging
* `stop()` discards what is queued (C49); `start()` after `stop()` stops at once (C51); members are uninitialised (C52).
* A detached listener can still be called once (C45).  Nested LOG statements share one buffer (C58); a LOG_BLOCK
  left early emits with the next statement (C59); LOG_CATEGORY has no effect in the default build (C61).
* An operand that throws logs the incomplete message; a LOG_BLOCK left by an exception puts its text in front of the next
  message; memory running out in a LOG statement terminates the program (C154).
* `categoryFilter` twice loses the first state (C62), writes matching lines twice and does not lower the default listener (C63),
  changes state before the expression is checked (C64).  A level() call in another thread during categoryFilter can
  be lost, and while a filter is replaced there is none (C155).  `LogStream` leaves the fill character of shared streams at '0' (C105).
* The placement new over a pooled message loses the buffers of the message logged before (C131).
* An exception leaving onMessage, or stop() called in it, terminates the program; start() or stop() in onMessage
  deadlocks with a stop() in another thread (C132). A listener that logs feeds itself for ever (C133).
* getDiags() walks the list of active listeners without a lock, category() hands out a reference to guarded text:
  data races (C134).
* A message that cannot be built takes its pool object with it; a failing push_back under the noexcept log(Message*)
  ends the program; category() failing late leaves text and expression apart; msgsCreated counts what was not made (C135).
* getDiags() is no snapshot: it can report more messages discarded than created, and more listeners enabled than ever
  were at the same time (C137).
* stop() may wait for ever while another thread calls stop() and start() again and again (C151).
* LOG in the destructor of a static object uses destroyed thread-local objects; a logger or Singleton first used in main is
  destroyed before static objects that may still use it (C139).
* reading: `getDiags` reads the listener count unsynchronised; `checkCategory`
  prints debug output; a non-inline function is defined in logger.h.

Items and code
* Copied items double-free (C76, C114); `toInt` of an out-of-range string terminates (C74); unsigned items print signed (C72); float
  items print six digits (C115, C118); long words overflow the compiler's buffer (C81); `Code` copies double-free (C80).
* When memory runs out: toString and the constructors of Code end the program; a number longer than the stream's inline buffer
  is returned cut short, and compile returns code for a part of the word, both without notice (C157).

Test framework
* `-e` has no effect (C85); repeated runs run tests k times (C89); capture buffers are never cleared (C90); XML values are not escaped and
  the failure line is printed uninitialised (C96); EXPECT_FLOAT_EQ truncates instead of comparing with a tolerance (C100);
  failing checks evaluate their argument twice (C112); `waitTime` wraps (C110); a throwing SetUp makes the test's time the time since the
  epoch (C126, C129); status columns move from test 1000 on (C117); `std::hex` or `std::setw` left on std::cout by a test show in the report, and
  the report leaves precision 4 there (C138); performTest called from inside a test wipes the
  results of the run under way, which then returns 0 although a test failed (C142); registering a test with a second runner under another
  name renames it in the reports of the first (C143); UnitTest::singleton() hands out the runner that main() has deleted (C144);
  a test that calls status(FAIL), or one that throws when a report is written, makes the runner print a line number never set (C156);
  overlapping first calls of UnitTest::singleton() return different runners, and race (C158);
  failing checks in two threads of a test race, and an EXPECT that fails between the start of a thread and its join ends the whole program (C162).
