{"id": "C01", "title": "PagedStack is a LIFO stack over any history", "statement": "After any sequence of push / multi-push / push_emplace / pop / pop(v...) / top / top(v) / discard(n) / peek* / empty / size / getStats / shrink_to_fit calls whose documented preconditions hold, every value returned is the one an ideal unbounded list-stack would return.", "quantifier": "all page sizes >= 1, all preallocations >= 1, all element types, all finite call sequences (any length, crossing any number of pages)", "why_tests_cant": "the page-crossing arithmetic depends on page size, preallocation and the whole call history; tests use one page size (4) and short scripts", "anchors": ["src/include/falcon/engine/pagedstack.h:PagedStack::push", "src/include/falcon/engine/pagedstack.h:PagedStack::pop", "src/include/falcon/engine/pagedstack.h:PagedStack::advance", "src/include/falcon/engine/pagedstack.h:PagedStack::discard(size_t)"]}
{"id": "C02", "title": "PagedStack precondition boundary is exact", "statement": "pop(), top() and top(v) have undefined behaviour exactly when the stack is empty, pop(v1..vn) exactly when n exceeds the size, and no other call of the safe API ever has undefined behaviour.", "quantifier": "all reachable stack states and all argument counts", "why_tests_cant": "undefined behaviour is not observable by running a test; absence must be proved for every state", "anchors": ["src/include/falcon/engine/pagedstack.h:PagedStack::pop", "src/include/falcon/engine/pagedstack.h:PagedStack::top", "src/include/falcon/engine/pagedstack.h:PagedStack::internal_pop"]}
{"id": "C03", "title": "push(a,b,...) equals consecutive single pushes", "statement": "push(x1,...,xn) leaves exactly the same stack (contents, page layout and allocation) as push(x1); ...; push(xn); the last argument is the new top. push_emplace places the constructed value like push.", "quantifier": "all stacks, all non-empty argument lists of any length", "why_tests_cant": "variadic recursion is exercised by tests for a few arities only", "anchors": ["src/include/falcon/engine/pagedstack.h:PagedStack::internal_push", "src/include/falcon/engine/pagedstack.h:PagedStack::push_emplace"]}
{"id": "C04", "title": "pop(v1..vn) undoes push(x1..xn)", "statement": "After push(x1..xn), pop(v1..vn) stores xn..x1 (top first) and the stack contents are what they were before the push.", "quantifier": "all stacks, all n >= 1, all values", "why_tests_cant": "needs every alignment of n elements with respect to page boundaries", "anchors": ["src/include/falcon/engine/pagedstack.h:PagedStack::internal_pop", "src/include/falcon/engine/pagedstack.h:PagedStack::internal_pop_one"]}
{"id": "C05", "title": "discard(n) equals n pops", "statement": "discard(n) with n <= size leaves exactly the same stack state as n calls of pop(); discard(0) changes nothing, discard(size) empties the stack.", "quantifier": "all stacks and all n <= size", "why_tests_cant": "every combination of n with page boundaries", "anchors": ["src/include/falcon/engine/pagedstack.h:PagedStack::discard(size_t)"]}
{"id": "C06", "title": "clear() empties the stack", "statement": "After clear() the stack is empty and behaves like a newly constructed one.", "quantifier": "all reachable stacks", "why_tests_cant": "must hold for every size; there is no test of clear() at all", "anchors": ["src/include/falcon/engine/pagedstack.h:PagedStack::clear"]}
{"id": "C07", "title": "pop_reverse reads FIFO and removes what it read", "statement": "pop_reverse(v1..vn) stores the n topmost elements, deepest first, and afterwards the stack behaves, under every later history, like the stack without those n elements.", "quantifier": "all stacks, all 1 <= n <= size, all later call sequences", "why_tests_cant": "damage done by a removal is visible only after particular later pushes", "anchors": ["src/include/falcon/engine/pagedstack.h:PagedStack::pop_reverse", "src/include/falcon/engine/pagedstack.h:PagedStack::internal_discard"]}
{"id": "C08", "title": "discard(iterator) removes everything from the top through the position", "statement": "discard(it), for a valid forward or reverse iterator, removes the pointed element and everything above it, and afterwards the stack behaves, under every later history, like the remaining prefix.", "quantifier": "all stacks, all valid iterator positions, all later call sequences", "why_tests_cant": "as above: needs every position and every continuation", "anchors": ["src/include/falcon/engine/pagedstack.h:PagedStack::discard(const iterator_base&)", "src/include/falcon/engine/pagedstack.h:PagedStack::internal_discard"]}
{"id": "C09", "title": "peek, peek_reverse and peek_depth read the right elements and change nothing", "statement": "peek(v1..vn) yields the n topmost elements top first; peek_reverse(v1..vn) yields them deepest first; peek_depth(d,v1..vn), n<=d<=size, yields the n elements starting d below the top, deepest first; none modifies the stack.", "quantifier": "all stacks, all n >= 1 and d within the documented bounds", "why_tests_cant": "all alignments with page boundaries", "anchors": ["src/include/falcon/engine/pagedstack.h:PagedStack::peek", "src/include/falcon/engine/pagedstack.h:PagedStack::peek_depth", "src/include/falcon/engine/pagedstack.h:PagedStack::peek_reverse", "src/include/falcon/engine/distribute.h:distribute"]}
{"id": "C10", "title": "forward iteration visits every element once, top to bottom", "statement": "A loop for(it=begin(); it!=end(); ++it) terminates, never touches memory outside the live elements, and visits exactly the stack's elements from top to bottom.", "quantifier": "all reachable stacks, including empty ones and ones with spare pages", "why_tests_cant": "termination and safety for every layout", "anchors": ["src/include/falcon/engine/pagedstack.h:iterator_base::operator++", "src/include/falcon/engine/pagedstack.h:PagedStack::begin", "src/include/falcon/engine/pagedstack.h:PagedStack::end"]}
{"id": "C11", "title": "++ and -- on iterators are inverse", "statement": "For every valid non-end position ++ then -- returns to the same position, for every valid non-first position -- then ++ does; both for forward iterators and for iterators from from_top; += n and -= n are n-fold.", "quantifier": "all stacks, all positions, all n", "why_tests_cant": "every page-boundary position", "anchors": ["src/include/falcon/engine/pagedstack.h:iterator_base", "src/include/falcon/engine/pagedstack.h:reverse_iterator_base"]}
{"id": "C12", "title": "reverse iteration rbegin()..rend() visits every element once, bottom to top", "statement": "A loop for(it=rbegin(); it!=rend(); ++it) terminates and visits exactly the stack's elements from bottom to top without touching anything else.", "quantifier": "all reachable stacks", "why_tests_cant": "the layouts that break it (spare preallocated pages) are not in the tests", "anchors": ["src/include/falcon/engine/pagedstack.h:PagedStack::rbegin", "src/include/falcon/engine/pagedstack.h:PagedStack::rend", "src/include/falcon/engine/pagedstack.h:reverse_iterator_base::operator++"]}
{"id": "C13", "title": "from_top(d)..rend() visits the d topmost elements, deepest first", "statement": "For every d <= size the loop from from_top(d) to rend() terminates and visits exactly the d topmost elements, deepest first.", "quantifier": "all reachable stacks and all d <= size", "why_tests_cant": "every depth/page alignment", "anchors": ["src/include/falcon/engine/pagedstack.h:PagedStack::from_top", "src/include/falcon/engine/pagedstack.h:PagedStack::internal_from_top"]}
{"id": "C14", "title": "size, empty and getStats describe the contents", "statement": "size() is the number of elements, empty() is true iff it is 0, getStats reports the configured page size, the 1-based page holding the top (max(1, ceil(size/pageSize))) and the number of elements on it.", "quantifier": "all reachable stacks", "why_tests_cant": "relation between counters and contents over every history", "anchors": ["src/include/falcon/engine/pagedstack.h:PagedStack::size", "src/include/falcon/engine/pagedstack.h:PagedStack::empty", "src/include/falcon/engine/pagedstack.h:PagedStack::getStats"]}
{"id": "C15", "title": "shrink_to_fit keeps the contents and frees every spare page", "statement": "Without live sync iterators shrink_to_fit() leaves the contents unchanged and exactly max(1, ceil(size/pageSize)) pages allocated.", "quantifier": "all reachable stacks", "why_tests_cant": "every size/page-size relation", "anchors": ["src/include/falcon/engine/pagedstack.h:PagedStack::shrink_to_fit", "src/include/falcon/engine/pagedstack.h:PagedStack::internal_shrink_to_fit"]}
{"id": "C16", "title": "shrink is deferred while sync iterators live and performed when the last dies", "statement": "While at least one sync iterator exists no page is ever freed; if shrink_to_fit() was called meanwhile, the shrink happens exactly when the last live sync iterator is destroyed.", "quantifier": "all interleavings of stack calls with creation and destruction of any number of sync iterators (no copies)", "why_tests_cant": "all interleavings", "anchors": ["src/include/falcon/engine/pagedstack.h:PagedStack::removeSyncIterator", "src/include/falcon/engine/pagedstack.h:sync_iterator_base"]}
{"id": "C17", "title": "sync iterators are safe under concurrent modification", "statement": "If every stack call between uses is arbitrary (push/pop/discard/shrink by anyone), get() and ++ on a live sync iterator that is not at the end position never read outside the live elements: get() returns an element that is in the stack at that moment, or throws runtime_error, and it throws only if the stack is empty.", "quantifier": "all histories of stack modification interleaved with sync iterator use", "why_tests_cant": "requires all interleavings", "anchors": ["src/include/falcon/engine/pagedstack.h:sync_iterator_base::synchronize", "src/include/falcon/engine/pagedstack.h:sync_iterator_base::get"]}
{"id": "C18", "title": "sync iteration of a quiescent stack equals forward iteration", "statement": "With no modification in between, a loop from sync_begin() to sync_end() visits exactly the elements top to bottom and terminates.", "quantifier": "all reachable stacks", "why_tests_cant": "every layout", "anchors": ["src/include/falcon/engine/pagedstack.h:sync_iterator_base::operator++", "src/include/falcon/engine/pagedstack.h:PagedStack::sync_begin"]}
{"id": "C19", "title": "sync iterators may be copied", "statement": "Copying a sync iterator does not affect the guarantee that no page is freed while a sync iterator is alive.", "quantifier": "all histories with copies", "why_tests_cant": "needs histories with copies, no test makes one", "anchors": ["src/include/falcon/engine/pagedstack.h:sync_iterator_base", "src/include/falcon/engine/pagedstack.h:PagedStack::m_syncIterCount"]}
{"id": "C20", "title": "push never moves existing elements", "statement": "push never relocates or alters an element already in the stack: every element keeps its page and offset, and no page ever holds more than the page size it reserved (so references obtained by top() stay valid until the element is removed).", "quantifier": "all reachable stacks and pushes", "why_tests_cant": "address stability for every history", "anchors": ["src/include/falcon/engine/pagedstack.h:PagedStack::advance", "src/include/falcon/engine/pagedstack.h:PagedStack::growBase"]}
{"id": "C21", "title": "pages are allocated only when all are full", "statement": "push allocates iff the stack holds exactly (pages*pageSize) elements, and then allocates exactly the configured preallocation count; refilling up to the previous capacity allocates nothing.", "quantifier": "all reachable stacks", "why_tests_cant": "every history", "anchors": ["src/include/falcon/engine/pagedstack.h:PagedStack::growBase", "src/include/falcon/engine/pagedstack.h:PagedStack::advance"]}
{"id": "C22", "title": "push is all-or-nothing when copying the element throws", "statement": "If copying the element throws, push leaves the stack in a state that behaves exactly as before the call.", "quantifier": "all reachable stacks, later histories", "why_tests_cant": "needs a throw at each fill level", "anchors": ["src/include/falcon/engine/pagedstack.h:PagedStack::internal_push"]}
{"id": "C23", "title": "every page size and preallocation works", "statement": "PagedStack(pageSize, prealloc) is a correct stack for every pair of unsigned arguments.", "quantifier": "all constructor arguments", "why_tests_cant": "boundary arguments 0 are never tested", "anchors": ["src/include/falcon/engine/pagedstack.h:PagedStack::PagedStack"]}
{"id": "C24", "title": "Futex mutual exclusion", "statement": "At any moment at most one thread is between a returned lock() and its unlock() on the same Futex.", "quantifier": "all numbers of threads, all schedules, all spin counts, arbitrary spurious CAS failures", "why_tests_cant": "interleavings", "anchors": ["src/include/falcon/futex.h:Futex::lock", "src/include/falcon/futex.h:Futex::unlock"]}
{"id": "C25", "title": "critical sections guarded by a Futex are atomic", "statement": "If every thread reads and then writes a shared object only between lock() and unlock(), the final value is the one obtained by running the critical sections one after another in lock-acquisition order; no update is lost.", "quantifier": "all numbers of threads, all programs, all schedules, any shared state type", "why_tests_cant": "interleavings; the repository's own test only samples it", "anchors": ["src/include/falcon/futex.h:Futex", "src/test/engine/futex.fut.cpp:performance_test"]}
{"id": "C26", "title": "Futex is deadlock-free and acquires when free", "statement": "A thread calling lock() on a free Futex gets it at its next non-spurious attempt; in every reachable state in which some thread still has work, some thread can take a step that makes progress.", "quantifier": "all schedules", "why_tests_cant": "interleavings", "anchors": ["src/include/falcon/futex.h:Futex::lock"]}
{"id": "C27", "title": "Futex yields as documented", "statement": "With spinCount 0 lock() never yields; with 1 it yields on every failed attempt; with n>1 it yields each time n further attempts failed.", "quantifier": "all spin counts and all numbers of failed attempts", "why_tests_cant": "wrap-around of the spin counter needs 2^32 attempts", "anchors": ["src/include/falcon/futex.h:Futex::lock"]}
{"id": "C28", "title": "Futex::isLocked tells whether someone holds it", "statement": "isLocked() returns true iff some thread has acquired the Futex and not yet released it.", "quantifier": "all reachable states of all schedules", "why_tests_cant": "interleavings", "anchors": ["src/include/falcon/futex.h:Futex::isLocked"]}
{"id": "C29", "title": "RFutex::lock acquires and is re-entrant", "statement": "lock() on a free RFutex, or on one already owned by the calling thread, returns.", "quantifier": "all schedules and all threads", "why_tests_cant": "non-termination cannot be shown by running", "anchors": ["src/include/falcon/futex.h:RFutex::lock"]}
{"id": "C30", "title": "RFutex thread identities are unique", "statement": "Two threads that used an RFutex never have the same identity, and no thread has identity 0.", "quantifier": "all numbers of threads and orders of first use", "why_tests_cant": "depends on 32 bit wrap-around", "anchors": ["src/include/falcon/futex.h:RFutex::s_count", "src/include/falcon/futex.h:RFutex::s_thread_id"]}
{"id": "C31", "title": "RFutex::isOwner is true only for the owner", "statement": "isOwner() returns true iff the calling thread holds the RFutex.", "quantifier": "all states and threads", "why_tests_cant": "states not in tests", "anchors": ["src/include/falcon/futex.h:RFutex::isOwner"]}
{"id": "C32", "title": "a mutex-parameterised PagedStack is linearizable", "statement": "When PagedStack is instantiated with Futex (or any mutex that excludes), the results of any concurrent calls are those of some sequential order of the same calls that respects each thread's program order.", "quantifier": "all numbers of threads, all programs, all schedules", "why_tests_cant": "interleavings", "anchors": ["src/include/falcon/engine/pagedstack.h:PagedStack", "src/include/falcon/futex.h:Futex"]}
{"id": "C33", "title": "atomic counters lose no update", "statement": "After any interleaving of atomicInc/atomicDec/atomicAdd calls by any threads the counter is its initial value plus the sum of the deltas modulo 2^32, and each call returns the value it established (except atomicAdd on x86 Visual C++, see C37).", "quantifier": "all threads, programs and schedules", "why_tests_cant": "interleavings and wrap-around", "anchors": ["src/include/falcon/atomic_gcc.h:atomicInc", "src/include/falcon/atomic_gcc.h:atomicDec", "src/include/falcon/atomic_gcc.h:atomicAdd"]}
{"id": "C34", "title": "atomicInc returns distinct tickets", "statement": "Up to 2^32 atomicInc calls on a counter that nobody else changes return pairwise different values.", "quantifier": "all numbers of calls up to 2^32 by any threads", "why_tests_cant": "exhausting 2^32 calls", "anchors": ["src/include/falcon/atomic_gcc.h:atomicInc"]}
{"id": "C35", "title": "atomicCAS has exactly one winner", "statement": "If several threads each execute atomicCAS(x, old, new_i) once with new_i != old while x == old, exactly one returns true and x ends as that thread's value.", "quantifier": "all numbers of contenders and schedules", "why_tests_cant": "interleavings", "anchors": ["src/include/falcon/atomic_gcc.h:atomicCAS"]}
{"id": "C36", "title": "atomicXor/And/Or and Exchange return the previous value", "statement": "They apply the operation to every bit and return the value before it; xor with the same mask twice restores the value; exchange followed by exchange of the returned value restores it.", "quantifier": "all 32 bit values", "why_tests_cant": "2^64 operand pairs", "anchors": ["src/include/falcon/atomic_gcc.h:atomicXor", "src/include/falcon/atomic_gcc.h:atomicAnd", "src/include/falcon/atomic_gcc.h:atomicOr", "src/include/falcon/atomic_gcc.h:atomicExchange"]}
{"id": "C37", "title": "atomicAdd means the same on every platform", "statement": "atomicAdd returns the new value on all supported platforms.", "quantifier": "all platforms and operands", "why_tests_cant": "needs all platforms", "anchors": ["src/include/falcon/atomic_gcc.h:atomicAdd", "src/include/falcon/atomic_vc.h:atomicAdd"]}
{"id": "C38", "title": "log messages are dispatched in order, exactly once", "statement": "The sequence of messages taken by the logging thread is always a prefix of the sequence in which they were accepted; nothing is duplicated, reordered or invented.", "quantifier": "all numbers of logging threads, all schedules, all message contents", "why_tests_cant": "interleavings", "anchors": ["src/engine/logsystem.cpp:LogSystem::log", "src/engine/logsystem.cpp:LogSystem::loggingThread"]}
{"id": "C39", "title": "a delivered message is the message that was logged", "statement": "File, line, level, category and text seen by a listener are those passed to log(), even though message objects are recycled through a pool by many threads: no message object is reused while still queued or being delivered.", "quantifier": "all schedules and numbers of threads", "why_tests_cant": "aliasing through the pool depends on interleavings", "anchors": ["src/engine/logsystem.cpp:LogSystem::allocateMsg", "src/engine/logsystem.cpp:LogSystem::disposeMsg"]}
{"id": "C40", "title": "message accounting balances and the pool is bounded", "statement": "The pool never holds more than 64 message objects, and at any time 64 + created (+ objects passed in by pointer) = pooled + discarded + those queued or in use; when everything is processed and idle the reported numbers satisfy poolSize + discarded = 64 + created.", "quantifier": "all schedules", "why_tests_cant": "interleavings", "anchors": ["src/engine/logsystem.cpp:LogSystem::getDiags", "src/include/falcon/logsystem.h:MESSAGE_POOL_THRESHOLD"]}
{"id": "C41", "title": "the system level filters messages", "statement": "log(file,line,level,...) is accepted iff level <= the system level at the moment of the call; a rejected call has no effect at all.", "quantifier": "all levels, all states, all schedules", "why_tests_cant": "all states", "anchors": ["src/engine/logsystem.cpp:LogSystem::log", "src/include/falcon/logsystem.h:LogSystem::level"]}
{"id": "C42", "title": "a listener gets exactly the messages it accepts", "statement": "When the logging thread processes a message, each registered listener receives it iff the listener is enabled, its level is >= the message level and its category filter accepts the message category; listeners receive it in registration order, each once.", "quantifier": "all listener sets, configurations, messages and schedules of other threads", "why_tests_cant": "combinatorial configurations and interleavings", "anchors": ["src/engine/logsystem.cpp:LogSystem::sendMessageToListeners", "src/engine/logsystem.cpp:Listener::checkCategory"]}
{"id": "C43", "title": "category filter rules", "statement": "An empty filter accepts every category; a message without category passes every filter; otherwise the whole category must match the regular expression.", "quantifier": "all filters, categories and matchers", "why_tests_cant": "all strings", "anchors": ["src/engine/logsystem.cpp:Listener::checkCategory", "src/include/falcon/logsystem.h:Listener::category"]}
{"id": "C44", "title": "setting an invalid category leaves the filter unchanged", "statement": "category(re) with an invalid expression throws InvalidCategory and the listener keeps filtering exactly as before; with a valid one the new filter is in force.", "quantifier": "all listeners and expressions", "why_tests_cant": "all strings", "anchors": ["src/include/falcon/logsystem.h:Listener::category"]}
{"id": "C45", "title": "detach() stops delivery", "statement": "After detach() returns the listener receives no further message.", "quantifier": "all schedules", "why_tests_cant": "interleavings", "anchors": ["src/include/falcon/logsystem.h:Listener::detach", "src/engine/logsystem.cpp:LogSystem::cleanupTerminatedListeners"]}
{"id": "C46", "title": "a listener added before a log call receives that message", "statement": "If addListener(l) returned before log() was called, the message is processed, and l accepts it and is not detached, then l receives it.", "quantifier": "all schedules", "why_tests_cant": "interleavings", "anchors": ["src/engine/logsystem.cpp:LogSystem::addListener", "src/engine/logsystem.cpp:LogSystem::processNewListeners"]}
{"id": "C47", "title": "no lost wake-up", "statement": "The logging thread never sleeps unnotified while a message is queued; and it sleeps unnotified after stop() only until that stop() issues its notification.", "quantifier": "all schedules including spurious wake-ups", "why_tests_cant": "interleavings", "anchors": ["src/engine/logsystem.cpp:LogSystem::loggingThread", "src/engine/logsystem.cpp:LogSystem::stop"]}
{"id": "C48", "title": "the queue drains", "statement": "From every reachable state in which the service runs and was not stopped, the logging thread running alone processes every queued message in a finite, bounded number of steps.", "quantifier": "all reachable states", "why_tests_cant": "all states", "anchors": ["src/engine/logsystem.cpp:LogSystem::loggingThread"]}
{"id": "C49", "title": "stop() delivers everything logged before it", "statement": "Every message accepted before stop() was called has been delivered when stop() returns.", "quantifier": "all schedules", "why_tests_cant": "interleavings", "anchors": ["src/engine/logsystem.cpp:LogSystem::stop", "src/engine/logsystem.cpp:LogSystem::loggingThread"]}
{"id": "C50", "title": "after stop() returns no listener is called", "statement": "Once stop() has returned (and start() is not called again) no message is delivered any more.", "quantifier": "all schedules", "why_tests_cant": "interleavings", "anchors": ["src/engine/logsystem.cpp:LogSystem::stop"]}
{"id": "C51", "title": "start() after stop() resumes the service", "statement": "After stop() and start() newly logged messages are delivered.", "quantifier": "all histories", "why_tests_cant": "histories not in tests", "anchors": ["src/engine/logsystem.cpp:LogSystem::start", "src/engine/logsystem.cpp:LogSystem::stop"]}
{"id": "C52", "title": "a newly constructed LogSystem works", "statement": "A newly constructed, started LogSystem delivers logged messages, whatever the memory it was constructed in contained.", "quantifier": "all initial memory contents", "why_tests_cant": "depends on indeterminate memory", "anchors": ["src/engine/logsystem.cpp:LogSystem::LogSystem", "src/include/falcon/logsystem.h:m_isTerminated"]}
{"id": "C53", "title": "the reported maximum queue size is the true high-water mark", "statement": "m_maxMsgQueueSize is always the maximum length the queue ever had.", "quantifier": "all schedules", "why_tests_cant": "interleavings", "anchors": ["src/engine/logsystem.cpp:LogSystem::log", "src/engine/logsystem.cpp:LogSystem::getDiags"]}
{"id": "C54", "title": "destruction frees every message object once", "statement": "Destroying a LogSystem that no other thread is using frees every message object exactly once.", "quantifier": "all histories", "why_tests_cant": "leak/double free over all histories", "anchors": ["src/engine/logsystem.cpp:LogSystem::~LogSystem"]}
{"id": "C55", "title": "level names are fixed-width and distinct", "statement": "levelToString gives six distinct four-character names for the six levels and \"????\" for anything else.", "quantifier": "all integer values", "why_tests_cant": "all ints", "anchors": ["src/engine/logsystem.cpp:LogSystem::levelToString"]}
{"id": "C56", "title": "a LOG statement emits one message with its own text, level and location", "statement": "LOG(level) << a1 << ... << an emits exactly one message whose text is the concatenation of the pieces, with the statement's file, line and level and the thread's category, if the compile-time and run-time levels admit it; otherwise it emits nothing and has no effect.", "quantifier": "all pieces, levels, prior statements", "why_tests_cant": "all statement sequences", "anchors": ["src/include/falcon/logger.h:Logger::AutoEnd", "src/include/falcon/logger.h:Logger::commit"]}
{"id": "C57", "title": "a temporary category applies to one message only", "statement": "LOG(l) << LOG_CAT(c) << ... is emitted under category c and the next message of the thread is again emitted under the thread's category.", "quantifier": "all sequences of statements", "why_tests_cant": "all sequences", "anchors": ["src/include/falcon/logger.h:Logger::setTempCategory", "src/include/falcon/logger.h:Logger::commit"]}
{"id": "C58", "title": "log statements may be nested", "statement": "A LOG statement evaluated while another LOG statement of the same thread is being composed (e.g. in a function called in its argument list) does not alter the text, level or location of either message.", "quantifier": "all nestings", "why_tests_cant": "nestings not tested", "anchors": ["src/include/falcon/logger.h:Logger::m_composer", "src/include/falcon/logger.h:Logger::AutoEnd"]}
{"id": "C59", "title": "a LOG_BLOCK emits one message, even when left early", "statement": "LOG_BLOCK(l){...} emits one message with the text composed in the block; leaving the block early never makes its text appear in a later message.", "quantifier": "all blocks and exits", "why_tests_cant": "exit paths not tested", "anchors": ["src/include/falcon/logger.h:Logger::BlockEnd", "src/include/falcon/logger.h:LOG_BLOCK"]}
{"id": "C60", "title": "log statements of different threads do not mix", "statement": "Under every interleaving of composition steps of different threads, each thread's emitted messages are those of its own statements run alone.", "quantifier": "all threads, programs, interleavings", "why_tests_cant": "interleavings", "anchors": ["src/engine/logger.cpp:thread_local", "src/include/falcon/logger.h:Logger::operator<<"]}
{"id": "C61", "title": "LOG_CATEGORY sets the category for the statements that follow", "statement": "After LOG_CATEGORY(c) every following emitted message of the thread has category c, for every compile-time minimum level and run-time level.", "quantifier": "all compile-time levels, run-time levels", "why_tests_cant": "needs every compile-time configuration", "anchors": ["src/include/falcon/logger.h:LOG_CATEGORY"]}
{"id": "C62", "title": "clearFilter() restores the state before categoryFilter()", "statement": "After any number of categoryFilter calls, clearFilter() brings back the general level in force before filtering, and may always be called.", "quantifier": "all sequences of categoryFilter/clearFilter/level calls", "why_tests_cant": "sequences not tested", "anchors": ["src/engine/logger.cpp:Logger::categoryFilter", "src/engine/logger.cpp:Logger::clearFilter"]}
{"id": "C63", "title": "categoryFilter shows matching detail only once and hides the rest", "statement": "After categoryFilter(re,l) on a logger whose default listener is at the general level, a message below the old general level is written iff its category matches, and every written message is written once.", "quantifier": "all levels, categories, filters", "why_tests_cant": "all configurations", "anchors": ["src/engine/logger.cpp:Logger::categoryFilter", "src/include/falcon/logproxy.h:LogProxyListener::onMessage"]}
{"id": "C64", "title": "categoryFilter with an invalid expression changes nothing", "statement": "If categoryFilter throws InvalidCategory, level and filters are as before.", "quantifier": "all states and expressions", "why_tests_cant": "all states", "anchors": ["src/engine/logger.cpp:Logger::categoryFilter"]}
{"id": "C65", "title": "only one category filter is active at a time", "statement": "After a sequence of categoryFilter calls every filter listener except the last one created is detached and gets at most the one message being processed.", "quantifier": "all sequences", "why_tests_cant": "all sequences", "anchors": ["src/engine/logger.cpp:Logger::categoryFilter"]}
{"id": "C66", "title": "a log line can be decoded back", "statement": "From a line written by the stream listener the level, category, base file name, line number and message text can be recovered uniquely, provided the category contains no ')' and the base name no ':' and no leading '('.", "quantifier": "all messages meeting the side conditions, all dates with 4-digit year", "why_tests_cant": "all strings", "anchors": ["src/engine/logstream.cpp:LogStreamListener::onMessage"]}
{"id": "C67", "title": "the written file name is the part after the last separator", "statement": "The file shown is the longest suffix of the given path without a directory separator.", "quantifier": "all paths", "why_tests_cant": "all strings", "anchors": ["src/engine/logstream.cpp:LogStreamListener::onMessage"]}
{"id": "C68", "title": "the date prefix has fixed width", "statement": "For years 1000-9999 and valid calendar fields the date prefix is exactly 20 characters, zero padded, and two prefixes compare lexicographically like the times.", "quantifier": "all calendar times", "why_tests_cant": "all times", "anchors": ["src/engine/logstream.cpp:LogStreamListener::onMessage"]}
{"id": "C69", "title": "one message is one line", "statement": "A message whose category, file and text contain no newline produces exactly one newline, at the end.", "quantifier": "all messages", "why_tests_cant": "all strings", "anchors": ["src/engine/logstream.cpp:LogStreamListener::onMessage"]}
{"id": "C70", "title": "the stream in use is alive", "statement": "After any sequence of own/share/writeOn calls with non-null streams the listener writes to the stream passed last, and if it was passed by own or share that stream is not yet destroyed by the listener.", "quantifier": "all call sequences", "why_tests_cant": "all sequences", "anchors": ["src/include/falcon/logstream.h:LogStreamListener::own", "src/include/falcon/logstream.h:LogStreamListener::share"]}
{"id": "C71", "title": "integer items keep their value", "statement": "Item(v).toInt() == v for every v of type char, byte, int32, uint32, int64, and the stored 64 bit pattern of a uint64 is preserved; toBool() is v != 0.", "quantifier": "all values of all integer types", "why_tests_cant": "2^64 values", "anchors": ["src/include/falcon/engine/item.h:Item::Item", "src/include/falcon/engine/itemdata.h:ItemData", "src/include/falcon/engine/inthandler.h:IntHandler"]}
{"id": "C72", "title": "unsigned 64 bit items print their value", "statement": "Item(v).toString() is the decimal representation of v for every supported integer type.", "quantifier": "all values", "why_tests_cant": "2^64 values", "anchors": ["src/include/falcon/engine/inthandler.h:IntHandler::toString"]}
{"id": "C73", "title": "integer to string to integer round trip", "statement": "Item(Item(v).toString()).toInt() == v for every int64 v.", "quantifier": "all int64 values", "why_tests_cant": "2^64 values", "anchors": ["src/include/falcon/engine/stringhandler.h:StringHandler::toInt"]}
{"id": "C74", "title": "toInt on a string item never brings the program down", "statement": "Item(s).toInt() returns for every string s.", "quantifier": "all strings", "why_tests_cant": "all strings", "anchors": ["src/include/falcon/engine/stringhandler.h:StringHandler::toInt"]}
{"id": "C75", "title": "string and bool and nil conversions", "statement": "Item(s).toString()==s, Item(s).toBool() is s non-empty; Item(b) gives true/false,1/0,b; a default item gives nil,0,false.", "quantifier": "all strings and booleans", "why_tests_cant": "all strings", "anchors": ["src/include/falcon/engine/stringhandler.h", "src/include/falcon/engine/boolhandler.h", "src/include/falcon/engine/nilhandler.h"]}
{"id": "C76", "title": "items may be copied and destroyed freely", "statement": "Copying an item and destroying both frees its storage exactly once.", "quantifier": "all histories of item creation, copy and destruction", "why_tests_cant": "double free needs all histories", "anchors": ["src/include/falcon/engine/item.h:Item::~Item", "src/include/falcon/engine/deephandler.h:DeepHandler::destroy"]}
{"id": "C77", "title": "handler allocate/destroy are matched", "statement": "handler->destroy(handler->allocate()) is a no-op for every handler.", "quantifier": "all handlers", "why_tests_cant": "memory errors are not observable by tests", "anchors": ["src/include/falcon/engine/deephandler.h:DeepHandler::allocate", "src/include/falcon/engine/itemdata.h:ItemData"]}
{"id": "C78", "title": "float items convert by truncation", "statement": "Item(x).toInt() is x truncated toward zero whenever the result fits int64, toBool() is x != 0.", "quantifier": "all doubles", "why_tests_cant": "2^64 doubles", "anchors": ["src/include/falcon/engine/floathandler.h:FloatHandler"]}
{"id": "C79", "title": "Code keeps its source text", "statement": "Code(s).toString() == s for every source text s.", "quantifier": "all strings", "why_tests_cant": "all strings", "anchors": ["src/engine/code.cpp:Code::Code", "src/engine/code.cpp:Code::toString"]}
{"id": "C80", "title": "Code objects may be copied, moved and destroyed", "statement": "Copying or moving a Code and destroying all objects frees each buffer exactly once.", "quantifier": "all histories of copies, moves, destruction", "why_tests_cant": "double free", "anchors": ["src/engine/code.cpp:Code::Code(const Code&)", "src/engine/code.cpp:Code::~Code"]}
{"id": "C81", "title": "compile reads one word at a time", "statement": "compile(in).toString() is the next whitespace-delimited word; successive compile calls yield the words of the input in order and then empty code.", "quantifier": "all inputs", "why_tests_cant": "all inputs", "anchors": ["src/engine/compiler.cpp:Compiler::compile"]}
{"id": "C82", "title": "Singleton accessors all reach one instance", "statement": "Every accessor of every Singleton<T> object reaches the same T, constructed once before first use; a write through mtbl is seen by all later reads.", "quantifier": "all access sequences", "why_tests_cant": "all sequences", "anchors": ["src/include/falcon/singleton.h:Singleton"]}
{"id": "C83", "title": "test status reflects what the test did", "statement": "run() ends in ERROR iff SetUp, test or TearDown threw; otherwise FAIL iff a check failed (and the test did not overwrite it); otherwise OUT_ON_ERROR_STREAM iff something was captured on stderr; otherwise SUCCESS.", "quantifier": "all test behaviours", "why_tests_cant": "all behaviours", "anchors": ["src/fut/testcase.cpp:TestCase::run", "src/fut/testcase.cpp:TestCase::checkFail"]}
{"id": "C84", "title": "TearDown follows every SetUp", "statement": "Whenever SetUp completed, TearDown is invoked, whatever the test does.", "quantifier": "all test behaviours", "why_tests_cant": "all behaviours", "anchors": ["src/fut/testcase.cpp:TestCase::run"]}
{"id": "C85", "title": "-e decides whether stderr output fails a test", "statement": "A test that only wrote on stderr passes without -e and fails with -e.", "quantifier": "all option settings", "why_tests_cant": "configuration space", "anchors": ["src/fut/unittest.cpp:UnitTest::hasPassed"]}
{"id": "C86", "title": "exit status is zero iff all performed tests passed", "statement": "main returns 0 iff the options were valid and every performed test passed; an invalid option runs no test and returns non-zero.", "quantifier": "all test suites and command lines", "why_tests_cant": "all suites", "anchors": ["src/fut/unittest.cpp:UnitTest::main", "src/fut/unittest.cpp:UnitTest::runAllTests"]}
{"id": "C87", "title": "every selected test runs exactly once, grouped by component", "statement": "The first run of a runner performs exactly the selected tests (all if none selected) with their multiplicity; components in ascending name order, within a component in selection order; the numbers shown are 1..n.", "quantifier": "all suites and selections", "why_tests_cant": "all suites", "anchors": ["src/fut/unittest.cpp:UnitTest::runAllTests"]}
{"id": "C88", "title": "failure counts add up", "statement": "In the first run of a runner, the total failure count is the number of performed tests that did not pass and equals the sum over components; the report's test counts add up to the total.", "quantifier": "all suites", "why_tests_cant": "all suites", "anchors": ["src/fut/unittest.cpp:UnitTest::runAllTests", "src/fut/unittest.cpp:UnitTest::saveToXML"]}
{"id": "C89", "title": "performUnitTests can be repeated", "statement": "A second performUnitTests on the same object performs the same tests again, once each.", "quantifier": "all suites", "why_tests_cant": "histories not tested", "anchors": ["src/fut/unittest.cpp:UnitTest::performUnitTests"]}
{"id": "C90", "title": "a test's verdict does not depend on earlier runs", "statement": "Running the same deterministic test again gives the same status.", "quantifier": "all tests and histories", "why_tests_cant": "histories", "anchors": ["src/fut/testcase.cpp:TestCase::run", "src/fut/testcase.cpp:TestCase::beginTest"]}
{"id": "C91", "title": "standard streams are restored after every test", "statement": "After endTest std::cout and std::cerr write where they wrote before beginTest, whatever the test did; everything written during the test is in capturedOut/capturedErr.", "quantifier": "all test behaviours", "why_tests_cant": "all behaviours", "anchors": ["src/fut/testcase.cpp:TestCase::beginTest", "src/fut/testcase.cpp:TestCase::endTest"]}
{"id": "C92", "title": "-q prints nothing", "statement": "With verbosity 0 and capture on, a run writes nothing to the standard output.", "quantifier": "all suites and test behaviours", "why_tests_cant": "all suites", "anchors": ["src/fut/unittest.cpp:UnitTest::endTest", "src/fut/unittest.cpp:UnitTest::report"]}
{"id": "C93", "title": "command line options are parsed left to right", "statement": "parseParams returns 0 iff the arguments are a sequence of valid options; then the last -v/-q, -n, -i, -x wins, -c/-e are set if present and the -t names select tests in order.", "quantifier": "all argument lists", "why_tests_cant": "all argument lists", "anchors": ["src/fut/unittest.cpp:UnitTest::parseParams"]}
{"id": "C94", "title": "-v rejects anything that is not a level", "statement": "-v N is accepted iff N is a decimal number from 0 to 5.", "quantifier": "all strings", "why_tests_cant": "all strings", "anchors": ["src/fut/unittest.cpp:UnitTest::parseParams"]}
{"id": "C95", "title": "the failed-cases list names exactly the tests that failed", "statement": "The list printed after a failed run contains exactly the performed tests that did not pass.", "quantifier": "all suites and selections", "why_tests_cant": "all suites", "anchors": ["src/fut/unittest.cpp:UnitTest::report"]}
{"id": "C96", "title": "the XML report is well formed", "statement": "In the XML report every attribute value can be read back as the text that was reported.", "quantifier": "all failure descriptions", "why_tests_cant": "all strings", "anchors": ["src/fut/unittest.cpp:UnitTest::saveToXML", "src/fut/testcase.cpp:TestCase::checkFail"]}
{"id": "C97", "title": "full test names identify tests", "statement": "Two tests with different (component, case) pairs have different full names, provided component and case are C++ identifiers; lookup by full name finds the first registered test of that name.", "quantifier": "all names", "why_tests_cant": "all strings", "anchors": ["src/fut/testcase.cpp:TestCase::setName", "src/fut/unittest.cpp:UnitTest::addTestCase"]}
{"id": "C98", "title": "the default test name is the bare program name", "statement": "detectTestName yields the program path without directory and without anything from the first dot on.", "quantifier": "all paths", "why_tests_cant": "all strings", "anchors": ["src/fut/unittest.cpp:UnitTest::detectTestName"]}
{"id": "C99", "title": "elapsed time is exact modulo one day", "statement": "elapsed() is the real elapsed time in milliseconds for a monotone epoch clock, and for a time-of-day clock whenever less than a day passed, also across midnight; the unix clock error is below 1 ms.", "quantifier": "all begin/end times", "why_tests_cant": "all times", "anchors": ["src/include/falcon/fut/timelapse.h:TimeLapse::elapsed", "src/fut/marktime-unix.c++:markTime", "src/fut/marktime-win.c++:markTime"]}
{"id": "C100", "title": "EXPECT_FLOAT_EQ is a tolerance comparison", "statement": "EXPECT_FLOAT_EQ(a,b) passes iff a and b differ by less than 0.0001.", "quantifier": "all pairs of numbers", "why_tests_cant": "all reals", "anchors": ["src/include/falcon/fut/fut.h:EXPECT_FLOAT_EQ"]}
{"id": "C101", "title": "FAIL ends the test and the reported failure is the first one", "statement": "After a failed check or FAIL() no further statement of the test is executed, and the report names that check with the base name of its file.", "quantifier": "all tests", "why_tests_cant": "all tests", "anchors": ["src/include/falcon/fut/fut.h:FAIL", "src/fut/testcase.cpp:TestCase::checkFail"]}
{"id": "C102", "title": "version number packing is injective", "statement": "FALCON_VERSION_NUM determines major, minor, revision and patch as long as each is below 256, and orders like the version tuple.", "quantifier": "all versions", "why_tests_cant": "all versions", "anchors": ["src/include/falcon/config.h.in:FALCON_VERSION_NUM"]}
{"id": "C103", "title": "a thread in stop() is never stuck", "statement": "From every reachable state in which some thread is inside stop(), some schedule lets this stop() return; at most one thread joins the logging thread.", "quantifier": "all reachable states, any number of concurrent stop() calls", "why_tests_cant": "all interleavings", "anchors": ["src/engine/logsystem.cpp:LogSystem::stop"]}
{"id": "C104", "title": "formatting used in one log statement does not influence later ones", "statement": "A stream manipulator (std::hex, ...) or a failed insertion used inside one LOG statement has no effect on the text of later LOG statements.", "quantifier": "all statement sequences of a thread", "why_tests_cant": "all sequences of insertions", "anchors": ["src/include/falcon/logger.h:Logger::readyStream", "src/include/falcon/logger.h:Logger::commit"]}
{"id": "C105", "title": "logging leaves the format state of a shared stream alone", "statement": "Writing a log message to a stream the application also uses (std::cout, ...) leaves the stream's format state (base, adjustment, width, fill) as it was, and the line does not depend on it.", "quantifier": "all streams, messages, times", "why_tests_cant": "all format states", "anchors": ["src/engine/logstream.cpp:LogStreamListener::onMessage"]}
{"id": "C106", "title": "log lines are never mixed, lost or split", "statement": "However many threads write messages through one stream listener and replace its stream at the same time, every stream receives complete lines only, one per message sent while it was in use, in the order of the calls; each thread's messages keep their order.", "quantifier": "all programs of all threads, all schedules", "why_tests_cant": "all interleavings", "anchors": ["src/engine/logstream.cpp:LogStreamListener::onMessage", "src/include/falcon/logstream.h:LogStreamListener::own"]}
{"id": "C107", "title": "an Item can be made from every arithmetic C++ type", "statement": "Constructing an Item from a value of any C++ arithmetic type, a C string or a std::string that the compiler accepts yields an item, it does not throw.", "quantifier": "all argument types the constructor template accepts", "why_tests_cant": "one test per type instantiation is needed, and implicit conversions never happen in the template", "anchors": ["src/include/falcon/engine/item.h:Item::Item", "src/engine/handlerfactory.cpp:HandlerFactory"]}
{"id": "C108", "title": "distribute gives the k-th target the k-th value", "statement": "distribute(it, t1, ..., tn) assigns to each target tk the k-th value found from it on as it was before the call, changes nothing else and reads no further.", "quantifier": "all sequences, positions, numbers of targets and aliasing patterns", "why_tests_cant": "all lengths and aliasings", "anchors": ["src/include/falcon/engine/distribute.h:distribute"]}
{"id": "C109", "title": "a single named test can be performed", "statement": "performTest(name) runs the first registered test of that full name exactly once, runs no other test, and returns 0 iff it passed; an unknown name throws and runs nothing.", "quantifier": "all suites, names and test behaviours", "why_tests_cant": "all suites", "anchors": ["src/fut/unittest.cpp:UnitTest::performTest"]}
{"id": "C110", "title": "waitTime waits as long as asked", "statement": "waitTime(n) waits n milliseconds for every n >= 0.", "quantifier": "all durations", "why_tests_cant": "a test cannot wait for days", "anchors": ["src/fut/marktime-unix.c++:waitTime", "src/fut/marktime-win.c++:waitTime"]}
{"id": "C111", "title": "exception checks decide what they say", "statement": "A test in which an EXPECT_THROW, EXPECT_ANY_THROW or EXPECT_NO_THROW that does not hold is executed does not pass, whatever it does before, whatever else it executes afterwards, wherever its streams go and whether output is captured or not, unless it sets its own status by hand afterwards; a test of exception checks that hold passes.", "quantifier": "all test scripts and exceptions", "why_tests_cant": "all scripts", "anchors": ["src/include/falcon/fut/fut.h:EXPECT_THROW", "src/include/falcon/fut/fut.h:EXPECT_ANY_THROW", "src/include/falcon/fut/fut.h:EXPECT_NO_THROW", "src/fut/testcase.cpp:TestCase::run"]}
{"id": "C112", "title": "a check evaluates its arguments once", "statement": "A check evaluates each of its arguments exactly once, and the value in the failure description is the value that was compared.", "quantifier": "all expressions with side effects", "why_tests_cant": "all expressions and states", "anchors": ["src/include/falcon/fut/fut.h:FALCON_TEST_CHECK_LOGIC", "src/include/falcon/fut/fut.h:EXPECT_TRUE"]}
{"id": "C113", "title": "the log diagnostics count correctly", "statement": "getDiags() taken while no other thread moves reports as received the number of messages processed so far, as pending the number of listeners added since a message was last processed, as active the listeners added before that (as long as none was detached) and as enabled those of them that are enabled.", "quantifier": "all histories of calls and schedules", "why_tests_cant": "all histories", "anchors": ["src/engine/logsystem.cpp:LogSystem::getDiags", "src/engine/logsystem.cpp:LogSystem::processNewListeners", "src/engine/logsystem.cpp:LogSystem::cleanupTerminatedListeners"]}
{"id": "C114", "title": "handlers describe their type truthfully", "statement": "typeName() tells the six item types apart; isFlat() is true exactly for the types whose items own no separate storage; isCopyFlat() is true only for types whose items may be copied bit by bit and destroyed independently.", "quantifier": "all handlers and all values", "why_tests_cant": "memory ownership is not observable by tests", "anchors": ["src/include/falcon/engine/flathandler.h:FlatHandler", "src/include/falcon/engine/deephandler.h:DeepHandler", "src/include/falcon/engine/deepflatcopyhandler.h:DeepFlatCopyHandler"]}
{"id": "C115", "title": "a float item's text is its value to six digits", "statement": "toString() of an item made from a finite float or double yields a decimal number of at most six significant digits, none closer to the value; infinities and NaN yield inf, -inf, nan; different values yield different texts.", "quantifier": "all double values", "why_tests_cant": "all doubles", "anchors": ["src/include/falcon/engine/floathandler.h:FloatHandler::toString"]}
{"id": "C116", "title": "reported test times are the measured times", "statement": "The seconds printed in the XML report are exactly the measured milliseconds divided by 1000; the summary times are the nearest decimal with the chosen number of digits.", "quantifier": "all durations", "why_tests_cant": "all durations", "anchors": ["src/fut/unittest.cpp:UnitTest::report", "src/fut/unittest.cpp:UnitTest::saveToXML"]}
{"id": "C117", "title": "status lines have fixed columns", "statement": "With verbosity 2 or more, each finished test yields a status line showing its number, the first 50 characters of its name, its time in seconds with exactly the millisecond digits, and its verdict, in fixed columns.", "quantifier": "all tests, names, numbers and durations", "why_tests_cant": "all names, numbers and durations", "anchors": ["src/fut/unittest.cpp:UnitTest::writeTestName"]}
{"id": "C118", "title": "a float item survives text on the way to an integer", "statement": "Taking the text of a float item, making a string item of it and calling toInt() on that gives the float truncated towards zero.", "quantifier": "all double values", "why_tests_cant": "all doubles", "anchors": ["src/include/falcon/engine/floathandler.h:FloatHandler::toString", "src/include/falcon/engine/stringhandler.h:StringHandler::toInt"]}
{"id": "C119", "title": "a copy of a PagedStack is a stack of its own", "statement": "A PagedStack constructed or assigned from another one holds the same elements, and from then on calls on either do not affect the other.", "quantifier": "all histories of declarations, copies, assignments, destructions and calls over any number of stacks", "why_tests_cant": "all histories", "anchors": ["src/include/falcon/engine/pagedstack.h:PagedStack::m_curBase", "src/include/falcon/engine/pagedstack.h:PagedStack"]}
{"id": "C120", "title": "a moved or swapped PagedStack keeps working", "statement": "A PagedStack that received its content by move construction, move assignment or std::swap behaves as the stack it came from; no other stack is affected; a moved-from stack can be assigned to or destroyed.", "quantifier": "all histories of declarations, moves, swaps, destructions and calls over any number of stacks", "why_tests_cant": "all histories", "anchors": ["src/include/falcon/engine/pagedstack.h:PagedStack::m_curBase", "src/include/falcon/engine/pagedstack.h:PagedStack"]}
{"id": "C121", "title": "shrink_to_fit works on a moved stack", "statement": "When no sync iterator is alive, shrink_to_fit() on a stack that was moved frees every page that is not in use.", "quantifier": "all histories", "why_tests_cant": "all histories", "anchors": ["src/include/falcon/engine/pagedstack.h:PagedStack::m_syncIterCount", "src/include/falcon/engine/pagedstack.h:PagedStack::shrink_to_fit"]}
{"id": "C122", "title": "a pop guarded by empty() is safe", "statement": "With a mutex as template parameter, threads may run 'if(!s.empty()) s.pop(v);' while others push: no call fails, and every pushed element is popped once or still there.", "quantifier": "all schedules of any number of producers and consumers, all page sizes", "why_tests_cant": "the window between the check and the pop is hit by rare schedules only", "anchors": ["src/include/falcon/engine/pagedstack.h:PagedStack::empty", "src/include/falcon/engine/pagedstack.h:PagedStack::pop"]}
{"id": "C123", "title": "multi-element calls lose nothing when an element operation throws", "statement": "When an assignment in pop(v1..vn) or a copy in push(x1..xn) throws, every element is either in one of the variables already assigned or still on the stack, which behaves as holding the rest; of a push the elements before the throwing one are on the stack.", "quantifier": "all stacks, numbers of arguments and positions of the exception", "why_tests_cant": "all positions and page layouts", "anchors": ["src/include/falcon/engine/pagedstack.h:PagedStack::internal_pop", "src/include/falcon/engine/pagedstack.h:PagedStack::internal_push"]}
{"id": "C124", "title": "push is all-or-nothing when memory runs out", "statement": "A push that throws std::bad_alloc leaves the stack as it was, and later pushes work once there is memory again.", "quantifier": "all stacks and all patterns of failing allocations", "why_tests_cant": "every allocation of every history can fail", "anchors": ["src/include/falcon/engine/pagedstack.h:PagedStack::growBase", "src/include/falcon/engine/pagedstack.h:PagedStack::advance"]}
{"id": "C125", "title": "elements stay where they are even after memory ran out once", "statement": "A push never moves an element that is on the stack, also when an earlier push failed for lack of memory.", "quantifier": "all stacks and all patterns of failing allocations", "why_tests_cant": "every allocation of every history can fail", "anchors": ["src/include/falcon/engine/pagedstack.h:PagedStack::growBase", "src/include/falcon/engine/pagedstack.h:PagedStack::internal_push"]}
{"id": "C126", "title": "a test's reported time is the time its test() took", "statement": "elapsedTime() after run() is the difference between the clock when test() was entered and when it was left, whatever the test did and whatever was measured in earlier runs.", "quantifier": "all tests, clocks and histories", "why_tests_cant": "all scripts and clocks", "anchors": ["src/fut/testcase.cpp:TestCase::run", "src/fut/testcase.cpp:TestCase::elapsedTime"]}
{"id": "C127", "title": "the console shows exactly what happened", "statement": "The first run of a runner whose tests do not exchange the buffers of the streams (standard output and standard error having different buffers, and not those of a test) prints, for each performed test in order, the announcement, captured output and verdict that its verbosity level calls for, then the list of failed cases, the components and the total; nothing else appears on standard output or standard error but what the tests wrote themselves.", "quantifier": "all suites, options, outcomes and texts", "why_tests_cant": "all suites, verbosity levels and texts", "anchors": ["src/fut/unittest.cpp:UnitTest::performUnitTests", "src/fut/unittest.cpp:UnitTest::report", "src/fut/unittest.cpp:UnitTest::writeTestName"]}
{"id": "C128", "title": "the exit code tells whether all tests deserved to pass", "statement": "main() of a test program started in a fresh process, none of whose tests exchanges the buffers of the streams or is selected twice, always returns, and returns 0 if and only if no selected test failed a check, threw, or wrote to a captured standard error.", "quantifier": "all suites of tests using the checking macros and all command lines without -x", "why_tests_cant": "all suites and command lines", "anchors": ["src/fut/unittest.cpp:UnitTest::main", "src/fut/testcase.cpp:TestCase::run"]}
{"id": "C129", "title": "reported times add up", "statement": "No reported time is negative; the times of the tests of a component add up to at most the component's time, and those of the components to at most that of the run.", "quantifier": "all suites and all clocks that do not go back", "why_tests_cant": "all suites and clocks", "anchors": ["src/fut/testcase.cpp:TestCase::run", "src/fut/unittest.cpp:UnitTest::runAllTests"]}
{"id": "C130", "title": "the log file tells exactly what was logged", "statement": "When a LogStreamListener was added before the first message and then left alone, the file it writes, read line by line, shows the level, category, file name, line and text of the messages that came into the queue and pass its filter: at any moment a beginning of that list, all of it once every message was served; each thread's messages in the order in which it logged them.", "quantifier": "all interleavings of any number of threads, all histories, message contents and times", "why_tests_cant": "all schedules and contents", "anchors": ["src/engine/logsystem.cpp:LogSystem::loggingThread", "src/engine/logsystem.cpp:LogSystem::log", "src/engine/logstream.cpp:LogStreamListener::onMessage"]}
{"id": "C131", "title": "logging does not leak memory", "statement": "Every buffer allocated to hold the texts of a logged message is freed, at the latest when the LogSystem is destroyed.", "quantifier": "all schedules of any number of threads, all histories and message contents", "why_tests_cant": "the loss depends on which pooled object a call gets and what it held before; no test observes it", "anchors": ["src/engine/logsystem.cpp:LogSystem::log", "src/engine/logsystem.cpp:LogSystem::allocateMsg", "src/engine/logsystem.cpp:LogSystem::disposeMsg"]}
{"id": "C132", "title": "Listeners may use the log system from onMessage, and may fail", "statement": "A listener's onMessage may call any function of the log system and of its listeners (log, addListener, level, detach, enable, category, start, stop) or throw, without terminating the program, blocking the logging thread for ever, losing or reordering messages or corrupting memory; a concurrent stop() still returns.", "quantifier": "all numbers of threads, all interleavings, all behaviours of all listeners (any sequence of calls, chosen anew at every delivery)", "why_tests_cant": "the calls made inside onMessage interleave with those of every other thread; a test fixes one listener and sees a few schedules", "anchors": ["src/engine/logsystem.cpp:LogSystem::sendMessageToListeners", "src/engine/logsystem.cpp:LogSystem::loggingThread", "src/engine/logsystem.cpp:LogSystem::stop", "src/engine/logsystem.cpp:LogSystem::start", "src/include/falcon/logsystem.h:LogSystem::Listener::onMessage"]}
{"id": "C133", "title": "The queue empties once threads stop logging", "statement": "When no thread of the program logs any more and stop() has not been called, the logging thread serves all queued messages and goes to sleep with an empty queue, whatever the listeners do when they get a message.", "quantifier": "all reachable states, all queue lengths, all listeners and all their behaviours", "why_tests_cant": "a test can only wait for some time and cannot tell slow from never", "anchors": ["src/engine/logsystem.cpp:LogSystem::sendMessageToListeners", "src/engine/logsystem.cpp:LogSystem::loggingThread", "src/engine/logsystem.cpp:LogSystem::stop", "src/engine/logsystem.cpp:LogSystem::start", "src/include/falcon/logsystem.h:LogSystem::Listener::onMessage"]}
{"id": "C134", "title": "The log system is free of data races", "statement": "All functions of the log system and its listeners may be called from any threads at the same time: no two threads ever make conflicting unsynchronised accesses (same memory, one a write, not both atomic, no common mutex).", "quantifier": "all numbers of threads, all interleavings, all pairs of steps that can happen next, all pairs of accesses", "why_tests_cant": "a data race shows only under particular schedules and hardware; tests and sanitizers see the schedules that happen to occur", "anchors": ["src/engine/logsystem.cpp:LogSystem::getDiags", "src/engine/logsystem.cpp:LogSystem::loggingThread", "src/engine/logsystem.cpp:LogSystem::processNewListeners", "src/engine/logsystem.cpp:LogSystem::cleanupTerminatedListeners", "src/include/falcon/logsystem.h:LogSystem::Listener::category", "src/include/falcon/logsystem.h:LogSystem"]}
{"id": "C135", "title": "The log system when memory runs out", "statement": "If an allocation fails (or a regular expression gives up matching) in any call or in the logging thread, the caller sees an exception, the log system keeps its queue, listeners, filters and levels, no message object is lost, the diagnostics stay right, and the program goes on.", "quantifier": "every schedule of clients and logging thread, with a failure injected at any subset of the allocating steps", "why_tests_cant": "a failure may hit any of unboundedly many allocations in any interleaving; tests cannot inject them all", "anchors": ["src/engine/logsystem.cpp:LogSystem::log", "src/engine/logsystem.cpp:LogSystem::allocateMsg", "src/engine/logsystem.cpp:LogSystem::disposeMsg", "src/engine/logsystem.cpp:LogSystem::processNewListeners", "src/include/falcon/logsystem.h:LogSystem::Listener::category"]}
{"id": "C136", "title": "A Futex protects data on weakly ordered machines", "statement": "Whatever reordering the C++ memory model allows, data accessed only between lock() and unlock() of a Futex are never accessed in a data race: each section sees everything earlier sections wrote, and the final data and all results are those of the sections executed one after the other. The thread inside always gets true from isLocked(). The orders given in the code (acquire in lock(), release in unlock()) are necessary and sufficient for this.", "quantifier": "all numbers of threads, guarded operations, spin counts, schedules, spurious failures, and all choices of old values and of places in the modification order a weak memory machine may make", "why_tests_cant": "stale reads appear only on some machines and some schedules; on x86 tests pass even with relaxed orders", "anchors": ["src/include/falcon/futex.h:Futex::lock", "src/include/falcon/futex.h:Futex::unlock", "src/include/falcon/futex.h:Futex::isLocked"]}
{"id": "C137", "title": "getDiags() is a snapshot", "statement": "The eight numbers filled in by one getDiags() call fit together: they describe the log system at one moment. In particular no more messages are reported discarded than created, the pool size agrees with the two counters when nothing is under way, and the number of enabled listeners is the number that were enabled at the same time.", "quantifier": "every number of observer threads calling getDiags() again and again, every number of clients, every program of log, listener and stop calls, every interleaving of the single reads of getDiags() with all steps of the other threads", "why_tests_cant": "A torn answer needs 65 log calls or two enable/disable calls to fall between two adjacent statements of getDiags().", "anchors": ["src/engine/logsystem.cpp LogSystem::getDiags", "src/engine/logsystem.cpp LogSystem::allocateMsg", "src/engine/logsystem.cpp LogSystem::disposeMsg", "src/include/falcon/logsystem.h LogSystem::Diags"]}
{"id": "C138", "title": "Formatting a test leaves on std::cout does not change the report", "statement": "Whatever manipulators (std::hex, std::setw, std::setfill, std::setprecision, std::fixed, std::showpos) a test applies to std::cout and leaves there, the status lines, the failure numbers and line numbers, and the totals that the framework prints are the same, and a run leaves the format of std::cout as it found it.", "quantifier": "every set of tests, every order and number of them, every command line, and every change of the format of std::cout that any test makes", "why_tests_cant": "The report is written through the very stream the tests may have reconfigured; whether it comes out right depends on which manipulator which earlier test left behind, an unbounded history.", "anchors": ["src/fut/unittest.cpp UnitTest::endTest", "src/fut/unittest.cpp UnitTest::report", "src/fut/unittest.cpp UnitTest::writeTestName", "src/fut/testcase.cpp TestCase::beginTest", "src/fut/testcase.cpp TestCase::endTest"]}
{"id": "C139", "title": "Static objects can use the logger and singletons from constructors and destructors", "statement": "A program whose static objects use Singleton<T> instances, the Logger (through LOG statements or directly) and UnitTest::singleton() from their constructors and destructors starts and ends in an orderly way, whatever order the linker gives the static objects: everything used is constructed and not yet destroyed, and at exit objects go in the reverse of the order in which they were completed.", "quantifier": "every number and order of static objects, every set of singletons their constructors, their destructors and main use, singletons whose constructors use other singletons, and every point of the process from the first constructor to the last destructor", "why_tests_cant": "Initialisation order across source files is unspecified and destruction order follows from it; a test program has one order, and a use after destruction often goes unnoticed.", "anchors": ["src/include/falcon/singleton.h Singleton::get", "src/include/falcon/logger.h Logger::instance", "src/engine/logger.cpp Logger::m_composer", "src/fut/unittest.cpp UnitTest::singleton"]}
{"id": "C140", "title": "A sync-iterator loop beside other threads visits what stays, top to bottom, and ends", "statement": "A thread that runs for(it = s.sync_begin(), e = s.sync_end(); it != e; ++it) it.get(v) while other threads push, pop, discard, shrink and use sync iterators of their own on the same stack: no step of the loop is undefined and none changes the contents; each visited value is, when it is visited, an element of the stack, at heights that strictly decrease and lie below the height the stack had at sync_begin(); the elements that stay at the bottom throughout are each visited exactly once, topmost first, after the others; the loop ends after at most 3n+2 of its own calls however much is pushed meanwhile; and it throws only if the stack was empty at one of its own calls.", "quantifier": "all reachable stacks, all page sizes and allocations >= 1, all interleavings of the loop with any number of calls by other threads", "why_tests_cant": "a test fixes one interleaving; the iterator stores a raw position that other threads invalidate between any two of its calls", "anchors": ["src/include/falcon/engine/pagedstack.h:PagedStack::sync_iterator_base", "src/include/falcon/engine/pagedstack.h:PagedStack::sync_begin", "src/include/falcon/engine/pagedstack.h:PagedStack::sync_end"]}
{"id": "C141", "title": "-- on a sync iterator undoes ++", "statement": "On a stack that does not change meanwhile, -- moves a sync iterator to the element above, from sync_end() to the bottom element, so that -- undoes ++ and going up from sync_end() with -- reads all elements from the bottom to the top; on an empty stack it throws and on a place no longer in use it goes to the top.", "quantifier": "all reachable stacks with live sync iterators, all positions, all page sizes and allocations >= 1", "why_tests_cant": "the outcome depends on how the elements fall into pages and on whether the stack owns a spare page, which no finite set of sizes covers", "anchors": ["src/include/falcon/engine/pagedstack.h:sync_iterator_base::operator--", "src/include/falcon/engine/pagedstack.h:sync_iterator_base::synchronize"]}
{"id": "C142", "title": "A test may run other tests through the runner without spoiling the run it is part of", "statement": "Tests may call UnitTest::singleton()->performTest(name) and ->setVerbosity(v) from SetUp(), test() or TearDown(), to any depth. Whatever they call, performUnitTests still returns 0 exactly if every test the run performed passed, the failure count and the list of failed cases are those of the run, a test that failed stays failed, and afterwards std::cout and std::cerr are where they were before.", "quantifier": "all suites and selections, all statements of every test including nested calls of performTest with any name, to any depth, all verbosities and capture settings", "why_tests_cant": "the effect depends on which test calls what, when, in which state of the run; sample suites cover a few orders and no unit test can cover all nestings", "anchors": ["src/fut/unittest.cpp: UnitTest::performTest, init, runAllTests, report, saveToXML", "src/fut/testcase.cpp: TestCase::beginTest, endTest, run, init"]}
{"id": "C143", "title": "One test case, several runners", "statement": "A test case may be registered with several UnitTest objects (documented in unittest.h). Each of them looks tests up by the names they were registered with there, runs exactly its own tests, reports them under the name given there, and returns an exit code about them; what is done with other runners, with other tests, has no influence on what a runner returns.", "quantifier": "all programs: any number of runners and tests, any interleaving of addTestCase, setVerbosity, parseParams, performUnitTests, performTest, main, delete, and any test scripts (that leave the standard streams where they are, for independence)", "why_tests_cant": "The claim is about all interleavings of calls on several runners; a test shows one program, and noninterference compares two whole histories.", "anchors": ["src/include/falcon/fut/unittest.h: UnitTest", "src/fut/unittest.cpp: addTestCase, performUnitTests, performTest, main", "src/fut/testcase.cpp: setName"]}
{"id": "C144", "title": "Lifetime of runners and test cases", "statement": "A UnitTest is usable from the moment it was handed out until it is deleted or its main() was called, and test cases belong to the program: a program that uses runners and tests only within these lifetimes never touches a deleted object, and any call outside them does. UnitTest::singleton() hands out a usable runner.", "quantifier": "all programs over any number of runners and test cases, all call orders, all command lines", "why_tests_cant": "Use after free shows only in the one call order that does it and often does not show at all when it happens; the claim is an equivalence over all histories.", "anchors": ["src/include/falcon/fut/unittest.h: UnitTest, singleton, main", "src/fut/unittest.cpp: init, singleton, performTest, main, destroy"]}
{"id": "C145", "title": "an iterator keeps its element while the stack changes above it, and writes only to it", "statement": "An iterator of PagedStack (forward from begin(), reverse from rbegin() or from_top()) obtained for an element stays usable while any calls push and pop above that element: it reads the same element, it is the iterator a fresh walk to that element would give, and iterating on to the end visits every remaining element once. Assigning through an iterator changes exactly the element it designates.", "quantifier": "all reachable stacks, all positions, all later histories of calls that neither remove nor overwrite the designated element, all assigned values", "why_tests_cant": "it depends on where page boundaries fall between the iterator and the top at creation and at use, for every history in between", "anchors": ["src/include/falcon/engine/pagedstack.h:iterator_base", "src/include/falcon/engine/pagedstack.h:reverse_iterator_base", "src/include/falcon/engine/pagedstack.h:PagedStack::from_top", "src/include/falcon/engine/pagedstack.h:PagedStack::rbegin"]}
{"id": "C146", "title": "an element is destroyed when it leaves the stack, exactly once", "statement": "Every element object of a PagedStack is destroyed exactly once: by the call that removes it (pop, pop(v...), discard, pop_reverse, clear) or, for those still there, by the destructor of the stack; no call destroys an element that stays.", "quantifier": "for every element type, page size and preallocation, and every history of calls, including top(v), shrink_to_fit and sync iterators", "why_tests_cant": "destructor calls depend on how a history fills and empties pages; a test sees a few layouts, and an element that is destroyed late or twice shows only at some page boundaries", "anchors": ["src/include/falcon/engine/pagedstack.h: internal_pop_one, internal_discard, discard, clear, pop_reverse, internal_shrink_to_fit, removeSyncIterator, push, push_emplace"]}
{"id": "C147", "title": "items can be kept on a PagedStack", "statement": "Items of every type can be pushed on a PagedStack<Item>, read there, popped into variables and discarded: no text or BigNum is read after it was freed, freed twice or lost.", "quantifier": "for every program of constructions, pushes of variables, temporaries and emplaced values, pops, reads and destructions, every page size and preallocation", "why_tests_cant": "the fault, if any, shows when the second owner of a shared object is used or dies, which may be any number of calls later", "anchors": ["src/include/falcon/engine/item.h: Item, ~Item", "src/include/falcon/engine/pagedstack.h: push, push_emplace, pop, top, discard, clear", "src/include/falcon/engine/deephandler.h: destroy"]}
{"id": "C148", "title": "Futex::lock() returns in the end", "statement": "If every thread that gets a Futex releases it again, every thread gets the processor again and again and compare_exchange_weak does not fail spuriously for ever, then every call of lock() returns. If every thread uses the lock a finite number of times, all threads complete. In any case the lock is taken again and again as long as some thread wants it.", "quantifier": "all numbers of threads, all programs (finite or endless), all guarded operations, all spin counts, all infinite fair schedules with any pattern of spurious failures", "why_tests_cant": "A statement about infinite executions: no finite test run can show that a thread waits for ever, nor that it never does.", "anchors": ["src/include/falcon/futex.h: Futex::lock, Futex::unlock"]}
{"id": "C149", "title": "logging survives a failing stream", "statement": "If the stream given to LogStreamListener fails (full disk, closed pipe) while messages are logged, the program goes on; once the stream has been repaired (room again, clear() called), every message logged from then on is in the file, as a line of its own, formatted as always.", "quantifier": "all sequences of messages, failures at any character, changes of the device and repairs; all messages and times; streams with and without exceptions enabled", "why_tests_cant": "The stream may fail at every character of every insertion of every message; the state it leaves behind (width, fill, half a line) matters only for later messages.", "anchors": ["src/engine/logstream.cpp: LogStreamListener::onMessage", "src/engine/logsystem.cpp: LogSystem::sendToListeners"]}
{"id": "C150", "title": "every accepted message is processed in the end, under any load", "statement": "If the logging thread has been started, is scheduled again and again, and nobody calls stop(), then every message that log() accepts is processed to the end - however many messages other threads keep logging, and however many listeners they keep adding; and a listener that was added before the message was logged, is not detached and wants the message gets onMessage() with it.", "quantifier": "all endless executions (any number of threads, any calls, any interleaving) in which the logging thread gets the processor infinitely often; all messages; all listeners and configurations", "why_tests_cant": "A liveness property of endless executions: a finite test can neither run one nor observe that something never happens.", "anchors": ["src/engine/logsystem.cpp: LogSystem::loggingThread, LogSystem::log, LogSystem::processNewListeners, LogSystem::sendMessageToListeners"]}
{"id": "C151", "title": "stop() returns under a fair scheduler", "statement": "A thread that has called stop() returns from it, if every thread is scheduled again and again - wherever the logging thread is, however many threads call stop() at once, and however much is logged meanwhile.", "quantifier": "all endless executions with any number of threads and any calls, in which every thread gets the processor infinitely often; all moments at which stop() is called", "why_tests_cant": "Liveness of endless executions under all fair schedules; a test shows one schedule of finite length.", "anchors": ["src/engine/logsystem.cpp: LogSystem::stop, LogSystem::start, LogSystem::loggingThread"]}
{"id": "C152", "title": "Plain iterators of a PagedStack beside other threads", "statement": "With a real mutex, a thread can walk and read a PagedStack through begin()/end(), rbegin()/rend() and the plain iterators, or use the reference top() returned, while other threads call its methods, without a data race.", "quantifier": "every reachable stack, every call in its documented precondition, every position an iterator can designate", "why_tests_cant": "a data race shows only under some schedules and does not have to show at all; which pairs of accesses meet depends on page size, contents and position", "anchors": ["src/include/falcon/engine/pagedstack.h: PagedStack::begin, end, rbegin, rend, iterator, reverse_iterator, top, push, pop, discard, shrink_to_fit, peek"]}
{"id": "C153", "title": "What a Logger writes after any history of level, filter and clear calls", "statement": "After any sequence of level(n), defaultListener()->level(n), categoryFilter(re, l) and clearFilter() calls on a new Logger, how often a message is written to the Logger's own stream depends only on the general level, the default listener's level and the last filter: not at all above the general level, otherwise once if the default listener's level admits it plus once more if a filter is in force whose level and expression admit it. categoryFilter raises the general level to l if lower, replaces the previous filter, and leaves no filter when the expression is invalid; clearFilter removes the filter and returns to the level in force at the last categoryFilter. The only call that fails is clearFilter on a Logger that was never asked for a filter: it dereferences a null pointer.", "quantifier": "all finite histories of these calls, all levels, expressions, regular expression libraries and messages", "why_tests_cant": "Histories are unbounded and each call changes what the later ones do.", "anchors": ["src/include/falcon/logger.h: Logger::level, defaultListener", "src/engine/logger.cpp: categoryFilter, clearFilter", "src/include/falcon/logproxy.h: LogProxyListener"]}
{"id": "C154", "title": "Exceptions thrown while a log statement is composed", "statement": "If evaluating an operand of a LOG statement, or the body of a LOG_BLOCK, throws, the exception reaches the caller, no message is logged for that statement, and the thread's later log statements are not affected; logging itself never terminates the program.", "quantifier": "every nesting of LOG statements, LOG_BLOCKs, operands, exceptions and handlers, every level and category, every outcome of memory allocation in commit", "why_tests_cant": "The nesting of statements, exceptions and handlers is unbounded, and allocation failure inside a destructor during unwinding cannot be provoked systematically.", "anchors": ["src/include/falcon/logger.h: AutoEnd, BlockEnd, commit, LOG, LOG_BLOCK", "src/engine/logsystem.cpp: LogSystem::log"]}
{"id": "C155", "title": "Setting and clearing the category filter while other threads use the logger", "statement": "categoryFilter and clearFilter may be called in one thread while others log, set the general level and set the level of the default listener: the calls have the effect of some order one after the other, none is lost, and a message is treated as by the settings before or after a call; calling them from several threads is free of data races.", "quantifier": "every schedule of the filter thread's steps and of the other threads' calls, every sequence of filters, levels and expressions (valid or not), every message and every moment", "why_tests_cant": "The windows are between single atomic operations; a test cannot choose the interleavings, and races give no wrong result on most runs.", "anchors": ["src/engine/logger.cpp: Logger::categoryFilter, Logger::clearFilter", "src/include/falcon/logger.h: m_proxy, m_proxyBaseLevel, defaultListener", "src/include/falcon/logsystem.h: LogSystem::level, Listener::level, detach, category"]}
{"id": "C156", "title": "A run of tests is always defined", "statement": "performUnitTests(), performTest() and main() run any set of tests to the end without undefined behaviour, however the tests end: passing, failing a check, calling FAIL() or fail(...), setting their status themselves, or throwing; with or without an XML report.", "quantifier": "every set of registered tests, every behaviour of the tests in every run, every selection, verbosity and report option, every history of earlier runs", "why_tests_cant": "The undefined read (of the line number of the failure) happens only for particular ways a test ends in particular orders of runs; no suite samples them all, and the value read is usually harmless to look at.", "anchors": ["src/fut/unittest.cpp: UnitTest::performUnitTests, UnitTest::performTest, UnitTest::endTest, UnitTest::saveToXML, UnitTest::main", "src/fut/testcase.cpp: TestCase::run, TestCase::fail", "src/include/falcon/fut/testcase.h: TestCase::status, TestCase::failLine"]}
{"id": "C157", "title": "Items, code objects and the compiler when memory runs out", "statement": "If an allocation fails while an Item or a Code object is constructed, copied, assigned or converted to text, or while a source is compiled, the caller gets std::bad_alloc, all existing values keep what they hold, nothing is leaked, no wrong text or code is returned, and the program is not terminated.", "quantifier": "every program of constructions, copies, assignments, conversions and destructions of items and code objects, every value and source text, every subset of allocations refused", "why_tests_cant": "Tests run with memory to spare; which allocation fails, and in which of the library calls made inside noexcept functions and streams, cannot be enumerated.", "anchors": ["src/include/falcon/engine/item.h: Item::Item, Item::toString", "src/include/falcon/engine/inthandler.h, floathandler.h, bignumhandler.h, stringhandler.h: toString", "src/engine/code.cpp: Code::Code, Code::toString", "src/include/falcon/engine/code.h: Code::operator=", "src/engine/compiler.cpp: Compiler::compile"]}
{"id": "C158", "title": "UnitTest::singleton() is one runner for all threads", "statement": "All calls of UnitTest::singleton(), from whatever threads and however they overlap, return the same, non-null runner; only one is ever made, and the calls do not race.", "quantifier": "every number of threads, every schedule of their steps, every number of calls", "why_tests_cant": "The check of the static pointer and its assignment are separate steps; only a schedule in which two first calls overlap shows the difference, and tests cannot force all schedules.", "anchors": ["src/fut/unittest.cpp: UnitTest::singleton"]}
{"id": "C159", "title": "Elements may use the stack they are put on or taken from", "statement": "While an element is being copied onto a PagedStack, and while an element that was popped is being destroyed, the element's own copy constructor and destructor may call push, pop, top, empty and size of that stack, to any depth; the copy constructor finds the stack without the new element, the destructor finds it without the removed one, every result is the one of an ideal stack and the stack is in order afterwards.", "quantifier": "every reachable stack, every page size and preallocation, every tree of calls (calls made by element operations of calls made by element operations, ...), with the default mutex and with a non-recursive one", "why_tests_cant": "The trees of nested calls are unbounded and the outcome depends on the position of the stack relative to its page boundaries; tests use element types without such code.", "anchors": ["src/include/falcon/engine/pagedstack.h: push, internal_push, advance, pop, internal_pop_one, top, empty, size, dummy_mutex"]}
{"id": "C160", "title": "From LOG statements to lines of the log file", "statement": "Any number of threads execute LOG and LOG_BLOCK statements and category changes, each completed message being handed to the log system, while a LogStream listener that was registered, configured and then left alone writes a file. At every moment the file consists of complete lines only; every line is the one a statement of some thread asks for (its level tag, category, shortened file name, line number and composed text); each thread's lines appear in the order of its statements, none twice and none skipped; statements rejected by the compile-time level, the general level or the listener's filter leave no line. Once all threads have finished and the log system has served all messages, the file is exactly a shuffle of the threads' complete lists of lines.", "quantifier": "every number of threads, every program of statements per thread, every setup history of the log system, every listener filter, every interleaving of composing, queueing and dispatching, every moment of the run", "why_tests_cant": "The property spans three components and three kinds of concurrency (threads composing in thread-local streams, the lock-free hand-over to the log queue, the dispatch thread); tests observe a few schedules of a few statements.", "anchors": ["src/include/falcon/logger.h: LOG, LOG_BLOCK, Logger::log, Logger::commit, Logger::setCategory", "src/engine/logger.cpp: Logger::commit, Logger::LoggerListener", "src/engine/logsystem.cpp: LogSystem::log, Private::workerFunction", "src/engine/logstream.cpp: LogStream::onMessage"]}
{"id": "C161", "title": "The line of every LOG statement finally appears in the log file", "statement": "Once the log system has been started and a LogStream listener is registered and configured, every LOG or LOG_BLOCK statement that any thread executes and that the levels and the listener's filter let through finally has its line in the listener's file: if every thread and the logging thread get to run again and again and nobody calls stop, changes the general level or touches that listener, then from some time on the file holds exactly the lines of all statements of all threads, and nothing else is ever added.", "quantifier": "every number of threads, every program of LOG/LOG_BLOCK/category statements per thread, every setup history, every endless fair schedule (with any other calls of the log system by any thread in between), every listener filter, both possible initial contents of the termination flag", "why_tests_cant": "A liveness property over endless schedules across the thread-local composer, the queue and the dispatch thread; no finite test run can establish or refute it in general.", "anchors": ["src/include/falcon/logger.h: LOG, LOG_BLOCK, Logger::commit", "src/engine/logsystem.cpp: LogSystem::log, Private::loggingThread, LogSystem::Private constructor", "src/engine/logstream.cpp: LogStream::onMessage"]}
{"id": "C162", "title": "Checks made by the threads of a test", "statement": "A FUT test may start threads that make checks (EXPECT_EQ, EXPECT_TRUE, FAIL, ...) of the same test: whatever the threads do and however they are scheduled, the test fails if and only if one of these checks fails, nothing else about the test program changes, and there is no data race.", "quantifier": "all tests that start, join and check in threads (any number of threads and checks, any results), and all schedules", "why_tests_cant": "the reports of failed checks are interleaved by the scheduler; a test sees one interleaving, and a data race usually none at all", "anchors": ["src/include/falcon/fut/fut.h: EXPECT_EQ, EXPECT_TRUE, FAIL, EXPECT_THROW", "src/fut/testcase.cpp: checkFail, run", "src/include/falcon/fut/testcase.h"]}
{"id": "C163", "title": "A logged message waits for a bounded amount of work only", "statement": "log() never waits for anything: begun at any moment, whatever the logging thread and the other callers are doing, the call can go on at every moment until it returns, and it returns after a fixed number of steps of its own. And if the logging thread was started and nobody calls stop(), then an accepted message has been processed completely once the logging thread has made a number of steps which depends only on the number of accepted messages that were still ahead of it and on the number of listeners ever added (6 L + 5 steps for each message): messages logged later and anything else other threads do cannot delay it further.", "quantifier": "every number of client threads, every schedule up to the moment and every continuation of it, every message, every number of listeners with every state of their filters, every number of messages waiting", "why_tests_cant": "tests wait with a sleep or a timeout; a bound for every schedule, and that later messages cannot overtake or delay earlier ones, is a statement about all executions", "anchors": ["src/engine/logsystem.cpp: LogSystem::Private::log, loggingThread, sendMessageToListeners, processNewListeners, disposeMsg"]}
{"id": "C164", "title": "The log system's locking: atomic sections, no deadlock, no data race, step by step", "statement": "Take the LogSystem with every mutex operation and every assignment inside a critical section as a step of its own, interleaved in any way with the steps of the other threads (including condition-variable wake-ups and threads that stop half way). Then (1) what can be observed - calls, what was accepted, refused, served, delivered, thrown - and what a thread reads that takes the mutexes the program takes is what a run with atomic critical sections shows, and conversely; so every property of observable behaviour holds of the one iff of the other; (2) as long as some call has not returned some thread can go on; a thread that has a mutex can always go on, except a stop() that waits for the logging thread to end, and (except in start/stop's mutex) releases it after at most four of its own steps, never taking a second mutex meanwhile; a call that has returned, or thrown, and the thread that has ended hold none; (3) two threads are never about to access the same variable, one of them writing, unless both accesses are atomic.", "quantifier": "every number of client threads, every sequence of calls in each, every interleaving of single steps, every listener and regular-expression behaviour, both constructor arguments", "why_tests_cant": "the interleavings of single statements of arbitrarily many threads are unbounded, and a test cannot force most of them", "anchors": ["src/engine/logsystem.cpp: start, stop, log, addListener, loggingThread, processNewListeners, sendMessageToListeners, allocateMsg, disposeMsg, checkCategory, getDiags", "src/include/falcon/logsystem.h: Listener::category"]}
{"id": "C165", "title": "When no new calls are made the log system comes to rest", "statement": "From any reachable state of the LogSystem (mutex operations and assignments being single steps), if clients begin no new calls: whoever is scheduled, in whatever order and however unfairly, at most (q+c+1)(20+8(a+p+c))+15c further steps are possible (q messages queued, c client threads, a active and p pending listeners), plus four per spurious wake-up of the condition variable; nobody can go on exactly when all calls have returned and the logging thread sleeps, has ended or does not exist; such a state can always be reached; and if the system was started and never stopped, and its termination flag, which the constructor leaves uninitialised (C52), happened to be false, then every message accepted has been shown to all listeners and the queue is empty.", "quantifier": "every number of client threads, every history of calls, every interleaving of single steps before and after, every number of listeners and messages", "why_tests_cant": "termination under every scheduler is a statement about all infinite interleavings", "anchors": ["src/engine/logsystem.cpp: start, stop, log, addListener, loggingThread, processNewListeners, sendMessageToListeners, cleanupTerminatedListeners, allocateMsg, disposeMsg, getDiags", "src/include/falcon/logsystem.h: Listener::category"]}
{"id": "C166", "title": "The log system does no more than it was asked to do", "statement": "In every run of a LogSystem (mutex operations and assignments being single steps), all threads together, the logging thread included, never make more steps than the calls begun so far account for: a log call accounts for at most 36 steps and 8 more per listener ever added, logging a ready-made message for 31 and 8, stop() for 13, start() 8, addListener 4, category(re) 5, getDiags 7, category() 3, the other setters 1, a spurious wake-up of the condition variable 4; to this come the three steps with which a newly started logging thread falls asleep. In particular there is no polling: left alone the system makes at most three steps.", "quantifier": "every number of client threads, every history of calls, every interleaving of single steps, every number of listeners and messages", "why_tests_cant": "it bounds the work in all interleavings of unbounded length", "anchors": ["src/engine/logsystem.cpp: start, stop, log, addListener, loggingThread, processNewListeners, sendMessageToListeners, cleanupTerminatedListeners, allocateMsg, disposeMsg, getDiags", "src/include/falcon/logsystem.h: Listener::category"]}
{"id": "C167", "title": "Listeners may use the log system from onMessage: the locking, step by step", "statement": "Inside onMessage a listener can call every function of the log system and of its listeners (log, start, stop, addListener, removeListener, category, getDiags, ...), with every single lock, unlock, wait and assignment of all threads interleaved in every way: onMessage is called with no mutex held; the logging thread never holds two mutexes, so never waits for one it has; nothing undefined happens, no two threads access a variable in conflict, messages are served in the order in which they were accepted, also those logged in onMessage; there is no deadlock and the program is not terminated; and every onMessage returns after at most 16 steps of the logging thread for each call it makes and 16 more.", "quantifier": "every number of client threads, every history of calls, every interleaving of single steps, every sequence of calls made by every onMessage", "why_tests_cant": "the calls of a listener interleave with those of all the threads, lock by lock, in unboundedly many ways", "anchors": ["src/engine/logsystem.cpp: start, stop, log, addListener, loggingThread, processNewListeners, sendMessageToListeners, cleanupTerminatedListeners, allocateMsg, disposeMsg, getDiags", "src/include/falcon/logsystem.h: Listener::onMessage, Listener::category"]}
{"id": "C168", "title": "Listeners can keep the log system busy only by logging", "statement": "Let listeners do what they like inside onMessage: call any function of the log system or of a listener, add and remove listeners, throw. If no single onMessage makes more than q calls, then with M the number of messages logged so far (by the program and by the listeners), C the number of calls made by the program, A of them addListener, and S spurious wake-ups, there are never more than L = A*(1+q)^M listeners; listeners are called at most M*L times; and all threads together make at most 3 + (36 + 8L)M + 13(C + qML) + ML + 4S steps in any schedule. So the log system comes to rest unless messages keep being logged or the program keeps calling it.", "quantifier": "every number of client threads, every history of calls, every interleaving of single steps, every behaviour of every listener within the bound q, every number of messages", "why_tests_cant": "the work caused by a listener's calls depends on all schedules and on chains of calls of any depth", "anchors": ["src/engine/logsystem.cpp: start, stop, log, addListener, loggingThread, processNewListeners, sendMessageToListeners, cleanupTerminatedListeners, allocateMsg, disposeMsg, getDiags", "src/include/falcon/logsystem.h: Listener::onMessage"]}
{"id": "C169", "title": "However much listeners log, a message waits only for those before it", "statement": "Let no stop() be called and the termination flag, which the constructor leaves uninitialised (C52), happen to be false; let listeners do what they like inside onMessage, none of them making more than q calls on the log system at a time, and let no more than L listeners be added. Once message number j has been accepted, with F messages finished by then, the logging thread has offered it to every listener after at most (j + 1 - F) * (16 + (16q + 9)L) steps of its own, those inside onMessage included. What is logged later, by the program or by the listeners themselves, does not delay it. Without listeners the bound cannot be improved.", "quantifier": "every number of client threads, every history of calls, every interleaving of single steps, every behaviour of every listener within the bound q, every number of messages waiting, every number of listeners", "why_tests_cant": "the delay depends on every schedule and on whatever listeners log while the message waits", "anchors": ["src/engine/logsystem.cpp: log, loggingThread, processNewListeners, sendMessageToListeners, checkCategory, cleanupTerminatedListeners, disposeMsg", "src/include/falcon/logsystem.h: Listener::onMessage"]}
{"id": "C170", "title": "Listeners are called one at a time, and their own calls take place once and in order", "statement": "A listener is at work exactly from a call of its onMessage until that call returns, and only one is at a time. Meanwhile the log system serves no other message and asks no other listener, whatever all threads do. The calls the listener makes on the log system and its listeners take place once each, in the order in which it makes them, and when onMessage returns all of them have taken place.", "quantifier": "every number of client threads, every history of calls, every interleaving of single steps, every sequence of calls made by every onMessage", "why_tests_cant": "a listener's calls are interleaved with those of all other threads, step by step; a lost, repeated or reordered call, or two listeners at work at once, shows in some schedule only", "anchors": ["src/engine/logsystem.cpp: loggingThread, sendMessageToListeners, log, start, stop, addListener, getDiags", "src/include/falcon/logsystem.h: Listener::onMessage"]}
{"id": "C171", "title": "Removing several elements at once is like popping them one by one", "statement": "discard(n) and clear() destroy exactly the elements they remove, each once and from the top down; a destructor that asks the stack for its size, whether it is empty or for its top finds it without the element being destroyed and without those destroyed before. The same holds of pop().", "quantifier": "every page size and preallocation, every reachable stack, every number of elements removed", "why_tests_cant": "the order and what destructors find depend on how the removed elements are spread over pages, for every height, page size and number removed", "anchors": ["src/include/falcon/engine/pagedstack.h: pop, discard, clear, internal_pop_one, size, empty, top"]}
