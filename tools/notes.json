{
 "C06": {
  "note": "False as stated: clear() keeps the elements of the first page (C06_clear_refuted). Proved exactly what it does: it keeps precisely the bottom pageSize elements, the result behaves like an ideal stack holding them, and it empties the stack iff it was already empty."
 },
 "C07": {
  "note": "Returned values are always right; when the number of elements left is a positive multiple of the page size a removed element can come back (refuted). Proved as an iff: the stack behaves ideally afterwards exactly in the other cases."
 },
 "C08": {
  "note": "Refuted when the remaining size is a positive multiple of the page size; proved (iff) for forward and reverse iterators otherwise, including all later histories."
 },
 "C12": {
  "note": "rbegin()..rend() has undefined behaviour on a non-empty stack with a spare page (refuted witness, exact characterisation proved)."
 },
 "C22": {
  "note": "An element copy that throws on a full page leaves an empty current page, after which top() is undefined (refuted); proved iff: behaves as before exactly when the size is 0 or not a multiple of the page size. C22_next_push: however many throwing pushes before, the next successful one repairs the stack."
 },
 "C23": {
  "note": "Refuted at preallocation 0 (no page at all: every call that looks at the stack is undefined, C23_prealloc_zero_partial) and at page size 0 (reverse iteration undefined and elements move once the stack is not empty, although every other call still behaves like an ideal stack, C23_page_size_zero_partial); proved for every positive page size and preallocation."
 },
 "C17": {
  "note": "False (1) after a pop_reverse that leaves a multiple of the page size (defect C07): get() returns a removed element; (2) after a call on the iterator has thrown. C17_sync_safe_partial: exact behaviour of get() and ++ on an iterator no call on which has thrown, in every reachable state; C17_after_throw_partial: exact behaviour after an exception - harmless if the iterator stood on the bottom page, otherwise ++ is undefined for ever and get() until the stack has grown past the old place."
 },
 "C19": {
  "note": "False: the implicit copy does not register with the stack, so destroying it counts one live iterator less, pages are freed under the original and its use is undefined (C19_copy_refuted). C19_copy_partial: in every history, copies included, no page is freed as long as fewer iterators were destroyed than were created by sync_begin()/sync_end()."
 },
 "C27": {
  "note": "Refuted: only the n-th failed attempt yields, not every n-th. Proved exactly: the k-th failure yields iff spinCount != 0 and k = spinCount mod 2^32."
 },
 "C29": {
  "note": "Refuted in the strongest sense: with fewer than 2^32 threads RFutex::lock() never returns in any schedule; exact return condition proved."
 },
 "C30": {
  "note": "Refuted at 2^32 threads (identity 0 and repeats); proved for every smaller number of threads and every schedule."
 },
 "C31": {
  "note": "Refuted: isOwner() is true on a free RFutex for a thread that never locked. Proved exactly when it is true."
 },
 "C37": {
  "note": "Refuted: x86 Visual C++ atomicAdd returns the old value. Proved: everything else identical on all platforms, and the exact difference."
 },
 "C45": {
  "note": "False as stated: the logging thread tests the detached flag only after serving, so one more message can arrive (C45_detach_refuted). Proved: at most one more onMessage per registration, in every continuation."
 },
 "C49": {
  "note": "False: the loop ends as soon as the flag is seen, leaving queued messages undelivered (C49_stop_refuted). Proved: what was not processed is still queued in order, no round is cut short, and nothing is missing if the queue had been drained."
 },
 "C51": {
  "note": "False: m_isTerminated is never reset, so the restarted thread exits at once; proved that no continuation delivers anything. Proved: start() on a never-stopped system works."
 },
 "C52": {
  "note": "False: m_isTerminated is not initialised by the constructor; if the memory holds true, no message is ever processed (proved for all executions). Proved: with false, the service runs until stop() is called."
 },
 "C57": {
  "note": "Proved for every non-empty temporary category. Refuted for the empty one: LOG_CAT(\"\") leaves the thread category in force. C57_exact_partial: the category of the message for every temporary category, and exactly when it is the temporary one."
 },
 "C58": {
  "note": "False: a LOG evaluated inside another LOG of the same thread mixes text and location (refuted); proved exactly what is emitted, for LOG statements nested to any depth and in any number, and that a filtered-out nested statement is harmless."
 },
 "C59": {
  "note": "False for early exit (break/return/throw): nothing is emitted and the text leaks into the next message (refuted, exact behaviour proved); proved for blocks that run to their end."
 },
 "C61": {
  "note": "False if FALCON_MIN_LOG_LEVEL is below the general level (comparison is swapped); exact condition proved, and the property for the default build."
 },
 "C62": {
  "note": "False after two categoryFilter calls and undefined behaviour without one (refuted); proved: restores the level at the last categoryFilter call, and the same lines are written as before when no filter was active. C62_callable_exact_partial: after any history it may be called exactly if categoryFilter was; C62_exact_partial: the level it leaves after any number of categoryFilter calls in a row, and exactly when that is the level before them."
 },
 "C63": {
  "note": "False in three ways (refuted); the exact number of lines is proved for every history, expression, level and message, and the documented behaviour under the side conditions in which it holds."
 },
 "C64": {
  "note": "False: level raised and previous filter detached although the call throws (refuted); exact effect proved."
 },
 "C104": {
  "note": "False for format flags (refuted); proved: error state, text and temporary category are reset by every statement, and the flags left behind are exactly those selected last."
 },
 "C105": {
  "note": "False: the fill character is left at '0' and a stream in hex mode changes the line (refuted). Proved for a stream in any format state: what a message leaves behind (fill '0', width 0, all else kept), the exact line, and exactly when it is the usual one."
 },
 "C72": {
  "note": "False for uint64_t values of 2^63 and above, which print as negative numbers (refuted); exact text proved for all integer types, and the property below 2^63."
 },
 "C74": {
  "note": "False: a text that is not a number, or out of range, throws out of toInt (refuted); exact result for every text proved."
 },
 "C76": {
  "note": "False: Item has no user-defined copy operations, a copied text item is deleted twice, an assigned-over one leaks (refuted, for every reachable state). Proved for all histories in which only items without heap data are copied or assigned."
 },
 "C77": {
  "note": "False for text and BigNum handlers: allocate returns the address of a temporary pointer, destroy deletes it as an object and the allocated one leaks (refuted); proved for the flat handlers."
 },
 "C107": {
  "note": "False: long, unsigned long, short, unsigned short, signed char, float and char* compile and throw (refuted); exact set of accepted types proved."
 },
 "C79": {
  "note": "False: a text of 1000 characters or more overruns the buffer, and a NUL cuts the text (refuted); exact result for every text proved (iff)."
 },
 "C80": {
  "note": "False: copies and assignments share the buffer, so both destructors delete it; assignment from a temporary leaves a dangling buffer; toString on a moved-from object dereferences null (refuted, for every reachable state). Proved as refinement of value semantics for all histories without such statements."
 },
 "C81": {
  "note": "False for words of 1000 characters or more and for streams with exceptions enabled (refuted); proved for all texts whose words fit, any number of calls. Words exist and are unique for every text."
 },
 "C102": {
  "note": "Injectivity and unsigned order proved; the macro has type int, so its own order is wrong from major 128 on (refuted), proved below."
 },
 "C108": {
  "note": "False when a target is an element read later, when a target is named twice, and undefined when the sequence is too short (refuted). C108_exact_partial proves that these are the only exceptions: for a sequence of distinct elements the call is right for all values iff none of them applies."
 },
 "C83": {
  "note": "Refuted as stated: what TearDown writes on stderr does not count, and stderr text of earlier runs does. C83_status_exact_partial gives the status for every script that keeps the streams' buffers, any history; C83_status_partial the four-way characterisation."
 },
 "C84": {
  "note": "Refuted: TearDown is skipped when test() throws. C84_order_partial gives the exact order of the calls for every script."
 },
 "C90": {
  "note": "Refuted: stderr output of TearDown fails the next run. C90_exact_partial: exactly which tests have the same status in every run; C90_same_verdict_partial: in particular those without such output."
 },
 "C91": {
  "note": "Refuted with capture off (-c). With capture on the buffers are restored whatever the test does (C91_restored_partial); capturedOut/Err hold everything written, behind the text of earlier runs, for tests that do not exchange buffers (C91_captured_partial)."
 },
 "C101": {
  "note": "Refuted: FAIL and the exception checks go on, and the last failure is reported. Exact: EXPECT_EQ-kind checks end their function (C101_check_returns_partial), which statements go on (C101_goes_on_partial), what is reported (C101_reported_partial)."
 },
 "C85": {
  "note": "Refuted: output on stderr makes a test fail also without -e. Exact: passed iff the status is SUCCESS (C85_passed_partial), and -e changes nothing in any run (C85_e_is_noop_partial)."
 },
 "C89": {
  "note": "Refuted: the component map is not emptied, the second call performs every test twice. C89_kth_partial: the k-th further call performs each selected test k+1 times."
 },
 "C92": {
  "note": "Refuted only by tests that redirect std::cout themselves; proved for all tests that leave the stream buffers alone (C92_silent_partial). C92_exact_partial: for every suite, whatever its tests do, what each buffer receives; C92_silent_iff_partial: standard output stays untouched exactly if no test writes into it directly."
 },
 "C94": {
  "note": "Refuted: '3x', 'abc' are accepted, a blank argument reads an uninitialised int. Exact: what level every number prefix gives (C94_level_partial), the blank case (C94_unset_partial), decimal numbers (C94_number_partial, C94_negative_partial)."
 },
 "C95": {
  "note": "Refuted with -t: tests not selected are listed as failed. Exact list for every selection (C95_exact_partial), the stated property without -t (C95_all_partial), and the text printed (C95_printed_partial)."
 },
 "C96": {
  "note": "Refuted: no escaping (a failed EXPECT_EQ puts quotes into an attribute) and an uninitialised line number for tests that threw. C96_exact_partial: the report reads back iff every failure description is free of quotes, ampersands, less-thans and control characters (names assumed so; for times this is the theorem time_plain)."
 },
 "C100": {
  "note": "Refuted: it compares the truncated multiples of 0.0001. Proved for every binary64 rounding (round to nearest even is one, C100_machine_rounding): passes only if the numbers differ by less than 0.0002, same half step passes, undefined from 9.2e14 on and for NaN and infinities; sums as arguments are mis-parenthesised (C100_sum_refuted)."
 },
 "C110": {
  "note": "Refuted: 32 bit wrap-around. Exact ranges proved for both platforms (contract of usleep/Sleep assumed: they wait what they are asked)."
 },
 "C112": {
  "note": "Refuted: a failing check evaluates the actual argument twice and shows the second value. Exact counts and the effect-free case proved."
 },
 "C114": {
  "note": "False for isCopyFlat(): StringHandler and BigNumHandler are DeepFlatCopyHandlers, yet a bitwise copy shares the heap object and both destructors delete it (C114_copy_flat_refuted). The rest holds."
 },
 "C113": {
  "note": "getDiags() is modelled as one step; the code reads the counters and m_activeListeners without a lock (a data race if another thread moves)."
 },
 "C115": {
  "note": "The text is the nearest six-digit decimal (C115_text, C115_accuracy); that different values have different texts is false (16777216.0 and 16777217.0, C115_distinct_refuted) and holds for values of at most six digits (C115_distinct_partial)."
 },
 "C116": {
  "note": "Exact below 1000 seconds (C116_exact), nearest six (three, four) digit decimal for all durations below 35000 years (C116_nearest); longer ones lose milliseconds (C116_exact_refuted)."
 },
 "C117": {
  "note": "From test 1000 on the columns move (C117_columns_refuted). C117_exact_partial: for durations below 35000 years the line has its columns if and only if the number is below 1000 and the duration from 0 to below 100000 seconds; C117_status_line: the line in those limits."
 },
 "C118": {
  "note": "Refuted: 16777216.0 prints as 1.67772e+07, which toInt reads as 1. C118_exact_partial: right if and only if the number shown is 0 or 0.0001 to below 1000000 in size; C118_first_digit_partial: outside of that the result is the first digit shown; C118_integers_partial: every integral value below a million comes back."
 },
 "C119": {
  "note": "Refuted: the implicit copy copies m_curBase, which points into the source. C119_copy_observers and C119_copy_push say for every history what a fresh copy does (undefined comparisons; pushes land on the source); C119_source_partial: programs that only destroy or overwrite copies are unaffected."
 },
 "C120": {
  "note": "C120_move_swap: refinement of value semantics for all programs of declarations, moves, swaps, destructions and calls. C120_moved_from: what a moved-from stack does."
 },
 "C121": {
  "note": "Refuted: the live-iterator count is moved along with the content but the iterators report to the old object. C121_exact_partial: what happens exactly, for every history: pages are freed iff no sync iterator was alive when the stack was moved; otherwise none is, and if a shrink was pending the end of the last iterator is undefined."
 },
 "C122": {
  "note": "Refuted for two consumers. C122_guarded_pop_partial: safe for one consumer and any number of producers under every schedule; C122_conservation: no element lost or duplicated whatever the number of consumers."
 },
 "C123": {
  "note": "Proved for pop. For push refuted when the throwing copy is the first of a page (the C22 defect); C123_push_throws_partial is exact."
 },
 "C124": {
  "note": "Refuted after two failures. C124_first_failure_partial: the first failure is always harmless; C124_exact_partial: exactly when a failed push is harmless after any number of earlier ones; C124_success. C124_exact_always_partial: the same exact condition after any history of pushes and pops; C124_memory_back: no push is ever undefined and it returns normally once memory is back; C124_success_always."
 },
 "C125": {
  "note": "Refuted once a page could not be reserved (it grows element by element later). C125_exact_partial: exactly when a push moves elements; C125_moves_partial: never as long as no allocation failed."
 },
 "C126": {
  "note": "Refuted: when SetUp throws only the end is marked, so the first such test reports the time since the epoch. C126_exact_partial: the two clock readings the report is based on, for every test and history; C126_elapsed_partial: it is the time of test() whenever SetUp and TearDown do not throw; C126_tearDown_throws: otherwise it includes TearDown."
 },
 "C129": {
  "note": "Refuted: when SetUp throws, begin was never marked, so the test is reported with the time since the clock's epoch (C129_setUp_refuted). C129_calm_partial: for every suite and monotone clock, the times of the tests whose SetUp never throws add up whatever the other tests do, and those of the components always; C129_times_partial: the property for all suites in which no SetUp throws."
 },
 "C131": {
  "note": "False as stated: log() runs a placement new on a pooled object whose strings are alive, so the buffers of the message logged before are lost. C131_leak_refuted: one thread logging one message after the other loses all but the last's; C131_grows_refuted: in every execution all but 3*(64+created+caller's own) buffers are lost. C131_account_partial is the exact account at destruction, C131_short_partial: nothing is lost when all texts fit into the string objects."
 },
 "C132": {
  "note": "False for listeners that throw, call stop() (std::terminate, self-join) or call start()/stop() while another thread is in stop() (permanent deadlock): C132_throw_refuted, C132_stop_inside_refuted, C132_deadlock_refuted, C132_deadlock_forever_refuted. Proved for all other listeners (the _partial theorems), in every execution."
 },
 "C133": {
  "note": "False for a listener that logs: one call of log() and the queue is never empty again (C133_feedback_refuted, for every number of served messages). Proved for all listeners that neither log, throw nor call start()/stop()."
 },
 "C134": {
  "note": "False for getDiags() (reads the list of active listeners and the message counter while the logging thread writes them: C134_diags_refuted) and for the reference category() returns (C134_category_refuted). Everything else is race free in every execution (C134_race_free_partial, C134_getters_safe_partial); C134_diags_exact_partial and C134_category_exact_partial say exactly when the two race. A race is: two threads about to make the accesses in a reachable state."
 },
 "C135": {
  "note": "False in four ways, each with a witness schedule: a message that cannot be constructed takes its pool object with it for ever (64 failures empty the pool); log() calls the noexcept log(Message*), so a failing push_back ends the program (as do failures in the logging thread); category() failing on its second allocation leaves the new compiled expression under the old text; msgsCreated counts a message never made. Proved: no memory error whatever fails, accepted messages are served in order at most once; a call that throws leaves queue, listeners, filters and levels unchanged (except the late failure of category()); the exact account of the lost objects; the destructor frees everything except the lost objects, and nothing twice."
 },
 "C137": {
  "note": "False. Refuted twice: (1) the first counter is read, 65 messages are logged and served, the second counter is read: one message discarded, none created, although discarded <= created + clients' own holds at every moment (C137_discarded_le_created); reading the two in the other order would exclude it. (2) Between the questions to two listeners the first is disabled and the second enabled: two are reported enabled, never more than one was. Proved instead: every number was right at some moment during the call, in reading order; the counters lie between their values at the call and at the return; a later call never reports smaller counters; the answer is exact when nobody else moves; the pool is reported with at most 64; undefined behaviour only if the list of listeners changed meanwhile (the data race itself is C134)."
 },
 "C138": {
  "note": "False of the code: std::hex left by a test makes failure and line numbers hexadecimal, a pending std::setw pads the next line, and report() itself leaves precision 4 on std::cout. Proved instead: the console is exactly that of C127 if tests leave base, showpos, width and fixed alone (whatever they do to fill, precision and adjustment); with -q nothing is written and the format is untouched; status lines are immune to everything but the width. C138_any_format_partial and C138_any_run_partial: what is shown in any format at all, and the format left, as a relation with filled widths, signs and bases."
 },
 "C139": {
  "note": "False of the code: the message under composition lives in thread-local objects, destroyed before all static objects, so LOG in a static destructor is undefined once the main thread has logged; and a Singleton or Logger first used in main is destroyed before earlier static objects. Proved instead: constructors and main may use everything in any order; every program whose destructors use only what the same object's constructor used (and never-destroyed UnitTest) without LOG statements ends in order; lifetimes and reverse order for all programs. Only the one thread that starts and ends the process is modelled."
 },
 "C140": {
  "note": "false when another thread calls pop_reverse leaving a multiple of the page size (defect C07): the loop then visits an element pop_reverse removed. Proved for every interleaving of all other calls; copies of sync iterators (C19) are excluded."
 },
 "C141": {
  "note": "false of the code: synchronize() takes the end mark of a one-page stack for a lost position, so -- from sync_end() goes to the top element and skips the others (C141_from_end_refuted). Exact effect proved for every position; -- at the top element is undefined when the stack owns no spare page; the full property holds when the elements take more than one page."
 },
 "C142": {
  "note": "False of the code: performTest calls init(), which sets the status of the run to 0, its failure count to 0 and the status of every registered test to NONE. So a run with a failing test returns 0 if a later test calls performTest (C142_failure_lost_refuted, where the component is even reported FAILED); a test that has failed by FAIL and then calls performTest passes (C142_own_failure_lost_refuted); a test that expects another one to fail passes but makes the run fail (C142_expected_failure_refuted); a test performed while it runs leaves std::cout in its own buffer (C142_streams_lost_refuted). Proved for all suites: the value says whether something failed since the last such call, and the failure count likewise (C142_status_partial); it is right if nothing had failed when performTest was called (C142_right_partial), in particular if no test calls it (C142_no_calls_partial); the run performs every selected test once and the components' failures are right whatever is called, and a test is listed as failed exactly if the last verdict on it that no reset wiped out is not a pass (C142_run_partial); a test that fails stays failed if it calls performTest no more (C142_own_partial, C142_check_partial), performTest's value is right (C142_value), an unknown name is an error of the calling test (C142_unknown), the verbosity is the one set last (C142_verbosity); the streams are put back unless a test is performed while it is under way (C142_streams_partial). Not modelled: performUnitTests called from inside a test."
 },
 "C143": {
  "note": "Refuted for the name: the name is stored in the test case, so registering it with a second runner under another name renames it in the reports of the first, which still finds it only under the old name. Everything else is proved; C143_names_partial says exactly which name is shown."
 },
 "C144": {
  "note": "Refuted for singleton(): after main() it goes on handing out the deleted runner. C144_singleton_partial says exactly when it is usable, C144_sound_partial is the equivalence for everything else."
 },
 "C145": {
  "note": "False for reverse iterators: they capture the current (from_top) or the last allocated page (rbegin) as their bound, so one push onto a new page makes a loop up to rend() run off the page (C145_reverse_refuted). C145_reverse_partial and C145_rbegin_partial: the loop is right exactly when the stack then needs as many pages as the bound says, otherwise undefined; reading is always right. Proved in full for forward iterators (C145_forward) and for assignment (C145_assign_forward, C145_assign_reverse). Pages are identified by index, so histories that free the bound page of a reverse iterator are excluded."
 },
 "C146": {
  "note": "Exactly-once holds for all histories. The removing call is the destroying call except for pop_reverse and discard(iterator) when a positive number of full pages is left: then the min(n, pageSize) deepest of the removed elements live on (refuted and exact). clear() leaves the objects of the first page along with the elements (C06)."
 },
 "C147": {
  "note": "False for text and BigNum items, because Item is copied bitwise: push(Item(v)), push(x) and pop(x) always end in a use after free or double delete (refuted, and proved for every reached state). Programs that copy only flat items, and use push_emplace, pop(), discard, clear and references for the others, are proved to be free of faults and leaks."
 },
 "C148": {
  "note": "False of the code: Futex has no queue, so a fair scheduler may give the processor to a waiting thread only while the lock is taken (C148_lock_returns_refuted, for every spin count, without spurious failures). Proved exactly: a waiting thread gets the lock iff it once attempts while nobody is inside; with finite use everybody completes; with endless use somebody gets it again and again."
 },
 "C149": {
  "note": "False of the code in two ways: the message after a repair continues the cut line (C149_own_line_refuted), and with exceptions enabled the failure leaves onMessage and ends the program (C149_survives_refuted). Proved exactly: what is in the file after any history on a stream that does not throw; every message after a repair is written completely and formatted as always; a throwing stream ends the program iff a message meets a bad stream or does not fit."
 },
 "C150": {
  "note": "False if the uninitialised m_isTerminated happens to be true (C150_served_refuted; same cause as C52). Proved for every endless execution when it is false."
 },
 "C151": {
  "note": "False under mere fairness (C151_starves_refuted): a thread waits in stop() for ever for m_mtxThread, which another thread that alternates stop() and start() takes again and again. Proved for every execution in which start() is called only finitely often."
 },
 "C152": {
  "note": "False of the code: begin() and rend() race with every call that adds or removes an element, rbegin() with every call that changes the number of blocks, *it and a reference from top() with a call that takes the element away (C152_refuted). Exact conditions proved for every unlocked operation: ++ on a forward iterator and * are safe as long as the call leaves the element (C152_safe_partial); -- on a forward iterator and ++ on a reverse one race with any call that adds to or takes from the page; end() never races; locked calls never race with each other."
 },
 "C154": {
  "note": "False of the code in three ways: ~AutoEnd commits during unwinding, so the incomplete message is logged; BlockEnd has no destructor, so the text of a block left by an exception becomes a prefix of the thread's next message; commit() in the noexcept destructor terminates the program when memory runs out. Proved exactly, with what does hold (control flow, nothing left behind when no exception leaves a block)."
 },
 "C155": {
  "note": "False of the code: a level() call that falls between categoryFilter's look at the general level and its raise is lost, also behind clearFilter; while a filter is replaced no filter is in force, so messages both filters admit are not written; two threads in categoryFilter, or one in categoryFilter and one in clearFilter, race. Proved: the exact sequential history each schedule is equivalent to (only such level calls missing), what is written at every moment inside a call, that nothing else goes wrong, and that these are the only racing pairs."
 },
 "C156": {
  "note": "False of the code (status(FAIL) without a place; a throwing test with an XML report): the line number printed was never set. Proved: this is the only fault a run can have (C156_only_fault), exactly when it happens without and with a report, for first runs and for any history, for performTest and through main; tests that only use checks are always fine without a report."
 },
 "C157": {
  "note": "False of the code: toString is noexcept (program ends), Code's constructors are noexcept (program ends), a number longer than the stream's inline buffer is returned cut short without notice, and compile returns code for a part of the word. Proved exactly when each happens, and that constructions of items and assignments of code objects are safe."
 },
 "C158": {
  "note": "False of the code when first calls overlap: they can return different runners (any number of them), and race on the static pointer. Proved exactly when a race is possible, and that everything holds once one call has returned with no other under way, in particular if the first call is made before threads are started."
 },
 "C159": {
  "note": "False of the code in general: the calls are not re-entrant in the middle of push_back/pop_back. C159_exact_partial proves exactly which trees of calls work, for all stacks; C159_queries that empty() and size() are always fine; C159_locked_refuted that with a Futex no nested call returns."
 },
 "C161": {
  "note": "False of the code as it stands: the constructor of the log system does not initialise m_isTerminated, and if that memory happens to be non-zero no line is ever written (C161_uninitialised_refuted). With the flag initialised the full property is proved (C161_eventually_partial)."
 },
 "C162": {
  "note": "False as it stands: `C162_two_threads_refuted` (two threads whose checks fail race on the members of the test case), `C162_early_return_refuted` (EXPECT_EQ that fails between start and join of a thread leaves test() with a joinable std::thread: std::terminate, all results are lost), `C162_exception_refuted`. What holds: a race exists exactly under `Conflict` (C162_race_iff_partial); without it, and with all threads joined, every schedule ends with the verdict of the sequential calls; exactly when the program is terminated."
 },
 "C163": {
  "note": "false of the code because m_isTerminated is not initialised (C163_latency_refuted); C163_latency_partial is the exact bound for the case that it happened to be false. C163_log_never_waits holds without condition."
 },
 "C167": {
  "note": "Refuted as stated: a listener that calls stop() makes the logging thread join itself, which ends the program (C167_stop_inside_refuted); one that calls start() while another thread is in stop() deadlocks with it for ever (C167_deadlock_refuted). Everything that does not depend on this is proved for all listeners (same rules, order, no mutex held, at most one mutex, bounded return); survival and freedom from deadlock for all listeners that leave start() and stop() alone and do not throw."
 },
 "C171": {
  "note": "False of the code: a page is emptied from its bottom up and its end is lowered afterwards (C171_order_refuted). C171_discard_exact_partial and C171_clear_exact_partial give the exact order and what is found for every stack, and exactly when the order is from the top down; the destructors find the stack without their elements only if nothing is removed. C171_pop_exact_partial: pop() is right except for top() when the element was the first of a page other than the first."
 }
}