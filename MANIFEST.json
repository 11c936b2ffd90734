{
 "claims": [
  {
   "property": "C01",
   "status": "proved",
   "theorems": [
    "Falcon.PagedStack.C01_lifo_refinement",
    "Falcon.PagedStack.C01_reachable_behaves"
   ],
   "note": ""
  },
  {
   "property": "C02",
   "status": "proved",
   "theorems": [
    "Falcon.PagedStack.C02_fault_boundary"
   ],
   "note": ""
  },
  {
   "property": "C03",
   "status": "proved",
   "theorems": [
    "Falcon.PagedStack.C03_push_many_is_pushes",
    "Falcon.PagedStack.C03_push_many_contents"
   ],
   "note": ""
  },
  {
   "property": "C04",
   "status": "proved",
   "theorems": [
    "Falcon.PagedStack.C04_pop_undoes_push"
   ],
   "note": ""
  },
  {
   "property": "C05",
   "status": "proved",
   "theorems": [
    "Falcon.PagedStack.C05_discard_is_pops",
    "Falcon.PagedStack.C05_discard_zero"
   ],
   "note": ""
  },
  {
   "property": "C06",
   "status": "partial",
   "theorems": [
    "Falcon.PagedStack.C06_clear_refuted",
    "Falcon.PagedStack.C06_clear_partial"
   ],
   "note": "False as stated: clear() keeps the elements of the first page (C06_clear_refuted). Proved exactly what it does: it keeps precisely the bottom pageSize elements, the result behaves like an ideal stack holding them, and it empties the stack iff it was already empty."
  },
  {
   "property": "C07",
   "status": "partial",
   "theorems": [
    "Falcon.PagedStack.C07_pop_reverse_refuted",
    "Falcon.PagedStack.C07_pop_reverse_partial"
   ],
   "note": "Returned values are always right; when the number of elements left is a positive multiple of the page size a removed element can come back (refuted). Proved as an iff: the stack behaves ideally afterwards exactly in the other cases."
  },
  {
   "property": "C08",
   "status": "partial",
   "theorems": [
    "Falcon.PagedStack.C08_discard_iter_refuted",
    "Falcon.PagedStack.C08_discard_forward_partial",
    "Falcon.PagedStack.C08_discard_reverse_partial"
   ],
   "note": "Refuted when the remaining size is a positive multiple of the page size; proved (iff) for forward and reverse iterators otherwise, including all later histories."
  },
  {
   "property": "C09",
   "status": "proved",
   "theorems": [
    "Falcon.PagedStack.C09_peeks"
   ],
   "note": ""
  },
  {
   "property": "C10",
   "status": "proved",
   "theorems": [
    "Falcon.PagedStack.C10_forward_iteration"
   ],
   "note": ""
  },
  {
   "property": "C11",
   "status": "proved",
   "theorems": [
    "Falcon.PagedStack.C11_forward_inverse",
    "Falcon.PagedStack.C11_reverse_inverse",
    "Falcon.PagedStack.C11_forward_positions"
   ],
   "note": ""
  },
  {
   "property": "C12",
   "status": "partial",
   "theorems": [
    "Falcon.PagedStack.C12_reverse_refuted",
    "Falcon.PagedStack.C12_reverse_partial"
   ],
   "note": "rbegin()..rend() has undefined behaviour on a non-empty stack with a spare page (refuted witness, exact characterisation proved)."
  },
  {
   "property": "C13",
   "status": "proved",
   "theorems": [
    "Falcon.PagedStack.C13_from_top_iteration"
   ],
   "note": ""
  },
  {
   "property": "C14",
   "status": "proved",
   "theorems": [
    "Falcon.PagedStack.C14_size_empty_stats"
   ],
   "note": ""
  },
  {
   "property": "C15",
   "status": "proved",
   "theorems": [
    "Falcon.PagedStack.C15_shrink"
   ],
   "note": ""
  },
  {
   "property": "C16",
   "status": "proved",
   "theorems": [
    "Falcon.PagedStack.C16_no_page_freed",
    "Falcon.PagedStack.C16_deferred_shrink"
   ],
   "note": ""
  },
  {
   "property": "C17",
   "status": "partial",
   "theorems": [
    "Falcon.PagedStack.C17_after_throw_refuted",
    "Falcon.PagedStack.C17_pop_reverse_refuted",
    "Falcon.PagedStack.C17_sync_safe_partial",
    "Falcon.PagedStack.C17_after_throw_partial"
   ],
   "note": "False (1) after a pop_reverse that leaves a multiple of the page size (defect C07): get() returns a removed element; (2) after a call on the iterator has thrown. C17_sync_safe_partial: exact behaviour of get() and ++ on an iterator no call on which has thrown, in every reachable state; C17_after_throw_partial: exact behaviour after an exception - harmless if the iterator stood on the bottom page, otherwise ++ is undefined for ever and get() until the stack has grown past the old place."
  },
  {
   "property": "C18",
   "status": "proved",
   "theorems": [
    "Falcon.PagedStack.C18_sync_iteration"
   ],
   "note": ""
  },
  {
   "property": "C19",
   "status": "partial",
   "theorems": [
    "Falcon.PagedStack.C19_copy_refuted",
    "Falcon.PagedStack.C19_copy_partial"
   ],
   "note": "False: the implicit copy does not register with the stack, so destroying it counts one live iterator less, pages are freed under the original and its use is undefined (C19_copy_refuted). C19_copy_partial: in every history, copies included, no page is freed as long as fewer iterators were destroyed than were created by sync_begin()/sync_end()."
  },
  {
   "property": "C20",
   "status": "proved",
   "theorems": [
    "Falcon.PagedStack.C20_push_stable"
   ],
   "note": ""
  },
  {
   "property": "C21",
   "status": "proved",
   "theorems": [
    "Falcon.PagedStack.C21_push_allocation",
    "Falcon.PagedStack.C21_refill_no_allocation"
   ],
   "note": ""
  },
  {
   "property": "C22",
   "status": "partial",
   "theorems": [
    "Falcon.PagedStack.C22_next_push",
    "Falcon.PagedStack.C22_push_throw_refuted",
    "Falcon.PagedStack.C22_push_throw_partial"
   ],
   "note": "An element copy that throws on a full page leaves an empty current page, after which top() is undefined (refuted); proved iff: behaves as before exactly when the size is 0 or not a multiple of the page size. C22_next_push: however many throwing pushes before, the next successful one repairs the stack."
  },
  {
   "property": "C23",
   "status": "partial",
   "theorems": [
    "Falcon.PagedStack.C23_prealloc_zero_refuted",
    "Falcon.PagedStack.C23_page_size_zero_refuted",
    "Falcon.PagedStack.C23_constructor_partial",
    "Falcon.PagedStack.C23_page_size_zero_partial",
    "Falcon.PagedStack.C23_prealloc_zero_partial"
   ],
   "note": "Refuted at preallocation 0 (no page at all: every call that looks at the stack is undefined, C23_prealloc_zero_partial) and at page size 0 (reverse iteration undefined and elements move once the stack is not empty, although every other call still behaves like an ideal stack, C23_page_size_zero_partial); proved for every positive page size and preallocation."
  },
  {
   "property": "C24",
   "status": "proved",
   "theorems": [
    "Falcon.Futex.C24_mutual_exclusion"
   ],
   "note": ""
  },
  {
   "property": "C25",
   "status": "proved",
   "theorems": [
    "Falcon.Futex.C25_atomic_sections",
    "Falcon.Futex.C25_final_state",
    "Falcon.Futex.C25_no_lost_update"
   ],
   "note": ""
  },
  {
   "property": "C26",
   "status": "proved",
   "theorems": [
    "Falcon.Futex.C26_acquires_when_free",
    "Falcon.Futex.C26_progress"
   ],
   "note": ""
  },
  {
   "property": "C27",
   "status": "partial",
   "theorems": [
    "Falcon.Futex.C27_yield_refuted",
    "Falcon.Futex.C27_yield_partial",
    "Falcon.Futex.C27_in_system_partial"
   ],
   "note": "Refuted: only the n-th failed attempt yields, not every n-th. Proved exactly: the k-th failure yields iff spinCount != 0 and k = spinCount mod 2^32."
  },
  {
   "property": "C28",
   "status": "proved",
   "theorems": [
    "Falcon.Futex.C28_isLocked"
   ],
   "note": ""
  },
  {
   "property": "C29",
   "status": "partial",
   "theorems": [
    "Falcon.Futex.C29_rlock_refuted",
    "Falcon.Futex.C29_rlock_partial",
    "Falcon.Futex.C29_unlock_partial",
    "Falcon.Futex.C29_unlock_leaves_partial",
    "Falcon.Futex.C29_unlock_idle_partial",
    "Falcon.Futex.C29_attempt_exact_partial",
    "Falcon.Futex.C29_zero_returns_refuted"
   ],
   "note": "Refuted in the strongest sense: with fewer than 2^32 threads RFutex::lock() never returns in any schedule; exact return condition proved."
  },
  {
   "property": "C30",
   "status": "partial",
   "theorems": [
    "Falcon.Futex.C30_identity_refuted",
    "Falcon.Futex.C30_identity_partial",
    "Falcon.Futex.C30_enter_exact_partial"
   ],
   "note": "Refuted at 2^32 threads (identity 0 and repeats); proved for every smaller number of threads and every schedule."
  },
  {
   "property": "C31",
   "status": "partial",
   "theorems": [
    "Falcon.Futex.C31_isOwner_refuted",
    "Falcon.Futex.C31_isOwner_partial"
   ],
   "note": "Refuted: isOwner() is true on a free RFutex for a thread that never locked. Proved exactly when it is true."
  },
  {
   "property": "C32",
   "status": "proved",
   "theorems": [
    "Falcon.Futex.C32_linearizable",
    "Falcon.Futex.C32_real_time_order"
   ],
   "note": ""
  },
  {
   "property": "C33",
   "status": "proved",
   "theorems": [
    "Falcon.Atomic.C33_counter_sum",
    "Falcon.Atomic.C33_order_irrelevant",
    "Falcon.Atomic.C33_returns_established",
    "Falcon.Atomic.C33_returns_established_incdec"
   ],
   "note": ""
  },
  {
   "property": "C34",
   "status": "proved",
   "theorems": [
    "Falcon.Atomic.C34_distinct_tickets",
    "Falcon.Atomic.C34_bound_exact"
   ],
   "note": ""
  },
  {
   "property": "C35",
   "status": "proved",
   "theorems": [
    "Falcon.Atomic.C35_one_winner",
    "Falcon.Atomic.C35_cas_exact"
   ],
   "note": ""
  },
  {
   "property": "C36",
   "status": "proved",
   "theorems": [
    "Falcon.Atomic.C36_bitwise",
    "Falcon.Atomic.C36_restore",
    "Falcon.Atomic.C36_fetch",
    "Falcon.Atomic.C36_set_then_read",
    "Falcon.Atomic.C36_exchange_conserves"
   ],
   "note": ""
  },
  {
   "property": "C37",
   "status": "partial",
   "theorems": [
    "Falcon.Atomic.C37_add_portable_refuted",
    "Falcon.Atomic.C37_portable_partial"
   ],
   "note": "Refuted: x86 Visual C++ atomicAdd returns the old value. Proved: everything else identical on all platforms, and the exact difference."
  },
  {
   "property": "C38",
   "status": "proved",
   "theorems": [
    "Falcon.Log.C38_fifo",
    "Falcon.Log.C38_nothing_lost"
   ],
   "note": ""
  },
  {
   "property": "C39",
   "status": "proved",
   "theorems": [
    "Falcon.Log.C39_delivered_was_logged",
    "Falcon.Log.C39_exclusive_objects",
    "Falcon.Log.C39_memory_safe"
   ],
   "note": ""
  },
  {
   "property": "C40",
   "status": "proved",
   "theorems": [
    "Falcon.Log.C40_accounting",
    "Falcon.Log.C40_reported"
   ],
   "note": ""
  },
  {
   "property": "C41",
   "status": "proved",
   "theorems": [
    "Falcon.Log.C41_level_history",
    "Falcon.Log.C41_level_check",
    "Falcon.Log.C41_outcome",
    "Falcon.Log.C41_reject_effect"
   ],
   "note": ""
  },
  {
   "property": "C42",
   "status": "proved",
   "theorems": [
    "Falcon.Log.C42_answers_history",
    "Falcon.Log.C42_delivered_history",
    "Falcon.Log.C42_protocol",
    "Falcon.Log.C42_answers",
    "Falcon.Log.C42_offered_to_all",
    "Falcon.Log.C42_delivered_exactly"
   ],
   "note": ""
  },
  {
   "property": "C43",
   "status": "proved",
   "theorems": [
    "Falcon.Log.C43_category_history",
    "Falcon.Log.C43_category_rule"
   ],
   "note": ""
  },
  {
   "property": "C44",
   "status": "proved",
   "theorems": [
    "Falcon.Log.C44_category_call"
   ],
   "note": ""
  },
  {
   "property": "C45",
   "status": "partial",
   "theorems": [
    "Falcon.Log.C45_detach_refuted",
    "Falcon.Log.C45_detach_partial"
   ],
   "note": "False as stated: the logging thread tests the detached flag only after serving, so one more message can arrive (C45_detach_refuted). Proved: at most one more onMessage per registration, in every continuation."
  },
  {
   "property": "C46",
   "status": "proved",
   "theorems": [
    "Falcon.Log.C46_offered_in_order",
    "Falcon.Log.C46_delivered_history",
    "Falcon.Log.C46_added_listener_served",
    "Falcon.Log.C46_only_detach_detaches"
   ],
   "note": ""
  },
  {
   "property": "C47",
   "status": "proved",
   "theorems": [
    "Falcon.Log.C47_no_lost_wakeup"
   ],
   "note": ""
  },
  {
   "property": "C48",
   "status": "proved",
   "theorems": [
    "Falcon.Log.C48_drains"
   ],
   "note": ""
  },
  {
   "property": "C49",
   "status": "partial",
   "theorems": [
    "Falcon.Log.C49_stop_refuted",
    "Falcon.Log.C49_stop_partial",
    "Falcon.Log.C49_stop_after_drain_partial"
   ],
   "note": "False: the loop ends as soon as the flag is seen, leaving queued messages undelivered (C49_stop_refuted). Proved: what was not processed is still queued in order, no round is cut short, and nothing is missing if the queue had been drained."
  },
  {
   "property": "C50",
   "status": "proved",
   "theorems": [
    "Falcon.Log.C50_nothing_after_stop"
   ],
   "note": ""
  },
  {
   "property": "C51",
   "status": "partial",
   "theorems": [
    "Falcon.Log.C51_restart_refuted",
    "Falcon.Log.C51_start_partial"
   ],
   "note": "False: m_isTerminated is never reset, so the restarted thread exits at once; proved that no continuation delivers anything. Proved: start() on a never-stopped system works."
  },
  {
   "property": "C52",
   "status": "partial",
   "theorems": [
    "Falcon.Log.C52_uninitialised_refuted",
    "Falcon.Log.C52_uninitialised_accepts_refuted",
    "Falcon.Log.C52_initialised_partial"
   ],
   "note": "False: m_isTerminated is not initialised by the constructor; if the memory holds true, no message is ever processed (proved for all executions). Proved: with false, the service runs until stop() is called."
  },
  {
   "property": "C53",
   "status": "proved",
   "theorems": [
    "Falcon.Log.C53_high_water_mark",
    "Falcon.Log.C53_watermark_is_max"
   ],
   "note": ""
  },
  {
   "property": "C54",
   "status": "proved",
   "theorems": [
    "Falcon.Log.C54_destructor"
   ],
   "note": ""
  },
  {
   "property": "C55",
   "status": "proved",
   "theorems": [
    "Falcon.Log.C55_level_names"
   ],
   "note": ""
  },
  {
   "property": "C56",
   "status": "proved",
   "theorems": [
    "Falcon.Logger.C56_statements",
    "Falcon.Logger.C56_filtered_no_effect"
   ],
   "note": ""
  },
  {
   "property": "C57",
   "status": "partial",
   "theorems": [
    "Falcon.Logger.C57_temporary_category",
    "Falcon.Logger.C57_empty_category_refuted",
    "Falcon.Logger.C57_exact_partial"
   ],
   "note": "Proved for every non-empty temporary category. Refuted for the empty one: LOG_CAT(\"\") leaves the thread category in force. C57_exact_partial: the category of the message for every temporary category, and exactly when it is the temporary one."
  },
  {
   "property": "C58",
   "status": "partial",
   "theorems": [
    "Falcon.Logger.C58_nesting_refuted",
    "Falcon.Logger.C58_nesting_exact_partial",
    "Falcon.Logger.C58_filtered_nested_partial",
    "Falcon.Logger.C58_every_nesting_partial",
    "Falcon.Logger.C58_rule_flat_partial"
   ],
   "note": "False: a LOG evaluated inside another LOG of the same thread mixes text and location (refuted); proved exactly what is emitted, for LOG statements nested to any depth and in any number, and that a filtered-out nested statement is harmless."
  },
  {
   "property": "C59",
   "status": "partial",
   "theorems": [
    "Falcon.Logger.C59_early_exit_refuted",
    "Falcon.Logger.C59_block_partial",
    "Falcon.Logger.C59_early_exit_exact_partial"
   ],
   "note": "False for early exit (break/return/throw): nothing is emitted and the text leaks into the next message (refuted, exact behaviour proved); proved for blocks that run to their end."
  },
  {
   "property": "C60",
   "status": "proved",
   "theorems": [
    "Falcon.Logger.C60_isolation",
    "Falcon.Logger.C60_as_if_alone"
   ],
   "note": ""
  },
  {
   "property": "C61",
   "status": "partial",
   "theorems": [
    "Falcon.Logger.C61_category_macro_refuted",
    "Falcon.Logger.C61_category_macro_partial",
    "Falcon.Logger.C61_default_build_partial"
   ],
   "note": "False if FALCON_MIN_LOG_LEVEL is below the general level (comparison is swapped); exact condition proved, and the property for the default build."
  },
  {
   "property": "C62",
   "status": "partial",
   "theorems": [
    "Falcon.Logger.C62_twice_refuted",
    "Falcon.Logger.C62_clear_without_filter_refuted",
    "Falcon.Logger.C62_restores_last_partial",
    "Falcon.Logger.C62_same_lines_partial",
    "Falcon.Logger.C62_callable_exact_partial",
    "Falcon.Logger.C62_exact_partial"
   ],
   "note": "False after two categoryFilter calls and undefined behaviour without one (refuted); proved: restores the level at the last categoryFilter call, and the same lines are written as before when no filter was active. C62_callable_exact_partial: after any history it may be called exactly if categoryFilter was; C62_exact_partial: the level it leaves after any number of categoryFilter calls in a row, and exactly when that is the level before them."
  },
  {
   "property": "C63",
   "status": "partial",
   "theorems": [
    "Falcon.Logger.C63_lines_exact_partial",
    "Falcon.Logger.C63_written_twice_refuted",
    "Falcon.Logger.C63_uncategorised_detail_refuted",
    "Falcon.Logger.C63_default_not_lowered_refuted",
    "Falcon.Logger.C63_detail_partial"
   ],
   "note": "False in three ways (refuted); the exact number of lines is proved for every history, expression, level and message, and the documented behaviour under the side conditions in which it holds."
  },
  {
   "property": "C64",
   "status": "partial",
   "theorems": [
    "Falcon.Logger.C64_invalid_expression_refuted",
    "Falcon.Logger.C64_invalid_expression_partial"
   ],
   "note": "False: level raised and previous filter detached although the call throws (refuted); exact effect proved."
  },
  {
   "property": "C65",
   "status": "proved",
   "theorems": [
    "Falcon.Logger.C65_last_active",
    "Falcon.Logger.C65_one_filter"
   ],
   "note": ""
  },
  {
   "property": "C66",
   "status": "proved",
   "theorems": [
    "Falcon.LogStream.C66_decodable",
    "Falcon.LogStream.C66_unique"
   ],
   "note": ""
  },
  {
   "property": "C67",
   "status": "proved",
   "theorems": [
    "Falcon.LogStream.C67_base_name",
    "Falcon.LogStream.C67_longest"
   ],
   "note": ""
  },
  {
   "property": "C68",
   "status": "proved",
   "theorems": [
    "Falcon.LogStream.C68_date_prefix"
   ],
   "note": ""
  },
  {
   "property": "C69",
   "status": "proved",
   "theorems": [
    "Falcon.LogStream.C69_one_line"
   ],
   "note": ""
  },
  {
   "property": "C70",
   "status": "proved",
   "theorems": [
    "Falcon.LogStream.C70_stream_alive"
   ],
   "note": ""
  },
  {
   "property": "C71",
   "status": "proved",
   "theorems": [
    "Falcon.Item.C71_int_items",
    "Falcon.Item.C71_uint64_bits"
   ],
   "note": ""
  },
  {
   "property": "C72",
   "status": "partial",
   "theorems": [
    "Falcon.Item.C72_uint64_text_refuted",
    "Falcon.Item.C72_text_partial",
    "Falcon.Item.C72_decimal_unique_partial"
   ],
   "note": "False for uint64_t values of 2^63 and above, which print as negative numbers (refuted); exact text proved for all integer types, and the property below 2^63."
  },
  {
   "property": "C73",
   "status": "proved",
   "theorems": [
    "Falcon.Item.C73_round_trip",
    "Falcon.Item.C73_text_injective"
   ],
   "note": ""
  },
  {
   "property": "C74",
   "status": "partial",
   "theorems": [
    "Falcon.Item.C74_terminates_refuted",
    "Falcon.Item.C74_toInt_exact_partial"
   ],
   "note": "False: a text that is not a number, or out of range, throws out of toInt (refuted); exact result for every text proved."
  },
  {
   "property": "C75",
   "status": "proved",
   "theorems": [
    "Falcon.Item.C75_conversions",
    "Falcon.Item.C75_bignum"
   ],
   "note": ""
  },
  {
   "property": "C76",
   "status": "partial",
   "theorems": [
    "Falcon.Item.C76_copy_refuted",
    "Falcon.Item.C76_assign_leaks_refuted",
    "Falcon.Item.C76_lifetime_partial",
    "Falcon.Item.C76_copy_always_double_frees_partial"
   ],
   "note": "False: Item has no user-defined copy operations, a copied text item is deleted twice, an assigned-over one leaks (refuted, for every reachable state). Proved for all histories in which only items without heap data are copied or assigned."
  },
  {
   "property": "C77",
   "status": "partial",
   "theorems": [
    "Falcon.Item.C77_deep_refuted",
    "Falcon.Item.C77_flat_partial",
    "Falcon.Item.C77_default_partial"
   ],
   "note": "False for text and BigNum handlers: allocate returns the address of a temporary pointer, destroy deletes it as an object and the allocated one leaks (refuted); proved for the flat handlers."
  },
  {
   "property": "C78",
   "status": "proved",
   "theorems": [
    "Falcon.Item.C78_float_items"
   ],
   "note": ""
  },
  {
   "property": "C79",
   "status": "partial",
   "theorems": [
    "Falcon.Code.C79_long_refuted",
    "Falcon.Code.C79_nul_refuted",
    "Falcon.Code.C79_text_partial",
    "Falcon.Code.C79_iff_partial"
   ],
   "note": "False: a text of 1000 characters or more overruns the buffer, and a NUL cuts the text (refuted); exact result for every text proved (iff)."
  },
  {
   "property": "C80",
   "status": "partial",
   "theorems": [
    "Falcon.Code.C80_copy_refuted",
    "Falcon.Code.C80_assign_refuted",
    "Falcon.Code.C80_moved_from_refuted",
    "Falcon.Code.C80_lifetime_partial",
    "Falcon.Code.C80_no_leak_partial",
    "Falcon.Code.C80_copy_always_double_frees_partial"
   ],
   "note": "False: copies and assignments share the buffer, so both destructors delete it; assignment from a temporary leaves a dangling buffer; toString on a moved-from object dereferences null (refuted, for every reachable state). Proved as refinement of value semantics for all histories without such statements."
  },
  {
   "property": "C81",
   "status": "partial",
   "theorems": [
    "Falcon.Code.C81_long_word_refuted",
    "Falcon.Code.C81_exceptions_refuted",
    "Falcon.Code.C81_words_partial",
    "Falcon.Code.C81_words_exist",
    "Falcon.Code.C81_words_unique",
    "Falcon.Code.C81_any_stream"
   ],
   "note": "False for words of 1000 characters or more and for streams with exceptions enabled (refuted); proved for all texts whose words fit, any number of calls. Words exist and are unique for every text."
  },
  {
   "property": "C82",
   "status": "proved",
   "theorems": [
    "Falcon.Singleton.C82_same_instance",
    "Falcon.Singleton.C82_constructed_once_before_use",
    "Falcon.Singleton.C82_reads_last_write",
    "Falcon.Singleton.C82_const_accessors",
    "Falcon.Singleton.C82_not_stuck",
    "Falcon.Singleton.C82_accessors_work"
   ],
   "note": ""
  },
  {
   "property": "C83",
   "status": "partial",
   "theorems": [
    "Falcon.Fut.C83_streams_refuted",
    "Falcon.Fut.C83_status_exact_partial",
    "Falcon.Fut.C83_status_partial"
   ],
   "note": "Refuted as stated: what TearDown writes on stderr does not count, and stderr text of earlier runs does. C83_status_exact_partial gives the status for every script that keeps the streams' buffers, any history; C83_status_partial the four-way characterisation."
  },
  {
   "property": "C84",
   "status": "partial",
   "theorems": [
    "Falcon.Fut.C84_teardown_refuted",
    "Falcon.Fut.C84_order_partial"
   ],
   "note": "Refuted: TearDown is skipped when test() throws. C84_order_partial gives the exact order of the calls for every script."
  },
  {
   "property": "C85",
   "status": "partial",
   "theorems": [
    "Falcon.Fut.C85_without_e_refuted",
    "Falcon.Fut.C85_e_is_noop_partial",
    "Falcon.Fut.C85_passed_partial"
   ],
   "note": "Refuted: output on stderr makes a test fail also without -e. Exact: passed iff the status is SUCCESS (C85_passed_partial), and -e changes nothing in any run (C85_e_is_noop_partial)."
  },
  {
   "property": "C86",
   "status": "proved",
   "theorems": [
    "Falcon.Fut.C86_perform",
    "Falcon.Fut.C86_main"
   ],
   "note": ""
  },
  {
   "property": "C87",
   "status": "proved",
   "theorems": [
    "Falcon.Fut.C87_order"
   ],
   "note": ""
  },
  {
   "property": "C88",
   "status": "proved",
   "theorems": [
    "Falcon.Fut.C88_counts"
   ],
   "note": ""
  },
  {
   "property": "C89",
   "status": "partial",
   "theorems": [
    "Falcon.Fut.C89_second_refuted",
    "Falcon.Fut.C89_kth_partial"
   ],
   "note": "Refuted: the component map is not emptied, the second call performs every test twice. C89_kth_partial: the k-th further call performs each selected test k+1 times."
  },
  {
   "property": "C90",
   "status": "partial",
   "theorems": [
    "Falcon.Fut.C90_teardown_refuted",
    "Falcon.Fut.C90_same_verdict_partial",
    "Falcon.Fut.C90_exact_partial"
   ],
   "note": "Refuted: stderr output of TearDown fails the next run. C90_exact_partial: exactly which tests have the same status in every run; C90_same_verdict_partial: in particular those without such output."
  },
  {
   "property": "C91",
   "status": "partial",
   "theorems": [
    "Falcon.Fut.C91_no_capture_refuted",
    "Falcon.Fut.C91_restored_partial",
    "Falcon.Fut.C91_captured_partial"
   ],
   "note": "Refuted with capture off (-c). With capture on the buffers are restored whatever the test does (C91_restored_partial); capturedOut/Err hold everything written, behind the text of earlier runs, for tests that do not exchange buffers (C91_captured_partial)."
  },
  {
   "property": "C92",
   "status": "partial",
   "theorems": [
    "Falcon.Fut.C92_exact_partial",
    "Falcon.Fut.C92_silent_iff_partial",
    "Falcon.Fut.C92_bypass_refuted",
    "Falcon.Fut.C92_silent_partial"
   ],
   "note": "Refuted only by tests that redirect std::cout themselves; proved for all tests that leave the stream buffers alone (C92_silent_partial). C92_exact_partial: for every suite, whatever its tests do, what each buffer receives; C92_silent_iff_partial: standard output stays untouched exactly if no test writes into it directly."
  },
  {
   "property": "C93",
   "status": "proved",
   "theorems": [
    "Falcon.Fut.C93_accepts",
    "Falcon.Fut.C93_rejects",
    "Falcon.Fut.C93_unambiguous"
   ],
   "note": ""
  },
  {
   "property": "C94",
   "status": "partial",
   "theorems": [
    "Falcon.Fut.C94_garbage_refuted",
    "Falcon.Fut.C94_level_partial",
    "Falcon.Fut.C94_unset_partial",
    "Falcon.Fut.C94_number_partial",
    "Falcon.Fut.C94_negative_partial"
   ],
   "note": "Refuted: '3x', 'abc' are accepted, a blank argument reads an uninitialised int. Exact: what level every number prefix gives (C94_level_partial), the blank case (C94_unset_partial), decimal numbers (C94_number_partial, C94_negative_partial)."
  },
  {
   "property": "C95",
   "status": "partial",
   "theorems": [
    "Falcon.Fut.C95_selection_refuted",
    "Falcon.Fut.C95_exact_partial",
    "Falcon.Fut.C95_all_partial"
   ],
   "note": "Refuted with -t: tests not selected are listed as failed. Exact list for every selection (C95_exact_partial), the stated property without -t (C95_all_partial), and the text printed (C95_printed_partial)."
  },
  {
   "property": "C96",
   "status": "partial",
   "theorems": [
    "Falcon.Fut.C96_exact_partial",
    "Falcon.Fut.C96_checks_not_plain_partial",
    "Falcon.Fut.C96_quote_refuted",
    "Falcon.Fut.C96_uninitialised_refuted"
   ],
   "note": "Refuted: no escaping (a failed EXPECT_EQ puts quotes into an attribute) and an uninitialised line number for tests that threw. C96_exact_partial: the report reads back iff every failure description is free of quotes, ampersands, less-thans and control characters (names assumed so; for times this is the theorem time_plain)."
  },
  {
   "property": "C97",
   "status": "proved",
   "theorems": [
    "Falcon.Fut.C97_names",
    "Falcon.Fut.C97_lookup",
    "Falcon.Fut.C97_registered"
   ],
   "note": ""
  },
  {
   "property": "C98",
   "status": "proved",
   "theorems": [
    "Falcon.Fut.C98_name",
    "Falcon.Fut.C98_every_path"
   ],
   "note": ""
  },
  {
   "property": "C99",
   "status": "proved",
   "theorems": [
    "Falcon.Fut.C99_monotone",
    "Falcon.Fut.C99_time_of_day",
    "Falcon.Fut.C99_modulo_day",
    "Falcon.Fut.C99_unix_clock",
    "Falcon.Fut.C99_unix_error",
    "Falcon.Fut.C99_win_clock"
   ],
   "note": ""
  },
  {
   "property": "C100",
   "status": "partial",
   "theorems": [
    "Falcon.Fut.C100_tolerance_refuted",
    "Falcon.Fut.C100_machine_rounding",
    "Falcon.Fut.C100_never_far_partial",
    "Falcon.Fut.C100_same_step_partial",
    "Falcon.Fut.C100_undefined_partial",
    "Falcon.Fut.C100_ne_is_not_eq",
    "Falcon.Fut.C100_sum_refuted"
   ],
   "note": "Refuted: it compares the truncated multiples of 0.0001. Proved for every binary64 rounding (round to nearest even is one, C100_machine_rounding): passes only if the numbers differ by less than 0.0002, same half step passes, undefined from 9.2e14 on and for NaN and infinities; sums as arguments are mis-parenthesised (C100_sum_refuted)."
  },
  {
   "property": "C101",
   "status": "partial",
   "theorems": [
    "Falcon.Fut.C101_fail_refuted",
    "Falcon.Fut.C101_check_returns_partial",
    "Falcon.Fut.C101_goes_on_partial",
    "Falcon.Fut.C101_reported_partial"
   ],
   "note": "Refuted: FAIL and the exception checks go on, and the last failure is reported. Exact: EXPECT_EQ-kind checks end their function (C101_check_returns_partial), which statements go on (C101_goes_on_partial), what is reported (C101_reported_partial)."
  },
  {
   "property": "C102",
   "status": "partial",
   "theorems": [
    "Falcon.Version.C102_injective",
    "Falcon.Version.C102_order",
    "Falcon.Version.C102_signed_order_partial",
    "Falcon.Version.C102_signed_order_refuted",
    "Falcon.Version.C102_bound_needed"
   ],
   "note": "Injectivity and unsigned order proved; the macro has type int, so its own order is wrong from major 128 on (refuted), proved below."
  },
  {
   "property": "C103",
   "status": "proved",
   "theorems": [
    "Falcon.Log.C103_stop_can_return",
    "Falcon.Log.C103_one_joiner"
   ],
   "note": ""
  },
  {
   "property": "C104",
   "status": "partial",
   "theorems": [
    "Falcon.Logger.C104_format_leak_refuted",
    "Falcon.Logger.C104_after_statement_partial"
   ],
   "note": "False for format flags (refuted); proved: error state, text and temporary category are reset by every statement, and the flags left behind are exactly those selected last."
  },
  {
   "property": "C105",
   "status": "partial",
   "theorems": [
    "Falcon.LogStream.C105_state_exact_partial",
    "Falcon.LogStream.C105_line_exact_partial",
    "Falcon.LogStream.C105_line_same_partial",
    "Falcon.LogStream.C105_format_state_refuted",
    "Falcon.LogStream.C105_hex_stream_refuted",
    "Falcon.LogStream.C105_hex_partial",
    "Falcon.LogStream.C105_format_state_partial"
   ],
   "note": "False: the fill character is left at '0' and a stream in hex mode changes the line (refuted). Proved for a stream in any format state: what a message leaves behind (fill '0', width 0, all else kept), the exact line, and exactly when it is the usual one."
  },
  {
   "property": "C106",
   "status": "proved",
   "theorems": [
    "Falcon.LogStream.C106_whole_lines"
   ],
   "note": ""
  },
  {
   "property": "C107",
   "status": "partial",
   "theorems": [
    "Falcon.Item.C107_types_refuted",
    "Falcon.Item.C107_types_partial"
   ],
   "note": "False: long, unsigned long, short, unsigned short, signed char, float and char* compile and throw (refuted); exact set of accepted types proved."
  },
  {
   "property": "C108",
   "status": "partial",
   "theorems": [
    "Falcon.Distribute.C108_alias_refuted",
    "Falcon.Distribute.C108_values_partial",
    "Falcon.Distribute.C108_too_short_refuted",
    "Falcon.Distribute.C108_exact_partial"
   ],
   "note": "False when a target is an element read later, when a target is named twice, and undefined when the sequence is too short (refuted). C108_exact_partial proves that these are the only exceptions: for a sequence of distinct elements the call is right for all values iff none of them applies."
  },
  {
   "property": "C109",
   "status": "proved",
   "theorems": [
    "Falcon.Fut.C109_performTest"
   ],
   "note": ""
  },
  {
   "property": "C110",
   "status": "partial",
   "theorems": [
    "Falcon.Fut.C110_wait_refuted",
    "Falcon.Fut.C110_unix_partial",
    "Falcon.Fut.C110_win_partial"
   ],
   "note": "Refuted: 32 bit wrap-around. Exact ranges proved for both platforms (contract of usleep/Sleep assumed: they wait what they are asked)."
  },
  {
   "property": "C111",
   "status": "proved",
   "theorems": [
    "Falcon.Fut.C111_exception_checks",
    "Falcon.Fut.C111_not_undone",
    "Falcon.Fut.C111_every_check"
   ],
   "note": ""
  },
  {
   "property": "C112",
   "status": "partial",
   "theorems": [
    "Falcon.Fut.C112_twice_refuted",
    "Falcon.Fut.C112_evaluations_partial",
    "Falcon.Fut.C112_counting_partial",
    "Falcon.Fut.C112_pure_partial",
    "Falcon.Fut.C112_truth_partial"
   ],
   "note": "Refuted: a failing check evaluates the actual argument twice and shows the second value. Exact counts and the effect-free case proved."
  },
  {
   "property": "C113",
   "status": "proved",
   "theorems": [
    "Falcon.Log.C113_diagnostics",
    "Falcon.Log.C113_listeners",
    "Falcon.Log.C113_counts"
   ],
   "note": "getDiags() is modelled as one step; the code reads the counters and m_activeListeners without a lock (a data race if another thread moves)."
  },
  {
   "property": "C114",
   "status": "partial",
   "theorems": [
    "Falcon.Item.C114_type_names",
    "Falcon.Item.C114_flat",
    "Falcon.Item.C114_copy_flat_refuted",
    "Falcon.Item.C114_copy_flat_partial"
   ],
   "note": "False for isCopyFlat(): StringHandler and BigNumHandler are DeepFlatCopyHandlers, yet a bitwise copy shares the heap object and both destructors delete it (C114_copy_flat_refuted). The rest holds."
  },
  {
   "property": "C115",
   "status": "partial",
   "theorems": [
    "Falcon.FloatText.C115_text",
    "Falcon.FloatText.C115_accuracy",
    "Falcon.FloatText.C115_special",
    "Falcon.FloatText.C115_distinct_refuted",
    "Falcon.FloatText.C115_distinct_partial"
   ],
   "note": "The text is the nearest six-digit decimal (C115_text, C115_accuracy); that different values have different texts is false (16777216.0 and 16777217.0, C115_distinct_refuted) and holds for values of at most six digits (C115_distinct_partial)."
  },
  {
   "property": "C116",
   "status": "partial",
   "theorems": [
    "Falcon.FloatText.C116_nearest",
    "Falcon.FloatText.C116_exact",
    "Falcon.FloatText.C116_exact_refuted"
   ],
   "note": "Exact below 1000 seconds (C116_exact), nearest six (three, four) digit decimal for all durations below 35000 years (C116_nearest); longer ones lose milliseconds (C116_exact_refuted)."
  },
  {
   "property": "C117",
   "status": "partial",
   "theorems": [
    "Falcon.FloatText.C117_status_line",
    "Falcon.FloatText.C117_exact_partial",
    "Falcon.FloatText.C117_columns_refuted"
   ],
   "note": "From test 1000 on the columns move (C117_columns_refuted). C117_exact_partial: for durations below 35000 years the line has its columns if and only if the number is below 1000 and the duration from 0 to below 100000 seconds; C117_status_line: the line in those limits."
  },
  {
   "property": "C118",
   "status": "partial",
   "theorems": [
    "Falcon.FloatText.C118_text_to_int_refuted",
    "Falcon.FloatText.C118_text_to_int_partial",
    "Falcon.FloatText.C118_first_digit_partial",
    "Falcon.FloatText.C118_exact_partial",
    "Falcon.FloatText.C118_integers_partial"
   ],
   "note": "Refuted: 16777216.0 prints as 1.67772e+07, which toInt reads as 1. C118_exact_partial: right if and only if the number shown is 0 or 0.0001 to below 1000000 in size; C118_first_digit_partial: outside of that the result is the first digit shown; C118_integers_partial: every integral value below a million comes back."
  },
  {
   "property": "C119",
   "status": "partial",
   "theorems": [
    "Falcon.PSCopy.C119_copy_refuted",
    "Falcon.PSCopy.C119_copy_observers",
    "Falcon.PSCopy.C119_copy_push",
    "Falcon.PSCopy.C119_source_partial",
    "Falcon.PSCopy.C119_copy_call",
    "Falcon.PSCopy.C119_copy_leaves_page"
   ],
   "note": "Refuted: the implicit copy copies m_curBase, which points into the source. C119_copy_observers and C119_copy_push say for every history what a fresh copy does (undefined comparisons; pushes land on the source); C119_source_partial: programs that only destroy or overwrite copies are unaffected."
  },
  {
   "property": "C120",
   "status": "proved",
   "theorems": [
    "Falcon.PSCopy.C120_move_swap",
    "Falcon.PSCopy.C120_moved_from",
    "Falcon.PSCopy.C120_moved_from_shrink",
    "Falcon.PSCopy.C120_moved_from_shrink_later"
   ],
   "note": "C120_move_swap: refinement of value semantics for all programs of declarations, moves, swaps, destructions and calls. C120_moved_from: what a moved-from stack does."
  },
  {
   "property": "C121",
   "status": "partial",
   "theorems": [
    "Falcon.PSCopy.C121_shrink_after_move_refuted",
    "Falcon.PSCopy.C121_shrink_after_move_partial",
    "Falcon.PSCopy.C121_exact_partial"
   ],
   "note": "Refuted: the live-iterator count is moved along with the content but the iterators report to the old object. C121_exact_partial: what happens exactly, for every history: pages are freed iff no sync iterator was alive when the stack was moved; otherwise none is, and if a shrink was pending the end of the last iterator is undefined."
  },
  {
   "property": "C122",
   "status": "partial",
   "theorems": [
    "Falcon.PSGuard.C122_guarded_pop_refuted",
    "Falcon.PSGuard.C122_conservation",
    "Falcon.PSGuard.C122_guarded_pop_partial"
   ],
   "note": "Refuted for two consumers. C122_guarded_pop_partial: safe for one consumer and any number of producers under every schedule; C122_conservation: no element lost or duplicated whatever the number of consumers."
  },
  {
   "property": "C123",
   "status": "partial",
   "theorems": [
    "Falcon.PSGuard.C123_pop_throws",
    "Falcon.PSGuard.C123_push_throws_partial",
    "Falcon.PSGuard.C123_push_throws_refuted",
    "Falcon.PSGuard.C123_pop_all",
    "Falcon.PSGuard.C123_push_all"
   ],
   "note": "Proved for pop. For push refuted when the throwing copy is the first of a page (the C22 defect); C123_push_throws_partial is exact."
  },
  {
   "property": "C124",
   "status": "partial",
   "theorems": [
    "Falcon.PSAlloc.C124_out_of_memory_refuted",
    "Falcon.PSAlloc.C124_first_failure_partial",
    "Falcon.PSAlloc.C124_exact_partial",
    "Falcon.PSAlloc.C124_success",
    "Falcon.PSAlloc.C124_success_always",
    "Falcon.PSAlloc.C124_memory_back",
    "Falcon.PSAlloc.C124_exact_always_partial"
   ],
   "note": "Refuted after two failures. C124_first_failure_partial: the first failure is always harmless; C124_exact_partial: exactly when a failed push is harmless after any number of earlier ones; C124_success. C124_exact_always_partial: the same exact condition after any history of pushes and pops; C124_memory_back: no push is ever undefined and it returns normally once memory is back; C124_success_always."
  },
  {
   "property": "C125",
   "status": "partial",
   "theorems": [
    "Falcon.PSAlloc.C125_moves_refuted",
    "Falcon.PSAlloc.C125_moves_partial",
    "Falcon.PSAlloc.C125_exact_partial"
   ],
   "note": "Refuted once a page could not be reserved (it grows element by element later). C125_exact_partial: exactly when a push moves elements; C125_moves_partial: never as long as no allocation failed."
  },
  {
   "property": "C126",
   "status": "partial",
   "theorems": [
    "Falcon.Fut.C126_setUp_throws_refuted",
    "Falcon.Fut.C126_elapsed_partial",
    "Falcon.Fut.C126_tearDown_throws",
    "Falcon.Fut.C126_exact_partial"
   ],
   "note": "Refuted: when SetUp throws only the end is marked, so the first such test reports the time since the epoch. C126_exact_partial: the two clock readings the report is based on, for every test and history; C126_elapsed_partial: it is the time of test() whenever SetUp and TearDown do not throw; C126_tearDown_throws: otherwise it includes TearDown."
  },
  {
   "property": "C127",
   "status": "proved",
   "theorems": [
    "Falcon.Fut.C127_console"
   ],
   "note": ""
  },
  {
   "property": "C128",
   "status": "proved",
   "theorems": [
    "Falcon.Fut.C128_exit_code"
   ],
   "note": ""
  },
  {
   "property": "C129",
   "status": "partial",
   "theorems": [
    "Falcon.Fut.C129_setUp_refuted",
    "Falcon.Fut.C129_calm_partial",
    "Falcon.Fut.C129_times_partial"
   ],
   "note": "Refuted: when SetUp throws, begin was never marked, so the test is reported with the time since the clock's epoch (C129_setUp_refuted). C129_calm_partial: for every suite and monotone clock, the times of the tests whose SetUp never throws add up whatever the other tests do, and those of the components always; C129_times_partial: the property for all suites in which no SetUp throws."
  },
  {
   "property": "C130",
   "status": "proved",
   "theorems": [
    "Falcon.Log.C130_log_file",
    "Falcon.Log.C130_program_order"
   ],
   "note": ""
  },
  {
   "property": "C131",
   "status": "partial",
   "theorems": [
    "Falcon.Log.C131_account_total",
    "Falcon.Log.C131_account_partial",
    "Falcon.Log.C131_grows_refuted",
    "Falcon.Log.C131_short_partial",
    "Falcon.Log.C131_leak_refuted"
   ],
   "note": "False as stated: log() runs a placement new on a pooled object whose strings are alive, so the buffers of the message logged before are lost. C131_leak_refuted: one thread logging one message after the other loses all but the last's; C131_grows_refuted: in every execution all but 3*(64+created+caller's own) buffers are lost. C131_account_partial is the exact account at destruction, C131_short_partial: nothing is lost when all texts fit into the string objects."
  },
  {
   "property": "C132",
   "status": "partial",
   "theorems": [
    "Falcon.Log.C132_same_rules_partial",
    "Falcon.Log.C132_fifo_partial",
    "Falcon.Log.C132_survives_partial",
    "Falcon.Log.C132_not_blocked_partial",
    "Falcon.Log.C132_returns_partial",
    "Falcon.Log.C132_stop_partial",
    "Falcon.Log.C132_throw_refuted",
    "Falcon.Log.C132_throw_always_refuted",
    "Falcon.Log.C132_dies_partial",
    "Falcon.Log.C132_stop_inside_refuted",
    "Falcon.Log.C132_deadlock_forever_refuted",
    "Falcon.Log.C132_deadlock_refuted"
   ],
   "note": "False for listeners that throw, call stop() (std::terminate, self-join) or call start()/stop() while another thread is in stop() (permanent deadlock): C132_throw_refuted, C132_stop_inside_refuted, C132_deadlock_refuted, C132_deadlock_forever_refuted. Proved for all other listeners (the _partial theorems), in every execution."
  },
  {
   "property": "C133",
   "status": "partial",
   "theorems": [
    "Falcon.Log.C133_drains_partial",
    "Falcon.Log.C133_feedback_refuted"
   ],
   "note": "False for a listener that logs: one call of log() and the queue is never empty again (C133_feedback_refuted, for every number of served messages). Proved for all listeners that neither log, throw nor call start()/stop()."
  },
  {
   "property": "C134",
   "status": "partial",
   "theorems": [
    "Falcon.Log.C134_writes_complete",
    "Falcon.Log.C134_reads_complete",
    "Falcon.Log.C134_race_free_partial",
    "Falcon.Log.C134_atomics_partial",
    "Falcon.Log.C134_getters_safe_partial",
    "Falcon.Log.C134_diags_exact_partial",
    "Falcon.Log.C134_category_exact_partial",
    "Falcon.Log.C134_diags_refuted",
    "Falcon.Log.C134_category_refuted"
   ],
   "note": "False for getDiags() (reads the list of active listeners and the message counter while the logging thread writes them: C134_diags_refuted) and for the reference category() returns (C134_category_refuted). Everything else is race free in every execution (C134_race_free_partial, C134_getters_safe_partial); C134_diags_exact_partial and C134_category_exact_partial say exactly when the two race. A race is: two threads about to make the accesses in a reachable state."
  },
  {
   "property": "C135",
   "status": "partial",
   "theorems": [
    "Falcon.Log.C135_safe_partial",
    "Falcon.Log.C135_unchanged_partial",
    "Falcon.Log.C135_account_partial",
    "Falcon.Log.C135_destructor_partial",
    "Falcon.Log.C135_fatal_partial",
    "Falcon.Log.C135_last_partial",
    "Falcon.Log.C135_throws_partial",
    "Falcon.Log.C135_pool_refuted",
    "Falcon.Log.C135_terminate_refuted",
    "Falcon.Log.C135_filter_refuted",
    "Falcon.Log.C135_counter_refuted"
   ],
   "note": "False in four ways, each with a witness schedule: a message that cannot be constructed takes its pool object with it for ever (64 failures empty the pool); log() calls the noexcept log(Message*), so a failing push_back ends the program (as do failures in the logging thread); category() failing on its second allocation leaves the new compiled expression under the old text; msgsCreated counts a message never made. Proved: no memory error whatever fails, accepted messages are served in order at most once; a call that throws leaves queue, listeners, filters and levels unchanged (except the late failure of category()); the exact account of the lost objects; the destructor frees everything except the lost objects, and nothing twice."
  },
  {
   "property": "C136",
   "status": "proved",
   "theorems": [
    "Falcon.Futex.C136_no_race",
    "Falcon.Futex.C136_mutual_exclusion",
    "Falcon.Futex.C136_as_sequentially_consistent",
    "Falcon.Futex.C136_final_state",
    "Falcon.Futex.C136_acquires_when_free",
    "Falcon.Futex.C136_holder_sees_locked",
    "Falcon.Futex.C136_isLocked_can_be_right",
    "Falcon.Futex.C136_orders_needed"
   ],
   "note": ""
  },
  {
   "property": "C137",
   "status": "partial",
   "theorems": [
    "Falcon.Log.C137_moments_partial",
    "Falcon.Log.C137_between_partial",
    "Falcon.Log.C137_monotone_partial",
    "Falcon.Log.C137_exact_partial",
    "Falcon.Log.C137_bounds_partial",
    "Falcon.Log.C137_fault_partial",
    "Falcon.Log.C137_discarded_le_created",
    "Falcon.Log.C137_books_refuted",
    "Falcon.Log.C137_enabled_refuted"
   ],
   "note": "False. Refuted twice: (1) the first counter is read, 65 messages are logged and served, the second counter is read: one message discarded, none created, although discarded <= created + clients' own holds at every moment (C137_discarded_le_created); reading the two in the other order would exclude it. (2) Between the questions to two listeners the first is disabled and the second enabled: two are reported enabled, never more than one was. Proved instead: every number was right at some moment during the call, in reading order; the counters lie between their values at the call and at the return; a later call never reports smaller counters; the answer is exact when nobody else moves; the pool is reported with at most 64; undefined behaviour only if the list of listeners changed meanwhile (the data race itself is C134)."
  },
  {
   "property": "C138",
   "status": "partial",
   "theorems": [
    "Falcon.Fut.C138_end_text",
    "Falcon.Fut.C138_report_text",
    "Falcon.Fut.C138_neutral_partial",
    "Falcon.Fut.C138_silent_partial",
    "Falcon.Fut.C138_status_line_partial",
    "Falcon.Fut.C138_hex_refuted",
    "Falcon.Fut.C138_width_refuted",
    "Falcon.Fut.C138_precision_refuted",
    "Falcon.Fut.C138_any_format_partial",
    "Falcon.Fut.C138_any_run_partial"
   ],
   "note": "False of the code: std::hex left by a test makes failure and line numbers hexadecimal, a pending std::setw pads the next line, and report() itself leaves precision 4 on std::cout. Proved instead: the console is exactly that of C127 if tests leave base, showpos, width and fixed alone (whatever they do to fill, precision and adjustment); with -q nothing is written and the format is untouched; status lines are immune to everything but the width. C138_any_format_partial and C138_any_run_partial: what is shown in any format at all, and the format left, as a relation with filled widths, signs and bases."
  },
  {
   "property": "C139",
   "status": "partial",
   "theorems": [
    "Falcon.Lifetime.C139_lifetime",
    "Falcon.Lifetime.C139_reverse",
    "Falcon.Lifetime.C139_until_main_returns_partial",
    "Falcon.Lifetime.C139_careful_partial",
    "Falcon.Lifetime.C139_careful_safe_partial",
    "Falcon.Lifetime.C139_log_in_destructor_refuted",
    "Falcon.Lifetime.C139_late_singleton_refuted"
   ],
   "note": "False of the code: the message under composition lives in thread-local objects, destroyed before all static objects, so LOG in a static destructor is undefined once the main thread has logged; and a Singleton or Logger first used in main is destroyed before earlier static objects. Proved instead: constructors and main may use everything in any order; every program whose destructors use only what the same object's constructor used (and never-destroyed UnitTest) without LOG statements ends in order; lifetimes and reverse order for all programs. Only the one thread that starts and ends the process is modelled."
  },
  {
   "property": "C140",
   "status": "partial",
   "theorems": [
    "Falcon.PagedStack.C140_pop_reverse_refuted",
    "Falcon.PagedStack.C140_no_fault_partial",
    "Falcon.PagedStack.C140_top_to_bottom_partial",
    "Falcon.PagedStack.C140_every_element_partial",
    "Falcon.PagedStack.C140_ends_partial",
    "Falcon.PagedStack.C140_throws_only_empty_partial"
   ],
   "note": "false when another thread calls pop_reverse leaving a multiple of the page size (defect C07): the loop then visits an element pop_reverse removed. Proved for every interleaving of all other calls; copies of sync iterators (C19) are excluded."
  },
  {
   "property": "C141",
   "status": "partial",
   "theorems": [
    "Falcon.PagedStack.C141_from_end_refuted",
    "Falcon.PagedStack.C141_dec_partial",
    "Falcon.PagedStack.C141_dec_end_partial",
    "Falcon.PagedStack.C141_undo_partial",
    "Falcon.PagedStack.C141_upward_partial"
   ],
   "note": "false of the code: synchronize() takes the end mark of a one-page stack for a lost position, so -- from sync_end() goes to the top element and skips the others (C141_from_end_refuted). Exact effect proved for every position; -- at the top element is undefined when the stack owns no spare page; the full property holds when the elements take more than one page."
  },
  {
   "property": "C142",
   "status": "partial",
   "theorems": [
    "Falcon.Fut.C142_status_partial",
    "Falcon.Fut.C142_right_partial",
    "Falcon.Fut.C142_run_partial",
    "Falcon.Fut.C142_streams_partial",
    "Falcon.Fut.C142_no_calls_partial",
    "Falcon.Fut.C142_plain",
    "Falcon.Fut.C142_verbosity",
    "Falcon.Fut.C142_value",
    "Falcon.Fut.C142_own_partial",
    "Falcon.Fut.C142_check_partial",
    "Falcon.Fut.C142_unknown",
    "Falcon.Fut.C142_failure_lost_refuted",
    "Falcon.Fut.C142_own_failure_lost_refuted",
    "Falcon.Fut.C142_expected_failure_refuted",
    "Falcon.Fut.C142_streams_lost_refuted"
   ],
   "note": "False of the code: performTest calls init(), which sets the status of the run to 0, its failure count to 0 and the status of every registered test to NONE. So a run with a failing test returns 0 if a later test calls performTest (C142_failure_lost_refuted, where the component is even reported FAILED); a test that has failed by FAIL and then calls performTest passes (C142_own_failure_lost_refuted); a test that expects another one to fail passes but makes the run fail (C142_expected_failure_refuted); a test performed while it runs leaves std::cout in its own buffer (C142_streams_lost_refuted). Proved for all suites: the value says whether something failed since the last such call, and the failure count likewise (C142_status_partial); it is right if nothing had failed when performTest was called (C142_right_partial), in particular if no test calls it (C142_no_calls_partial); the run performs every selected test once and the components' failures are right whatever is called, and a test is listed as failed exactly if the last verdict on it that no reset wiped out is not a pass (C142_run_partial); a test that fails stays failed if it calls performTest no more (C142_own_partial, C142_check_partial), performTest's value is right (C142_value), an unknown name is an error of the calling test (C142_unknown), the verbosity is the one set last (C142_verbosity); the streams are put back unless a test is performed while it is under way (C142_streams_partial). Not modelled: performUnitTests called from inside a test."
  },
  {
   "property": "C143",
   "status": "partial",
   "theorems": [
    "Falcon.Fut.C143_names_partial",
    "Falcon.Fut.C143_lookup",
    "Falcon.Fut.C143_own",
    "Falcon.Fut.C143_all",
    "Falcon.Fut.C143_independent",
    "Falcon.Fut.C143_names_refuted"
   ],
   "note": "Refuted for the name: the name is stored in the test case, so registering it with a second runner under another name renames it in the reports of the first, which still finds it only under the old name. Everything else is proved; C143_names_partial says exactly which name is shown."
  },
  {
   "property": "C144",
   "status": "partial",
   "theorems": [
    "Falcon.Fut.C144_sound_partial",
    "Falcon.Fut.C144_singleton_partial",
    "Falcon.Fut.C144_singleton_refuted",
    "Falcon.Fut.C144_defined_partial",
    "Falcon.Fut.C144_program_partial"
   ],
   "note": "Refuted for singleton(): after main() it goes on handing out the deleted runner. C144_singleton_partial says exactly when it is usable, C144_sound_partial is the equivalence for everything else."
  },
  {
   "property": "C145",
   "status": "partial",
   "theorems": [
    "Falcon.PagedStack.C145_forward",
    "Falcon.PagedStack.C145_reverse_refuted",
    "Falcon.PagedStack.C145_reverse_partial",
    "Falcon.PagedStack.C145_rbegin_partial",
    "Falcon.PagedStack.C145_assign_forward",
    "Falcon.PagedStack.C145_assign_reverse"
   ],
   "note": "False for reverse iterators: they capture the current (from_top) or the last allocated page (rbegin) as their bound, so one push onto a new page makes a loop up to rend() run off the page (C145_reverse_refuted). C145_reverse_partial and C145_rbegin_partial: the loop is right exactly when the stack then needs as many pages as the bound says, otherwise undefined; reading is always right. Proved in full for forward iterators (C145_forward) and for assignment (C145_assign_forward, C145_assign_reverse). Pages are identified by index, so histories that free the bound page of a reverse iterator are excluded."
  },
  {
   "property": "C146",
   "status": "partial",
   "theorems": [
    "Falcon.PagedStack.C146_exactly_once",
    "Falcon.PagedStack.C146_pop_reverse_refuted",
    "Falcon.PagedStack.C146_discard_iter_refuted",
    "Falcon.PagedStack.C146_at_once_partial",
    "Falcon.PagedStack.C146_pop_reverse_partial",
    "Falcon.PagedStack.C146_discard_iter_partial",
    "Falcon.PagedStack.C146_clear_partial"
   ],
   "note": "Exactly-once holds for all histories. The removing call is the destroying call except for pop_reverse and discard(iterator) when a positive number of full pages is left: then the min(n, pageSize) deepest of the removed elements live on (refuted and exact). clear() leaves the objects of the first page along with the elements (C06)."
  },
  {
   "property": "C147",
   "status": "partial",
   "theorems": [
    "Falcon.ItemStack.C147_push_refuted",
    "Falcon.ItemStack.C147_pop_refuted",
    "Falcon.ItemStack.C147_scope_refuted",
    "Falcon.ItemStack.C147_items_partial",
    "Falcon.ItemStack.C147_push_always_dangles_partial",
    "Falcon.ItemStack.C147_pop_always_dangles_partial",
    "Falcon.ItemStack.C147_push_var_always_double_frees_partial"
   ],
   "note": "False for text and BigNum items, because Item is copied bitwise: push(Item(v)), push(x) and pop(x) always end in a use after free or double delete (refuted, and proved for every reached state). Programs that copy only flat items, and use push_emplace, pop(), discard, clear and references for the others, are proved to be free of faults and leaks."
  },
  {
   "property": "C148",
   "status": "partial",
   "theorems": [
    "Falcon.Futex.C148_lock_returns_refuted",
    "Falcon.Futex.C148_finite_use_partial",
    "Falcon.Futex.C148_somebody_gets_it_partial",
    "Falcon.Futex.C148_gets_it_iff_partial"
   ],
   "note": "False of the code: Futex has no queue, so a fair scheduler may give the processor to a waiting thread only while the lock is taken (C148_lock_returns_refuted, for every spin count, without spurious failures). Proved exactly: a waiting thread gets the lock iff it once attempts while nobody is inside; with finite use everybody completes; with endless use somebody gets it again and again."
  },
  {
   "property": "C149",
   "status": "partial",
   "theorems": [
    "Falcon.LogStream.C149_own_line_refuted",
    "Falcon.LogStream.C149_survives_refuted",
    "Falcon.LogStream.C149_file_partial",
    "Falcon.LogStream.C149_throwing_partial",
    "Falcon.LogStream.C149_after_repair_partial"
   ],
   "note": "False of the code in two ways: the message after a repair continues the cut line (C149_own_line_refuted), and with exceptions enabled the failure leaves onMessage and ends the program (C149_survives_refuted). Proved exactly: what is in the file after any history on a stream that does not throw; every message after a repair is written completely and formatted as always; a throwing stream ends the program iff a message meets a bad stream or does not fit."
  },
  {
   "property": "C150",
   "status": "partial",
   "theorems": [
    "Falcon.Log.C150_served_partial",
    "Falcon.Log.C150_reaches_listener_partial",
    "Falcon.Log.C150_served_refuted"
   ],
   "note": "False if the uninitialised m_isTerminated happens to be true (C150_served_refuted; same cause as C52). Proved for every endless execution when it is false."
  },
  {
   "property": "C151",
   "status": "partial",
   "theorems": [
    "Falcon.Log.C151_stop_returns_partial",
    "Falcon.Log.C151_starves_refuted"
   ],
   "note": "False under mere fairness (C151_starves_refuted): a thread waits in stop() for ever for m_mtxThread, which another thread that alternates stop() and start() takes again and again. Proved for every execution in which start() is called only finitely often."
  },
  {
   "property": "C152",
   "status": "partial",
   "theorems": [
    "Falcon.PagedStack.C152_walk_partial",
    "Falcon.PagedStack.C152_locked_partial",
    "Falcon.PagedStack.C152_up_partial",
    "Falcon.PagedStack.C152_down_partial",
    "Falcon.PagedStack.C152_ends_partial",
    "Falcon.PagedStack.C152_rbegin_partial",
    "Falcon.PagedStack.C152_write_partial",
    "Falcon.PagedStack.C152_uses_partial",
    "Falcon.PagedStack.C152_written_partial",
    "Falcon.PagedStack.C152_read_partial",
    "Falcon.PagedStack.C152_assigned_partial",
    "Falcon.PagedStack.C152_elements_partial",
    "Falcon.PagedStack.C152_positions_partial",
    "Falcon.PagedStack.C152_safe_partial",
    "Falcon.PagedStack.C152_refuted"
   ],
   "note": "False of the code: begin() and rend() race with every call that adds or removes an element, rbegin() with every call that changes the number of blocks, *it and a reference from top() with a call that takes the element away (C152_refuted). Exact conditions proved for every unlocked operation: ++ on a forward iterator and * are safe as long as the call leaves the element (C152_safe_partial); -- on a forward iterator and ++ on a reverse one race with any call that adds to or takes from the page; end() never races; locked calls never race with each other."
  },
  {
   "property": "C153",
   "status": "proved",
   "theorems": [
    "Falcon.LogFilter.C153_history",
    "Falcon.LogFilter.C153_only_crash",
    "Falcon.LogFilter.C153_level_survives"
   ],
   "note": ""
  },
  {
   "property": "C154",
   "status": "partial",
   "theorems": [
    "Falcon.Logger.C154_memory_back_partial",
    "Falcon.Logger.C154_incomplete_refuted",
    "Falcon.Logger.C154_block_refuted",
    "Falcon.Logger.C154_terminate_refuted",
    "Falcon.Logger.C154_flow_partial",
    "Falcon.Logger.C154_log_exact_partial",
    "Falcon.Logger.C154_log_filtered_partial",
    "Falcon.Logger.C154_nothing_left_partial",
    "Falcon.Logger.C154_block_exact_partial",
    "Falcon.Logger.C154_later_partial",
    "Falcon.Logger.C154_terminate_exact_partial",
    "Falcon.Logger.C154_block_memory_partial",
    "Falcon.Logger.C154_same_threads"
   ],
   "note": "False of the code in three ways: ~AutoEnd commits during unwinding, so the incomplete message is logged; BlockEnd has no destructor, so the text of a block left by an exception becomes a prefix of the thread's next message; commit() in the noexcept destructor terminates the program when memory runs out. Proved exactly, with what does hold (control flow, nothing left behind when no exception leaves a block)."
  },
  {
   "property": "C155",
   "status": "partial",
   "theorems": [
    "Falcon.FilterRace.C155_level_lost_refuted",
    "Falcon.FilterRace.C155_gap_refuted",
    "Falcon.FilterRace.C155_race_refuted",
    "Falcon.FilterRace.C155_filter_exact_partial",
    "Falcon.FilterRace.C155_clear_exact_partial",
    "Falcon.FilterRace.C155_histories_partial",
    "Falcon.FilterRace.C155_inside_partial",
    "Falcon.FilterRace.C155_no_fault",
    "Falcon.FilterRace.C155_race_exact_partial",
    "Falcon.FilterRace.C155_writes_complete",
    "Falcon.FilterRace.C155_reads_complete"
   ],
   "note": "False of the code: a level() call that falls between categoryFilter's look at the general level and its raise is lost, also behind clearFilter; while a filter is replaced no filter is in force, so messages both filters admit are not written; two threads in categoryFilter, or one in categoryFilter and one in clearFilter, race. Proved: the exact sequential history each schedule is equivalent to (only such level calls missing), what is written at every moment inside a call, that nothing else goes wrong, and that these are the only racing pairs."
  },
  {
   "property": "C156",
   "status": "partial",
   "theorems": [
    "Falcon.Fut.C156_status_refuted",
    "Falcon.Fut.C156_xml_refuted",
    "Falcon.Fut.C156_only_fault",
    "Falcon.Fut.C156_exact_partial",
    "Falcon.Fut.C156_first_run_partial",
    "Falcon.Fut.C156_checks_only",
    "Falcon.Fut.C156_xml_partial",
    "Falcon.Fut.C156_report_partial",
    "Falcon.Fut.C156_performTest_partial",
    "Falcon.Fut.C156_main"
   ],
   "note": "False of the code (status(FAIL) without a place; a throwing test with an XML report): the line number printed was never set. Proved: this is the only fault a run can have (C156_only_fault), exactly when it happens without and with a report, for first runs and for any history, for performTest and through main; tests that only use checks are always fine without a report."
  },
  {
   "property": "C157",
   "status": "partial",
   "theorems": [
    "Falcon.Mem.C157_items_partial",
    "Falcon.Mem.C157_item_fails_partial",
    "Falcon.Mem.C157_flat_partial",
    "Falcon.Mem.C157_toString_partial",
    "Falcon.Mem.C157_item_dies_partial",
    "Falcon.Mem.C157_enough",
    "Falcon.Mem.C157_code_partial",
    "Falcon.Mem.C157_codes_partial",
    "Falcon.Mem.C157_compile_partial",
    "Falcon.Mem.C157_compile_plain_partial",
    "Falcon.Mem.C157_compile_bad_partial",
    "Falcon.Mem.C157_number_refuted",
    "Falcon.Mem.C157_toString_refuted",
    "Falcon.Mem.C157_code_refuted",
    "Falcon.Mem.C157_compile_refuted"
   ],
   "note": "False of the code: toString is noexcept (program ends), Code's constructors are noexcept (program ends), a number longer than the stream's inline buffer is returned cut short without notice, and compile returns code for a part of the word. Proved exactly when each happens, and that constructions of items and assignments of code objects are safe."
  },
  {
   "property": "C158",
   "status": "partial",
   "theorems": [
    "Falcon.UTS.C158_accesses_partial",
    "Falcon.UTS.C158_never_null_partial",
    "Falcon.UTS.C158_no_more_partial",
    "Falcon.UTS.C158_one_each_partial",
    "Falcon.UTS.C158_stable_partial",
    "Falcon.UTS.C158_first_alone_partial",
    "Falcon.UTS.C158_race_exact_partial",
    "Falcon.UTS.C158_refuted",
    "Falcon.UTS.C158_all_different_refuted",
    "Falcon.UTS.C158_race_refuted",
    "Falcon.UTS.C158_accesses_exact"
   ],
   "note": "False of the code when first calls overlap: they can return different runners (any number of them), and race on the static pointer. Proved exactly when a race is possible, and that everything holds once one call has returned with no other under way, in particular if the first call is made before threads are started."
  },
  {
   "property": "C159",
   "status": "partial",
   "theorems": [
    "Falcon.PSNested.C159_push_in_copy_refuted",
    "Falcon.PSNested.C159_top_in_destructor_refuted",
    "Falcon.PSNested.C159_pop_in_copy_refuted",
    "Falcon.PSNested.C159_exact_partial",
    "Falcon.PSNested.C159_otherwise_partial",
    "Falcon.PSNested.C159_as_expected",
    "Falcon.PSNested.C159_queries",
    "Falcon.PSNested.C159_cleanup",
    "Falcon.PSNested.C159_locked_refuted",
    "Falcon.PSNested.C159_silent"
   ],
   "note": "False of the code in general: the calls are not re-entrant in the middle of push_back/pop_back. C159_exact_partial proves exactly which trees of calls work, for all stacks; C159_queries that empty() and size() are always fine; C159_locked_refuted that with a Futex no nested call returns."
  },
  {
   "property": "C160",
   "status": "proved",
   "theorems": [
    "Falcon.LoggerJoint.C160_any_time",
    "Falcon.LoggerJoint.C160_complete"
   ],
   "note": ""
  },
  {
   "property": "C161",
   "status": "partial",
   "theorems": [
    "Falcon.LoggerJoint.C161_eventually_partial",
    "Falcon.LoggerJoint.C161_uninitialised_refuted"
   ],
   "note": "False of the code as it stands: the constructor of the log system does not initialise m_isTerminated, and if that memory happens to be non-zero no line is ever written (C161_uninitialised_refuted). With the flag initialised the full property is proved (C161_eventually_partial)."
  },
  {
   "property": "C162",
   "status": "partial",
   "theorems": [
    "Falcon.FutThreads.C162_race_iff_partial",
    "Falcon.FutThreads.C162_as_sequential_partial",
    "Falcon.FutThreads.C162_verdict_partial",
    "Falcon.FutThreads.C162_terminates_iff_partial",
    "Falcon.FutThreads.C162_unjoined_partial",
    "Falcon.FutThreads.C162_two_threads_refuted",
    "Falcon.FutThreads.C162_early_return_refuted",
    "Falcon.FutThreads.C162_exception_refuted"
   ],
   "note": "False as it stands: `C162_two_threads_refuted` (two threads whose checks fail race on the members of the test case), `C162_early_return_refuted` (EXPECT_EQ that fails between start and join of a thread leaves test() with a joinable std::thread: std::terminate, all results are lost), `C162_exception_refuted`. What holds: a race exists exactly under `Conflict` (C162_race_iff_partial); without it, and with all threads joined, every schedule ends with the verdict of the sequential calls; exactly when the program is terminated."
  },
  {
   "property": "C163",
   "status": "partial",
   "theorems": [
    "Falcon.Log.C163_latency_partial",
    "Falcon.Log.C163_log_never_waits",
    "Falcon.Log.C163_latency_refuted"
   ],
   "note": "false of the code because m_isTerminated is not initialised (C163_latency_refuted); C163_latency_partial is the exact bound for the case that it happened to be false. C163_log_never_waits holds without condition."
  },
  {
   "property": "C164",
   "status": "proved",
   "theorems": [
    "Falcon.LogM.C164_atomic",
    "Falcon.LogM.C164_all_atomic",
    "Falcon.LogM.C164_transfer",
    "Falcon.LogM.C164_fifo",
    "Falcon.LogM.C164_no_deadlock",
    "Falcon.LogM.C164_holder_moves",
    "Falcon.LogM.C164_held_short",
    "Falcon.LogM.C164_one_mutex",
    "Falcon.LogM.C164_released",
    "Falcon.LogM.C164_race_free",
    "Falcon.LogM.C164_writes_complete",
    "Falcon.LogM.C164_reads_complete"
   ],
   "note": ""
  },
  {
   "property": "C165",
   "status": "proved",
   "theorems": [
    "Falcon.LogM.C165_comes_to_rest",
    "Falcon.LogM.C165_at_rest",
    "Falcon.LogM.C165_reaches_rest",
    "Falcon.LogM.C165_all_served"
   ],
   "note": ""
  },
  {
   "property": "C166",
   "status": "proved",
   "theorems": [
    "Falcon.LogM.C166_work",
    "Falcon.LogM.C166_per_call",
    "Falcon.LogM.C166_idle"
   ],
   "note": ""
  },
  {
   "property": "C167",
   "status": "partial",
   "theorems": [
    "Falcon.LogM.C167_same_rules_partial",
    "Falcon.LogM.C167_order_partial",
    "Falcon.LogM.C167_unlocked_partial",
    "Falcon.LogM.C167_survives_partial",
    "Falcon.LogM.C167_no_deadlock_partial",
    "Falcon.LogM.C167_returns_partial",
    "Falcon.LogM.C167_stop_inside_refuted",
    "Falcon.LogM.C167_deadlock_refuted"
   ],
   "note": "Refuted as stated: a listener that calls stop() makes the logging thread join itself, which ends the program (C167_stop_inside_refuted); one that calls start() while another thread is in stop() deadlocks with it for ever (C167_deadlock_refuted). Everything that does not depend on this is proved for all listeners (same rules, order, no mutex held, at most one mutex, bounded return); survival and freedom from deadlock for all listeners that leave start() and stop() alone and do not throw."
  },
  {
   "property": "C168",
   "status": "proved",
   "theorems": [
    "Falcon.LogM.C168_deliveries",
    "Falcon.LogM.C168_listeners",
    "Falcon.LogM.C168_work",
    "Falcon.LogM.C168_finite"
   ],
   "note": ""
  },
  {
   "property": "C169",
   "status": "proved",
   "theorems": [
    "Falcon.LogM.C169_waits",
    "Falcon.LogM.C169_next",
    "Falcon.LogM.C169_tight"
   ],
   "note": ""
  },
  {
   "property": "C170",
   "status": "proved",
   "theorems": [
    "Falcon.LogM.C170_called",
    "Falcon.LogM.C170_in_order",
    "Falcon.LogM.C170_all"
   ],
   "note": ""
  },
  {
   "property": "C171",
   "status": "partial",
   "theorems": [
    "Falcon.PSRemove.C171_order_refuted",
    "Falcon.PSRemove.C171_discard_exact_partial",
    "Falcon.PSRemove.C171_clear_exact_partial",
    "Falcon.PSRemove.C171_pop_exact_partial"
   ],
   "note": "False of the code: a page is emptied from its bottom up and its end is lowered afterwards (C171_order_refuted). C171_discard_exact_partial and C171_clear_exact_partial give the exact order and what is found for every stack, and exactly when the order is from the top down; the destructors find the stack without their elements only if nothing is removed. C171_pop_exact_partial: pop() is right except for top() when the element was the first of a page other than the first."
  }
 ]
}