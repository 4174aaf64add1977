{
 "claims": [
  {
   "property": "C01",
   "status": "proved",
   "theorems": [
    "Thingbuf.C01_fifo",
    "Thingbuf.C01_fifo_once",
    "Thingbuf.Chan.C45_received",
    "Thingbuf.Chan.C45_received_fine"
   ],
   "note": ""
  },
  {
   "property": "C02",
   "status": "proved",
   "theorems": [
    "Thingbuf.C02_capacity",
    "Thingbuf.Chan.C02_channel_capacity"
   ],
   "note": ""
  },
  {
   "property": "C03",
   "status": "proved",
   "theorems": [
    "Thingbuf.C03_full_truthful",
    "Thingbuf.Chan.C03_try_send_full",
    "Thingbuf.Chan.C03_try_send_full_fine"
   ],
   "note": ""
  },
  {
   "property": "C04",
   "status": "proved",
   "theorems": [
    "Thingbuf.C04_empty_truthful",
    "Thingbuf.C04_empty_despite_completed_push",
    "Thingbuf.Chan.C04_try_recv_empty",
    "Thingbuf.Chan.C04_poll_pending",
    "Thingbuf.Chan.C04_try_recv_empty_fine",
    "Thingbuf.Chan.C04_poll_pending_fine"
   ],
   "note": "The second theorem is a witness that a stronger reading (None implies no completed element in the queue) is false."
  },
  {
   "property": "C05",
   "status": "proved",
   "theorems": [
    "Thingbuf.C05_exclusive",
    "Thingbuf.C05_claim_exclusive",
    "Thingbuf.Chan.C05_channel_refs",
    "Thingbuf.Chan.C05_channel_exclusive",
    "Thingbuf.Chan.C05_channel_refers"
   ],
   "note": ""
  },
  {
   "property": "C06",
   "status": "proved",
   "theorems": [
    "Thingbuf.C06_in_bounds",
    "Thingbuf.C06_slots_in_bounds",
    "Thingbuf.C06_sized_64",
    "Thingbuf.C06_sized_32"
   ],
   "note": ""
  },
  {
   "property": "C07",
   "status": "proved",
   "theorems": [
    "Thingbuf.C07_initialised",
    "Thingbuf.C07_reads_last_write"
   ],
   "note": ""
  },
  {
   "property": "C08",
   "status": "partial",
   "theorems": [
    "Thingbuf.C08_drop_exact_partial",
    "Thingbuf.C08_drop_once",
    "Thingbuf.C08_uninit_drop_after_panic",
    "Thingbuf.C08_leak_after_wrap",
    "Thingbuf.C08_leak_exact_after_wrap"
   ],
   "note": "The full property is false of the code: after a panic inside new_element the drop reads an uninitialised slot, and in the first lap after a wrap of the position counter the drop leaks all elements whose slots were not used again (both proved, the second exactly: C08_leak_exact_after_wrap). Proved for all other histories."
  },
  {
   "property": "C09",
   "status": "proved",
   "theorems": [
    "Thingbuf.C09_len"
   ],
   "note": ""
  },
  {
   "property": "C10",
   "status": "proved",
   "theorems": [
    "Thingbuf.C10_recycle",
    "Thingbuf.C10_create",
    "Thingbuf.C10_create_again_after_wrap"
   ],
   "note": "The bound on creations is for histories shorter than one wrap of the position counter."
  },
  {
   "property": "C11",
   "status": "proved",
   "theorems": [
    "Thingbuf.C11_no_internal_panic"
   ],
   "note": ""
  },
  {
   "property": "C12",
   "status": "proved",
   "theorems": [
    "Thingbuf.C12_close_final"
   ],
   "note": ""
  },
  {
   "property": "C13",
   "status": "proved",
   "theorems": [
    "Thingbuf.C13_drained_before_closed"
   ],
   "note": ""
  },
  {
   "property": "C14",
   "status": "proved",
   "theorems": [
    "Thingbuf.C14_producer_order",
    "Thingbuf.Chan.C14_channel_order"
   ],
   "note": ""
  },
  {
   "property": "C15",
   "status": "proved",
   "theorems": [
    "Thingbuf.C15_push",
    "Thingbuf.C15_pop"
   ],
   "note": ""
  },
  {
   "property": "C16",
   "status": "partial",
   "theorems": [
    "Thingbuf.C16_push_hangs",
    "Thingbuf.C16_pop_hangs",
    "Thingbuf.C16_push_returns_partial",
    "Thingbuf.C16_pop_returns_partial",
    "Thingbuf.C16_hang_own_push",
    "Thingbuf.C16_hang_held_pop"
   ],
   "note": "The full property is false of the code; the negation is proved (a push or pop spins forever while the slot it needs is held). The _partial theorems give the exact condition under which a call running alone returns."
  },
  {
   "property": "C17",
   "status": "proved",
   "theorems": [
    "Thingbuf.C17_sequential",
    "Thingbuf.C17_sequential_run"
   ],
   "note": ""
  },
  {
   "property": "C18",
   "status": "proved",
   "theorems": [
    "Thingbuf.RA.C18_race_free",
    "Thingbuf.RA.C18_race_free_orders",
    "Thingbuf.RA.C18_accesses_ordered",
    "Thingbuf.RA.C18_publication",
    "Thingbuf.RA.C18_hb_order",
    "Thingbuf.RA.C18_reads_last_write",
    "Thingbuf.RA.C18_pop_acquire_needed",
    "Thingbuf.RA.C18_drop_release_needed",
    "Thingbuf.RA.C18_push_acquire_needed",
    "Thingbuf.RA.C18_fifo",
    "Thingbuf.RA.C18_fifo_once",
    "Thingbuf.RA.C18_capacity",
    "Thingbuf.RA.C18_full_truthful",
    "Thingbuf.RA.C18_exclusive",
    "Thingbuf.RA.C18_no_crash",
    "Thingbuf.RA.C18_initialised",
    "Thingbuf.RA.C18_recycle",
    "Thingbuf.RA.C18_close_final",
    "Thingbuf.RA.C18_drained_before_closed",
    "Thingbuf.RA.C18_producer_order",
    "Thingbuf.RA.C18_empty",
    "Thingbuf.RA.C18_no_false_empty",
    "Thingbuf.RA.C18_push_after_close"
   ],
   "note": "Release/acquire view machine running the same step functions as the SC model, arbitrary orderings as a parameter; race freedom, publication and value correctness for the orderings of the source; racy runs when one of the three orderings that matter is weakened; C01-C03, C05-C07, C10-C14 again under stale loads. Excludes executions in which a pending call has read a message older than a period of the position counter. A call may miss what other threads do, but not what happened before it: Empty/Closed of pop and Full of push (after close) are bounded by what happened before the call. For len see C71."
  },
  {
   "property": "C19",
   "status": "proved",
   "theorems": [
    "Thingbuf.Cell.C19_exclusive"
   ],
   "note": "With the feature std."
  },
  {
   "property": "C20",
   "status": "proved",
   "theorems": [
    "Thingbuf.Cell.C20_registered_is_woken",
    "Thingbuf.Cell.C20_quiescent",
    "Thingbuf.Cell.C20_two_receivers_lose_wakeup",
    "Thingbuf.Cell.C20_wait_is_registered"
   ],
   "note": "With the feature std and when no debug assertion failed (the exception is Cell.C23_assertion_fails). The third theorem shows that the hypothesis of a single receiver is needed."
  },
  {
   "property": "C21",
   "status": "proved",
   "theorems": [
    "Thingbuf.Cell.C21_closed_sticks",
    "Thingbuf.Cell.C21_closed_truthful",
    "Thingbuf.Cell.C21_close_wakes"
   ],
   "note": "With the feature std."
  },
  {
   "property": "C22",
   "status": "proved",
   "theorems": [
    "Thingbuf.Cell.C22_latest_waker",
    "Thingbuf.Cell.C22_exactly"
   ],
   "note": "With the feature std."
  },
  {
   "property": "C23",
   "status": "partial",
   "theorems": [
    "Thingbuf.Cell.C23_not_wedged_partial",
    "Thingbuf.Cell.C23_closed_partial",
    "Thingbuf.Cell.C23_assertions",
    "Thingbuf.Cell.C23_no_std_wedges",
    "Thingbuf.Cell.C23_assertion_fails"
   ],
   "note": "False of the code without the feature std (the cell stays locked: C23_no_std_wedges) and, with debug assertions, when a notification arrives while the factory panics (C23_assertion_fails). Proved with std: after any history with panics, once all calls have returned, waiting and notifying work."
  },
  {
   "property": "C24",
   "status": "partial",
   "theorems": [
    "Thingbuf.Queue.C24_fifo",
    "Thingbuf.Queue.C24_no_overtaking",
    "Thingbuf.Queue.C24_earlier_sees_it",
    "Thingbuf.Queue.C24_wakes_in_order_partial",
    "Thingbuf.Queue.C24_wakes_swapped",
    "Thingbuf.Queue.C24_fifo_fine",
    "Thingbuf.Queue.C24_no_overtaking_fine",
    "Thingbuf.Queue.C24_earlier_sees_it_fine",
    "Thingbuf.Queue.C24_wakes_in_order_fine_partial"
   ],
   "note": "Waiting senders are taken in FIFO order in every interleaving. The wake-ups themselves are in that order if notify calls do not overlap; the negation for overlapping calls is proved (C24_wakes_swapped)."
  },
  {
   "property": "C25",
   "status": "partial",
   "theorems": [
    "Thingbuf.Queue.C25_call",
    "Thingbuf.Queue.C25_list_refines",
    "Thingbuf.Queue.C25_traversal",
    "Thingbuf.Queue.C25_list_is_queue_fine",
    "Thingbuf.Queue.C25_live_partial",
    "Thingbuf.Queue.C29_dangling",
    "Thingbuf.Queue.C28_false_cancel"
   ],
   "note": "The pointers always represent a finite duplicate-free sequence, and every operation does to it what the statement says: proved for all operation sequences and, in the concurrent model with the two-step dequeue, in every reachable state. That all nodes of the sequence are live is proved for waiting nodes; it is false for the nodes of timed-out blocking sends (C29) and for a node that a notify is in the middle of dequeuing (C28)."
  },
  {
   "property": "C26",
   "status": "proved",
   "theorems": [
    "Thingbuf.Queue.C26_notify",
    "Thingbuf.Queue.C26_notify_alone",
    "Thingbuf.Queue.C26_one_wake",
    "Thingbuf.Queue.C26_store_if_none_waits",
    "Thingbuf.Queue.C26_consumed_once",
    "Thingbuf.Queue.C26_start_notified",
    "Thingbuf.Queue.C26_cont_notified",
    "Thingbuf.Queue.C26_stored_not_lost",
    "Thingbuf.Queue.C26_notification_lost",
    "Thingbuf.Queue.C26_notification_lost_by_cancel",
    "Thingbuf.Queue.C26_stored_overwritten",
    "Thingbuf.Queue.C26_wait_is_queued",
    "Thingbuf.Queue.C26_notify_fine",
    "Thingbuf.Queue.C26_notify_alone_fine",
    "Thingbuf.Queue.C26_one_wake_fine",
    "Thingbuf.Queue.C26_store_if_none_waits_fine",
    "Thingbuf.Queue.C26_consumed_once_fine",
    "Thingbuf.Queue.C26_start_notified_fine",
    "Thingbuf.Queue.C26_cont_notified_fine",
    "Thingbuf.Queue.C26_stored_not_lost_fine",
    "Thingbuf.Queue.C26_wait_is_queued_fine"
   ],
   "note": "For the stated quantifier (one RecvRef dropped at a time, no cancellation). Outside it the claim is false; witnesses are proved."
  },
  {
   "property": "C27",
   "status": "proved",
   "theorems": [
    "Thingbuf.Queue.C27_all_woken",
    "Thingbuf.Queue.C27_no_wait_after",
    "Thingbuf.Queue.C27_start_closed",
    "Thingbuf.Queue.C27_cont_closed",
    "Thingbuf.Queue.C27_all_woken_fine",
    "Thingbuf.Queue.C27_no_wait_after_fine",
    "Thingbuf.Queue.C27_start_closed_fine",
    "Thingbuf.Queue.C27_cont_closed_fine"
   ],
   "note": "Every number of senders, every interleaving. The drop of a Receiver by a panicking thread is excluded: it does not close the queue (see C34)."
  },
  {
   "property": "C28",
   "status": "partial",
   "theorems": [
    "Thingbuf.Queue.C28_no_access_after_free_partial",
    "Thingbuf.Queue.C28_safe_if_woken_first_partial",
    "Thingbuf.Queue.C28_no_pointer_partial",
    "Thingbuf.Queue.C28_others_unchanged_fine",
    "Thingbuf.Queue.C28_false_cancel",
    "Thingbuf.Queue.C28_false_poll",
    "Thingbuf.Queue.C28_false_close",
    "Thingbuf.Queue.fine_refines",
    "Thingbuf.Queue.fine_complete",
    "Thingbuf.Chan.C28_access_after_end_partial",
    "Thingbuf.Chan.C28_safe_if_woken_first_partial",
    "Thingbuf.Chan.C28_false_if_cancelled",
    "Thingbuf.Chan.C28_false_if_polled",
    "Thingbuf.Chan.C28_false_if_closed",
    "Thingbuf.Chan.fine_refines",
    "Thingbuf.Chan.fine_complete",
    "Thingbuf.Chan.fine_transfer",
    "Thingbuf.Chan.C28_false_if_timed_out"
   ],
   "note": "The claim is false of the code: List::dequeue publishes the new state of a node before its last accesses to it, and the owner may free the node in between. Proved: the negation (three ways), that the order of the other waiters is unchanged, that no pointer to the node is left once no dequeue is in progress, and that an access to a freed node can only come from a call that took the node before it was freed and has not woken it yet. The same at the level of the API, for the channel with the two-step dequeue: a send future cancelled, or a send that returns after a spurious poll or unpark, or with Closed, in that gap is accessed afterwards (negations); every access to the node of a send that is over, other than one that timed out (see C29), comes from that gap; and a send that ends only after its waker was called is never accessed."
  },
  {
   "property": "C29",
   "status": "partial",
   "theorems": [
    "Thingbuf.Queue.C29_timeout_partial",
    "Thingbuf.Queue.C29_dangling",
    "Thingbuf.Queue.C29_use_after_free",
    "Thingbuf.Queue.C29_timeout_fine_partial",
    "Thingbuf.Queue.C29_false_gap",
    "Thingbuf.Chan.C28_false_if_timed_out"
   ],
   "note": "The claim is false of the code: the node of a timed-out blocking send stays in the list and is accessed after its frame is gone; even if it was just taken, the call that took it may still access it (C29_false_gap). Proved: the negations, and that there is no other way. At the level of the API: Chan.C28_false_if_timed_out."
  },
  {
   "property": "C30",
   "status": "partial",
   "theorems": [
    "Thingbuf.Queue.C30_assertions_partial",
    "Thingbuf.Queue.C30_two_notifies",
    "Thingbuf.Queue.C30_cancel",
    "Thingbuf.Queue.C30_assertions_fine_partial",
    "Thingbuf.Queue.C30_two_notifies_fine"
   ],
   "note": "The claim is false of the code: the assertion of notify fails if the list is emptied between its load and its lock. Proved: the negation, and that no other assertion can fail."
  },
  {
   "property": "C31",
   "status": "proved",
   "theorems": [
    "Thingbuf.Chan.C31_no_lost_wakeup",
    "Thingbuf.Chan.C31_no_lost_wakeup_fine"
   ],
   "note": "Any number of senders, any interleaving; the receiver has not been dropped."
  },
  {
   "property": "C32",
   "status": "partial",
   "theorems": [
    "Thingbuf.Chan.C32_sleeper_has_message_partial",
    "Thingbuf.Chan.C32_one_drop_at_a_time_partial",
    "Thingbuf.Chan.C32_blocking_partial",
    "Thingbuf.Chan.C32_receipt_wakes_partial",
    "Thingbuf.Chan.C32_false_if_cancelled",
    "Thingbuf.Chan.C32_false_if_drops_overlap",
    "Thingbuf.Chan.C32_sleeper_has_message_fine_partial",
    "Thingbuf.Chan.C32_one_drop_at_a_time_fine_partial",
    "Thingbuf.Chan.C32_blocking_fine_partial",
    "Thingbuf.Chan.C32_receipt_wakes_fine_partial",
    "Thingbuf.Chan.C32_false_if_timed_out",
    "Thingbuf.Chan.C32_async_partial",
    "Thingbuf.Chan.C32_async_fine_partial"
   ],
   "note": "False as stated: the negation is proved three times (a woken send future that is dropped, or a woken send_timeout that returns Timeout, does not pass its wake-up on; concurrent RecvRef drops in a release build throw a stored notification away). Proved for all runs with none of these: in particular for every client that drops RecvRefs one at a time, cancels no send and has none that times out, whatever the interleaving with the senders; and every drop of a RecvRef then wakes a waiting sender."
  },
  {
   "property": "C33",
   "status": "partial",
   "theorems": [
    "Thingbuf.Chan.C33_closed_truthful",
    "Thingbuf.Chan.C33_closed_after_drop_partial",
    "Thingbuf.Chan.C33_waiting_gets_closed_partial",
    "Thingbuf.Chan.C33_waiters_woken_partial",
    "Thingbuf.Chan.C33_false_if_dropped_by_panic",
    "Thingbuf.Queue.C33_closed_truthful",
    "Thingbuf.Queue.C33_closed_truthful_fine",
    "Thingbuf.Chan.C33_closed_truthful_fine",
    "Thingbuf.Chan.C33_closed_after_drop_fine_partial",
    "Thingbuf.Chan.C33_waiting_gets_closed_fine_partial",
    "Thingbuf.Chan.C33_waiters_woken_fine_partial"
   ],
   "note": "Closed is returned only after the Receiver's drop began: proved without restriction. After the drop every send returns Closed, and waiting senders are woken: proved unless the Receiver is dropped by a panicking thread, in which case it is false (Core::close does nothing while panicking): C33_false_if_dropped_by_panic. A waiting send_timeout may also return Timeout instead."
  },
  {
   "property": "C34",
   "status": "partial",
   "theorems": [
    "Thingbuf.Chan.C34_none_only_if_senders_dropped",
    "Thingbuf.Chan.C34_none_means_drained_partial",
    "Thingbuf.Chan.C34_try_recv_closed",
    "Thingbuf.Chan.C34_woken_by_last_drop_partial",
    "Thingbuf.Chan.C34_never_pending_partial",
    "Thingbuf.Chan.C34_drained_returns_none_partial",
    "Thingbuf.Chan.C34_false_if_dropped_by_panic",
    "Thingbuf.Chan.C34_false_try_recv_after_panic",
    "Thingbuf.Chan.C34_false_if_leaked",
    "Thingbuf.Chan.C34_none_only_if_senders_dropped_fine",
    "Thingbuf.Chan.C34_none_means_drained_fine_partial",
    "Thingbuf.Chan.C34_try_recv_closed_fine",
    "Thingbuf.Chan.C34_woken_by_last_drop_fine_partial",
    "Thingbuf.Chan.C34_never_pending_fine_partial",
    "Thingbuf.Chan.C34_drained_returns_none_fine_partial"
   ],
   "note": "False as stated: the negation is proved (last Sender dropped while panicking: blocking receiver is not woken, async try_recv never says Closed; leaked SendRef: recv returns None although a sent message is left). Proved otherwise."
  },
  {
   "property": "C35",
   "status": "proved",
   "theorems": [
    "Thingbuf.C35_failed_send",
    "Thingbuf.C35_value_back",
    "Thingbuf.Chan.C35_channel_failed_send"
   ],
   "note": ""
  },
  {
   "property": "C36",
   "status": "partial",
   "theorems": [
    "Thingbuf.Tx.C36_is_closed_partial",
    "Thingbuf.Tx.C36_is_closed_wrong"
   ],
   "note": "The claim is false of the code: is_closed() is also true with exactly one living sender (second theorem). The first says what it does compute."
  },
  {
   "property": "C37",
   "status": "partial",
   "theorems": [
    "Thingbuf.C37_predicates_partial",
    "Thingbuf.C37_is_closed_inverted"
   ],
   "note": "False of the code for SendTimeoutError/TrySendError::is_closed, which is inverted (second theorem)."
  },
  {
   "property": "C38",
   "status": "partial",
   "theorems": [
    "Thingbuf.Timeout.C38_recv_timeout_not_early",
    "Thingbuf.Timeout.C38_recv_timeout_bounded",
    "Thingbuf.Timeout.C38_recv_timeout_consumes",
    "Thingbuf.Timeout.C38_recv_waits_longer_than_timeout",
    "Thingbuf.Timeout.C38_send_timeout_not_early",
    "Thingbuf.Timeout.C38_send_timeout_bounded_partial",
    "Thingbuf.Timeout.C38_send_timeout_unbounded"
   ],
   "note": "Holds for recv_timeout. The upper bound is false for send_timeout, which does not look at the clock when it is notified and finds the channel full (last theorem)."
  },
  {
   "property": "C39",
   "status": "proved",
   "theorems": [
    "Thingbuf.Split.C39_split_once",
    "Thingbuf.Split.C39_one_pair"
   ],
   "note": ""
  },
  {
   "property": "C40",
   "status": "partial",
   "theorems": [
    "Thingbuf.Tx.C40_close_at_last_drop",
    "Thingbuf.Tx.C40_closed_after_last_drop_partial",
    "Thingbuf.Tx.C40_panicking_drop_never_closes"
   ],
   "note": "False of the blocking channel when the last sender is dropped by an unwinding thread (third theorem); everything else is proved."
  },
  {
   "property": "C41",
   "status": "proved",
   "theorems": [
    "Thingbuf.C41_with_capacity",
    "Thingbuf.C41_setters"
   ],
   "note": ""
  },
  {
   "property": "C42",
   "status": "proved",
   "theorems": [
    "Thingbuf.C42_backoff_bounded",
    "Thingbuf.C42_backoff_monotone",
    "Thingbuf.C42_backoff_done"
   ],
   "note": ""
  },
  {
   "property": "C43",
   "status": "proved",
   "theorems": [
    "Thingbuf.Spin.C43_mutual_exclusion",
    "Thingbuf.Spin.C43_solo_acquire",
    "Thingbuf.Spin.C43_no_steal"
   ],
   "note": ""
  },
  {
   "property": "C44",
   "status": "partial",
   "theorems": [
    "Thingbuf.C44_heap_rejects_zero_partial",
    "Thingbuf.C44_static_zero_out_of_bounds"
   ],
   "note": "False of the static constructors (second theorem)."
  },
  {
   "property": "C45",
   "status": "proved",
   "theorems": [
    "Thingbuf.Chan.C45_cancelled_sends_nothing",
    "Thingbuf.Chan.C45_one_message_per_send",
    "Thingbuf.Chan.C45_nothing_taken_is_lost",
    "Thingbuf.Chan.C45_received",
    "Thingbuf.Chan.C45_cancelled_sends_nothing_fine",
    "Thingbuf.Chan.C45_one_message_per_send_fine",
    "Thingbuf.Chan.C45_nothing_taken_is_lost_fine",
    "Thingbuf.Chan.C45_received_fine",
    "Thingbuf.Chan.C45_timed_out_sends_nothing",
    "Thingbuf.Chan.C45_timed_out_sends_nothing_fine"
   ],
   "note": "Proved on the channel model: cancelled send futures never reserved a slot, each slot belongs to exactly one uncancelled send call, everything dequeued was handed to the user, and the i-th message received is the value of the i-th reservation."
  },
  {
   "property": "C46",
   "status": "partial",
   "theorems": [
    "Thingbuf.Chan.C46_waits_when_full_partial",
    "Thingbuf.Chan.C46_never_waits_again",
    "Thingbuf.Chan.C46_busy_loop",
    "Thingbuf.Chan.C46_false_spins",
    "Thingbuf.Chan.C46_waits_when_full_fine_partial",
    "Thingbuf.Chan.C46_never_waits_again_fine"
   ],
   "note": "False as stated: the negation is proved (a blocking send that was woken and lost the free slot never queues or parks again and can spin any number of rounds with nothing else happening). Proved otherwise: before it is first notified, every further attempt is preceded by a stored notification or by parking and being taken from the wait queue."
  },
  {
   "property": "C47",
   "status": "proved",
   "theorems": [
    "Thingbuf.Queue.C47_woken_is_recorded",
    "Thingbuf.Queue.C47_start_records",
    "Thingbuf.Queue.C47_cont_records",
    "Thingbuf.Queue.C47_woken_is_recorded_fine",
    "Thingbuf.Queue.C47_start_records_fine",
    "Thingbuf.Queue.C47_cont_records_fine"
   ],
   "note": ""
  },
  {
   "property": "C48",
   "status": "proved",
   "theorems": [
    "Thingbuf.Chan.C48_send_never_full",
    "Thingbuf.Chan.C48_try_send_never_sleeps",
    "Thingbuf.Chan.C48_send_has_slot",
    "Thingbuf.Chan.C48_send_never_full_fine",
    "Thingbuf.Chan.C48_try_send_never_sleeps_fine",
    "Thingbuf.Chan.C48_send_has_slot_fine",
    "Thingbuf.Chan.C48_sleeps_only_if_full",
    "Thingbuf.Chan.C48_sleeps_after_attempt",
    "Thingbuf.Chan.C48_sleeps_only_if_full_fine",
    "Thingbuf.Chan.C48_sleeps_after_attempt_fine",
    "Thingbuf.Chan.C48_times_out_only_if_full",
    "Thingbuf.Chan.C48_times_out_only_if_full_fine"
   ],
   "note": ""
  },
  {
   "property": "C49",
   "status": "proved",
   "theorems": [
    "Thingbuf.Chan.C49_drop_send_ref_wait_free",
    "Thingbuf.Chan.C49_drop_send_ref_can_step",
    "Thingbuf.Chan.C49_last_drop_wait_free",
    "Thingbuf.Chan.C49_last_drop_can_step",
    "Thingbuf.Chan.C49_drop_recv_ref_can_end",
    "Thingbuf.Chan.C49_drop_receiver_can_end",
    "Thingbuf.Chan.C49_cancel_can_end",
    "Thingbuf.Chan.C49_drop_send_ref_wait_free_fine",
    "Thingbuf.Chan.C49_last_drop_wait_free_fine",
    "Thingbuf.Chan.C49_drop_recv_ref_can_end_fine",
    "Thingbuf.Chan.C49_drop_receiver_can_end_fine",
    "Thingbuf.Chan.C49_cancel_can_end_fine"
   ],
   "note": "The lock of the wait queue is a mutex that its holder releases; user code run by wakers is assumed to return."
  },
  {
   "property": "C50",
   "status": "proved",
   "theorems": [
    "Thingbuf.Queue.C50_no_deadlock",
    "Thingbuf.Queue.C50_alone",
    "Thingbuf.Queue.C50_no_deadlock_fine",
    "Thingbuf.Queue.C50_alone_fine"
   ],
   "note": "A failed debug assertion counts as an end (see C30, C32 for when that happens)."
  },
  {
   "property": "C51",
   "status": "proved",
   "theorems": [
    "Thingbuf.RA.C51_waker_race_free_orders",
    "Thingbuf.RA.C51_waker_race_free",
    "Thingbuf.RA.C51_element_race_free",
    "Thingbuf.RA.C51_wait_registers",
    "Thingbuf.RA.C51_no_assert",
    "Thingbuf.RA.C51_notified",
    "Thingbuf.RA.C51_no_lost_wakeup",
    "Thingbuf.RA.C51_close_wakes",
    "Thingbuf.RA.C51_closed_known",
    "Thingbuf.RA.C51_closed_truthful",
    "Thingbuf.RA.C51_closed_drains",
    "Thingbuf.RA.C51_start_acquire_needed",
    "Thingbuf.RA.C51_clear_release_needed",
    "Thingbuf.RA.C51_signal_acquire_needed",
    "Thingbuf.RA.C51_unlock_release_needed",
    "Thingbuf.RA.C51_reset_release_needed",
    "Thingbuf.RA.C51_signal_release_needed",
    "Thingbuf.RA.C51_fail_acquire_needed",
    "Thingbuf.RA.C51_reset_acquire_needed"
   ],
   "note": "For the standard-library build (with it, panics of the waker's clone are caught). The receiver's calls are assumed to come one after the other (finding: they need not, through &Receiver). The wait queue of the senders has its own machine (C62), and both are put together in C63."
  },
  {
   "property": "C52",
   "status": "proved",
   "theorems": [
    "Thingbuf.Chan.C52_sequential",
    "Thingbuf.Chan.C52_total",
    "Thingbuf.Chan.C52_execution",
    "Thingbuf.Chan.C52_no_panic",
    "Thingbuf.Chan.C52_fifo"
   ],
   "note": "By-value API of the asynchronous channel; a SendRef or RecvRef is written or taken and dropped within its call."
  },
  {
   "property": "C53",
   "status": "proved",
   "theorems": [
    "Thingbuf.Chan.C53_receiver",
    "Thingbuf.Chan.C53_senders",
    "Thingbuf.Chan.C53_no_deadlock",
    "Thingbuf.Chan.C53_cancel_strands"
   ],
   "note": "Stated of the specification that C52 proves the code to refine. C53_cancel_strands: with a cancelled future it fails (see C32)."
  },
  {
   "property": "C54",
   "status": "partial",
   "theorems": [
    "Thingbuf.Queue.C54_notify_partial",
    "Thingbuf.Chan.C54_recv_ref_partial",
    "Thingbuf.Queue.C54_false_if_closing",
    "Thingbuf.Queue.C54_false_if_replacing",
    "Thingbuf.Queue.C54_close_deadlock",
    "Thingbuf.Chan.C54_false_if_receiver_dropped",
    "Thingbuf.Chan.C54_deadlock"
   ],
   "note": "False of the code: the wakers called when the receiver is dropped run under the lock of the wait list, and so do the comparison, the clone and the drop of a replaced waker. Proved: the negations (for every such state, and a concrete deadlock of the channel), and that a waker called because a slot became free keeps no call waiting."
  },
  {
   "property": "C55",
   "status": "partial",
   "theorems": [
    "Thingbuf.Chan.C55_all_delivered",
    "Thingbuf.Chan.C55_no_deadlock_partial",
    "Thingbuf.Chan.C55_sender_asleep_partial",
    "Thingbuf.Chan.C55_sender_left_partial",
    "Thingbuf.Chan.C55_false_if_cancelled",
    "Thingbuf.Chan.C55_false_if_drops_overlap",
    "Thingbuf.Chan.C55_all_delivered_fine",
    "Thingbuf.Chan.C55_no_deadlock_fine_partial",
    "Thingbuf.Chan.C55_sender_asleep_fine_partial",
    "Thingbuf.Chan.C55_sender_left_fine_partial",
    "Thingbuf.Chan.C55_false_if_timed_out"
   ],
   "note": "All messages delivered: proved without restriction. No sender asleep: proved for clients that cancel no send, have none that times out and drop RecvRefs one at a time; false otherwise (three negations proved). A Sender is left: proved unless a Sender of a blocking channel was dropped by a panicking thread (false then: C34_false_if_dropped_by_panic)."
  },
  {
   "property": "C56",
   "status": "partial",
   "theorems": [
    "Thingbuf.Queue.C56_as_if_returned_partial",
    "Thingbuf.Queue.C56_notify_woke_partial",
    "Thingbuf.Queue.C56_all_woken_partial",
    "Thingbuf.Queue.C56_lock_free",
    "Thingbuf.Queue.C56_no_deadlock",
    "Thingbuf.Queue.C56_false_if_close_panics",
    "Thingbuf.Queue.C56_sender_lost",
    "Thingbuf.Queue.C56_false_if_start_panics",
    "Thingbuf.Queue.C56_notification_lost",
    "Thingbuf.Cell.C56_as_if_returned",
    "Thingbuf.Cell.C56_receiver_woken"
   ],
   "note": "Receiver's waker: proved (with the feature std). Senders' wakers: proved if no waker panics in the clone made by the first poll of a send and none in wake while the Receiver is dropped; false in these two cases (negations proved, in general and on concrete runs). Proved whatever panics: the lock is never left locked, and every call can be brought to its end."
  },
  {
   "property": "C57",
   "status": "proved",
   "theorems": [
    "Thingbuf.C57_counted",
    "Thingbuf.C57_call",
    "Thingbuf.C57_completes",
    "Thingbuf.C57_enabled",
    "Thingbuf.C57_total"
   ],
   "note": "Sequentially consistent machine. The constant is 13 because pop_ref gives up on an unpublished element after three rounds. Steps taken while the slot needed next is in other hands are counted separately: C16 shows that they can be unboundedly many."
  },
  {
   "property": "C58",
   "status": "proved",
   "theorems": [
    "Thingbuf.C58_linearizable",
    "Thingbuf.C58_real_time"
   ],
   "note": "every history of the ring buffer has a linearization with respect to a sequential queue given in LinSpec.lean; the order of the points respects real time; a history that is not linearizable is exhibited"
  },
  {
   "property": "C59",
   "status": "proved",
   "theorems": [
    "Thingbuf.Chan.C59_linearizable",
    "Thingbuf.Chan.C59_linearizable_fine",
    "Thingbuf.Chan.C59_real_time"
   ],
   "note": "every history of the channel has a linearization with respect to a sequential channel given in ChanLinSpec.lean, also with the finer dequeue; the order of the points of send calls respects real time; a history that is not linearizable is exhibited"
  },
  {
   "property": "C60",
   "status": "proved",
   "theorems": [
    "Thingbuf.SpinRA.C60_mutual_exclusion",
    "Thingbuf.SpinRA.C60_race_free",
    "Thingbuf.SpinRA.C60_reads_last_write",
    "Thingbuf.SpinRA.C60_race_free_orders",
    "Thingbuf.SpinRA.C60_release_needed",
    "Thingbuf.SpinRA.C60_acquire_needed"
   ],
   "note": "Release/acquire machine; the two _needed theorems show that the orderings cannot be weakened."
  },
  {
   "property": "C61",
   "status": "proved",
   "theorems": [
    "Thingbuf.Queue.C61_list_only_with_lock",
    "Thingbuf.Queue.C61_list_changed_with_lock",
    "Thingbuf.Queue.C61_touched_with_lock"
   ],
   "note": "Non-interference, with the two-step dequeue. Together with C43/C60 (the lock excludes) there are no races on the list."
  },
  {
   "property": "C62",
   "status": "proved",
   "theorems": [
    "Thingbuf.Queue.C62_list_is_queue",
    "Thingbuf.Queue.C62_fifo",
    "Thingbuf.Queue.C62_no_overtaking",
    "Thingbuf.Queue.C62_earlier_sees_it",
    "Thingbuf.Queue.C62_one_wake",
    "Thingbuf.Queue.C62_notify_alone",
    "Thingbuf.Queue.C62_notify",
    "Thingbuf.Queue.C62_assertions",
    "Thingbuf.Queue.C62_no_assertion",
    "Thingbuf.Queue.C62_false_lost_without_overlap",
    "Thingbuf.Queue.C62_false_assertion_without_overlap",
    "Thingbuf.Queue.C62_store_if_none_waits",
    "Thingbuf.Queue.C62_consumed_once",
    "Thingbuf.Queue.C62_start_notified",
    "Thingbuf.Queue.C62_cont_notified",
    "Thingbuf.Queue.C62_stored_not_lost",
    "Thingbuf.Queue.C62_wait_is_queued",
    "Thingbuf.Queue.C62_all_woken",
    "Thingbuf.Queue.C62_no_wait_after",
    "Thingbuf.Queue.C62_start_closed",
    "Thingbuf.Queue.C62_cont_closed",
    "Thingbuf.Queue.C62_closed_truthful",
    "Thingbuf.Queue.C62_woken_is_recorded",
    "Thingbuf.Queue.C62_start_records",
    "Thingbuf.Queue.C62_cont_records",
    "Thingbuf.Queue.C62_no_deadlock"
   ],
   "note": "Machine with message histories and views for the atomic words; refines the sequentially consistent machine plus stale jumps. The _false_ theorems show what unordered notifications can do."
  },
  {
   "property": "C63",
   "status": "proved",
   "theorems": [
    "Thingbuf.Chan.C63_sleeper_has_message",
    "Thingbuf.Chan.C63_blocking",
    "Thingbuf.Chan.C63_async",
    "Thingbuf.Chan.C63_false_if_drops_unordered"
   ],
   "note": "The last theorem shows that the proviso about the drops is needed."
  },
  {
   "property": "C64",
   "status": "proved",
   "theorems": [
    "Thingbuf.Chan.C64_no_lost_wakeup",
    "Thingbuf.Chan.C64_needs_orderings",
    "Thingbuf.Chan.C64_needs_program_order"
   ],
   "note": "C31 on the memory model, with the orderings of the source; counterexamples if wait_with does not acquire, if notify does not release, or if a thread need not run its code in order"
  },
  {
   "property": "C65",
   "status": "partial",
   "theorems": [
    "Thingbuf.Chan.C65_none_only_if_senders_dropped",
    "Thingbuf.Chan.C65_none_means_drained_partial",
    "Thingbuf.Chan.C65_try_recv_closed",
    "Thingbuf.Chan.C65_woken_by_last_drop_partial",
    "Thingbuf.Chan.C65_never_pending_partial",
    "Thingbuf.Chan.C65_drained_returns_none_partial",
    "Thingbuf.Chan.C65_needs_orderings",
    "Thingbuf.Chan.C65_false_if_leaked",
    "Thingbuf.Chan.C65_false_if_dropped_by_panic"
   ],
   "note": "C34 on the memory model. Full statement false in the same cases as C34: a leaked SendRef or a panic in the user code inside a send call (a message is lost), and a last Sender of the blocking channel dropped by a panicking thread (the receiver is not woken), see C65_false_*. The partial theorems exclude exactly these cases. C65_needs_orderings: counterexamples for weaker orderings."
  },
  {
   "property": "C66",
   "status": "proved",
   "theorems": [
    "Thingbuf.Chan.C66_all_delivered",
    "Thingbuf.Chan.C66_no_deadlock",
    "Thingbuf.Chan.C66_sender_asleep",
    "Thingbuf.Chan.C66_sender_left",
    "Thingbuf.Chan.C66_false_if_drops_unordered",
    "Thingbuf.Chan.C66_false_if_cancelled",
    "Thingbuf.Chan.C66_false_if_timed_out"
   ],
   "note": "On the memory model (PRun). The conditions of the statement are needed: C66_false_if_drops_unordered, C66_false_if_cancelled, C66_false_if_timed_out."
  },
  {
   "property": "C67",
   "status": "proved",
   "theorems": [
    "Thingbuf.Chan.C67_received",
    "Thingbuf.Chan.C67_one_message_per_send",
    "Thingbuf.Chan.C67_cancelled_sends_nothing",
    "Thingbuf.Chan.C67_failed_send",
    "Thingbuf.Chan.C67_nothing_taken_is_lost",
    "Thingbuf.Chan.C67_send_order",
    "Thingbuf.Chan.C67_capacity",
    "Thingbuf.Chan.C67_refs",
    "Thingbuf.Chan.C67_exclusive",
    "Thingbuf.Chan.C67_refers",
    "Thingbuf.Chan.C67_race_free",
    "Thingbuf.Chan.C67_reads_last_write",
    "Thingbuf.Chan.C67_publication"
   ],
   "note": "On the memory model (WRun)."
  },
  {
   "property": "C68",
   "status": "partial",
   "theorems": [
    "Thingbuf.Chan.C68_try_send_full",
    "Thingbuf.Chan.C68_send_never_full",
    "Thingbuf.Chan.C68_try_send_never_sleeps",
    "Thingbuf.Chan.C68_sleeps_after_attempt",
    "Thingbuf.Chan.C68_sleeps_only_if_full",
    "Thingbuf.Chan.C68_times_out_only_if_full",
    "Thingbuf.Chan.C68_closed_truthful",
    "Thingbuf.Chan.C68_closed_after_drop_partial",
    "Thingbuf.Chan.C68_nobody_sleeps_partial",
    "Thingbuf.Chan.C68_waiting_gets_closed_partial",
    "Thingbuf.Chan.C68_waiters_woken_partial",
    "Thingbuf.Chan.C68_closed_if_known",
    "Thingbuf.Chan.C68_false_if_not_known"
   ],
   "note": "Release-acquire memory model of the channel. Partial because Core::close does nothing in a panicking thread (C33_false_if_dropped_by_panic), so the theorems about the drop of the Receiver assume that no panicking thread drops it. C68_false_if_not_known: a try_send that does not know of the drop can return Full."
  },
  {
   "property": "C69",
   "status": "partial",
   "theorems": [
    "Thingbuf.Chan.C69_nothing_after",
    "Thingbuf.Chan.C69_nothing_after_weak",
    "Thingbuf.Chan.C69_drop_exact_partial",
    "Thingbuf.Chan.C69_unreceived_dropped_partial",
    "Thingbuf.Chan.C69_drop_exact_fine_partial",
    "Thingbuf.Chan.C69_unreceived_dropped_fine_partial",
    "Thingbuf.Chan.C69_drop_exact_weak_partial",
    "Thingbuf.Chan.C69_false_if_new_element_panics"
   ],
   "note": "That nothing happens any more is proved for every execution. The drops of the elements: not for executions in which new_element panicked (counterexample) or which end in the first lap after a wrap of the position counter (see C08)."
  },
  {
   "property": "C70",
   "status": "partial",
   "theorems": [
    "Thingbuf.Chan.C70_try_recv_finds",
    "Thingbuf.Chan.C70_poll_finds",
    "Thingbuf.Chan.C70_known_later",
    "Thingbuf.Chan.C70_try_recv_not_empty_partial",
    "Thingbuf.Chan.C70_drained_says_closed_partial",
    "Thingbuf.Chan.C70_sc_try_recv_not_empty_partial",
    "Thingbuf.Chan.C70_fine_try_recv_not_empty_partial",
    "Thingbuf.Chan.C70_false_if_unknown",
    "Thingbuf.Chan.C70_empty_after_last_drop_if_unknown",
    "Thingbuf.Chan.C70_false_if_leaked",
    "Thingbuf.Chan.C70_false_if_dropped_by_panic"
   ],
   "note": "What is known is found: proved in full. Not Empty after the drop of the last Sender: proved unless a SendRef was leaked, a send call panicked or the last Sender was dropped by a panicking thread; in these cases the claim is false of the code, as the C70_false theorems show."
  },
  {
   "property": "C71",
   "status": "proved",
   "theorems": [
    "Thingbuf.RA.C71_len",
    "Thingbuf.RA.C71_len_orders",
    "Thingbuf.RA.C71_exact_if_quiet",
    "Thingbuf.RA.C71_consumer",
    "Thingbuf.RA.C71_producer",
    "Thingbuf.RA.C71_len_acquire_needed",
    "Thingbuf.RA.C71_pop_release_needed",
    "Thingbuf.RA.C71_push_release_needed",
    "Thingbuf.RA.C71_len_not_wrong"
   ],
   "note": "Any capacity of at least 1 that the word size allows, any number of calls and threads; as in C18, no pending call has read a message older than a period of the position counter. len is public only on ThingBuf and StaticThingBuf, which are never closed, so the hypothesis that the buffer is not closed excludes nothing. The last four theorems show that the acquire loads of len and the releasing CAS of push_ref and pop_ref are needed."
  },
  {
   "property": "C72",
   "status": "proved",
   "theorems": [
    "Thingbuf.ByVal.C72_queue",
    "Thingbuf.ByVal.C72_push",
    "Thingbuf.ByVal.C72_push_with",
    "Thingbuf.ByVal.C72_pop",
    "Thingbuf.ByVal.C72_pop_with",
    "Thingbuf.ByVal.C72_once",
    "Thingbuf.ByVal.C72_panic_iff",
    "Thingbuf.ByVal.C72_no_place_kept",
    "Thingbuf.ByVal.C72_fifo",
    "Thingbuf.ByVal.C72_pop_panic_loses"
   ],
   "note": "A panic of new_element in pop() loses the dequeued element (C72_pop_panic_loses)."
  }
 ]
}