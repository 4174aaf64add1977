{"id": "C01", "title": "FIFO, exactly once, no invention", "statement": "The j-th element dequeued from a ThingBuf/StaticThingBuf/channel (in the order in which dequeues succeed) is exactly the value that was in the Ref/SendRef of the j-th successful reservation (in the order in which reservations succeed) at the moment that Ref was dropped. So no value is lost, duplicated, reordered or made up.", "quantifier": "every capacity >= 1, every word width, every number of threads, every interleaving of push/push_ref/push_with/pop/pop_ref/pop_with/len, every history length (with no operation stalled for a whole wrap of the position counter)", "why_tests_cant": "interleavings and history lengths are unbounded; loom explores a handful of threads and a few messages", "anchors": ["src/lib.rs: Core::push_ref, Core::pop_ref, Core::next, Ref::drop"]}
{"id": "C02", "title": "Capacity bound", "statement": "At every instant the number of elements that have been reserved by push and not yet dequeued is at most capacity(), and the queue never hands out more simultaneously live push Refs plus queued elements than capacity().", "quantifier": "every capacity >= 1, every interleaving, every reachable state", "why_tests_cant": "must hold in every reachable state of an unbounded system", "anchors": ["src/lib.rs: Core::push_ref, Core::next"]}
{"id": "C03", "title": "Full is truthful", "statement": "If push/push_ref/push_with returns Full, or try_send/try_send_ref returns TrySendError::Full, then at some instant during that very call the queue held exactly capacity() reserved and not yet dequeued elements.", "quantifier": "every capacity, every interleaving, every call that returns Full", "why_tests_cant": "a false Full needs a particular race between a stale tail, a stale slot state and head", "anchors": ["src/lib.rs: Core::push_ref (lines 260-272)"]}
{"id": "C04", "title": "None/Empty is truthful", "statement": "If pop/pop_ref/pop_with returns None, or try_recv returns Empty, then at some instant during that call the queue either contained no element or its oldest element was still being written (the push Ref for it had not been dropped).", "quantifier": "every capacity, every interleaving, every call that returns None/Empty", "why_tests_cant": "needs all interleavings of a slow producer with consumers; the documented stronger reading (None only if there are no elements) is false for some schedules", "anchors": ["src/lib.rs: Core::pop_ref (lines 337-367)", "src/util.rs: Backoff::done_spinning"]}
{"id": "C05", "title": "Exclusive access through Refs", "statement": "Two live Refs (push or pop, from any threads) never denote the same element, and while a Ref is alive no operation other than through that Ref reads, writes, recycles or drops its element.", "quantifier": "every reachable state, every pair of live Refs, every step of every other thread", "why_tests_cant": "aliasing needs specific interleavings at the lap boundary; a test cannot cover all of them", "anchors": ["src/lib.rs: Ref, Core::push_ref, Core::pop_ref, Ref::drop"]}
{"id": "C06", "title": "Unchecked indexing is in bounds", "statement": "Every slots.get_unchecked(idx) performed by any operation is within the slot array, whatever the capacity (power of two or not), generation and closed flag.", "quantifier": "every capacity >= 1 whose slot array can be allocated, every word width, every reachable state", "why_tests_cant": "in release builds there is no check to fail; out-of-bounds only for particular capacities/generations", "anchors": ["src/lib.rs: Core::new, Core::idx_gen, Core::next, Core::push_ref, Core::pop_ref"]}
{"id": "C07", "title": "No uninitialised element is ever exposed", "statement": "Any element reachable through a Ref, passed to Recycle::recycle, or moved out by pop/recv, has been initialised by Recycle::new_element first.", "quantifier": "every capacity, every interleaving, every history", "why_tests_cant": "reads of uninitialised memory are UB that tests do not observe", "anchors": ["src/lib.rs: Core::push_ref (lines 228-242), Ref::deref, Ref::with"]}
{"id": "C08", "title": "Drop runs exactly once per element", "statement": "Dropping the ThingBuf/StaticThingBuf/last channel handle drops exactly the slots that hold an initialised element, each once, and never an uninitialised slot, even if Refs were leaked with mem::forget.", "quantifier": "every history of pushes, pops and leaked Refs before the drop, every crash point in user callbacks", "why_tests_cant": "must hold after every history; leaks and double drops depend on lap number and on panics in callbacks", "anchors": ["src/lib.rs: Core::drop_slots, ThingBuf::drop, Inner::drop"]}
{"id": "C09", "title": "len, remaining, is_empty are exact and bounded", "statement": "len() returns the number of reserved and not yet dequeued elements at some instant during the call; it is at most capacity(), so remaining() never underflows, and is_empty() is true only if the queue had no element at that instant.", "quantifier": "every capacity, every interleaving, every reachable state", "why_tests_cant": "len combines two separately read counters; tearing only shows under particular races and lap positions", "anchors": ["src/lib.rs: Core::len", "src/thingbuf.rs: len, remaining, is_empty"]}
{"id": "C10", "title": "Recycling discipline", "statement": "The element handed to a push_ref caller is a freshly created one the first time the slot is used, and otherwise the result of calling recycle exactly once on precisely the value the previous consumer of that slot left behind; push never creates more than capacity() elements in total.", "quantifier": "every history shorter than a counter wrap, every interleaving, every recycling policy", "why_tests_cant": "which slot gets recycled and with what content depends on the whole history", "anchors": ["src/lib.rs: Core::push_ref (lines 228-242)", "src/recycling.rs: Recycle, take"]}
{"id": "C11", "title": "No internal panic", "statement": "No ThingBuf operation ever overflows the position arithmetic (debug builds would panic) and ThingBuf::push_ref never reaches its unreachable!() arm.", "quantifier": "every capacity, word width, history, interleaving", "why_tests_cant": "overflow occurs only near the ends of the word range", "anchors": ["src/lib.rs: Core::next, Core::push_ref, Core::pop_ref", "src/thingbuf.rs: push_ref", "src/static_thingbuf.rs: push_ref"]}
{"id": "C12", "title": "Close is final", "statement": "Once the queue behind a channel has been closed, no send operation ever reserves a slot again, every send attempt that starts afterwards fails with Closed, and close reports having closed it to exactly one caller.", "quantifier": "every interleaving of any number of senders and closers", "why_tests_cant": "a reservation racing with close must fail in every schedule", "anchors": ["src/lib.rs: Core::close, Core::push_ref"]}
{"id": "C13", "title": "Messages sent before close are still delivered", "statement": "try_recv returns Closed (and recv returns None through that path) only if the queue is closed and every element ever reserved has already been dequeued.", "quantifier": "every interleaving, every number of messages outstanding at close", "why_tests_cant": "races between close, in-flight sends and the drain", "anchors": ["src/lib.rs: Core::pop_ref (lines 346-355)", "src/mpsc.rs: poll_recv_ref"]}
{"id": "C14", "title": "Per-producer order", "statement": "If one send/push returned before another send/push was called (e.g. both by the same thread) then its element is dequeued before the other's.", "quantifier": "every pair of operations ordered in real time, every interleaving with other producers", "why_tests_cant": "needs every schedule of unboundedly many producers", "anchors": ["src/lib.rs: Core::push_ref"]}
{"id": "C15", "title": "Solo completion without live Refs", "statement": "If no other operation is in progress and no Ref is live, push_ref completes within a fixed number of its own steps, with Ok exactly when len() < capacity() (and Closed exactly when closed), and pop_ref completes with Ok exactly when the queue is non-empty.", "quantifier": "every reachable quiescent state, every capacity", "why_tests_cant": "must hold from every reachable state including all generations", "anchors": ["src/lib.rs: Core::push_ref, Core::pop_ref"]}
{"id": "C16", "title": "Non-blocking attempts always return", "statement": "push/push_ref/try_send and pop/pop_ref/try_recv return after finitely many of their own steps whatever Refs other threads (or the caller itself) hold.", "quantifier": "every reachable state, every set of live Refs", "why_tests_cant": "non-termination cannot be established by running", "anchors": ["src/lib.rs: Core::push_ref loop, Core::pop_ref loop"]}
{"id": "C17", "title": "Sequential use is a bounded FIFO", "statement": "Used from one thread with push(v), pop() and len(), the queue's outputs for any sequence of calls are exactly those of a list with a capacity limit: push returns the value back in Full iff the list has capacity() entries, pop returns the head.", "quantifier": "every capacity, every word width, every finite sequence of calls with no bound on its length (the position counters may wrap any number of times)", "why_tests_cant": "unbounded sequences, counter wrap-around", "anchors": ["src/thingbuf.rs: push, pop, len", "src/static_thingbuf.rs: push, pop, len", "src/lib.rs: Core"]}
{"id": "C18", "title": "Data-race freedom under the declared memory orderings", "statement": "With only the Release/Acquire/Relaxed orderings written in the source (plain atomic loads may return stale values), every access to an element happens-after the previous access to it, so consumers see everything the producer wrote.", "quantifier": "every execution of a release/acquire view machine, any number of threads", "why_tests_cant": "the hardware on which tests run is stronger than the memory model; stale reads cannot be forced", "anchors": ["src/lib.rs: Ref::drop (Release), slot.state.load(Acquire), compare_exchange_weak orderings"]}
{"id": "C19", "title": "Receiver waker storage is accessed exclusively", "statement": "The stored receiver waker/thread is never accessed by two threads at once, whatever number of senders notify or close while the receiver registers.", "quantifier": "every number of notifiers, every interleaving, one receiver", "why_tests_cant": "a data race on the cell is UB, only in rare interleavings", "anchors": ["src/wait/cell.rs: WaitCell::wait_with, notify2"]}
{"id": "C20", "title": "A registered receiver is woken by the next notification", "statement": "If recv registered its waker and was told to wait, then once any sender's notification that started afterwards has completed, that waker has been woken, or is about to be woken by another notification that is still in progress, or the receiver has meanwhile registered again. In particular, when no operation is in progress the waker has been woken.", "quantifier": "every number of concurrent notifiers, every interleaving", "why_tests_cant": "lost wakeups only appear in particular interleavings", "anchors": ["src/wait/cell.rs: wait_with, notify, notify2"]}
{"id": "C21", "title": "Closing the sender side wakes the receiver and sticks", "statement": "After the last sender has closed the cell, a registered receiver has been woken, and every later attempt to wait reports Closed instead of registering.", "quantifier": "every interleaving of close with notifiers and a registering receiver", "why_tests_cant": "race between close and registration", "anchors": ["src/wait/cell.rs: close_tx, notify2, wait_with"]}
{"id": "C22", "title": "The most recent poll's waker is the one woken", "statement": "If recv is polled several times with different wakers, the waker woken by a notification is the one passed to the most recent poll that returned Pending.", "quantifier": "every sequence of polls with arbitrary wakers, every interleaving with notifiers", "why_tests_cant": "stale wakers only matter under task migration races", "anchors": ["src/wait/cell.rs: wait_with (replace)", "src/mpsc.rs: poll_recv_ref"]}
{"id": "C23", "title": "A panicking waker clone does not wedge the receiver", "statement": "If constructing the waker panics inside wait_with, the cell is left in a state in which later registrations and notifications behave normally.", "quantifier": "every interleaving, every crash point in the waker factory", "why_tests_cant": "the crash point must be combined with every race", "anchors": ["src/wait/cell.rs: wait_with (catch_unwind)"]}
{"id": "C24", "title": "Waiting senders are woken in FIFO order", "statement": "Senders that had to wait are woken by notifications in the order in which they were enqueued, skipping only those that cancelled.", "quantifier": "every sequence of waits, notifications, cancellations, every interleaving", "why_tests_cant": "unbounded queue lengths and positions of cancellation", "anchors": ["src/wait/queue.rs: List::enqueue, List::dequeue, notify_slow"]}
{"id": "C25", "title": "Intrusive wait list integrity", "statement": "The doubly linked intrusive list always represents a finite duplicate-free sequence of live nodes: enqueue adds at one end, dequeue takes from the other, and remove deletes exactly the given node from any position, leaving the order of the others.", "quantifier": "every list length, every node position, every sequence of list operations", "why_tests_cant": "pointer surgery bugs depend on position (head, middle, tail, singleton, absent)", "anchors": ["src/wait/queue.rs: List::enqueue, List::dequeue, List::remove, List::is_empty"]}
{"id": "C26", "title": "Notifications to senders are neither multiplied nor dropped silently", "statement": "One notify wakes exactly one queued sender, the longest waiting one, or if none is queued leaves exactly one stored notification, which is consumed by at most one later waiter.", "quantifier": "every interleaving of waiters and a receiver that drops its RecvRefs one at a time, no cancellation", "why_tests_cant": "lost or duplicated wakeups are schedule dependent", "anchors": ["src/wait/queue.rs: notify, notify_slow, start_wait, start_wait_slow"]}
{"id": "C27", "title": "Dropping the receiver releases every waiting sender", "statement": "After the Receiver is dropped every sender that was queued has been woken and completes with Closed, and no sender can start waiting any more.", "quantifier": "every number of waiting senders, every interleaving with senders that are about to wait", "why_tests_cant": "race between close and registration, unbounded number of waiters", "anchors": ["src/wait/queue.rs: WaitQueue::close, start_wait_slow", "src/mpsc.rs: close_rx"]}
{"id": "C28", "title": "Cancelling a send future leaves no dangling node", "statement": "Dropping an async send/send_ref future at any await point leaves the wait list without any reference to the future's node, and leaves the relative order of the other waiters unchanged.", "quantifier": "every cancellation point, every list state, every interleaving with notify and close", "why_tests_cant": "use-after-free only for particular cancellation points", "anchors": ["src/mpsc/async_impl.rs: SendRefFuture::drop", "src/wait/queue.rs: Waiter::remove, is_linked"]}
{"id": "C29", "title": "A timed-out blocking send leaves no dangling node", "statement": "When send_timeout/send_ref_timeout gives up, the wait list does not refer to the stack frame of the call that has returned.", "quantifier": "every interleaving, every time at which the timeout fires", "why_tests_cant": "use-after-free of a stack frame is not observed by tests", "anchors": ["src/mpsc/blocking.rs: send_ref_timeout (lines 1745-1752)"]}
{"id": "C30", "title": "Wait queue internal assertions hold", "statement": "The debug assertions and unreachable!() arms of the wait queue can never fire, in particular a notification that saw the queue in the waiting state finds a waiter in it.", "quantifier": "every interleaving of waiters, cancellations, notifications and close allowed by the public API", "why_tests_cant": "assertion failures need a race between two lock acquisitions", "anchors": ["src/wait/queue.rs: notify_slow (line 411, 436), start_wait_slow, dequeue"]}
{"id": "C31", "title": "The receiver never sleeps on available messages", "statement": "In every state in which no send or notify is half way through, a receiver that is waiting in recv and has not been woken implies that the oldest slot of the channel holds no sent message.", "quantifier": "every number of senders, every interleaving, every state", "why_tests_cant": "lost wakeups are schedule dependent", "anchors": ["src/mpsc.rs: poll_recv_ref, SendRefInner drop order, NotifyRx", "src/wait/cell.rs"]}
{"id": "C32", "title": "A sender never sleeps while the channel is empty", "statement": "In every state in which nothing is half way through, a sender that is waiting in send and has not been woken implies that the channel still holds at least one message (or an undropped RecvRef), whose receipt will wake it.", "quantifier": "every number of senders, every interleaving, every cancellation", "why_tests_cant": "deadlocks are schedule dependent", "anchors": ["src/mpsc/async_impl.rs: SendRefFuture::poll/drop", "src/wait/queue.rs: notify, start_wait"]}
{"id": "C33", "title": "send fails with Closed exactly because the receiver is gone", "statement": "send/send_ref/try_send on a channel return Closed only after the Receiver started being dropped, and after its drop finished every send returns Closed.", "quantifier": "every interleaving, every number of senders", "why_tests_cant": "race between drop and send", "anchors": ["src/mpsc.rs: close_rx, try_send_ref", "src/mpsc/async_impl.rs: Sender::send_ref"]}
{"id": "C34", "title": "recv returns None only after all senders are gone and the channel is drained", "statement": "recv returns None only if every Sender has been dropped and every message successfully sent has been received; and once all Senders are dropped and the channel is drained a waiting receiver is woken and gets None, also when the last Sender is dropped by a panicking thread.", "quantifier": "every interleaving, every number of senders, including unwinding", "why_tests_cant": "close/drain races, crash points", "anchors": ["src/mpsc.rs: poll_recv_ref", "src/mpsc/async_impl.rs: Sender::drop", "src/mpsc/blocking.rs: Sender::drop", "src/lib.rs: Core::close (panicking check)"]}
{"id": "C35", "title": "A failed send returns the message", "statement": "push/send/try_send/send_timeout that fail give back in the error exactly the value passed in (into_inner), with an error variant that says why, and leave the channel contents unchanged.", "quantifier": "every value, every state, every error path", "why_tests_cant": "universal over values and states", "anchors": ["src/thingbuf.rs: push", "src/mpsc.rs: try_send", "src/mpsc/errors.rs: with_value, into_inner"]}
{"id": "C36", "title": "Receiver::is_closed is accurate", "statement": "is_closed() returns true iff all Senders have been dropped.", "quantifier": "every number of live senders, every history of clone and drop", "why_tests_cant": "universal over sender counts", "anchors": ["src/mpsc/async_impl.rs: Receiver::is_closed", "src/mpsc/blocking.rs: Receiver::is_closed"]}
{"id": "C37", "title": "Error predicates match the variant", "statement": "TrySendError::is_full/is_closed and SendTimeoutError::is_timeout/is_closed return true exactly for the corresponding variant.", "quantifier": "every error value", "why_tests_cant": "universal over the payload type", "anchors": ["src/mpsc/errors.rs: is_full, is_closed, is_timeout"]}
{"id": "C38", "title": "Timeouts are honoured", "statement": "recv_timeout/send_timeout return Timeout only if at least the timeout has elapsed since the call, never wait for two timeouts or more (plus scheduling delay), and a timed-out recv consumes no message.", "quantifier": "every clock behaviour, every sequence of spurious wakeups, every timeout", "why_tests_cant": "clock readings and spurious wakeups are environment choices", "anchors": ["src/mpsc/blocking.rs: recv_ref_timeout, send_ref_timeout"]}
{"id": "C39", "title": "A static channel is split at most once", "statement": "Of any number of concurrent or successive calls to StaticChannel::split/try_split exactly the first succeeds: there is never a second Sender/Receiver pair.", "quantifier": "every number of callers, every interleaving", "why_tests_cant": "universal over interleavings", "anchors": ["src/mpsc/async_impl.rs: StaticChannel::try_split", "src/mpsc/blocking.rs: StaticChannel::try_split"]}
{"id": "C40", "title": "The channel closes exactly when the last Sender goes", "statement": "For every history of clone and drop the senders' side closes the channel exactly once, at the drop that leaves no Sender alive, never before.", "quantifier": "every interleaving of clones and drops by any number of threads", "why_tests_cant": "universal over histories", "anchors": ["src/mpsc/async_impl.rs: Sender::clone, Sender::drop", "src/mpsc/blocking.rs: Sender::clone, Sender::drop"]}
{"id": "C41", "title": "WithCapacity policy bounds", "statement": "With WithCapacity{min,max}: a new element is empty with capacity at least min; a recycled element is empty, keeps its whole capacity when that is at most max, and never keeps more than max(max, what shrinking cannot free); configuration setters do not disturb each other.", "quantifier": "every min, max, every element content and capacity", "why_tests_cant": "universal over sizes", "anchors": ["src/recycling.rs: WithCapacity"]}
{"id": "C42", "title": "Backoff never overflows and is monotone", "statement": "For every sequence of spin/spin_yield calls the backoff counter stays within its maximum, shift amounts stay below the word size, and once done spinning stays done.", "quantifier": "every sequence of calls", "why_tests_cant": "universal over sequences", "anchors": ["src/util.rs: Backoff"]}
{"id": "C43", "title": "Spinlock mutual exclusion", "statement": "The no_std mutex never lets two threads hold the guard at the same time, and a thread that finds it free and runs alone gets it.", "quantifier": "every number of threads, every interleaving", "why_tests_cant": "universal over interleavings", "anchors": ["src/util/mutex/spin_impl.rs: Mutex::lock, MutexGuard::drop"]}
{"id": "C44", "title": "Capacity zero is rejected", "statement": "No queue or channel with capacity 0 can be constructed and used; every constructor rejects it.", "quantifier": "every constructor", "why_tests_cant": "the failure is an unchecked out-of-bounds access (UB)", "anchors": ["src/thingbuf.rs: with_recycle (assert)", "src/static_thingbuf.rs: with_recycle (no assert)", "src/mpsc/async_impl.rs: StaticChannel::new"]}
{"id": "C45", "title": "Cancellation safety of messages", "statement": "Dropping a send future before it completes, or a send_timeout that returns Timeout, enqueues nothing and dropping a recv future consumes nothing: the sequence of received messages is always a prefix of the sequence of completed sends, in reservation order, whatever futures are cancelled.", "quantifier": "every cancellation point, every interleaving", "why_tests_cant": "universal over cancellation points", "anchors": ["src/mpsc/async_impl.rs: SendRefFuture, RecvRefFuture", "src/mpsc.rs: poll_recv_ref"]}
{"id": "C46", "title": "A waiting blocking send sleeps", "statement": "A blocking send that finds the channel full goes (back) to the wait list and parks until notified, rather than spinning.", "quantifier": "every schedule in which a woken sender loses the freed slot to another sender", "why_tests_cant": "needs an adversarial schedule of unbounded length", "anchors": ["src/mpsc/blocking.rs: send_ref, send_ref_timeout (unqueued flag)"]}
{"id": "C47", "title": "The waker of the latest poll is the one woken", "statement": "A send future that was polled with different wakers and is waiting is woken through the waker of its latest poll (or one for which will_wake says that it wakes the same task).", "quantifier": "every sequence of polls with any wakers, every interleaving with notify and close", "why_tests_cant": "A race between a re-poll that swaps the waker and a notification is only hit in particular interleavings, and the wakers form an unbounded set.", "anchors": ["src/wait/queue.rs: WaitQueue::continue_wait_slow, WaitQueue::notify_slow", "src/wait.rs: Notify::same", "src/mpsc/async_impl.rs: SendRefFuture::poll"]}
{"id": "C48", "title": "send waits and try_send does not", "statement": "send and send_ref never return Full, they wait instead; they go to sleep, and send_timeout gives up, only after an attempt that found every slot taken; try_send and try_send_ref never wait; and a send call that succeeds was given a slot that no other call was given.", "quantifier": "every schedule of any number of senders, receivers, drops and cancellations, for every capacity", "why_tests_cant": "The retry loop of send may meet a full channel any number of times, at any point of its wait protocol, depending on the schedule.", "anchors": ["src/mpsc.rs: try_send_ref, try_send", "src/mpsc/async_impl.rs: SendRefFuture::poll", "src/mpsc/blocking.rs: send_ref"]}
{"id": "C49", "title": "Drops end", "statement": "Dropping a SendRef, or the last Sender, ends within a fixed number of steps of its own, whatever the other threads do. Dropping a RecvRef, the Receiver or a pending send future can always run to its end if the threads that are inside calls on the channel go on; it never waits for anybody to make a new call.", "quantifier": "every reachable state of the channel, every continuation by the other threads", "why_tests_cant": "A drop that can be stalled or deadlocked by some schedule of the other threads is not found by running particular schedules, and a test that hangs does not tell a deadlock from slowness.", "anchors": ["src/mpsc.rs: NotifyRx::drop, NotifyTx::drop, close_rx", "src/mpsc/async_impl.rs: Sender::drop, Receiver::drop, SendRefFuture::drop", "src/mpsc/blocking.rs: Sender::drop, Receiver::drop", "src/wait/cell.rs: notify2", "src/wait/queue.rs: notify, close, remove"]}
{"id": "C50", "title": "Waiting and notifying do not deadlock", "statement": "Whenever a sender is registering, re-registering or cancelling its wait, or senders are being notified, that call can run to its end after at most one other call, the one that holds the lock, has run to its end; a call during which no other call is in progress runs to its end by itself, in a number of steps bounded in terms of the number of waiting senders.", "quantifier": "every reachable state of the wait queue, any number of senders and notifications in progress", "why_tests_cant": "Deadlock freedom quantifies over all reachable states; the states in which several calls are at the lock or inside it are unboundedly many.", "anchors": ["src/wait/queue.rs: start_wait, start_wait_slow, continue_wait, continue_wait_slow, notify, notify_slow, close, Waiter::remove"]}
{"id": "C51", "title": "Waiting and closing work under the memory orderings of the source", "statement": "On hardware and compilers that are allowed to reorder memory accesses as far as the Release/Acquire orderings in the source permit: the waker that the receiver has stored is never accessed by two threads without one access being ordered before the other; a receiver that was told to wait and then found the channel empty is woken by the sender that sends the next message, whatever outdated values either of them has read; a notification or close after the receiver started to wait wakes it; a receiver that is told that the channel is closed has the effects of everything the senders did before, so it still receives every message; and if one of these orderings were weaker, some execution would violate one of these.", "quantifier": "every execution of any number of operations of the channel's ring buffer and of the receiver's wait cell, with every choice of the values that loads and failing compare-and-swaps may return under release/acquire semantics, for every capacity", "why_tests_cant": "Which outdated values a load may return depends on the hardware, the compiler and the schedule; on common hardware most of them never occur in a test, and their number grows without bound with the length of the execution.", "anchors": ["src/wait/cell.rs: WaitCell::wait_with, notify2, close_tx, State, compare_exchange", "src/lib.rs: Core::push_ref, Core::pop_ref, Ref::drop", "src/mpsc.rs: poll_recv_ref, NotifyRx::drop"]}
{"id": "C52", "title": "A channel used by one thread is a bounded queue with two wake-up rules", "statement": "When the calls to an asynchronous channel do not overlap, the result of every call and the tasks it wakes, in order, are those of a simple machine: a list of messages of bounded length, the waker of the receiver (woken by the next message, or when the last sender is dropped), and a line of waiting send futures (one is woken per message taken out, longest waiting first; all are woken when the receiver is dropped). Every call that makes sense ends. Nothing panics, and the messages received are the first ones sent, in order.", "quantifier": "every finite sequence of clones, drops, try_send, send, polls of pending send futures, cancellations, try_recv and polls of recv, every capacity, every pattern of spurious failures of weak compare-and-swaps", "why_tests_cant": "The sequences are unbounded, and the behaviour of a call depends on the whole history (who waits, who was woken and has not been polled, whether a notification is stored, how often the indices wrapped).", "anchors": ["src/mpsc.rs: try_send, try_recv, poll_recv_ref, close_rx", "src/mpsc/async_impl.rs: Sender, Receiver, SendRefFuture, RecvFuture", "src/lib.rs: Core", "src/wait/queue.rs", "src/wait/cell.rs"]}
{"id": "C53", "title": "Tasks on a single-threaded executor do not deadlock on a channel", "statement": "When the calls to an asynchronous channel do not overlap: the receiver sleeps only while the channel is empty and has senders; and, as long as no pending send future is dropped, if senders sleep and every sender that was woken has been polled, then the channel is full, the receiver is alive and not asleep, and its next poll gets a message and wakes the sender that has slept longest.", "quantifier": "every finite sequence of calls without cancellation of send futures, every capacity", "why_tests_cant": "A deadlock needs a particular order of polls, wake-ups and sends; the orders are unboundedly many.", "anchors": ["src/mpsc.rs: poll_recv_ref, NotifyRx::drop, NotifyTx::drop", "src/mpsc/async_impl.rs: SendRefFuture::poll, SendRefFuture::drop", "src/wait/queue.rs: start_wait, notify", "src/wait/cell.rs: wait_with, notify"]}
{"id": "C54", "title": "A waker may call back into the channel", "statement": "While the channel runs code of a user's waker (wake, comparison, clone, drop), no call on the channel waits for that code to return. In particular a waker may itself drop or poll another waiting send future of the same channel: that call ends, and the thread is not deadlocked.", "quantifier": "every reachable state in which a call is in the middle of a waker's code, every number of waiting senders, whatever the other threads and the waker do meanwhile", "why_tests_cant": "Which lock is held when user code runs depends on the path (a slot became free, receiver dropped, waker replaced) and on the other calls in progress; a test's waker usually only sets a flag.", "anchors": ["src/wait/queue.rs: notify_slow, close, start_wait_slow, continue_wait_slow, Waiter::remove", "src/mpsc.rs: close_rx, NotifyTx::drop", "src/mpsc/async_impl.rs: SendRefFuture::drop, Receiver::drop"]}
{"id": "C55", "title": "When everything sleeps, the work is done", "statement": "When no call is half way through, every SendRef and RecvRef has been dropped, and the receiver sleeps without having been woken, then every message that was sent has been received, no sender is asleep, and a Sender still exists. So receiver and senders never all wait for each other while there is work.", "quantifier": "every history of concurrent calls, every interleaving of them, every capacity, blocking and asynchronous channel", "why_tests_cant": "A deadlock needs a particular interleaving of the registration of wakers with the sends and receives; tests see a few of them, and the absence of a wake-up shows only as a hang.", "anchors": ["src/mpsc.rs: poll_recv_ref, NotifyRx::drop, NotifyTx::drop", "src/mpsc/async_impl.rs: SendRefFuture::poll", "src/mpsc/blocking.rs: send_ref, recv_ref", "src/wait/queue.rs: start_wait, notify", "src/wait/cell.rs: wait_with, notify"]}
{"id": "C56", "title": "A waker that panics hurts only the call it is called from", "statement": "Wakers are code of the user: clone, wake and drop may panic. If one does, the panic comes out of the call that used the waker, and nothing else happens: that call has done its work, no wake-up of another sender or of the receiver is lost, and every other call behaves as if the panicking call had returned.", "quantifier": "every history of concurrent calls, every interleaving, every choice of which wakers panic in which operation", "why_tests_cant": "It needs a panic at a particular line while other senders wait, in a particular interleaving; a lost wake-up shows only as a hang of somebody else.", "anchors": ["src/wait/queue.rs: start_wait_slow, continue_wait_slow, notify_slow, close", "src/wait/cell.rs: wait_with, notify2", "src/wait.rs: Notify for Waker"]}
{"id": "C57", "title": "No livelock: calls delay each other only by succeeding", "statement": "However many threads use the queue at the same time, a call of push_ref, pop_ref, len or close takes a bounded number of steps plus a bounded number for every element that somebody pushed or popped (or close) during the call. Calls that fail or lose a race never make another call retry, so threads cannot keep each other busy without any of them getting anything done; n calls together take O(n^2) steps. The exceptions are spurious failures of the hardware, and time spent waiting for a Ref that somebody holds.", "quantifier": "every stretch of every execution, every number of concurrent calls, every interleaving, every capacity and word size", "why_tests_cant": "A livelock needs an adversarial schedule sustained for arbitrarily long; a test can only time out.", "anchors": ["src/lib.rs: Core::push_ref, Core::pop_ref, Core::len, Core::close", "src/util.rs: Backoff::done_spinning"]}
{"id": "C58", "title": "The queue is linearizable", "statement": "Whatever threads do with the queue concurrently, there is for every call of push_ref, pop_ref, len or close that returned one instant between its invocation and its return such that a sequential bounded FIFO queue, performing the calls one at a time in the order of these instants, gives every call the result it had and every pop the element it got. A pushed element becomes available at the instant its Ref is dropped. Two liberties are part of the sequential queue: a pop may report Empty while the oldest element's Ref is still held, and len of a closed queue is only known to be at most the capacity.", "quantifier": "every execution: any number of threads and calls, every interleaving, every capacity and word size, Refs held for any time", "why_tests_cant": "A linearizability checker can examine the histories that were observed, not all the histories that other schedules would produce.", "anchors": ["src/lib.rs: Core::push_ref, Core::pop_ref, Core::len, Core::close, Ref::drop"]}
{"id": "C59", "title": "The channel is linearizable", "statement": "Whatever the Senders and the Receiver of a channel do concurrently, there is for every send call (send_ref, try_send_ref) and every receive call (a poll of recv_ref, try_recv_ref) that returned one instant between its beginning and its return such that a sequential bounded channel, performing the calls one at a time in the order of these instants, gives every call the result it had, and every receive call the message it got. A message becomes available at the instant its SendRef is dropped. The channel is closed at an instant of the drop of the Receiver or of the last Sender. A send call that was cancelled has no effect. Liberties of the sequential channel: a receive call may find nothing while the SendRef of the oldest message is held, and when there are no Senders any more it may return None without having found the channel closed.", "quantifier": "every execution: any number of senders, calls, clones and drops, async or blocking, every interleaving of the channel's atomic steps, every capacity, cancellation of send futures at any point", "why_tests_cant": "Linearizability is a statement about all histories that any schedule could produce; a checker examines only the ones that were observed.", "anchors": ["src/mpsc.rs: ChannelCore::try_send_ref, ChannelCore::try_recv_ref, ChannelCore::poll_recv_ref, ChannelCore::close_rx", "src/mpsc/async_impl.rs: SendRefFuture::poll, Sender::drop", "src/mpsc/blocking.rs: send_ref, recv_ref", "src/lib.rs: Core::push_ref, Core::pop_ref"]}
{"id": "C60", "title": "The no_std lock protects its data under the memory orderings of the source", "statement": "With the memory orderings written in the source (a successful acquisition acquires, the drop of the guard releases, the spinning load is relaxed), the lock used without std still protects what is behind it although loads may return outdated values: it is acquired only while nobody holds it, only the holder accesses the data or releases it, every earlier acquisition, access and release happens before every later one (so there is no data race), and a holder always reads what was written last. Weakening the drop's store or the acquisition to a relaxed operation breaks this.", "quantifier": "every execution of a release/acquire memory model: any number of threads and calls of lock, every interleaving, every choice of message that a load may return, any type of data", "why_tests_cant": "A data race that is allowed by the memory model need not show on the hardware or the compiler the tests are run with, and the schedules and stale reads cannot be enumerated.", "anchors": ["src/util/mutex/spin_impl.rs: Mutex::lock, MutexGuard::drop"]}
{"id": "C61", "title": "The list of waiting senders is used only by the holder of its lock", "statement": "The list of waiting senders, with the links and the wakers stored in it, is unsynchronized memory. Whenever a sender (registering, re-polling, being cancelled) or the receiver (notifying, closing) takes a step without holding the list's lock, the step does not change any of it, and would be the same whatever it contained; only the atomic state of the sender's own node is looked at. So two threads never use it at once, and a sender's waker is never read while it is replaced.", "quantifier": "every execution: any number of senders and notifications, every interleaving of the atomic steps (with the dequeue in two steps), every point of cancellation, every content of the list", "why_tests_cant": "An access outside of the critical section shows only in a schedule in which another thread is inside of it, and only if it then matters.", "anchors": ["src/wait/queue.rs: WaitQueue::start_wait, WaitQueue::continue_wait, WaitQueue::notify, WaitQueue::close, Waiter::remove, List"]}
{"id": "C62", "title": "The wait queue does not rely on up-to-date loads", "statement": "The senders' wait queue reads its state and the state of a sender's node with loads that, on real hardware, may return an old value. Whatever they return: senders are taken in the order in which they started to wait; a notification that reports a wake-up woke exactly one sender; one that is stored is stored only while nobody waits, is consumed at most once, and is not lost; a sender that is told to wait is in the list; a sender is told that it was notified or that the channel is closed only if that is so; after the receiver's drop everybody has been woken and nobody waits any more; the waker that is woken is the one last recorded; calls do not deadlock. If the receiver drops its RecvRefs one after the other (each drop by a thread that knows that the earlier ones have ended) and no send is cancelled, every notification wakes exactly one sender or is stored, and no assertion fails. If the thread does not know it, a notification can be lost, even if the calls do not overlap.", "quantifier": "every execution: any number of senders, notifications and one close, every interleaving, every point of cancellation, and for every plain load every value that the memory model allows (any value written so far that the reader is not known to have seen overwritten, by its own accesses, the lock, or the calls known to have ended)", "why_tests_cant": "Whether a load returns an old value is up to the hardware and the compiler; tests on a strongly ordered machine never see it, and the schedules and choices cannot be enumerated.", "anchors": ["src/wait/queue.rs: WaitQueue::start_wait, WaitQueue::continue_wait, WaitQueue::notify, WaitQueue::close, Waiter::remove, Waiter::is_linked"]}
{"id": "C63", "title": "With the memory orderings of the source, no sender is left asleep at an empty channel", "statement": "The channel runs on hardware on which a load may return an old value. Still, when every call has come to rest, a sender is asleep only if the channel holds something (a message, or a RecvRef or SendRef not yet dropped) whose end will wake it; provided that the Receiver has not been dropped, that no send is cancelled or times out (C32 is false then), and that each RecvRef is dropped by a thread that knows that the drops before have ended. Without the last proviso a sender can be left asleep at an empty channel, even if the drops do not overlap.", "quantifier": "every execution of the async and of the blocking channel: any capacity, number of senders and messages, every interleaving, and for every load every value that the memory model allows", "why_tests_cant": "Which old values a load returns is up to the hardware and the compiler; a lost wake-up needs one particular choice of schedule and values.", "anchors": ["src/mpsc.rs: ChannelCore::try_send_ref, SendRef, RecvRef::drop", "src/mpsc/async_impl.rs: SendRefFuture::poll", "src/mpsc/blocking.rs: Sender::send_ref", "src/wait/queue.rs: WaitQueue::notify, WaitQueue::start_wait, WaitQueue::continue_wait", "src/lib.rs: Core::push_ref, Core::pop_ref"]}
{"id": "C64", "title": "With the memory orderings of the source, the receiver does not miss a message", "statement": "The channel runs on hardware on which a load may return an old value. Still, if the last poll of a receive future returned Pending (or a blocking recv went to sleep), no SendRef is half way through its drop and nor is the last Sender, and the oldest message of the channel has been sent, then the receiver's waker has been woken since that poll was called. Without the acquire orderings of the wait, or without the release orderings of the notification, a message can be missed.", "quantifier": "every execution of the async and of the blocking channel: any capacity, number of senders and messages, every interleaving, and for every load every value that the memory model allows", "why_tests_cant": "Which old values a load returns is up to the hardware and the compiler; a lost wake-up needs one particular choice of schedule and values.", "anchors": ["src/mpsc.rs: ChannelCore::poll_recv_ref, SendRef", "src/wait/cell.rs: WaitCell::wait_with, WaitCell::notify2", "src/lib.rs: Core::pop_ref, Ref::drop"]}
{"id": "C65", "title": "With the memory orderings of the source, recv returns None only after all senders are gone and the channel is drained", "statement": "The channel runs on hardware on which a load may return an old value. Still, recv returns None, or try_recv says Closed, only if every Sender has been dropped and every message successfully sent has been received; and once all Senders are dropped a waiting receiver is woken, a poll does not return Pending, and it returns None when the channel is drained, also when the last Sender is dropped by a panicking thread. Without the acquire ordering of the wait, or without the release ordering of the close, a message can be lost.", "quantifier": "every execution of the async and of the blocking channel: any capacity, number of senders and messages, every interleaving, and for every load every value that the memory model allows", "why_tests_cant": "Which old values a load returns is up to the hardware and the compiler; losing the last message needs one particular choice of schedule and values.", "anchors": ["src/mpsc.rs: ChannelCore::poll_recv_ref, ChannelCore::try_recv_ref", "src/wait/cell.rs: WaitCell::wait_with, WaitCell::close_tx, WaitCell::notify2", "src/lib.rs: Core::pop_ref, Core::close", "src/mpsc/async_impl.rs: Sender::drop", "src/mpsc/blocking.rs: Sender::drop"]}
{"id": "C66", "title": "With the memory orderings of the source, when everything sleeps, the work is done", "statement": "The channel runs on hardware on which a load may return an old value. When no call is half way through, every SendRef and RecvRef has been dropped, and the receiver sleeps without having been woken, then every message that was sent has been received, and a Sender still exists (for the blocking channel: unless a panicking thread dropped a Sender). If moreover no send was cancelled or timed out, and the RecvRefs were dropped in order (each drop by a thread that knows of the drops before it), then no sender is asleep; and if a sender is asleep, there is a message and the receiver is awake. Without these conditions senders and receiver can all sleep at an empty channel.", "quantifier": "every execution of the async and of the blocking channel: any capacity, number of senders and messages, every interleaving, and for every load every value that the memory model allows", "why_tests_cant": "A deadlock needs one particular choice of schedule and of the old values that loads return; it shows only as a hang.", "anchors": ["src/mpsc.rs: poll_recv_ref, NotifyRx::drop, NotifyTx::drop", "src/mpsc/async_impl.rs: SendRefFuture::poll", "src/mpsc/blocking.rs: send_ref, recv_ref", "src/wait/queue.rs: start_wait, notify", "src/wait/cell.rs: wait_with, notify", "src/lib.rs: Core::push_ref, Core::pop_ref, Ref::drop"]}
{"id": "C67", "title": "With the memory orderings of the source, every message arrives once, in order, and without data races", "statement": "The channel runs on hardware on which a load may return an old value. The messages received are, in order, the values in the SendRefs when they were dropped, each from one send call that was not cancelled; no receive call loses a message; a send that was cancelled or returned Full, Closed or Timeout has sent nothing. If one send call returned its SendRef before another was made, its message is ahead. The number of SendRefs returned exceeds that of messages received by at most the capacity. Two live SendRefs or RecvRefs never refer to the same element, an element that a live reference refers to is accessed only through it, and what is read is what was last written, never uninitialised. Of two accesses to the same element one happens before the other, and dropping a SendRef, and all that the sender did before it, happens before every access through the RecvRef of that message.", "quantifier": "every execution of the async and of the blocking channel: any capacity, number of senders and messages, every interleaving, and for every load every value that the memory model allows", "why_tests_cant": "Tests run on one machine, mostly with a strong memory model, and see few schedules; a data race or a value that is lost or duplicated needs a particular one.", "anchors": ["src/mpsc.rs: try_send_ref, poll_recv_ref, SendRef, RecvRef", "src/mpsc/async_impl.rs: SendRefFuture::poll", "src/mpsc/blocking.rs: send_ref, recv_ref", "src/lib.rs: Core::push_ref, Core::pop_ref, Ref::drop"]}
{"id": "C68", "title": "With the memory orderings of the source, the results of send calls are truthful", "statement": "The channel runs on hardware on which a load may return an old value. When try_send returns Full, every slot is taken by a message that was reserved and not received; only try_send returns Full and only send goes to sleep; a send call goes to sleep, and a send_timeout returns Timeout, only if there was a moment since its last attempt at which every slot was taken. A send call returns Closed only after the drop of the Receiver has begun. When the drop of the Receiver is over, everyone who waited has been woken, nobody goes to sleep any more, a send that is called then, or was waiting, returns Closed; try_send may return Full instead, unless its thread knows of the drop: then it returns Closed. (If a panicking thread drops the Receiver, the channel is not closed.)", "quantifier": "every execution of the async and of the blocking channel: any capacity, number of senders and messages, every interleaving, and for every load every value that the memory model allows", "why_tests_cant": "A stale load that makes a sender wait for a receiver that is gone, or makes it report a full channel wrongly, needs one particular schedule and a machine with a weak memory model.", "anchors": ["src/mpsc.rs: try_send_ref, close_rx", "src/mpsc/async_impl.rs: SendRefFuture::poll, Receiver::drop", "src/mpsc/blocking.rs: send_ref, send_ref_timeout, Receiver::drop", "src/wait/queue.rs: start_wait, continue_wait, close", "src/lib.rs: Core::push_ref, Core::close"]}
{"id": "C69", "title": "When the last handle of a channel is dropped, nobody uses it any more and its messages are dropped once", "statement": "When the Receiver and the last Sender have been dropped, no call on the channel is in progress and none can follow, so that nothing accesses its memory after it is freed. Freeing it drops exactly the slots in which an element was created, once each, and never an uninitialised slot; in particular every message that was sent and not received is dropped, also if SendRefs or RecvRefs were leaked.", "quantifier": "every execution of the async and of the blocking channel that ends with the drops of the Receiver and of the last Sender in any order or at the same time: any capacity, number of senders and messages, every interleaving, also with the memory orderings of the source", "why_tests_cant": "A use after free, a leak or a double drop shows only if the drops meet a send, a wakeup or a leaked reference in one particular order.", "anchors": ["src/mpsc/async_impl.rs: Inner::drop, Sender::drop, Receiver::drop", "src/mpsc/blocking.rs: Inner::drop, Sender::drop, Receiver::drop", "src/lib.rs: Core::drop_slots"]}
{"id": "C70", "title": "With the memory orderings of the source, a receive call finds what its thread knows of", "statement": "The channel runs on hardware on which a load may return an old value. try_recv, and a poll of recv, returns the next message if the drop of its SendRef happens before the call; and what happens before one receive call happens before all later ones. After the drop of the last Sender, try_recv does not say Empty: it returns a message or says Closed. With stale loads this holds if the drops of the SendRefs happen before the call; once every message sent has been received, try_recv says Closed in any case. (False if a SendRef was leaked, a send call panicked, or the last Sender was dropped by a panicking thread.)", "quantifier": "every execution of the async and of the blocking channel: any capacity, number of senders and messages, every interleaving, and for every load every value that the memory model allows", "why_tests_cant": "That try_recv misses a message needs a stale load and one particular schedule; tests on a machine with a strong memory model do not see it.", "anchors": ["src/mpsc.rs: try_recv_ref, poll_recv_ref", "src/mpsc/async_impl.rs: Receiver::try_recv_ref, Receiver::poll_recv_ref", "src/mpsc/blocking.rs: Receiver::try_recv_ref, Receiver::recv_ref", "src/lib.rs: Core::pop_ref, Core::close"]}
{"id": "C71", "title": "With the memory orderings of the source, len, remaining and is_empty do not miss what happened before the call", "statement": "A ThingBuf is used on hardware on which a load may return an old value. len() returns the number of pushes minus the number of pops it has counted: all those that happened before the call, and possibly others that happened before its return, but none that had not happened. So it is at most the capacity and remaining() does not underflow. If everything pushed and popped before the call returns happened before the call, then len, remaining and is_empty are exact. For the only consumer, what len counts is really in the buffer, and is_empty is false if the next element was pushed before. For the only producer, the places remaining() reports are really free. (A push is counted from the reservation of its place on, a pop from the removal of its element on.)", "quantifier": "every execution of a buffer that is not closed: any capacity, number of threads and calls, every interleaving, and for every load every value that the memory model allows", "why_tests_cant": "A wrong count needs a load of an old head or tail together with a new value of the other; a machine with a strong memory model never shows it.", "anchors": ["src/lib.rs: Core::len, Core::push_ref, Core::pop_ref", "src/thingbuf.rs: ThingBuf::len, ThingBuf::remaining, ThingBuf::is_empty"]}
{"id": "C72", "title": "Calls by value and by closure, when many threads use the buffer and user code panics", "statement": "Any number of push, push_with, pop and pop_with calls run concurrently on one ThingBuf, and new_element, recycle, closures and the Drop of an overwritten element may panic. push(v) returns Ok after v was enqueued, or gives exactly v back in Full and has enqueued nothing; a panic of the Drop of the overwritten element leaves v enqueued. push_with runs its closure once and enqueues the element as the closure has left it, also if it panics; if the buffer is full the closure is not run. pop returns the element it dequeued, or None and has dequeued nothing; if new_element panics the dequeued element is not returned by any call (it is lost). pop_with runs its closure once, on the element it dequeued, or returns None and does not run it. A call panics if and only if user code it called panicked. However a call ends, it keeps no place of the buffer, unless new_element or recycle panicked while a push was getting its place. What the j-th pop got is what the j-th push put in.", "quantifier": "every execution: any capacity, number of threads and calls, every interleaving, every value, everything closures do with the element, and a panic at any call of user code", "why_tests_cant": "A panic has to strike at one point of one call while others are at arbitrary points of theirs; tests contain no panicking closures, elements or recycling policies.", "anchors": ["src/thingbuf.rs: ThingBuf::push, ThingBuf::push_with, ThingBuf::pop, ThingBuf::pop_with", "src/static_thingbuf.rs: StaticThingBuf::push, push_with, pop, pop_with", "src/recycling.rs: take", "src/lib.rs: Ref::with_mut, Drop for Ref"]}
