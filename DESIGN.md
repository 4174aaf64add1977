# Formal model of hawkw/thingbuf in Lean 4: design

Properties are listed in `properties.jsonl` (C01...). Each line of MANIFEST.json says which
theorems settle which property. This file says what is modelled, how each property is
proved, what is trusted and what is left out. It was written before the proofs and is
updated as the model grows.

## Approach

* **Words.** `usize` is `BitVec w` for an arbitrary width `w`. The masks of `Core::new`
  are computed exactly as the source does (`&&&`, `|||`, `~~~`, shifts, wrapping add, and
  *checked* `+` that yields an explicit overflow crash). Position `p` (the number of
  reservations so far) is represented by the word `enc p`. A small set of lemmas connects
  the bit-twiddling with `enc`, for every width and every capacity that satisfies
  `WellSized` (capacity >= 1 and at least 4 generations fit in a word). That every
  allocatable slot array on 32/64 bit satisfies `WellSized` is itself a theorem.
* **Core ring buffer** (`src/lib.rs`). A small-step machine: one step = at most one access
  to shared memory. State = head, tail, slot states, slot contents (`none` = uninitialised
  memory), and a program counter per *operation instance*. An operation instance is one call
  of `push_ref`/`pop_ref`/`len`/`close` together with the lifetime of the `Ref` it returns;
  there are arbitrarily many and they interleave arbitrarily. Nondeterminism (schedule,
  spurious failure of weak CAS, values produced by user code, panics of user code, leaking
  a Ref by never dropping it) is an explicit `Act` argument of an executable
  `step : State -> Act -> Option (State × List Event)`.
* **Traces.** Every observable happening (call, reservation, dequeue, access to an element,
  drop of a Ref, return) is an `Event`. Properties are stated over traces of executions
  `Exec tr s`, with definitions (in a separate specification file) that mention only events,
  never the internals of the state. "At some instant during the call" becomes "for some
  prefix of the trace that contains the call".
* **Counter wrap.** The position counter is finite. Theorems hold for executions in which no
  single *call* spans a whole wrap of the counter (`NoStall`); histories of any length are
  covered. `NoStall` follows if fewer than `cap * 2^w / (2*closed) - 2*cap` pushes happen in total
  (2^62 for capacity 1 on 64 bit), and for all sequential use without any bound.
* **Wait cell** (`src/wait/cell.rs`), **wait queue** (`src/wait/queue.rs`, including the
  intrusive doubly linked list at pointer level), **spin mutex**, **channel** (`src/mpsc*`):
  further small-step machines of the same kind; the channel composes core, cell and queue.
* **Violations.** Where the code does not satisfy a property, the negation is proved on a
  concrete execution and the strongest true version is proved with suffix `_partial`.

## Per property plan

| id | model | proof |
|----|-------|-------|
| C01 | Core traces | inductive invariant tying slot states/contents to positions; j-th dequeue event carries the value of the commit event of the j-th reservation |
| C02 | Core traces | same invariant: reservations <= dequeues + cap in every prefix |
| C03 | Core traces | at the return event `full`, reservations = dequeues + cap |
| C04 | Core traces | per-operation history invariant; witness that the stronger reading is false |
| C05 | Core traces | hold intervals of two operations on a slot never overlap; every access event lies in the hold interval of its operation |
| C06 | Core crash value `oob` | unreachable, for every well sized capacity |
| C07 | Core, `none` = uninitialised | every access/dequeue/recycle event carries `some v` |
| C08 | `dropSlots` on any reachable state | drops exactly the initialised slots, once; witness for panic in `new_element`; in the first lap after a wrap of the position counter, exactly which slots are leaked |
| C09 | `len` as three loads | returns occupancy of some instant in the call |
| C10 | create/recycle events | value passed to recycle = value left by the last release of the slot; at most cap creations before a wrap |
| C11 | crash values | unreachable (overflow, and `unreachable!()` when nobody closes) |
| C12 | close events | no reserve event after a close event; one successful close |
| C13 | return event `closed` of pop | closed and dequeues = reservations |
| C14 | trace order | reservation order respects real-time order; for the channel: that of send calls (`C14_channel_order`) |
| C15 | solo runs | explicit bounded run from every quiescent reachable state |
| C16 | solo runs | false: infinite solo run proved while a Ref is held; partial: exact condition under which push/pop return |
| C17 | sequential programs over the machine | refinement to a list, for all call sequences, any length |
| C18 | release/acquire view machine (`RelAcq.lean`) running the same step functions as the SC model; elements are non-atomic locations, "happens before" is recorded per event | race freedom and publication by an inductive invariant on views and messages; the SC facts that do not need fresh loads are proved for both machines at once (`TraceProps.lean`); for each ordering that matters a racy run when it is weakened |
| C19 C20 C21 C22 C23 | wait cell machine, one waiter, any number of notifiers/closers, panicking waker factory | inductive invariant |
| C24 C26 C27 C28 C29 C30 | wait queue machine with lock, node states, liveness of nodes, debug assertions as crash values | inductive invariant; witnesses for the false ones |
| C25 | pointer-level list | refinement of `List` for each operation |
| C24 - C30, C47, C50 again, C28 | wait queue with `List::dequeue` in two steps (`QueueFine`) | both simulations with the one-step model, up to accesses to memory (`QueueFineSim`, `QueueFineRun`); history of every access (`QueueFineTrace`); witnesses of the use after free |
| C03 C04 C28 C31 - C34 C45 C46 C48 C49 again | channel over the wait queue of `QueueFine` (`ChanFine`) | both simulations with the channel over the one-step queue, up to accesses to memory (`ChanFineSim`, `ChanFineRun`), which carry every theorem over (`ChanFineTrace`, `ChanFineProps`); C28 in terms of the API: the node of a send that is over is accessed only in the gap of a dequeue (`ChanFineMem`), and witnesses that it is |
| C47 | wait queue trace (`QueueProps`) | the recorded waker is the last one passed in, by the invariant on the argument of the pending call |
| C48 | channel trace (`ChanTryProps`, `ChanFullProps`) | the control state of a call tells which function was called; a call is called once; in the states in which a call waits, its last attempt returned Full (`ChanFull`), so by C03 every slot was taken |
| C49 | channel (`ChanEnds`, `ChanQEnds`, `ChanEndsProps`) | a rank that every own step lowers and no other step raises (wait-freedom of the drops that notify the receiver); the drops that notify senders: C50, lifted through the ownership of the wait queue's operations |
| C50 | wait queue (`QueueSolo`, `QueueSoloProps`) | a rank per program counter and number of waiting nodes that a step of a call that runs alone lowers; the holder of the lock is in a call |
| C51 | product of the release/acquire ring buffer and the wait cell (`RelAcqCell`): one view per operation over both, the stored waker a non-atomic location whose stale values can be read unless ordered | invariant of the modification order of the cell's lock word (`RelAcqCellInv`), of what views know about signals and registrations (`RelAcqCellKnow`, `RelAcqCellLate`); for each ordering that matters a run that violates a claim when it is weakened |
| C52 | calls run to their end by the channel model (`CallRun` in `ChanSeq`), against the specification `Spec` (messages, receiver's waker, line of waiting futures, stored notification) | forward simulation: `Rel` (`ChanSeqRel`) relates the two between calls; each call is run symbolically through ring buffer, wait cell and wait queue (`ChanSeqCore`, `ChanSeqCell`, `ChanSeqQueue`, lifted by `ChanSeqLift`); determinism of runs (`ChanSeqDet`) turns existence of the matching run into a statement about every run |
| C53 | the specification of C52 | invariants of the specification (`ChanSeqSpec`: free places are covered by woken futures); a concrete run shows that cancelled futures must be excluded |
| C54 | wait queue and channel, states in which the next step calls a waker (`QueueReenter`, `ChanReenter`) | positive: the lock is free while `notify` wakes, so a call in progress and the holder of the lock end without the notifier (rank of C50, with one call excluded); negative: the lock stays held while the closer takes no step, so a call on a node in the list stays before its lock |
| C55 | channel trace (`ChanRest`: `AtRest`, `RxAsleep`) | C31 shows that the receiver has taken every message, C32 that a sleeping sender would have left one, C34 that a `Sender` is left; carried over to the two-step dequeue in `ChanRestFine` |
| C56 | wait queue and wait cell with wakers that may panic (`QueuePanic`: `pstep`, `CellPanic`: `pstep`) | simulation: the run with each panicking call returning instead is a run of the plain model, to the same state (`PExec.like`); the plain theorems are carried over; negations: an invariant `Lost` for the panic in `close`, the state after a panic in `start_wait` computed. Whatever panics: the part of the invariant that survives (`SInv`), and a rank for calls that run alone |
| C57 | stretches of executions of `Core` with the steps of every call counted (`Work`) | a rank of the place in the code and of whether the word read is still current; an unobstructed step lowers it, only a claim raises it; every call claims at most once |
| C58 | executions of `Core`; the sequential queue `Abs` and the definition of linearizability are in `LinSpec.lean`, which mentions nothing of the model | the effects are put just before the events reserve, commit, dequeue and close; the calls without effect get a point from C03/C04-style facts about an instant during the call; the abstraction of the trace is shown to step as the sequential queue does. `Abs` lets `Empty` be said of a queue whose oldest element is unpublished and `len` be wrong when closed, because the code does so (C04, C05) |
| C59 | executions of the channel (`Chan.Run`, and `FRun` with the two-step dequeue); the sequential channel `CAbs` and the definition of linearizability are in `ChanLinSpec.lean`, in terms of the calls and returns of the API | the trace of the channel is woven with the linearization of its ring buffer (C58); of the points of the ring buffer those are kept at which a call of the channel is decided (the attempt that succeeded or ended the call), a call that was told `Closed` by the wait queue gets a point after the close, and the projection is shown to step as the sequential channel does |
| C60 | the spin lock on a release/acquire machine (`SpinRA.lean`): the flag is an atomic location with its messages, the protected data a non-atomic location whose reads may return any write that the view allows; orderings are parameters, `Orders.source` are those of the source | invariant: the latest message of the flag and the holder's view carry all events so far; the counterexamples for weaker orderings are executions |
| C61 | executions of the wait queue with the two-step dequeue (`Queue.FExec`); "does not use the list" is stated as non-interference: the step commutes with replacing the list by any other | the invariant that the program counters inside of the critical sections are those of the lock's holder, and a case analysis of the steps outside of them |
| C62 | a second machine for the wait queue (`QueueLoads.lean`): each atomic word is the list of values written to it, each call has a view; a plain load yields any message that is not older than the view, `SeqCst` operations yield the newest; the lock and the calls that are known to have ended pass on views; the rest of a step is that of `Queue.step` | simulation: each step is a step of `Queue`, or a plain load that jumps to one of four "stale" program counters (`Stale`); the theorems of `QueueProps` are proved for executions with these jumps (`ExecM true`). For the effect of `notify`: an invariant that says who overwrote each old "waiting", and that it knows of it. Counterexamples for unordered calls |
| C63 | the channel on the memory model (`WeakChan.lean`): the control part of `Channel.lean` with the memory of `RelAcqCell.lean` and the wait queue of `QueueLoads.lean` instead of the sequentially consistent ones; every load yields any value that these allow | each execution is one of `ExecM true` (`Channel.lean`), where the memory may hold anything, with the same calls and returns (`WExec.ctl`), and its events are an execution of the two memory machines (`WExec.mem`, `WExec.loads`); the counting argument of C32 needs only what holds there (`WeakSleep.lean`, `WeakProto.lean`). Counterexample for unordered drops |
| C64 | the same, with the order in which a thread runs its code (`WeakOrder.lean`): a step begins with what its thread knows, and its thread knows what the step has learnt; a send call with its `SendRef`, the `Receiver`, and the drop of the last `Sender` are threads | what each thread knows at each point is an invariant over the happens-before sets of the events (`WeakOrderInv.lean`, `Known`); the argument of C51 (`RelAcqCell*.lean`: a registration is followed by a wake-up, or the pop after it knows of the commit) is put together with the control part (`WeakRx.lean`). Counterexamples for weaker orderings, and without the order of a thread's steps |
| C65 | as C64 | the lemmas about the end of the messages (`ChanLast.lean`, `ChanWakeProps.lean`) hold on any memory, given that the wait cell says `Closed` only after `close_tx`, and that the pop after it finds what was sent before; both come from C51 and from what the threads know (`WeakLast.lean`). False in the same cases as C34, with the same counterexamples. Counterexamples for weaker orderings: they need a last `Sender` that is dropped by a panic, since otherwise `Core::close` writes `tail`, and the read-modify-write of `tail` in `pop_ref` cannot miss that |
| C66 | as C64 | C63, C64 and C65 put together, as C55 puts C32, C31 and C34 together (`WeakRestProps.lean`; the lemmas of `ChanRest.lean` hold on any memory). Counterexamples without its conditions: drops of `RecvRef`s by threads that do not know of each other, a cancelled send, a timed-out send |
| C67 | as C64 | C01, C02, C05, C14, C35, C45 and C18 for the channel on the memory model (`WeakMsgProps.lean`): the lemmas about the messages (`ChanLiftProps.lean`) hold on any memory that has the facts `Facts` of the ring buffer, and C51 gives those and happens-before |
| C68 | as C64 | C03, C33 and C48 for the channel on the memory model (`WeakSend.lean`, `WeakSendProps.lean`): the wait queue is behind a mutex, so that nobody is queued once it is closed, and a slot is reserved only while the channel is open, whatever a load returns; hence a send that is called after the drop can only return `Closed` (or, a `try_send`, `Full`). Counterexample: a `try_send` that returns `Full` after the drop. Partial: the `Receiver` is not dropped by a panicking thread |
| C69 | the channel, `dropSlots` on the state of its ring buffer | C08 for the channel (`ChanDrop.lean`, `ChanDropProps.lean`): when both drops have returned every user is at its end, because calls and references borrow a `Sender` or the `Receiver`, so that no step is possible and no operation of the ring buffer is in progress; then C08 applies, and the invariant tells what is in the slot of a message that was not received. Also in two-step removal of waiters and on the memory model (the thread that frees the memory finds the last values: it has exclusive access, through the reference count of `Arc`, which is not modelled). Partial: as C08, `new_element` does not panic (counterexample) and the position counter is not in the first lap after a wrap |
| C70 | as C64, and the channel without stale loads | a pop that finds nothing stands at a dequeue count that every dequeue it knows of is below, and knows of no commit of the element at it (`RelAcqKnowStep.lean`: `popped_known`); as the receiver's thread knows of its own dequeues, that element is the next message. A pop that is called after the close and says `Empty` has read `tail` with a read-modify-write, which cannot miss the close, so an element was left (`closed_if_drained`). `WeakRecv.lean` ties the pop operations to the receive calls. Counterexamples: without the knowledge `try_recv` can miss a message, also after the drop of the last `Sender`. Partial: no leak, no panic (counterexamples) |
| C71 | the release/acquire machine of C18 | a message of `tail` carries, besides the word, the count of reservations up to it, and its view knows of every dequeue that made room for them; a message of `head` knows of every reservation it has overtaken (`RelAcqLen.lean`, invariant `LMem`, and `LTr` along the trace). So the three loads of `len` find counts P of pushes and Q of pops with Q ≤ P ≤ Q + capacity, and `lenOf` of the two words is P - Q. Each of the three orderings this uses is shown to be needed by an execution with a wrong count. `len` exists only on `ThingBuf` and `StaticThingBuf`, which nothing closes |
| C72 | the queue machine of C01 to C16, with `push`, `push_with`, `pop`, `pop_with` on top (`ByValue.lean`): each call goes through `push_ref`/`pop_ref`, its user code, and the drop of its `Ref`, interleaved with all others; user code may panic at each point | a step invariant (`ByValueInv.lean`) that ties the position of every call to the events of the queue; the queue's own events are a run of the queue, so C01 to C16 apply (`C72_queue`). Finding: `recycling::take` calls `new_element` after the element was dequeued, so a panic there loses the element although the call did not return it (`C72_pop_panic_loses`). A panic of `new_element` or `recycle` inside `push_ref` leaves the place taken (C16), the one exception in `C72_no_place_kept`. Simplified: one run of user code on the element is one step (the call has the element for itself, C02); panics while already unwinding, which abort the process, are not modelled; a user's closure does not call the same buffer |
| C31 | channel machine = core + cell + queue + control (`Channel`), history of the last poll (`ChanPoll`) | message sent after the poll's second pop => its `notify` began after the registration => woken (C20) |
| C33 C34 | channel machine, history of the two drops (`ChanClose`, `ChanAfter`, `ChanLast`) | product invariants; witnesses for drops by a panicking thread and for leaked `SendRef`s |
| C45 | channel machine, ownership of every operation by one call (`ChanOwn`, `ChanSent`) | product invariants |
| C46 | channel machine, blocking | history of the attempts of a send call; the busy loop is a theorem about every run in which a woken call finds the channel full |
| C32 | channel machine, what keeps the senders alive (`ChanSleep`) | invariant: a message is left, or a wake-up is on its way, or a woken call has still to try; witnesses for the three ways to lose a wake-up |
| C35 | push/try_send result functions | algebraic + trace |
| C36 | tx_count | false: witness; partial: one direction |
| C37 | errors.rs functions | false for is_closed: witness; partial |
| C38 | recv_ref_timeout/send_ref_timeout as a loop over clock readings (`Timeout`); in the channel machine a waiting blocking send may time out at any time | induction over the loop |
| C39 | try_split CAS | invariant over any number of callers |
| C40 | tx_count machine | invariant |
| C41 | WithCapacity over an abstract collection contract | algebraic |
| C42 | Backoff | induction on call sequence |
| C43 | spin mutex machine | invariant |
| C44 | constructors | rejected by assert in the heap versions; witness of out-of-bounds for static ones |

## Violations found

Each is proved on a concrete run of the model (name in brackets); the strongest true version has suffix `_partial`.

* C04: `pop` may say `Empty` though a later push has completed, if an earlier one has not. This is by design of the queue; the
  property speaks of the oldest message.
* C08: `new_element` panics => `drop_slots` drops uninitialised memory; first lap after a counter wrap => leak of the slots not used again (exact: `C08_leak_exact_after_wrap`). C69: the same for a channel.
* C16: push/pop spin while the slot they need is held by a live `Ref`.
* C23/C24: shared use of one wait cell by two receivers loses wakeups.
* C28: `List::dequeue` stores the new state of a node before it has finished with the node. The owner reads that state without the
  lock, can end its send, and then `dequeue` reads and writes freed memory: when the future is cancelled [`C28_false_cancel`], polled
  spuriously and completed [`C28_false_poll`], or told that the channel is closed [`C28_false_close`] in that gap. The blocking
  send has the same problem when it is unparked spuriously or times out [`C29_false_gap`]. In terms of the API:
  [`Chan.C28_false_if_cancelled`, `Chan.C28_false_if_polled`, `Chan.C28_false_if_closed`].
* C29: `send_ref_timeout` leaves its node in the wait list when it times out. The next drop of a `RecvRef` accesses it [`C29_use_after_free`,
  `Chan.C28_false_if_timed_out`].
* C26/C30: `notify` may lose a notification or panic on the debug assertion if the list is emptied between its load and its lock.
  Because its first load is not `SeqCst`, this can also happen when the other call has returned long ago, if nothing orders the two threads
  (two threads drop `RecvRef`s of one receiver) [`Queue.C62_false_lost_without_overlap`, `Queue.C62_false_assertion_without_overlap`]; then a sender is
  left asleep at an empty channel [`Chan.C63_false_if_drops_unordered`].
* C33, C34, C40: a `Receiver` or last blocking `Sender` dropped by a panicking thread does not close the channel.
* C34: a leaked `SendRef` makes `recv` return `None` although completed messages are left.
* C36: `Receiver::is_closed` uses `tx_count <= 1`. C37: `is_closed` of the error types is inverted.
* C32: a sender sleeps for ever on an empty channel, after a woken send future was dropped [`C32_false_if_cancelled`], after a woken `send_timeout` returned `Timeout` [`C32_false_if_timed_out`], or, in a release build, after two `RecvRef`s
  were dropped concurrently [`C32_false_if_drops_overlap`].
* C46: a blocking `send` that was woken and found the channel full again spins: it never goes back to the wait list [`C46_false_spins`].
* C55: after a woken send future was dropped [`C55_false_if_cancelled`], a woken `send_timeout` returned `Timeout` [`C55_false_if_timed_out`], or two `RecvRef`s were dropped concurrently in a release build
  [`C55_false_if_drops_overlap`], a sender and the receiver of an empty channel may wait for each other for ever.
* C54: `WaitQueue::close` calls the wakers while it holds the lock of the list. A waker that drops or polls another waiting send future of the channel, when the
  `Receiver` is dropped, deadlocks [`Chan.C54_false_if_receiver_dropped`, `Chan.C54_deadlock`]. `continue_wait` compares, clones and drops wakers under that lock
  [`Queue.C54_false_if_replacing`]. `notify` unlocks before it wakes.
* C56: `WaitQueue::close` wakes the senders in a loop. If a waker panics, the loop is left: the senders that still wait are never woken, and are told to wait
  whenever they are polled [`Queue.C56_false_if_close_panics`]. `start_wait` says "somebody waits" before it clones the waker. If that clone panics and
  nobody else waits, the next notification is lost, or, in a debug build, the drop of a `RecvRef` panics [`Queue.C56_false_if_start_panics`].
* C44: a static channel or queue of capacity 0 indexes out of bounds.

## Trusted base

Lean 4.33 kernel; the axioms `propext`, `Classical.choice`, `Quot.sound` (no others; no
`sorry`, `native_decide`, `bv_decide`). The correspondence between the Rust source and the
model definitions is by reading: each definition cites the lines it models.

Not modelled: the `loom`/tracing instrumentation, `Debug`/`Display` formatting, the
`CachePadded` layout, `alloc`, real wakers/threads (waking is an event), `parking_lot::Mutex`
(the list lock with `std`, `src/util/mutex.rs`, assumed to be a mutex without poisoning; the
no-`std` spin lock is modelled in `SpinMutex.lean`), hardware. Sequential consistency is assumed in all
modules except `RelAcq*.lean`, `SpinRA*.lean` and `QueueLoads*.lean` (the wait queue by itself), and `Weak*.lean` (the channel on both).

The release/acquire machine (`RelAcq.lean`): timestamped messages per atomic location, views that travel from
release writes to acquire reads, read-modify-writes adjacent to the message they read, release sequences through
read-modify-writes. `SeqCst` is treated as acquire+release (a superset of the executions of C11). No load buffering
("promises"), which needs relaxed writes: the code has none. Each operation has its own view; program order between calls of
a thread, moving a `Ref`, joining threads etc. are `sync` actions of the environment, so they are never assumed. Executions are
restricted to those in which no pending call has read a message older than (nearly) one period of the position
counter (`Timely`; the counterpart of `NoStall`, which is needed already under sequential consistency because of ABA).

What stale loads can hide (`RelAcqKnow.lean`, `RelAcqKnowStep.lean`): an operation's view always determines facts about the
past (every commit, dequeue or close in its happens-before set is reflected in the timestamps of its view), so the messages that it
may still read cannot contradict them. This gives `C18_empty`, `C18_no_false_empty` and `C18_push_after_close`.

The wait cell on the same machine (`RelAcqCell.lean`): the cell's lock word is an atomic location of the machine, the steps are those of
`Cell.lean`. A failing compare-and-swap may read any message that its view allows (also one with the expected value: that would be a
spurious failure, which the strong compare-and-swaps of the source do not have, so it is excluded). The stored waker is not atomic: an
access reads some write that the view allows, so a racy access may find an outdated waker; that there are no races is a
theorem (`C51_waker_race_free`), not an assumption. The wait queue is not on this machine: its list is behind a mutex, its atomic
state word and the nodes' states have a machine of their own (`QueueLoads.lean`, C62), in which all synchronisation other than by the
lock, the words' own order and the calls known to have ended is left out. It has the one-step dequeue; the gap in `List::dequeue` (C28) is only in the
sequentially consistent `QueueFine.lean`.

The channel on the memory model (`WeakChan.lean`): `plan` says for each action of the channel machine which step of the ring buffer, the wait cell or the
wait queue it takes and what the call does with the outcome; `step_eq_plan` proves that `Channel.step` is `plan` run on the sequentially consistent parts. `wstep` runs the same
`plan` on the two memory machines, with the values of the loads chosen freely (`Choice`). The two memory machines have separate views: what a thread learns from the lock of the wait
queue does not help it in the ring buffer. This only adds executions. The one-step dequeue is used, as in C62.

The order in which a thread runs its code (`WeakOrder.lean`): in `WExec` an operation knows only what it has read itself, so the pop in `poll_recv_ref` need not know what `wait_with` has
read. `PExec` adds this order: `who` says which thread takes a step and which operation it belongs to; `enter` and `leave` copy what is known between the thread and the operation. The
steps of a `RecvRef` belong to no thread. The drop of the last `Sender` knows what the sends know, because of the reference counter (`fetch_sub(1, Release)`, then `fence(SeqCst)`); the counter
itself is not on the memory machine, so this is trusted. `PExec` adds no executions to `WExec` (`PExec.wexec`).

## Wrong programs: what the log does and does not show

`seeded/LOG.jsonl` lists, per edit, the theorems whose proofs no longer go through in an edited copy. Three limits apply.

- A proof that breaks is not yet a false statement: many theorems rest on one invariant, so one edit can break all of them. Evidence for the
  named claim itself is given only where an entry says that statements were evaluated on, or refuted by, concrete or random executions.
- The script joined modules in the order of `Verif.lean`, which is not an order of dependency. For edits of `Channel.lean` this made three theorems
  (`C48_sleeps_after_attempt_fine`, `C48_sleeps_only_if_full_fine`, `C48_times_out_only_if_full_fine`) fail with no edit at all. The 16 entries
  concerned carry a field `correction`. A comparison across the edits of each file found no other theorem like this from the eighth series on; the output of
  earlier series was not kept and could not be compared.
- A first run of the C72 edits used outdated compiled modules and was thrown away; the logged run was made after an unedited copy had been checked.
