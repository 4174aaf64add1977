import Verif.ChanSleep
import Verif.ChanDemo

/-!
# The channel: a sender that waits has something to wait for

C32. The property is false of `src/wait/queue.rs` and `src/mpsc/async_impl.rs`: wake-ups are lost if `RecvRef`s are dropped concurrently, or if a woken send is
cancelled or times out. It holds of all other runs.
-/

namespace Thingbuf.Chan

variable {w : Nat} {V W : Type} {c : Config W} {tr : Trace V W} {s : State w V W}

/-- **C32**, the part that holds: nothing is half way through, send call `k` is asleep; then the channel holds a message (or its `RecvRef` has not been dropped, or its
`SendRef`). The `Receiver` has not been dropped (then every sleeping call is woken, see `C33`), no wake-up of a cancelled call, or one that timed out, was wasted, and no `notify` call was
overlapped by another, or by a cancellation, that changed the list. (Missing: the last two hypotheses; the property is false without either of them, see below.) -/
theorem C32_sleeper_has_message_partial (h : Run c tr s) {k : Nat} (hk : Asleep tr k) (hset : Settled tr) (hrx : ∀ pan, .api (.dropRx pan) ∉ tr)
    (hov : ∀ o, ¬ Queue.Overlapped (queueOf tr) o) (hw : ¬ WakeWasted tr) : ∃ a, InChannel tr a :=
  h.sleeper ⟨hrx, hov, hw⟩ hset hk

/-- **C32** for the clients that drop `RecvRef`s one at a time and do not cancel sends, of which none times out, whatever the interleaving with the senders. -/
theorem C32_one_drop_at_a_time_partial (h : Run c tr s) {k : Nat} (hk : Asleep tr k) (hset : Settled tr) (hrx : ∀ pan, .api (.dropRx pan) ∉ tr)
    (h1 : OneDrop tr) (hn : ∀ k, .api (.cancel k) ∉ tr) (ht : ∀ k, .api (.retSend k .timeout) ∉ tr) : ∃ a, InChannel tr a :=
  h.sleeper (h.exec.sound h1 hn ht hrx) hset hk

/-- **C32** for the blocking channel, where a send cannot be cancelled, if none times out. -/
theorem C32_blocking_partial (h : Run c tr s) (hb : c.blocking = true) {k : Nat} (hk : Asleep tr k) (hset : Settled tr) (hrx : ∀ pan, .api (.dropRx pan) ∉ tr)
    (h1 : OneDrop tr) (ht : ∀ k, .api (.retSend k .timeout) ∉ tr) : ∃ a, InChannel tr a :=
  h.sleeper (h.exec.sound h1 (h.exec.no_cancel hb) ht hrx) hset hk

/-- **C32** for the async channel, where no send times out, if none is cancelled. -/
theorem C32_async_partial (h : Run c tr s) (hb : c.blocking = false) {k : Nat} (hk : Asleep tr k) (hset : Settled tr) (hrx : ∀ pan, .api (.dropRx pan) ∉ tr)
    (h1 : OneDrop tr) (hn : ∀ k, .api (.cancel k) ∉ tr) : ∃ a, InChannel tr a :=
  h.sleeper (h.exec.sound h1 hn (h.exec.no_timeout hb) hrx) hset hk

/-- **C32**, why a message in the channel helps: if a `RecvRef` is dropped while call `k` is asleep, and `k` is not cancelled, then a call that waits in the queue (it sleeps, or has timed out)
is woken by the time that all such drops have ended. -/
theorem C32_receipt_wakes_partial (h : Exec c tr s) {pre post : Trace V W} {b : OpId} {k : Nat} (htr : tr = pre ++ .api (.dropRecv b) :: post) (hk : Asleep pre k)
    (hc : .api (.cancel k) ∉ post) (hre : ∀ a, ¬ RecvEnding tr a) (hrx : ∀ pan, .api (.dropRx pan) ∉ tr) (hov : ∀ o, ¬ Queue.Overlapped (queueOf tr) o) :
    ∃ o n v, .queue (.wake o n v) ∈ post :=
  h.receipt_wakes hrx hre hov htr hk hc

/-! ### Deciding the hypotheses -/

/-- Events that begin or end the sleep of call `k`. -/
def turns (k : Nat) : Ev Nat Nat → Bool
  | .api (.sleep j) | .api (.cancel j) | .api (.retSend j .timeout) => j == k
  | .queue (.wake _ j _) | .queue (.callCont j _) => j == k
  | _ => false

def asleepB (tr : Trace Nat Nat) (k : Nat) : Bool := tr.reverse.find? (turns k) == some (.api (.sleep k))

theorem asleepB_imp {tr : Trace Nat Nat} {k : Nat} (h : asleepB tr k = true) : Asleep tr k := by
  simp only [asleepB, beq_iff_eq, List.find?_eq_some_iff_append] at h
  obtain ⟨-, as, bs, h1, h2⟩ := h
  have htr : tr = bs.reverse ++ .api (.sleep k) :: as.reverse := by
    have := congrArg List.reverse h1
    simpa using this
  refine ⟨_, _, htr, fun o v hx => ?_, fun v hx => ?_, fun hx => ?_, fun hx => ?_⟩ <;>
    simpa [turns] using h2 _ (List.mem_reverse.1 hx)

def hasRet (tr : Trace Nat Nat) (k : Nat) : Bool := tr.any fun | .api (.retSend j _) => j == k | _ => false

def settledB (tr : Trace Nat Nat) : Bool := tr.all fun
  | .api (.callSend k _ _) => hasRet tr k || decide (.api (.cancelled k) ∈ tr) || asleepB tr k
  | .api (.dropRecv a) => decide (.api (.dropRecvEnd a) ∈ tr)
  | _ => true

theorem settledB_imp {tr : Trace Nat Nat} (h : settledB tr = true) : Settled tr := by
  rw [settledB, List.all_eq_true] at h
  refine ⟨fun k x wt hk => ?_, fun a ha => ?_⟩
  · have := h _ hk
    simp only [Bool.or_eq_true, decide_eq_true_eq] at this
    rcases this with (h1 | h1) | h1
    · refine .inl ?_
      simp only [hasRet, List.any_eq_true] at h1
      obtain ⟨e, h2, h3⟩ := h1
      split at h3
      · rename_i j r
        simp at h3
        exact ⟨r, h3 ▸ h2⟩
      · cases h3
    · exact .inr (.inl h1)
    · exact .inr (.inr (asleepB_imp h1))
  · exact ha.2 (by simpa using h _ ha.1)

def emptyB (tr : Trace Nat Nat) : Bool := (List.range (resOps (coreOf tr)).length).all fun i =>
  match (received tr)[i]? with
  | some b => decide (.api (.dropRecv b) ∈ tr)
  | none => false

theorem emptyB_imp {tr : Trace Nat Nat} (h : emptyB tr = true) : ∀ a, ¬ InChannel tr a := by
  rintro a ⟨i, h1, h2⟩
  rw [emptyB, List.all_eq_true] at h
  have := h i (by simpa using (List.getElem?_eq_some_iff.1 h1).1)
  split at this
  · rename_i b hb
    exact h2 b hb (by simpa using this)
  · cases this

def oneDropB : Trace Nat Nat → Option OpId → Bool
  | [], _ => true
  | .api (.dropRecv b) :: l, none => oneDropB l (some b)
  | .api (.dropRecv _) :: _, some _ => false
  | .api (.dropRecvEnd b) :: l, some b' => if b = b' then oneDropB l none else oneDropB l (some b')
  | _ :: l, o => oneDropB l o

theorem oneDropB_imp {l p : Trace Nat Nat} {o : Option OpId} (h : oneDropB l o = true) (hp : ∀ b, .api (.dropRecv b) ∈ p → .api (.dropRecvEnd b) ∈ p ∨ o = some b) :
    ∀ pre b post b', l = pre ++ .api (.dropRecv b) :: post → .api (.dropRecv b') ∈ p ++ pre → .api (.dropRecvEnd b') ∈ p ++ pre := by
  induction l generalizing p o with
  | nil => intro pre b post b' h; simp at h
  | cons e l ih =>
    intro pre b post b' hl hb'
    cases pre with
    | nil =>
      simp at hl hb'
      obtain ⟨rfl, rfl⟩ := hl
      rcases hp b' hb' with h1 | h1
      · simpa using h1
      · subst h1; simp [oneDropB] at h
    | cons x pre =>
      simp at hl
      obtain ⟨rfl, rfl⟩ := hl
      have key : ∀ o', oneDropB (pre ++ .api (.dropRecv b) :: post) o' = true →
          (∀ d, .api (.dropRecv d) ∈ p ++ [e] → .api (.dropRecvEnd d) ∈ p ++ [e] ∨ o' = some d) → .api (.dropRecvEnd b') ∈ p ++ e :: pre := by
        intro o' h1 h2
        have := ih h1 h2 pre b post b' rfl (by simpa using hb')
        simpa using this
      unfold oneDropB at h
      split at h
      · rename_i heq; cases heq
      · rename_i d l' heq
        cases heq
        refine key _ h fun d' hd => ?_
        simp at hd
        rcases hd with hd | hd
        · rcases hp d' hd with h1 | h1
          · simp [h1]
          · cases h1
        · simp [hd]
      · cases h
      · rename_i d l' d' heq
        cases heq
        split at h
        · rename_i e'; subst e'
          refine key _ h fun d' hd => ?_
          simp at hd
          rcases hp d' hd with h1 | h1
          · simp [h1]
          · cases h1; simp
        · refine key _ h fun d' hd => ?_
          simp at hd
          rcases hp d' hd with h1 | h1
          · simp [h1]
          · exact .inr h1
      · rename_i o _ _ _ _ heq h1 h2 h3
        cases heq
        refine key _ h fun d' hd => ?_
        simp at hd
        rcases hd with hd | hd
        · rcases hp d' hd with h4 | h4
          · simp [h4]
          · exact .inr h4
        · subst hd
          cases o with
          | none => exact (h1 _ rfl rfl).elim
          | some d => exact (h2 _ _ rfl rfl).elim

/-! ### Concrete cases -/

/-- Capacity 1. Call 1 sends; calls 2 and 3 find the channel full and sleep; the message is received and its `RecvRef` dropped, which wakes call 2; it sends; its message is in the
channel, and call 3 is asleep. -/
def sleepDemo : List It :=
  iSend 1 10 1 ++ iDropSend 1 100 ++ iSend 2 11 2 ++ iStart 2 7 ++ iSend 3 12 3 ++ iStart 3 8 ++ iTry 50 ++ iDropRecv 50 60 ++
    iCont 2 7 ++ iRetry 2 13 2 ++ iDropSend 2 101

/-- C32: the hypotheses of the theorems above are met by this run, and its wake-up is that of call 2. -/
example (blocking : Bool) : ∃ s : State 8 Nat Nat, Run (demoC 1 blocking) (scriptTr (demoC 1 blocking) sleepDemo) s ∧
    Asleep (scriptTr (demoC 1 blocking) sleepDemo) 3 ∧ Settled (scriptTr (demoC 1 blocking) sleepDemo) ∧ OneDrop (scriptTr (demoC 1 blocking) sleepDemo) ∧
    (∀ k, .api (.cancel k) ∉ scriptTr (demoC 1 blocking) sleepDemo) ∧ (∀ k, .api (.retSend k .timeout) ∉ scriptTr (demoC 1 blocking) sleepDemo) ∧ (∀ pan, .api (.dropRx pan) ∉ scriptTr (demoC 1 blocking) sleepDemo) ∧
    ∃ pre post, scriptTr (demoC 1 blocking) sleepDemo = pre ++ .api (.dropRecv 50) :: post ∧ Asleep pre 3 ∧ .queue (.wake 60 2 7) ∈ post := by
  obtain ⟨s, hs⟩ : ∃ s : State 8 Nat Nat, Run (demoC 1 blocking) (scriptTr (demoC 1 blocking) sleepDemo) s := by
    cases blocking <;> exact Run.of_scriptTr (by decide) (by decide +kernel) (by decide +kernel)
  refine ⟨s, hs, asleepB_imp (by cases blocking <;> decide +kernel), settledB_imp (by cases blocking <;> decide +kernel),
    oneDropB_imp (p := []) (o := none) (by cases blocking <;> decide +kernel) (by simp), fun k hk => ?_, fun k hk => ?_, fun pan hp => ?_,
    (scriptTr (demoC 1 blocking) sleepDemo).takeWhile fun e => e != .api (.dropRecv 50),
    ((scriptTr (demoC 1 blocking) sleepDemo).dropWhile fun e => e != .api (.dropRecv 50)).drop 1, by cases blocking <;> decide +kernel,
    asleepB_imp (by cases blocking <;> decide +kernel), by cases blocking <;> decide +kernel⟩
  · have : (scriptTr (demoC 1 blocking) sleepDemo).all (fun | .api (.cancel _) => false | _ => true) = true := by cases blocking <;> decide +kernel
    simpa using List.all_eq_true.1 this _ hk
  · have : (scriptTr (demoC 1 blocking) sleepDemo).all (fun | .api (.retSend _ .timeout) => false | _ => true) = true := by cases blocking <;> decide +kernel
    simpa using List.all_eq_true.1 this _ hk
  · have : (scriptTr (demoC 1 blocking) sleepDemo).all (fun | .api (.dropRx _) => false | _ => true) = true := by cases blocking <;> decide +kernel
    simpa using List.all_eq_true.1 this _ hp

/-- Capacity 1. Calls 2 and 3 sleep; the message is received and its `RecvRef` dropped, which wakes call 2; its future is dropped instead of being polled. -/
def wastedDemo : List It :=
  iSend 1 10 1 ++ iDropSend 1 100 ++ iSend 2 11 2 ++ iStart 2 7 ++ iSend 3 12 3 ++ iStart 3 8 ++ iTry 50 ++ iDropRecv 50 60 ++ iCancel 2

/-- **C32 is false** if a send that was woken is cancelled (`PinnedDrop` of `SendRefFuture`, `src/mpsc/async_impl.rs:1494-1501`, does not pass the wake-up on): call 3
sleeps although the channel is empty, every other call is over and nothing is half way through. -/
theorem C32_false_if_cancelled : ∃ (tr : Trace Nat Nat) (s : State 8 Nat Nat), Run (demoC 1 false) tr s ∧ Asleep tr 3 ∧ Settled tr ∧
    (∀ a, ¬ InChannel tr a) ∧ (∀ pan, .api (.dropRx pan) ∉ tr) ∧ OneDrop tr := by
  obtain ⟨s, hs⟩ := Run.of_scriptTr (c := demoC 1 false) (l := wastedDemo) (by decide) (by decide +kernel) (by decide +kernel)
  refine ⟨_, s, hs, asleepB_imp (by decide +kernel), settledB_imp (by decide +kernel), emptyB_imp (by decide +kernel), fun pan hp => ?_,
    oneDropB_imp (p := []) (o := none) (by decide +kernel) (by simp)⟩
  have : (scriptTr (demoC 1 false) wastedDemo).all (fun | .api (.dropRx _) => false | _ => true) = true := by decide +kernel
  simpa using List.all_eq_true.1 this _ hp

/-- The same in the blocking channel: call 2 is a `send_timeout`, whose time is up when its thread goes on. -/
def lateDemo : List It :=
  iSend 1 10 1 ++ iDropSend 1 100 ++ iSend 2 11 2 ++ iStart 2 7 ++ iSend 3 12 3 ++ iStart 3 8 ++ iTry 50 ++ iDropRecv 50 60 ++ [.one (.timeout 2)]

/-- **C32 is false** if a `send_timeout` that was woken returns `Timeout` (`send_ref_timeout`, `src/mpsc/blocking.rs:1746-1752`, looks at the clock before it looks at
its node, and does not pass the wake-up on): call 3 sleeps although the channel is empty, every other call is over and nothing is half way through. -/
theorem C32_false_if_timed_out : ∃ (tr : Trace Nat Nat) (s : State 8 Nat Nat), Run (demoC 1 true) tr s ∧ Asleep tr 3 ∧ Settled tr ∧
    (∀ a, ¬ InChannel tr a) ∧ (∀ pan, .api (.dropRx pan) ∉ tr) ∧ OneDrop tr ∧ (∀ k, .api (.cancel k) ∉ tr) ∧ ∀ k, .api (.retSend k .timeout) ∈ tr → k = 2 := by
  obtain ⟨s, hs⟩ := Run.of_scriptTr (c := demoC 1 true) (l := lateDemo) (by decide) (by decide +kernel) (by decide +kernel)
  have hno : (scriptTr (demoC 1 true) lateDemo).all (fun | .api (.dropRx _) | .api (.cancel _) => false | .api (.retSend k .timeout) => k == 2 | _ => true) = true := by
    decide +kernel
  rw [List.all_eq_true] at hno
  exact ⟨_, s, hs, asleepB_imp (by decide +kernel), settledB_imp (by decide +kernel), emptyB_imp (by decide +kernel), fun pan hp => by simpa using hno _ hp,
    oneDropB_imp (p := []) (o := none) (by decide +kernel) (by simp), fun k hk => by simpa using hno _ hk, fun k hk => by simpa using hno _ hk⟩

/-- A release build. -/
def releaseC (cap : Nat) (blocking : Bool) : Config Nat := ⟨cap, ⟨true, false⟩, ⟨false, (· == ·)⟩, blocking⟩

/-- Capacity 2, full. Call 3 sleeps; call 4 found the channel full, and is about to wait. The `RecvRef`s of both messages are dropped concurrently: the first drop finds that
a sender waits, the second wakes call 3. Call 3 sends, its message is received and the `RecvRef` dropped, which stores a notification, as nobody waits. The first drop goes
on, finds nobody to wake, and throws the notification away. Call 4 waits. -/
def overlapDemo : List It :=
  iSend 1 10 1 ++ iDropSend 1 100 ++ iSend 2 11 2 ++ iDropSend 2 101 ++ iSend 3 12 3 ++ iStart 3 7 ++ iSend 4 13 4 ++ iTry 50 ++ iTry 51 ++
    [.one (.dropRecv 50), .one (.recvNotify 50 60), .one (.recvNotifyRun 50 false)] ++ iDropRecv 51 61 ++ iCont 3 7 ++ iRetry 3 14 3 ++ iDropSend 3 102 ++
    iTry 52 ++ iDropRecv 52 62 ++ [.all [.recvNotifyRun 50 false]] ++ iStart 4 8

/-- **C32 is false** in a release build if `RecvRef`s are dropped concurrently (`WaitQueue::notify`, `src/wait/queue.rs:375-440`): call 4 sleeps although the channel is empty,
every other call is over, nothing is half way through and no send was ever cancelled or timed out. -/
theorem C32_false_if_drops_overlap (blocking : Bool) : ∃ (tr : Trace Nat Nat) (s : State 8 Nat Nat), Run (releaseC 2 blocking) tr s ∧ Asleep tr 4 ∧ Settled tr ∧
    (∀ a, ¬ InChannel tr a) ∧ (∀ pan, .api (.dropRx pan) ∉ tr) ∧ (∀ k, .api (.cancel k) ∉ tr) ∧ ∀ k, .api (.retSend k .timeout) ∉ tr := by
  obtain ⟨s, hs⟩ : ∃ s : State 8 Nat Nat, Run (releaseC 2 blocking) (scriptTr (releaseC 2 blocking) overlapDemo) s := by
    cases blocking <;> exact Run.of_scriptTr (by decide) (by decide +kernel) (by decide +kernel)
  refine ⟨_, s, hs, asleepB_imp (by cases blocking <;> decide +kernel), settledB_imp (by cases blocking <;> decide +kernel),
    emptyB_imp (by cases blocking <;> decide +kernel), fun pan hp => ?_, fun k hk => ?_, fun k hk => ?_⟩
  · have : (scriptTr (releaseC 2 blocking) overlapDemo).all (fun | .api (.dropRx _) => false | _ => true) = true := by cases blocking <;> decide +kernel
    simpa using List.all_eq_true.1 this _ hp
  · have : (scriptTr (releaseC 2 blocking) overlapDemo).all (fun | .api (.cancel _) => false | _ => true) = true := by cases blocking <;> decide +kernel
    simpa using List.all_eq_true.1 this _ hk
  · have : (scriptTr (releaseC 2 blocking) overlapDemo).all (fun | .api (.retSend _ .timeout) => false | _ => true) = true := by cases blocking <;> decide +kernel
    simpa using List.all_eq_true.1 this _ hk

end Thingbuf.Chan
