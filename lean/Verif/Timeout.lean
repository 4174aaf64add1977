/-!
# Timeouts of the blocking channel (C38)

Models `recv_ref_timeout` (/repo/src/mpsc/blocking.rs lines 1620-1648) and `send_ref_timeout` (lines
1702-1755) as loops against a clock.

* Time is a natural number (any unit).  `Instant::now` and `elapsed` read the clock exactly.
* What the channel answers (`poll_recv_ref`, `start_wait`/`continue_wait`, `try_send_ref`) is chosen by the
  environment: the theorems hold for all answers.
* `park_timeout(timeout)` may return at any time (an early return is a spurious wakeup or a leftover unpark
  token), but at the latest `timeout + δ` after it was called.  Every other step takes at most `δ`; `δ`
  stands for the scheduling delay.
-/

namespace Thingbuf.Timeout

/-! ## recv_ref_timeout -/

/-- `Poll<Option<RecvRef>>` (what `poll_recv_ref` returns): `Ready(Some)`, `Ready(None)`, `Pending`.
/repo/src/mpsc.rs lines 404-451. -/
inductive Polled where | got | closed | pending
  deriving DecidableEq, Repr

/-- `Result<RecvRef, RecvTimeoutError>`. /repo/src/mpsc/blocking.rs lines 1620-1648. -/
inductive RecvRes where | ok | closed | timeout
  deriving DecidableEq, Repr

/-- Models the control flow of /repo/src/mpsc/blocking.rs lines 1620-1648. -/
inductive RecvPC where
  /-- about to read the clock (line 1626) -/
  | start
  /-- about to call `poll_recv_ref` (line 1628) -/
  | poll
  /-- about to call `park_timeout` (line 1641) -/
  | park
  /-- inside `park_timeout` since this time -/
  | parked (since : Nat)
  /-- about to read the clock again (line 1642) -/
  | check
  /-- returned -/
  | done (r : RecvRes)
  deriving DecidableEq, Repr

/-- State of a call: the clock (once the call has returned, the time at which it returned),
`beginning_park`, the program counter, and what the polls of the queue have answered so far.
/repo/src/mpsc/blocking.rs lines 1620-1648. -/
structure Recv where
  now : Nat
  begin : Nat
  pc : RecvPC
  polls : List Polled

/-- The call happens at time `t0`. /repo/src/mpsc/blocking.rs line 1620. -/
def Recv.init (t0 : Nat) : Recv := { now := t0, begin := 0, pc := .start, polls := [] }

/-- One step of `recv_ref_timeout` (blocking.rs lines 1626-1647), completed at time `t`; `p` is what
`poll_recv_ref` returns if this step is the poll. -/
def Recv.step (timeout δ : Nat) (s : Recv) (t : Nat) (p : Polled) : Option Recv :=
  if t < s.now then none else
  match s.pc with
  | .start => if t ≤ s.now + δ then some { s with now := t, begin := t, pc := .poll } else none
  | .poll =>
    if t ≤ s.now + δ then
      match p with
      | .got => some { s with now := t, pc := .done .ok, polls := s.polls ++ [.got] }
      | .closed => some { s with now := t, pc := .done .closed, polls := s.polls ++ [.closed] }
      | .pending => some { s with now := t, pc := .park, polls := s.polls ++ [.pending] }
    else none
  | .park => if t ≤ s.now + δ then some { s with now := t, pc := .parked t } else none
  | .parked since =>
    if t ≤ since + timeout + δ then some { s with now := t, pc := .check } else none
  | .check =>
    if t ≤ s.now + δ then
      if t - s.begin ≥ timeout then some { s with now := t, pc := .done .timeout }
      else some { s with now := t, pc := .poll }
    else none
  | .done _ => none

/-- Executions of a call made at time `t0`. Scaffolding of the model, no counterpart in the source. -/
inductive RecvExec (timeout δ t0 : Nat) : Recv → Prop where
  | init : RecvExec timeout δ t0 (Recv.init t0)
  | step {s s' t p} : RecvExec timeout δ t0 s → Recv.step timeout δ s t p = some s' → RecvExec timeout δ t0 s'

/-- Invariant of `recv_ref_timeout`. Scaffolding of the model, no counterpart in the source. -/
def RecvInv (timeout δ t0 : Nat) (s : Recv) : Prop :=
  match s.pc with
  | .start => s.now = t0 ∧ ∀ p ∈ s.polls, p = .pending
  | .poll => (t0 ≤ s.begin ∧ s.begin ≤ t0 + δ ∧ s.begin ≤ s.now) ∧ s.now ≤ s.begin + timeout ∧
      ∀ p ∈ s.polls, p = .pending
  | .park => (t0 ≤ s.begin ∧ s.begin ≤ t0 + δ ∧ s.begin ≤ s.now) ∧ s.now ≤ s.begin + timeout + δ ∧
      ∀ p ∈ s.polls, p = .pending
  | .parked u => (t0 ≤ s.begin ∧ s.begin ≤ t0 + δ ∧ s.begin ≤ s.now) ∧ s.now = u ∧
      u ≤ s.begin + timeout + 2 * δ ∧ ∀ p ∈ s.polls, p = .pending
  | .check => (t0 ≤ s.begin ∧ s.begin ≤ t0 + δ ∧ s.begin ≤ s.now) ∧ s.now ≤ s.begin + 2 * timeout + 3 * δ ∧
      ∀ p ∈ s.polls, p = .pending
  | .done r => s.now ≤ t0 + 2 * timeout + 5 * δ ∧
      match r with
      | .timeout => t0 + timeout ≤ s.now ∧ ∀ p ∈ s.polls, p = .pending
      | .ok => ∃ l, s.polls = l ++ [.got] ∧ ∀ p ∈ l, p = .pending
      | .closed => ∃ l, s.polls = l ++ [.closed] ∧ ∀ p ∈ l, p = .pending

theorem RecvExec.inv {timeout δ t0 : Nat} {s : Recv} (h : RecvExec timeout δ t0 s) : RecvInv timeout δ t0 s := by
  induction h with
  | init => simp [RecvInv, Recv.init]
  | @step s s' t p _ hs ih =>
    simp only [Recv.step] at hs
    split at hs
    · cases hs
    rename_i hmono
    unfold RecvInv at ih
    split at ih <;> rename_i hpc <;> simp only [hpc] at hs
    · split at hs <;> cases hs
      exact ⟨by simp; omega, by simp, ih.2⟩
    · split at hs
      · cases p <;> cases hs
        · exact ⟨by simp; omega, _, rfl, ih.2.2⟩
        · exact ⟨by simp; omega, _, rfl, ih.2.2⟩
        · refine ⟨⟨ih.1.1, ih.1.2.1, by simp; omega⟩, by simp; omega, fun p hp => ?_⟩
          rcases List.mem_append.1 hp with hp | hp
          · exact ih.2.2 p hp
          · simpa using hp
      · cases hs
    · split at hs <;> cases hs
      exact ⟨⟨ih.1.1, ih.1.2.1, by simp; omega⟩, rfl, by simp; omega, ih.2.2⟩
    · split at hs <;> cases hs
      exact ⟨⟨ih.1.1, ih.1.2.1, by simp; omega⟩, by simp; omega, ih.2.2.2⟩
    · split at hs
      · split at hs <;> cases hs
        · exact ⟨by simp; omega, by simp; omega, ih.2.2⟩
        · exact ⟨⟨ih.1.1, ih.1.2.1, by simp; omega⟩, by simp; omega, ih.2.2⟩
      · cases hs
    · cases hs

/-- **C38** A `recv_timeout` that reports a timeout took at least the timeout, whatever the clock, the
wakeups and the channel did, and none of its polls of the queue yielded a message. -/
theorem C38_recv_timeout_not_early {timeout δ t0 : Nat} {s : Recv} (h : RecvExec timeout δ t0 s)
    (hd : s.pc = .done .timeout) : t0 + timeout ≤ s.now ∧ .got ∉ s.polls := by
  have := h.inv
  simp only [RecvInv, hd] at this
  exact ⟨this.2.1, fun hg => by cases this.2.2 _ hg⟩

/-- **C38** At every moment of a `recv_timeout`, up to its return, less than two timeouts have passed since
the call, up to five scheduling delays. -/
theorem C38_recv_timeout_bounded {timeout δ t0 : Nat} {s : Recv} (h : RecvExec timeout δ t0 s) :
    s.now ≤ t0 + 2 * timeout + 5 * δ := by
  have := h.inv
  unfold RecvInv at this
  split at this <;> omega

/-- **C38** A `recv_timeout` consumes at most one message, and exactly one iff it returns one. -/
theorem C38_recv_timeout_consumes {timeout δ t0 : Nat} {s : Recv} (h : RecvExec timeout δ t0 s) {r : RecvRes}
    (hd : s.pc = .done r) : s.polls.count .got = if r = .ok then 1 else 0 := by
  have := h.inv
  have hz : ∀ l : List Polled, (∀ p ∈ l, p = .pending) → l.count .got = 0 := fun l hl =>
    List.count_eq_zero.2 fun hg => by cases hl _ hg
  cases r <;> simp only [RecvInv, hd] at this
  · obtain ⟨_, l, h1, h2⟩ := this; simp [h1, hz l h2]
  · obtain ⟨_, l, h1, h2⟩ := this; simp [h1, hz l h2]
  · simp [hz _ this.2.2]

/-- Run the loop on given step times and answers (for concrete cases). Scaffolding of the model, no counterpart in
the source. -/
def Recv.runSteps (timeout δ : Nat) : Recv → List (Nat × Polled) → Option Recv
  | s, [] => some s
  | s, (t, p) :: l => (Recv.step timeout δ s t p).bind fun s => Recv.runSteps timeout δ s l

theorem RecvExec.of_run {timeout δ t0 : Nat} {s s' : Recv} {l : List (Nat × Polled)}
    (h : RecvExec timeout δ t0 s) (hr : Recv.runSteps timeout δ s l = some s') : RecvExec timeout δ t0 s' := by
  induction l generalizing s with
  | nil => simp only [Recv.runSteps, Option.some.injEq] at hr; exact hr ▸ h
  | cons x l ih =>
    obtain ⟨t, p⟩ := x
    simp only [Recv.runSteps] at hr
    cases hs : Recv.step timeout δ s t p with
    | none => simp [hs] at hr
    | some s1 => simp only [hs, Option.bind_some] at hr; exact ih (h.step hs) hr

/-- A call with timeout 10 that is woken spuriously after 9, parks for the full timeout again and reports
the timeout after 19: the bound "two timeouts" cannot be improved to one. -/
theorem C38_recv_waits_longer_than_timeout : ∃ s, RecvExec 10 0 100 s ∧ s.pc = .done .timeout ∧ s.now = 119 := by
  refine ⟨_, RecvExec.init.of_run (l := [(100, .pending), (100, .pending), (100, .pending), (109, .pending),
    (109, .pending), (109, .pending), (109, .pending), (119, .pending), (119, .pending)]) rfl, rfl, rfl⟩

/-! ## send_ref_timeout -/

/-- Answer of `try_send_ref`. /repo/src/mpsc.rs lines 352-364. -/
inductive Tried where | ok | closed | full
  deriving DecidableEq, Repr

/-- Answer of `start_wait` / `continue_wait`. /repo/src/wait.rs lines 33-54. -/
inductive Waited where | wait | notified | closed
  deriving DecidableEq, Repr

/-- `Result<SendRef, SendTimeoutError>`. /repo/src/mpsc/blocking.rs lines 1702-1755. -/
inductive SendRes where | ok | closed | timeout
  deriving DecidableEq, Repr

/-- Models the control flow of /repo/src/mpsc/blocking.rs lines 1702-1755. -/
inductive SendPC where
  /-- fast path (line 1710) -/
  | fast
  /-- about to read the clock (line 1720) -/
  | start
  /-- about to call `start_wait` or `continue_wait` (lines 1729-1733) -/
  | wait
  /-- notified: `spin_yield` and `try_send_ref` (lines 1738-1743) -/
  | retry
  /-- about to park (line 1747) -/
  | park
  | parked (since : Nat)
  /-- about to read the clock (line 1748) -/
  | check
  | done (r : SendRes)
  deriving DecidableEq, Repr

/-- State of a call; `slots` counts the slots obtained from `try_send_ref`, `rounds` the unsuccessful
retries after a notification, `unqueued` is the local variable of that name. /repo/src/mpsc/blocking.rs lines
1702-1755. -/
structure Send where
  now : Nat
  begin : Nat
  pc : SendPC
  unqueued : Bool
  slots : Nat
  rounds : Nat

/-- /repo/src/mpsc/blocking.rs lines 1702-1709. -/
def Send.init (t0 : Nat) : Send :=
  { now := t0, begin := 0, pc := .fast, unqueued := true, slots := 0, rounds := 0 }

/-- One step of `send_ref_timeout` (blocking.rs lines 1710-1754), completed at time `t`; `x` and `y` are
the answers of `try_send_ref` and of `start_wait`/`continue_wait` if this step calls them. -/
def Send.step (timeout δ : Nat) (s : Send) (t : Nat) (x : Tried) (y : Waited) : Option Send :=
  if t < s.now then none else
  match s.pc with
  | .fast =>
    if t ≤ s.now + δ then
      match x with
      | .ok => some { s with now := t, pc := .done .ok, slots := s.slots + 1 }
      | .closed => some { s with now := t, pc := .done .closed }
      | .full => some { s with now := t, pc := .start }
    else none
  | .start => if t ≤ s.now + δ then some { s with now := t, begin := t, pc := .wait } else none
  | .wait =>
    if t ≤ s.now + δ then
      match y with
      | .closed => some { s with now := t, pc := .done .closed }
      | .notified => some { s with now := t, pc := .retry }
      | .wait => some { s with now := t, pc := .park, unqueued := false }
    else none
  | .retry =>
    if t ≤ s.now + δ then
      match x with
      | .ok => some { s with now := t, pc := .done .ok, slots := s.slots + 1 }
      | .closed => some { s with now := t, pc := .done .closed }
      | .full => some { s with now := t, pc := .wait, rounds := s.rounds + 1 }
    else none
  | .park => if t ≤ s.now + δ then some { s with now := t, pc := .parked t } else none
  | .parked since => if t ≤ since + timeout + δ then some { s with now := t, pc := .check } else none
  | .check =>
    if t ≤ s.now + δ then
      if t - s.begin ≥ timeout then some { s with now := t, pc := .done .timeout }
      else some { s with now := t, pc := .wait }
    else none
  | .done _ => none

/-- Executions of a call made at time `t0`. Scaffolding of the model, no counterpart in the source. -/
inductive SendExec (timeout δ t0 : Nat) : Send → Prop where
  | init : SendExec timeout δ t0 (Send.init t0)
  | step {s s' t x y} : SendExec timeout δ t0 s → Send.step timeout δ s t x y = some s' → SendExec timeout δ t0 s'

/-- The invariant of `send_ref_timeout`. Scaffolding of the model, no counterpart in the source. -/
def SendInv (timeout δ t0 : Nat) (s : Send) : Prop :=
  match s.pc with
  | .fast => s.now = t0 ∧ s.slots = 0 ∧ s.rounds = 0
  | .start => t0 ≤ s.now ∧ s.now ≤ t0 + δ ∧ s.slots = 0 ∧ s.rounds = 0
  | .wait => (t0 ≤ s.begin ∧ s.begin ≤ t0 + 2 * δ ∧ s.begin ≤ s.now) ∧ s.slots = 0 ∧
      s.now ≤ s.begin + timeout + s.rounds * (2 * δ)
  | .retry => (t0 ≤ s.begin ∧ s.begin ≤ t0 + 2 * δ ∧ s.begin ≤ s.now) ∧ s.slots = 0 ∧
      s.now ≤ s.begin + timeout + s.rounds * (2 * δ) + δ
  | .park => (t0 ≤ s.begin ∧ s.begin ≤ t0 + 2 * δ ∧ s.begin ≤ s.now) ∧ s.slots = 0 ∧
      s.now ≤ s.begin + timeout + s.rounds * (2 * δ) + δ
  | .parked u => (t0 ≤ s.begin ∧ s.begin ≤ t0 + 2 * δ ∧ s.begin ≤ s.now) ∧ s.slots = 0 ∧ s.now = u ∧
      u ≤ s.begin + timeout + s.rounds * (2 * δ) + 2 * δ
  | .check => (t0 ≤ s.begin ∧ s.begin ≤ t0 + 2 * δ ∧ s.begin ≤ s.now) ∧ s.slots = 0 ∧
      s.now ≤ s.begin + 2 * timeout + s.rounds * (2 * δ) + 3 * δ
  | .done r => s.now ≤ t0 + 2 * timeout + s.rounds * (2 * δ) + 6 * δ ∧
      (r = .timeout → t0 + timeout ≤ s.now) ∧ s.slots = if r = .ok then 1 else 0

theorem SendExec.inv {timeout δ t0 : Nat} {s : Send} (h : SendExec timeout δ t0 s) : SendInv timeout δ t0 s := by
  induction h with
  | init => simp [SendInv, Send.init]
  | @step s s' t x y _ hs ih =>
    simp only [Send.step] at hs
    split at hs
    · cases hs
    rename_i hmono
    unfold SendInv at ih
    have hr : (s.rounds + 1) * (2 * δ) = s.rounds * (2 * δ) + 2 * δ := by rw [Nat.add_mul]; omega
    split at ih <;> rename_i hpc <;> simp only [hpc] at hs
    · split at hs
      · cases x <;> cases hs <;> simp [SendInv] <;> omega
      · cases hs
    · split at hs <;> cases hs
      simp [SendInv]; omega
    · split at hs
      · cases y <;> cases hs <;> simp [SendInv] <;> omega
      · cases hs
    · split at hs
      · cases x <;> cases hs <;> simp [SendInv] <;> omega
      · cases hs
    · split at hs <;> cases hs
      simp [SendInv]; omega
    · split at hs <;> cases hs
      simp [SendInv]; omega
    · split at hs
      · split at hs <;> cases hs <;> simp [SendInv] <;> omega
      · cases hs
    · cases hs

/-- **C38** A `send_timeout` that reports a timeout took at least the timeout and holds no slot: it has
enqueued nothing. -/
theorem C38_send_timeout_not_early {timeout δ t0 : Nat} {s : Send} (h : SendExec timeout δ t0 s)
    (hd : s.pc = .done .timeout) : t0 + timeout ≤ s.now ∧ s.slots = 0 := by
  have := h.inv
  simp only [SendInv, hd] at this
  exact ⟨this.2.1 trivial, by simpa using this.2.2⟩

/-- **C38**, the part of the upper bound that holds for `send_timeout`: two timeouts, plus the scheduling
delays of six steps and of every round in which it was notified but found the channel full again.
Missing: those rounds are not bounded, see `C38_send_timeout_unbounded`. -/
theorem C38_send_timeout_bounded_partial {timeout δ t0 : Nat} {s : Send} (h : SendExec timeout δ t0 s) :
    s.now ≤ t0 + 2 * timeout + (2 * s.rounds + 6) * δ := by
  have := h.inv
  have hm : (2 * s.rounds + 6) * δ = s.rounds * (2 * δ) + 6 * δ := by
    rw [Nat.add_mul, Nat.mul_comm 2, Nat.mul_assoc]
  unfold SendInv at this
  split at this <;> omega

/-- **C38** is violated by `send_timeout`: with steps that take one unit of time each, a call with any
timeout can still be running, without having parked, at any later time: the rounds in which it is
notified but the channel is full again do not look at the clock. -/
theorem C38_send_timeout_unbounded (timeout T : Nat) :
    ∃ s, SendExec timeout 1 0 s ∧ T ≤ s.now ∧ ∀ r, s.pc ≠ .done r := by
  have key : ∀ n, ∃ s, SendExec timeout 1 0 s ∧ s.now = 2 + 2 * n ∧ s.pc = .wait := by
    intro n
    induction n with
    | zero =>
      have h1 : Send.step timeout 1 (Send.init 0) 1 .full .wait =
        some { Send.init 0 with now := 1, pc := .start } := rfl
      have h2 : Send.step timeout 1 { Send.init 0 with now := 1, pc := .start } 2 .full .wait =
        some { Send.init 0 with now := 2, begin := 2, pc := .wait } := rfl
      exact ⟨_, (SendExec.init.step h1).step h2, rfl, rfl⟩
    | succ n ih =>
      obtain ⟨s, hs, h1, h2⟩ := ih
      have e1 : Send.step timeout 1 s (s.now + 1) .full .notified = some { s with now := s.now + 1, pc := .retry } := by
        simp [Send.step, h2]
      have e2 : Send.step timeout 1 { s with now := s.now + 1, pc := .retry } (s.now + 2) .full .notified =
          some { s with now := s.now + 2, pc := .wait, rounds := s.rounds + 1 } := by
        simp [Send.step]
      exact ⟨_, (hs.step e1).step e2, by simp; omega, rfl⟩
  obtain ⟨s, hs, h1, h2⟩ := key T
  exact ⟨s, hs, by omega, by simp [h2]⟩

/-- A concrete `send_timeout` that times out, having enqueued itself and been woken spuriously once. -/
example : ∃ s, SendExec 10 1 0 s ∧ s.pc = .done .timeout ∧ s.now = 15 := by
  have run : ∀ (l : List (Nat × Tried × Waited)) (s s' : Send), SendExec 10 1 0 s →
      (l.foldlM (fun s a => Send.step 10 1 s a.1 a.2.1 a.2.2) s) = some s' → SendExec 10 1 0 s' := by
    intro l
    induction l with
    | nil => intro s s' h hr; simp only [List.foldlM_nil] at hr; cases hr; exact h
    | cons a l ih =>
      intro s s' h hr
      simp only [List.foldlM_cons] at hr
      cases hs : Send.step 10 1 s a.1 a.2.1 a.2.2 with
      | none => rw [hs] at hr; cases hr
      | some s1 => rw [hs] at hr; exact ih s1 s' (h.step hs) hr
  refine ⟨_, run [(0, .full, .wait), (0, .full, .wait), (0, .full, .wait), (0, .full, .wait), (4, .full, .wait),
    (4, .full, .wait), (4, .full, .wait), (4, .full, .wait), (14, .full, .wait), (15, .full, .wait)] _ _ .init rfl,
    rfl, rfl⟩

end Thingbuf.Timeout
