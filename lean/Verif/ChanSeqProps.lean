import Verif.ChanSeqDet
import Verif.ChanSeqSpec
/-!
# C52, C53: an asynchronous channel whose calls do not overlap

When calls do not overlap (for instance because all tasks run on one thread), the results of all calls and the tasks they
wake, in order, are those of the specification `Spec` (`Verif/ChanSeq.lean`). `Spec` knows nothing of slots, counters,
atomics, lists and locks: it is a list of messages, a line of waiting send futures, one stored notification, and the waker
of the receiver.
-/

namespace Thingbuf.Chan

variable {w : Nat} {V W : Type} {c : Config W} {env : Env V} {calls : List (Call V W)} {s : State w V W} {tr : Trace V W}
  {os : List (List (Obs V W))} {σ : Spec V W}

/-! ## C52 -/

/-- **C52** Whatever the calls, the spurious failures of weak compare-and-swaps and the elements made by `recycle`: the
results and wake-ups of the calls are those of the specification. -/
theorem C52_sequential (hb : c.blocking = false) (hw : WellSized w c.cap)
    (h : CallsRun c env (State.init w V W) 0 1 calls s tr os) :
    ∃ σ, Spec.run c.cap c.queue.same Spec.init calls = some (σ, os) := by
  obtain ⟨σ, _, h1, _⟩ := Rel.calls_run hb hw h Rel.init rfl .init
  exact ⟨σ, h1⟩

/-- **C52** Every sequence of calls that is possible in the specification is possible, and every call ends: without
the help of other threads, provided weak compare-and-swaps do not fail spuriously forever. -/
theorem C52_total (hb : c.blocking = false) (hw : WellSized w c.cap) (he : env.Calm)
    (h : Spec.run c.cap c.queue.same Spec.init calls = some (σ, os)) :
    ∃ (s : State w V W) (tr : Trace V W), CallsRun c env (State.init w V W) 0 1 calls s tr os :=
  Rel.calls_total hb hw he calls Rel.init h

/-- **C52** The runs are executions of the channel of `Verif/Channel.lean`: whatever is proved of those holds here. -/
theorem C52_execution (h : CallsRun c env (State.init w V W) 0 1 calls s tr os) : Exec c tr s := by
  have := h.exec Exec.init
  rwa [List.nil_append] at this

/-- **C52** No call panics, and no call receives from a slot without a message. -/
theorem C52_no_panic (hb : c.blocking = false) (hw : WellSized w c.cap)
    (h : CallsRun c env (State.init w V W) 0 1 calls s tr os) : ∀ o ∈ os, .panicked ∉ o ∧ .got none ∉ o := by
  obtain ⟨σ, h1⟩ := C52_sequential hb hw h
  intro o ho
  have h2 := List.all_eq_true.1 (Spec.run_good h1 o ho)
  exact ⟨fun hh => absurd (h2 _ hh) (by simp [Obs.good]), fun hh => absurd (h2 _ hh) (by simp [Obs.good])⟩

/-- **C52** The messages received so far are the first ones sent, in order; the others are in the channel. Never more
than the capacity. -/
theorem C52_fifo (hb : c.blocking = false) (hw : WellSized w c.cap)
    (h : CallsRun c env (State.init w V W) 0 1 calls s tr os) :
    ∃ rest : List V, sentOf calls os = gotOf os ++ rest ∧ rest.length ≤ c.cap := by
  obtain ⟨σ, h1⟩ := C52_sequential hb hw h
  exact ⟨σ.msgs, Spec.run_balance h1, (Spec.run_sane Sane.init h1).le⟩

/-! ## C53 -/

theorem Spec.run_append {cap : Nat} {same : W → W → Bool} {σ σ1 : Spec V W} {calls : List (Call V W)} {call : Call V W}
    {σ2 : Spec V W} {o : List (Obs V W)} (h : σ.run cap same calls = some (σ1, os)) (h2 : σ1.step cap same call = some (σ2, o)) :
    σ.run cap same (calls ++ [call]) = some (σ2, os ++ [o]) := by
  induction calls generalizing σ os with
  | nil =>
    cases h
    simp [Spec.run, h2]
  | cons x calls ih =>
    simp only [Spec.run] at h
    split at h
    case h_1 => cases h
    rename_i σ3 o3 h3
    split at h
    case h_1 => cases h
    rename_i σ4 os4 h4
    cases h
    simp only [List.cons_append, Spec.run, h3, ih h4]

/-- **C53** The receiver sleeps only when there is nothing to receive. -/
theorem C53_receiver (h : Spec.run c.cap c.queue.same Spec.init calls = some (σ, os)) (hr : σ.rxWaker ≠ none) (hx : σ.rx = true) :
    σ.msgs = [] ∧ σ.senders ≠ [] := by
  have h1 := Spec.run_sane Sane.init h
  obtain ⟨h2, h3⟩ := h1.rxWaker hr
  refine ⟨h2, fun hh => ?_⟩
  have := h3 (h1.closed.2 (.inl hh))
  rw [hx] at this; cases this

/-- **C53** When no send future was dropped before it resolved, senders sleep only as long as there is no room for them:
if senders sleep and every sender that was woken has been polled, then the channel is full, and the receiver is alive and
does not sleep. -/
theorem C53_senders (hc : 0 < c.cap) (h : Spec.run c.cap c.queue.same Spec.init calls = some (σ, os))
    (hn : ∀ x ∈ calls, x.isCancel = false) (hs : σ.waiting ≠ []) (hq : σ.woken = []) :
    σ.msgs.length = c.cap ∧ σ.rx = true ∧ σ.rxWaker = none := by
  have h1 := Spec.run_sane Sane.init h
  have h2 := Spec.run_covered Sane.init (fun hh => absurd rfl hh) hn h hs
  rw [hq] at h2
  have h3 : σ.msgs.length = c.cap := Nat.le_antisymm h1.le h2
  have h4 := h1.open_ hs
  refine ⟨h3, ?_, ?_⟩
  · cases hr : σ.rx with
    | true => rfl
    | false => rw [h1.closed.2 (.inr hr)] at h4; cases h4
  · cases hr : σ.rxWaker with
    | none => rfl
    | some u =>
      have := (h1.rxWaker (by rw [hr]; simp)).1
      rw [this] at h3
      exact absurd h3 (by simp; omega)

/-- **C53** No deadlock: after any calls, none of which drops a pending send future, if all pending senders sleep then
the next poll of the receiver gets a message and wakes the sender that has slept longest. -/
theorem C53_no_deadlock (hb : c.blocking = false) (hw : WellSized w c.cap) (he : env.Calm)
    (h : Spec.run c.cap c.queue.same Spec.init calls = some (σ, os)) (hn : ∀ x ∈ calls, x.isCancel = false)
    {k : Nat} {v : W} {l : List (Nat × W)} (hs : σ.waiting = (k, v) :: l) (hq : σ.woken = []) (u : W) :
    ∃ (x : V) (s' : State w V W) (tr' : Trace V W),
      CallsRun c env (State.init w V W) 0 1 (calls ++ [.recv u]) s' tr' (os ++ [[.got (some x), .woke v]]) := by
  obtain ⟨h1, h2, -⟩ := C53_senders hw.1 h hn (by rw [hs]; simp) hq
  cases hm : σ.msgs with
  | nil =>
    rw [hm] at h1
    have := hw.1
    simp at h1
    omega
  | cons x m =>
    obtain ⟨s', tr', h3⟩ := C52_total (env := env) hb hw he
      (Spec.run_append h (call := .recv u) (σ2 := { σ with msgs := m, waiting := l }) (o := [.got (some x), .woke v])
        (by simp [Spec.step, h2, hm, Spec.freed, hs]))
    exact ⟨x, s', tr', h3⟩

/-! ## Concrete cases -/

/-- A channel of capacity `cap`, with wakers that are numbers. -/
def seqC (cap : Nat) : Config Nat := ⟨cap, ⟨true, true⟩, ⟨true, (· == ·)⟩, false⟩

/-- No spurious failures after the tenth step. -/
def seqEnv : Env Nat := ⟨fun i => i < 10 && i % 2 == 0, fun i => i⟩

theorem seqEnv_calm : seqEnv.Calm := ⟨10, fun i hi => by
  have : ¬ i < 10 := by omega
  simp [seqEnv, this]⟩

/-- Capacity 2, two senders. The channel is filled, two futures wait; messages are received, the futures are woken in
turn and send; then the senders are dropped, which wakes the receiver. -/
def seqDemo : List (Call Nat Nat) :=
  [.clone 0, .recv 9, .trySend 0 10, .trySend 1 11, .trySend 0 12, .send 0 12 1, .send 1 13 2, .tryRecv, .pollSend 5 12 1,
    .recv 9, .pollSend 6 13 2, .tryRecv, .tryRecv, .recv 9, .dropTx 0, .dropTx 1, .recv 9]

def seqDemoObs : List (List (Obs Nat Nat)) :=
  [[], [.pending], [.sent, .woke 9], [.sent], [.full], [.pending], [.pending], [.got (some 10), .woke 1], [.sent],
    [.got (some 11), .woke 2], [.sent], [.got (some 12)], [.got (some 13)], [.pending], [], [.woke 9], [.ended]]

/-- The hypotheses of the C52 theorems are met. -/
example : ∃ σ, Spec.run 2 (seqC 2).queue.same Spec.init seqDemo = some (σ, seqDemoObs) := ⟨_, rfl⟩

example : WellSized 64 (seqC 2).cap ∧ ∃ (s : State 64 Nat Nat) (tr : Trace Nat Nat),
    CallsRun (seqC 2) seqEnv (State.init 64 Nat Nat) 0 1 seqDemo s tr seqDemoObs := by
  have hw : WellSized 64 (seqC 2).cap := by decide
  exact ⟨hw, C52_total rfl hw seqEnv_calm (σ := _) rfl⟩

example : sentOf seqDemo seqDemoObs = [10, 11, 12, 13] ∧ gotOf seqDemoObs = [10, 11, 12, 13] := by decide

/-- The hypotheses of `C53_receiver` are met: the receiver sleeps after two calls. -/
example : ∃ σ os, Spec.run (seqC 2).cap (seqC 2).queue.same Spec.init (seqDemo.take 2) = some (σ, os) ∧ σ.rxWaker ≠ none ∧ σ.rx = true :=
  ⟨_, _, rfl, by decide, rfl⟩

/-- The hypotheses of `C53_senders` and `C53_no_deadlock` are met: after seven calls two senders sleep. -/
example : ∃ σ os, Spec.run (seqC 2).cap (seqC 2).queue.same Spec.init (seqDemo.take 7) = some (σ, os) ∧
    (∀ x ∈ seqDemo.take 7, x.isCancel = false) ∧ σ.waiting = [(5, 1), (6, 2)] ∧ σ.woken = [] :=
  ⟨_, _, rfl, by decide, by decide, by decide⟩

/-- **C53** Why dropped futures are excluded: the future that was woken takes the notification with it. Here the channel
is empty and open, the receiver and a sender sleep, and there is nobody to wake them. -/
theorem C53_cancel_strands : ∃ (calls : List (Call Nat Nat)) (σ : Spec Nat Nat) (os : List (List (Obs Nat Nat)))
    (s : State 64 Nat Nat) (tr : Trace Nat Nat), CallsRun (seqC 1) seqEnv (State.init 64 Nat Nat) 0 1 calls s tr os ∧
      Spec.run 1 (· == ·) Spec.init calls = some (σ, os) ∧ σ.msgs = [] ∧ σ.closed = false ∧ σ.rx = true ∧ σ.rxWaker ≠ none ∧
      σ.waiting ≠ [] ∧ σ.woken = [] := by
  let calls : List (Call Nat Nat) := [.trySend 0 10, .send 0 11 1, .send 0 12 2, .tryRecv, .cancel 2, .recv 0]
  obtain ⟨s, tr, h⟩ := C52_total (w := 64) (c := seqC 1) (calls := calls) rfl (by decide) seqEnv_calm (σ := _) rfl
  exact ⟨calls, _, _, s, tr, h, rfl, rfl, rfl, rfl, by decide, by decide, by decide⟩

end Thingbuf.Chan
