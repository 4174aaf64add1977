import Verif.ChanFull

/-!
# C48: a send goes to sleep only if it found the channel full

The vocabulary is in `Verif/Spec.lean` (of the ring buffer: `nRes`, `nDeq`) and `Verif/ChanSpec.lean` (of the channel).
-/

namespace Thingbuf.Chan

variable {w : Nat} {V W : Type} {c : Config W} {tr : Trace V W} {s : State w V W} {f : FState w V W}

/-- **C48** A send call sleeps only if there was no room: between the last attempt it made before it went to sleep and the moment at which it
went to sleep (its future became pending, its thread parked), there was a moment at which as many messages as the channel has slots were reserved and not received. -/
theorem C48_sleeps_only_if_full (h : Run c tr s) {pre mid post : Trace V W} {k : Nat} {a : OpId}
    (htr : tr = pre ++ .api (.attempt k a) :: (mid ++ .api (.sleep k) :: post)) (hm : ∀ b, .api (.attempt k b) ∉ mid) :
    ∃ m, m <+: mid ∧ nRes (coreOf (pre ++ .api (.attempt k a) :: m)) = nDeq (coreOf (pre ++ .api (.attempt k a) :: m)) + c.cap :=
  full_between h.core.facts htr hm (h.exec.sleep_full (pre := pre ++ .api (.attempt k a) :: mid) (post := post) (k := k) (by rw [htr]; simp))

/-- **C48** A send call makes an attempt before it sleeps, and the last one it made before found the channel full. -/
theorem C48_sleeps_after_attempt (h : Run c tr s) {pre post : Trace V W} {k : Nat} (htr : tr = pre ++ .api (.sleep k) :: post) :
    ∃ a x y, pre = x ++ .api (.attempt k a) :: y ∧ (∀ b, .api (.attempt k b) ∉ y) ∧ .core (.ret a .full) ∈ y := by
  obtain ⟨a, y, ⟨x, h1, h2⟩, h3⟩ := h.exec.sleep_full htr
  exact ⟨a, x, y, h1, h2, h3⟩

/-- **C48** -/
theorem C48_sleeps_after_attempt_fine (h : FRun c tr f) {pre post : Trace V W} {k : Nat} (htr : tr = pre ++ .api (.sleep k) :: post) :
    ∃ a x y, pre = x ++ .api (.attempt k a) :: y ∧ (∀ b, .api (.attempt k b) ∉ y) ∧ .core (.ret a .full) ∈ y := by
  obtain ⟨tr', h1, he⟩ := h.sim
  obtain ⟨pre', post', h2, h3, -⟩ := quiet_split (e := .api (.sleep k)) rfl (htr ▸ he)
  obtain ⟨a, x, y, h4, h5, h6⟩ := C48_sleeps_after_attempt h1 h2
  obtain ⟨x', y', h7, -, h8⟩ := quiet_split (e := .api (.attempt k a)) rfl (h4 ▸ h3.symm)
  exact ⟨a, x', y', h7, fun b hb => h5 b ((mem_of_quiet h8 rfl).1 hb), (mem_of_quiet h8 rfl).2 h6⟩

/-- **C48** -/
theorem C48_sleeps_only_if_full_fine (h : FRun c tr f) {pre mid post : Trace V W} {k : Nat} {a : OpId}
    (htr : tr = pre ++ .api (.attempt k a) :: (mid ++ .api (.sleep k) :: post)) (hm : ∀ b, .api (.attempt k b) ∉ mid) :
    ∃ m, m <+: mid ∧ nRes (coreOf (pre ++ .api (.attempt k a) :: m)) = nDeq (coreOf (pre ++ .api (.attempt k a) :: m)) + c.cap := by
  obtain ⟨b, x, y, h2, h3, h4⟩ := C48_sleeps_after_attempt_fine h (pre := pre ++ .api (.attempt k a) :: mid) (post := post) (k := k) (by rw [htr]; simp)
  obtain ⟨tr', h1, he⟩ := h.sim
  exact full_between (coreOf_congr he ▸ h1.core.facts) htr hm ⟨b, y, ⟨x, h2, h3⟩, h4⟩

/-- **C48** A `send_timeout` returns `Timeout` only if there was no room: after its last attempt it went to sleep, and in between there was a moment at which as many messages as
the channel has slots were reserved and not received. Only the blocking channel has such calls. -/
theorem C48_times_out_only_if_full (h : Run c tr s) {pre post : Trace V W} {k : Nat} (htr : tr = pre ++ .api (.retSend k .timeout) :: post) :
    c.blocking = true ∧ ∃ x a y z, pre = x ++ .api (.attempt k a) :: (y ++ .api (.sleep k) :: z) ∧ (∀ b, .api (.attempt k b) ∉ y ++ z) ∧
      ∃ m, m <+: y ∧ nRes (coreOf (x ++ .api (.attempt k a) :: m)) = nDeq (coreOf (x ++ .api (.attempt k a) :: m)) + c.cap := by
  obtain ⟨hb, x, z, rfl, hz⟩ := h.exec.timeout_slept htr
  have h1 : tr = x ++ .api (.sleep k) :: (z ++ .api (.retSend k .timeout) :: post) := by rw [htr]; simp
  obtain ⟨a, x', y, rfl, hy, -⟩ := C48_sleeps_after_attempt h h1
  exact ⟨hb, x', a, y, z, by simp, fun b hm => (List.mem_append.1 hm).elim (hy b) (hz b), C48_sleeps_only_if_full h (post := z ++ .api (.retSend k .timeout) :: post) (by rw [h1]; simp) hy⟩

/-- **C48** -/
theorem C48_times_out_only_if_full_fine (h : FRun c tr f) {pre post : Trace V W} {k : Nat} (htr : tr = pre ++ .api (.retSend k .timeout) :: post) :
    c.blocking = true ∧ ∃ x a y z, pre = x ++ .api (.attempt k a) :: (y ++ .api (.sleep k) :: z) ∧ (∀ b, .api (.attempt k b) ∉ y ++ z) ∧
      ∃ m, m <+: y ∧ nRes (coreOf (x ++ .api (.attempt k a) :: m)) = nDeq (coreOf (x ++ .api (.attempt k a) :: m)) + c.cap := by
  obtain ⟨tr', h1, he⟩ := h.sim
  obtain ⟨pre', post', h2, h3, -⟩ := quiet_split (e := .api (.retSend k .timeout)) rfl (htr ▸ he)
  obtain ⟨hb, x, z, h4, hz⟩ := h1.exec.timeout_slept h2
  obtain ⟨x', z', h5, -, h6⟩ := quiet_split (e := .api (.sleep k)) rfl (h4 ▸ h3.symm)
  have h7 : tr = x' ++ .api (.sleep k) :: (z' ++ .api (.retSend k .timeout) :: post) := by rw [htr, h5]; simp
  obtain ⟨a, u, y, rfl, hy, -⟩ := C48_sleeps_after_attempt_fine h h7
  exact ⟨hb, u, a, y, z', by rw [h5]; simp, fun b hm => (List.mem_append.1 hm).elim (hy b) (fun hm => hz b ((mem_of_quiet h6 rfl).1 hm)),
    C48_sleeps_only_if_full_fine h (post := z' ++ .api (.retSend k .timeout) :: post) (by rw [h7]; simp) hy⟩

/-- The hypothesis is met: in `timeoutDemo` send call 2 times out. -/
example : ∃ (s : State 8 Nat Nat) (pre post : Trace Nat Nat), Run (demoC 1 true) (scriptTr (demoC 1 true) timeoutDemo) s ∧
    scriptTr (demoC 1 true) timeoutDemo = pre ++ .api (.retSend 2 .timeout) :: post := by
  obtain ⟨s, hs⟩ := Run.of_scriptTr (c := demoC 1 true) (l := timeoutDemo) (by decide) (by decide +kernel) (by decide +kernel)
  obtain ⟨pre, post, h⟩ := List.append_of_mem (show .api (.retSend 2 .timeout) ∈ scriptTr (demoC 1 true) timeoutDemo by decide +kernel)
  exact ⟨s, pre, post, hs, h⟩

/-- The hypotheses are met: in `tryDemo` send call 3 makes the attempt 12 and then sleeps. -/
example (blocking : Bool) : ∃ (tr : Trace Nat Nat) (s : State 8 Nat Nat) (pre mid post : Trace Nat Nat), Run (demoC 1 blocking) tr s ∧
    tr = pre ++ .api (.attempt 3 12) :: (mid ++ .api (.sleep 3) :: post) ∧ ∀ b, .api (.attempt 3 b) ∉ mid := by
  have key : ∀ (tr : Trace Nat Nat), .api (.sleep 3) ∈ tr → (apiOf tr).filter (fun | .attempt 3 _ => true | _ => false) = [.attempt 3 12] →
      ∀ {s : State 8 Nat Nat}, Run (demoC 1 blocking) tr s → ∃ (pre mid post : Trace Nat Nat),
        tr = pre ++ .api (.attempt 3 12) :: (mid ++ .api (.sleep 3) :: post) ∧ ∀ b, .api (.attempt 3 b) ∉ mid := by
    intro tr h1 h2 s hs
    obtain ⟨pre, post, htr⟩ := List.append_of_mem h1
    obtain ⟨a, x, y, rfl, hy, -⟩ := C48_sleeps_after_attempt hs htr
    have : a = 12 := by
      have h3 : .attempt 3 a ∈ (apiOf tr).filter (fun | .attempt 3 _ => true | _ => false) := by
        rw [List.mem_filter]
        exact ⟨mem_apiOf.2 (by rw [htr]; simp), rfl⟩
      rw [h2] at h3
      simpa using h3
    subst this
    exact ⟨x, y, post, by rw [htr]; simp, hy⟩
  cases blocking
  · obtain ⟨s, hs⟩ : ∃ s : State 8 Nat Nat, Run (demoC 1 false) (scriptTr (demoC 1 false) tryDemo) s :=
      Run.of_scriptTr (by decide) (by decide +kernel) (by decide +kernel)
    obtain ⟨p, m, q, h1, h2⟩ := key _ (by decide +kernel) (by decide +kernel) hs
    exact ⟨_, s, p, m, q, hs, h1, h2⟩
  · obtain ⟨s, hs⟩ : ∃ s : State 8 Nat Nat, Run (demoC 1 true) (scriptTr (demoC 1 true) tryDemo) s :=
      Run.of_scriptTr (by decide) (by decide +kernel) (by decide +kernel)
    obtain ⟨p, m, q, h1, h2⟩ := key _ (by decide +kernel) (by decide +kernel) hs
    exact ⟨_, s, p, m, q, hs, h1, h2⟩

end Thingbuf.Chan
