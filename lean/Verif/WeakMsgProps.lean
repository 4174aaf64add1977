import Verif.WeakRestProps
import Verif.ChanLiftProps

/-!
# The channel on the memory model: messages

C67. What C01, C02, C05, C14, C35 and C45 say about the messages of the channel, for the memory orderings that are written in the source, instead of sequential
consistency; and the accesses to the messages are ordered (C18). `At xtr p e`: event `e` of the ring buffer is at position `p` of the execution. `HB xtr p q`: what is at position `p` happens
before what is at position `q`.
-/

namespace Thingbuf.Chan

variable {w : Nat} {V : Type} {c : Config Nat} {tr : Trace V Nat} {xtr : List (RA.REv V)} {s : WState w V}

/-! ### Every message once, in order -/

/-- **C67** The messages received are, in order, the messages of the first send calls that completed, in reservation order: the `i`th message received is the value that
the `i`th reservation's `SendRef` held when it was dropped; that `SendRef` was returned by a send call that was not cancelled. -/
theorem C67_received (h : WRun c w tr xtr s) {i : Nat} {b : OpId} (hb : (received tr)[i]? = some b) :
    ∃ a k x slot, (resOps (coreOf tr))[i]? = some a ∧ .api (.retSend k (.ok a)) ∈ tr ∧ .api (.dropSend k) ∈ tr ∧
      .api (.cancel k) ∉ tr ∧ sent (coreOf tr) a = some x ∧ .core (.dequeue b slot (some x)) ∈ tr :=
  h.exec.ctl.1.received_from h.facts hb

/-- **C67** Each message belongs to one send call, and each send call sends at most one: whoever reserved a slot did so for a send call `k`, that call has no other message, was
not cancelled, and returned, if it did, the reference to that very slot (or panicked). -/
theorem C67_one_message_per_send (h : WRun c w tr xtr s) {a : OpId} (ha : a ∈ resOps (coreOf tr)) :
    ∃ k, .api (.attempt k a) ∈ tr ∧ (∀ k', .api (.attempt k' a) ∈ tr → k' = k) ∧
      (∀ b ∈ resOps (coreOf tr), .api (.attempt k b) ∈ tr → b = a) ∧ .api (.cancel k) ∉ tr ∧
      ∀ r, .api (.retSend k r) ∈ tr → r = .ok a ∨ r = .panicked := by
  have he := h.exec.ctl.1
  obtain ⟨k, hk, -⟩ := he.sender h.facts ha
  obtain ⟨h1, h2, h3⟩ := he.sender_life h.facts ha hk
  exact ⟨k, hk, fun k' hk' => he.attInv.uniq _ _ _ hk' hk, h3, h1, h2⟩

/-- **C67** A send that was cancelled has put nothing into the channel. -/
theorem C67_cancelled_sends_nothing (h : WRun c w tr xtr s) {k : Nat} (hc : .api (.cancel k) ∈ tr) {a : OpId}
    (ha : .api (.attempt k a) ∈ tr) : a ∉ resOps (coreOf tr) :=
  fun hr => (h.exec.ctl.1.sender_life h.facts hr ha).1 hc

/-- **C67** A send call that returned `Full`, `Closed` or `Timeout` has put nothing into the channel: none of its attempts ever reserved a slot, and none accessed an element. -/
theorem C67_failed_send (h : WRun c w tr xtr s) {k : Nat} {r : SendRes} (hr : .api (.retSend k r) ∈ tr) (hf : r = .full ∨ r = .closed ∨ r = .timeout) {a : OpId}
    (ha : .api (.attempt k a) ∈ tr) : a ∉ resOps (coreOf tr) ∧ ∀ i x, .core (.access a i x) ∉ tr :=
  h.exec.ctl.1.failed_send h.facts hr hf ha

/-- **C67** Receive futures lose nothing: the messages taken out of the ring buffer are exactly those that were returned by a poll or a `try_recv`, in the same order. -/
theorem C67_nothing_taken_is_lost (h : WRun c w tr xtr s) : deqOps (coreOf tr) = received tr := h.exec.ctl.1.received.symm

/-- **C67** If one send call returned its `SendRef` before another one was made, and that one got a `SendRef` as well, then the message of the first call is ahead of that of
the second one. -/
theorem C67_send_order (h : WRun c w tr xtr s) {pre post : Trace V Nat} {k j x : Nat} {wt : Bool} {a b : OpId} (htr : tr = pre ++ .api (.callSend j x wt) :: post)
    (ha : .api (.retSend k (.ok a)) ∈ pre) (hb : .api (.retSend j (.ok b)) ∈ tr) {p q : Nat} (hp : (resOps (coreOf tr))[p]? = some a)
    (hq : (resOps (coreOf tr))[q]? = some b) : p < q :=
  h.exec.ctl.1.send_order h.facts htr ha hb hp hq

/-- **C67** At every instant, send calls have returned at least as many `SendRef`s as messages have been received, and at most as many more as the channel has capacity. -/
theorem C67_capacity (h : WRun c w tr xtr s) : (received tr).length ≤ (sends tr).length ∧ (sends tr).length ≤ (received tr).length + c.cap :=
  h.exec.ctl.1.capacity h.facts

/-! ### Exclusive access, no data races -/

/-- **C67** Two `SendRef`s or `RecvRef`s that have not been dropped never refer to the same element. -/
theorem C67_refs (h : WRun c w tr xtr s) {a b : OpId} {i : Nat} (ha : LiveRef tr a) (hb : LiveRef tr b) (hai : RefersTo tr a i)
    (hbi : RefersTo tr b i) : a = b :=
  h.exec.ctl.1.live_refs h.facts ha hb hai hbi

/-- **C67** While a `SendRef` or `RecvRef` has not been dropped, the element it refers to is accessed only through it. -/
theorem C67_exclusive (h : WRun c w tr xtr s) {pre post : Trace V Nat} {a b : OpId} {i : Nat} {x : Access V} (htr : tr = pre ++ .core (.access b i x) :: post)
    (ha : LiveRef pre a) (hai : RefersTo pre a i) : b = a :=
  h.exec.ctl.1.live_exclusive h.facts htr ha hai

/-- **C67** A `SendRef` or `RecvRef` that a call returned does refer to an element. -/
theorem C67_refers (h : WRun c w tr xtr s) {a : OpId} (ha : LiveRef tr a) : ∃ i, i < c.cap ∧ RefersTo tr a i :=
  h.exec.ctl.1.live_refers h.facts ha

/-- **C67** There are no data races on the messages: of any two accesses to the same element, through `SendRef`s or `RecvRef`s, whoever makes them, one happens before the other. -/
theorem C67_race_free (h : WRun c w tr xtr s) {p q i : Nat} {a b : OpId} {x y : Access V} (hpq : p < q)
    (hp : RA.At xtr p (.access a i x)) (hq : RA.At xtr q (.access b i y)) : RA.HB xtr p q :=
  RA.C51_element_race_free h.mem hpq hp hq rfl rfl

/-- **C67** What is read through a `SendRef` or `RecvRef` is what was last written through it; and if nothing was, then through a `RecvRef` it is the value that was in the `SendRef` of this
message when that was dropped (`content`, `Verif/Spec.lean`). Nothing uninitialised is ever read. -/
theorem C67_reads_last_write (h : WRun c w tr xtr s) {pre post : Trace V Nat} {a : OpId} {i : Nat} {v : Option V}
    (htr : tr = pre ++ .core (.access a i (.read v)) :: post) : v = content a (coreOf pre) ∧ v ≠ none := by
  have e : coreOf tr = coreOf pre ++ .access a i (.read v) :: coreOf post := by rw [htr]; simp [coreOf]
  exact ⟨h.facts.reads_last_write e, h.facts.initialised.2.2.2.1 a i v (by rw [e]; simp)⟩

/-- **C67** Sending a message publishes it, and all that happened before: the drop of a `SendRef`, at position `n`, and whatever happened before it, happens before every access through the
`RecvRef` of that message. -/
theorem C67_publication (h : WRun c w tr xtr s) {a b : OpId} {k n q i j : Nat} {v : Option V} {x : Access V}
    (ha : (resOps (coreOf tr))[k]? = some a) (hb : (received tr)[k]? = some b)
    (hn : RA.At xtr n (.commit a i v)) (hq : RA.At xtr q (.access b j x)) :
    i = j ∧ RA.HB xtr n q ∧ ∀ r, RA.HB xtr r n → RA.HB xtr r q := by
  have hf := h.mem.facts
  have hi := h.mem.inv.base.hb
  rw [h.exec.ctl.1.received, h.exec.evs.1] at hb
  rw [h.exec.evs.1] at ha
  have htrans : ∀ p q r, RA.HB xtr p q → RA.HB xtr q r → RA.HB xtr p r := by
    rintro p q r ⟨e, he, hp⟩ ⟨f, hf, hq⟩
    exact ⟨f, hf, (hi.ord r f hf q hq).2 e he p hp⟩
  -- the dequeue of `b`
  obtain ⟨z, d, hd, hdq⟩ : ∃ z d, d < q ∧ RA.At xtr d (.dequeue b j z) := by
    obtain ⟨h1, -⟩ := hf.exclusive.2.1 _ _ _ _ _ hq.split
    rcases h1 with h1 | ⟨z, h1⟩
    · exfalso
      obtain ⟨d, hd, h2⟩ := RA.mem_take h1
      have h3 : b ∈ resOps (RA.evsOf xtr) := mem_resOps.2 ⟨j, h2.mem⟩
      rw [← h.exec.evs.1] at h3 hb
      exact h.exec.ctl.1.res_not_deq h.facts h3 (List.mem_of_getElem? hb)
    · obtain ⟨d, hd, h2⟩ := RA.mem_take h1
      exact ⟨z, d, hd, h2⟩
  -- the element dequeued is that of `a`
  have hsplit := hdq.split
  obtain ⟨a', ha', hc⟩ := hf.fifo_once.2.2.2.2 _ _ _ _ _ hsplit
  have hkq : nDeq (RA.evsOf (xtr.take d)) = k := by
    have h0 : (deqOps (RA.evsOf xtr))[nDeq (RA.evsOf (xtr.take d))]? = some b := by
      rw [hsplit, deqOps_append, nDeq, List.getElem?_append_right (Nat.le_refl _)]
      simp [deqOps]
    exact (List.getElem?_inj (List.getElem?_eq_some_iff.1 h0).1 hf.nodup_deq).1 (h0.trans hb.symm)
  have haa : a' = a := by
    have h0 := getElem?_append_of_some (l' := resOps (Event.dequeue b j z :: RA.evsOf (xtr.drop (d + 1)))) ha'
    rw [← resOps_append, ← hsplit, hkq, ha] at h0
    exact (Option.some.inj h0).symm
  subst haa
  obtain ⟨y, hyl, hy⟩ := RA.mem_take hc
  obtain ⟨rfl, rfl⟩ := hf.commit_unique hn.mem hy.mem
  -- the commit is unique
  have hny : n = y := by
    have hno : ∀ y y' : Nat, y < y' → RA.At xtr y (.commit a' i v) → RA.At xtr y' (.commit a' i v) → False := by
      intro y y' hlt hy hy'
      obtain ⟨⟨p, -, hp⟩, -⟩ := hf.evOk hy'.split
      exact hp.ncom ⟨i, v, RA.At.mem_take hy hlt⟩
    rcases Nat.lt_trichotomy n y with h | h | h
    · exact (hno _ _ h hn hy).elim
    · exact h
    · exact (hno _ _ h hy hn).elim
  subst hny
  have hnq : RA.HB xtr n q := RA.C51_element_race_free h.mem (by omega) hn hq rfl rfl
  exact ⟨rfl, hnq, fun r hr => htrans _ _ _ hr hnq⟩

/-! ### Example -/

/-- Capacity 2. Call 1 sends: it writes 15 through its `SendRef` and drops it. Call 2 sends and holds its `SendRef`. Call 3, a `try_send`, finds the channel full. The first message is received and read
through its `RecvRef`, which is held. -/
def wMsgDemo : List WIt :=
  (iSend 1 100 11 ++ iWrite 1 15 ++ iDropSend 1 200 ++ iSend 2 101 12 ++ iSend 3 103 13 0 false ++ iPoll 5 [102] ++ [(.one (.recvRead 102) : It)]).map wOf

theorem wMsgRun (blocking : Bool) : ∃ s : WState 8 Nat,
    WRun (demoC 2 blocking) 8 (wTr (demoC 2 blocking) wMsgDemo).1 (wTr (demoC 2 blocking) wMsgDemo).2 s := by
  obtain ⟨s, hs, -⟩ := WExec.of_script (c := demoC 2 blocking) (l := wMsgDemo) 0 (by cases blocking <;> decide +kernel) (by cases blocking <;> decide +kernel)
  exact ⟨s, by cases blocking <;> decide, rfl, hs⟩

/-- `C67_received`, `C67_one_message_per_send`, `C67_failed_send`, `C67_capacity`. -/
example (blocking : Bool) : ∃ (tr : Trace Nat Nat) (xtr : List (RA.REv Nat)) (s : WState 8 Nat), WRun (demoC 2 blocking) 8 tr xtr s ∧
    received tr = [102] ∧ resOps (coreOf tr) = [100, 101] ∧ sends tr = [100, 101] ∧ .api (.retSend 3 .full) ∈ tr ∧ .api (.attempt 3 103) ∈ tr ∧ sent (coreOf tr) 100 = some 15 := by
  obtain ⟨s, hs⟩ := wMsgRun blocking
  refine ⟨_, _, s, hs, ?_⟩
  cases blocking <;> decide +kernel

/-- `C67_cancelled_sends_nothing`: calls 1 and 2 send, call 4 finds the channel full, waits and is cancelled. -/
example : ∃ (tr : Trace Nat Nat) (xtr : List (RA.REv Nat)) (s : WState 8 Nat), WRun (demoC 2 false) 8 tr xtr s ∧
    .api (.sleep 4) ∈ tr ∧ .api (.cancel 4) ∈ tr ∧ .api (.attempt 4 104) ∈ tr := by
  obtain ⟨s, hs, -⟩ := WExec.of_script (c := demoC 2 false)
    (l := (iSend 1 100 11 ++ iDropSend 1 200 ++ iSend 2 101 12 ++ iSend 4 104 14 ++ iStart 4 24 ++ iCancel 4).map wOf) 0 (by decide +kernel) (by decide +kernel)
  exact ⟨_, _, s, ⟨by decide, rfl, hs⟩, by decide +kernel⟩

/-- `C67_send_order`. -/
example (blocking : Bool) : ∃ (tr : Trace Nat Nat) (xtr : List (RA.REv Nat)) (s : WState 8 Nat) (pre post : Trace Nat Nat),
    WRun (demoC 2 blocking) 8 tr xtr s ∧ tr = pre ++ .api (.callSend 2 0 true) :: post ∧ .api (.retSend 1 (.ok 100)) ∈ pre ∧
    .api (.retSend 2 (.ok 101)) ∈ tr ∧ (resOps (coreOf tr))[0]? = some 100 ∧ (resOps (coreOf tr))[1]? = some 101 := by
  obtain ⟨s, hs⟩ := wMsgRun blocking
  let n := (wTr (demoC 2 blocking) wMsgDemo).1.findIdx (fun e => decide (e = .api (.callSend 2 0 true)))
  refine ⟨_, _, s, (wTr (demoC 2 blocking) wMsgDemo).1.take n, (wTr (demoC 2 blocking) wMsgDemo).1.drop (n + 1), hs, ?_⟩
  cases blocking <;> decide +kernel

/-- `C67_refs`, `C67_refers`: two references are held at the same time. -/
example (blocking : Bool) : ∃ (tr : Trace Nat Nat) (xtr : List (RA.REv Nat)) (s : WState 8 Nat), WRun (demoC 2 blocking) 8 tr xtr s ∧
    LiveRef tr 101 ∧ LiveRef tr 102 ∧ RefersTo tr 101 1 ∧ RefersTo tr 102 0 := by
  obtain ⟨s, hs⟩ := wMsgRun blocking
  refine ⟨_, _, s, hs, .inl ⟨2, ?_, ?_⟩, .inr ⟨?_, ?_⟩, .inl ?_, .inr ⟨some 15, ?_⟩⟩ <;> cases blocking <;> decide +kernel

/-- `C67_exclusive`, `C67_reads_last_write`: the message is read through its `RecvRef`. -/
example (blocking : Bool) : ∃ (tr : Trace Nat Nat) (xtr : List (RA.REv Nat)) (s : WState 8 Nat) (pre post : Trace Nat Nat),
    WRun (demoC 2 blocking) 8 tr xtr s ∧ tr = pre ++ .core (.access 102 0 (.read (some 15))) :: post ∧ LiveRef pre 102 ∧ RefersTo pre 102 0 := by
  obtain ⟨s, hs⟩ := wMsgRun blocking
  let n := (wTr (demoC 2 blocking) wMsgDemo).1.findIdx (fun e => decide (e = .core (.access 102 0 (.read (some 15)))))
  refine ⟨_, _, s, (wTr (demoC 2 blocking) wMsgDemo).1.take n, (wTr (demoC 2 blocking) wMsgDemo).1.drop (n + 1), hs, ?_, .inr ⟨?_, ?_⟩, .inr ⟨some 15, ?_⟩⟩ <;>
    cases blocking <;> decide +kernel

/-- `C67_race_free`, `C67_publication`: the sender writes at position 4, the `SendRef` is dropped at 5, and the receiver reads at 20. -/
example (blocking : Bool) : ∃ (tr : Trace Nat Nat) (xtr : List (RA.REv Nat)) (s : WState 8 Nat), WRun (demoC 2 blocking) 8 tr xtr s ∧
    (resOps (coreOf tr))[0]? = some 100 ∧ (received tr)[0]? = some 102 ∧ RA.At xtr 4 (.access 100 0 (.write 15)) ∧
    RA.At xtr 5 (.commit 100 0 (some 15)) ∧ RA.At xtr 20 (.access 102 0 (.read (some 15))) := by
  obtain ⟨s, hs⟩ := wMsgRun blocking
  refine ⟨_, _, s, hs, ?_⟩
  cases blocking <;> decide +kernel

end Thingbuf.Chan
