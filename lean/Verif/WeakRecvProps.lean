import Verif.WeakRecv
import Verif.WeakLastProps
import Verif.ChanTryProps
import Verif.ChanWakeProps
import Verif.ChanFineProps

/-!
# The channel on the memory model: what a receive call finds

C70. With the memory orderings of the source, a load may return an old value, and so a receive call may miss a message whose `SendRef` has been dropped. Here: which
messages it does not miss.
-/

namespace Thingbuf.Chan

variable {w : Nat} {V : Type} {c : Config Nat} {th : Thread → OpId} {tr : Trace V Nat} {xtr : List (RA.REv V)} {s : WState w V}

/-- After `pre`, the next message to be received is the one sent through the `SendRef` of push operation `b`: as many messages precede it as have been received. -/
def NextMessage (tr pre : Trace V Nat) (b : OpId) : Prop := (resOps (coreOf tr))[(received pre).length]? = some b

/-- What is at position `n` of the memory events happens before the call of pop operation `a`. -/
def KnownTo (xtr : List (RA.REv V)) (n : Nat) (a : OpId) : Prop := ∃ i, RA.At xtr i (.invoke a .pop) ∧ RA.HB xtr n i

/-- **C70** `try_recv` returns the next message, if the drop of its `SendRef` (the `commit`) happens before the call. -/
theorem C70_try_recv_finds (h : PRun c w th tr xtr s) {pre mid post : Trace V Nat} {a b : OpId} {r : TryRes} {n j : Nat} {x : Option V}
    (htr : tr = pre ++ .core (.invoke a .pop) :: .api .callTry :: (mid ++ .api (.retTry r) :: post)) (hm : .api .callTry ∉ mid)
    (hb : NextMessage tr pre b) (hn : RA.At xtr n (.commit b j x)) (hk : KnownTo xtr n a) : r = .ok a := by
  obtain ⟨a', y, ret, h1, h2, h3⟩ := h.wrun.exec.ctl.1.try_pop (pre := pre ++ [.core (.invoke a .pop)]) (mid := mid) (post := post) (r := r) (by rw [htr]; simp) hm
  obtain ⟨rfl, h4⟩ := List.append_inj' h1 rfl
  have : a = a' := by simpa using h4
  subst this
  obtain ⟨xtr1, s1, hr1⟩ := h.at_api (pre := pre ++ [.core (.invoke a .pop)]) (e := .callTry) (post := mid ++ .api (.retTry r) :: post) (by rw [htr]; simp) (by simp)
  have hrec := hr1.wrun.exec.ctl.1.received
  have hl : nDeq (coreOf pre) = (received pre).length := by
    have := congrArg List.length hrec
    simp [received] at this
    simp [received, nDeq, this, deqOps]
  have hp := h.pop_finds htr (r := ret) (by simp [h2]) hl hb hn hk
  rcases h3 with ⟨h3, -⟩ | ⟨-, h3⟩ | ⟨-, h3, -⟩
  · exact h3
  · rw [hp] at h3; cases h3
  · exact absurd hp h3

/-- **C70** A poll returns the next message, if the drop of its `SendRef` (the `commit`) happens before the pop operations of the poll. -/
theorem C70_poll_finds (h : PRun c w th tr xtr s) {pre mid post : Trace V Nat} {v : Nat} {b : OpId} {r : PollRes} {n j : Nat} {x : Option V}
    (htr : tr = pre ++ .api (.callPoll v) :: mid ++ .api (.retPoll r) :: post) (hm : ∀ u, .api (.callPoll u) ∉ mid)
    (hb : NextMessage tr pre b) (hn : RA.At xtr n (.commit b j x)) (hk : ∀ a, .core (.invoke a .pop) ∈ mid → KnownTo xtr n a) : ∃ a, r = .some a := by
  apply Classical.byContradiction
  intro hne
  have hne : ∀ a, r ≠ .some a := fun a ha => hne ⟨a, ha⟩
  obtain ⟨a, ret, h1, h2, h3, h4, h5⟩ := h.wrun.exec.ctl.1.poll_pop htr hm hne
  obtain ⟨xtr1, s1, hr1⟩ := h.at_api (pre := pre) (e := .callPoll v) (post := mid ++ .api (.retPoll r) :: post) (by rw [htr]; simp) (by simp)
  obtain ⟨xtr2, s2, hr2⟩ := h.at_api htr (by simp)
  obtain ⟨p, q, hpq⟩ := List.append_of_mem h1
  have e1 : nDeq (coreOf pre) = (received pre).length := by
    have := congrArg List.length hr1.wrun.exec.ctl.1.received
    simp [received] at this
    simp [received, nDeq, this, deqOps]
  have e2 : nDeq (coreOf (pre ++ .api (.callPoll v) :: mid)) = (received pre).length := by
    have := congrArg List.length hr2.wrun.exec.ctl.1.received
    have e3 : received (pre ++ .api (.callPoll v) :: mid ++ [.api (.retPoll r)]) = received pre := by
      have : received mid = [] := List.filterMap_eq_nil_iff.2 fun e he => by
        split
        · exact absurd he (h4 _)
        · exact absurd he (h5 _)
        · rfl
      have e4 : received [(.api (.retPoll r) : Ev V Nat)] = [] := by
        cases r with
        | some a => exact absurd rfl (hne a)
        | _ => rfl
      rw [received_append, e4, received_append]
      show received pre ++ received mid ++ [] = received pre
      rw [this]; simp
    rw [e3] at this
    rw [this, coreOf_append _ [_]]
    simp [nDeq]
  have e3 : nDeq (coreOf (pre ++ .api (.callPoll v) :: p)) = (received pre).length := by
    have l1 : nDeq (coreOf pre) ≤ nDeq (coreOf (pre ++ .api (.callPoll v) :: p)) :=
      (deqOps_prefix ⟨coreOf (.api (.callPoll v) :: p), by rw [← coreOf_append]⟩).length_le
    have l2 : nDeq (coreOf (pre ++ .api (.callPoll v) :: p)) ≤ nDeq (coreOf (pre ++ .api (.callPoll v) :: mid)) :=
      (deqOps_prefix ⟨coreOf (.core (.invoke a .pop) :: q), by rw [← coreOf_append, hpq]; simp⟩).length_le
    omega
  have hq : .core (.ret a ret) ∈ q := by
    have hf := hr2.wrun.facts
    rw [hpq] at h2
    rcases List.mem_append.1 h2 with h6 | h6
    · exfalso
      have := hf.evOk (pre := coreOf (pre ++ .api (.callPoll v) :: p)) (e := .invoke a .pop) (post := coreOf (q ++ [.api (.retPoll r)])) (by rw [hpq]; simp)
      exact this.2.1 ⟨ret, mem_coreOf.2 (by simp [h6])⟩
    · simpa using h6
  exact h3 (h.pop_finds (p := pre ++ .api (.callPoll v) :: p) (q := q ++ .api (.retPoll r) :: post) (by rw [htr, hpq]; simp) (by simp [hq]) e3 hb hn (hk a h1))

/-- **C70** What happens before the call of one pop operation of the receiver happens before the calls of all later ones: once known, a message stays known. -/
theorem C70_known_later (h : PRun c w th tr xtr s) {p q : Trace V Nat} {a d : OpId} {n : Nat} (htr : tr = p ++ .core (.invoke a .pop) :: q)
    (hd : .core (.invoke d .pop) ∈ q) (hk : KnownTo xtr n a) : KnownTo xtr n d := by
  obtain ⟨i, h1, h2⟩ := hk
  have hi := h.wrun.exec.at_pos htr rfl
  cases RA.invoke_pos h.wrun.mem.facts h1 hi
  obtain ⟨x, y, hxy⟩ := List.append_of_mem hd
  have hj := h.wrun.exec.at_pos (pre := p ++ .core (.invoke a .pop) :: x) (e := .core (.invoke d .pop)) (post := y) (by rw [htr, hxy]; simp) rfl
  refine ⟨_, hj, h.wrun.mem.inv.base.hb.trans h2 (h.known.rxThen _ _ _ _ ?_ hi rfl hj rfl)⟩
  rw [memOf_append, memOf_cons (x := .core (.invoke a .pop)) rfl]; simp

/-- **C70**, partly. After the drop of the last `Sender`, `try_recv` does not say `Empty`, if the drops of all `SendRef`s happen before the call. Missing: the case that the
last `Sender` was dropped while its thread was panicking, and the case that a `SendRef` was leaked or the user's code panicked in a send call. -/
theorem C70_try_recv_not_empty_partial (h : PRun c w th tr xtr s) {pre mid post : Trace V Nat} {a : OpId} {r : TryRes}
    (htr : tr = pre ++ .core (.invoke a .pop) :: .api .callTry :: (mid ++ .api (.retTry r) :: post)) (hm : .api .callTry ∉ mid)
    (hl : .api .lastTxDropped ∈ pre) (hp : LastDrop tr false) (hnl : NoLoss tr)
    (hk : ∀ n b j x, RA.At xtr n (.commit b j x) → KnownTo xtr n a) : r ≠ .empty := by
  rintro rfl
  have hlt := h.try_left htr hm hl hp
  obtain ⟨xtr1, s1, hr1⟩ := h.at_api (pre := pre ++ [.core (.invoke a .pop)]) (e := .callTry) (post := mid ++ .api (.retTry .empty) :: post) (by rw [htr]; simp) (by simp)
  have e1 : nDeq (coreOf pre) = (received pre).length := by
    have := congrArg List.length hr1.wrun.exec.ctl.1.received
    simp [received] at this
    simp [received, nDeq, this, deqOps]
  rw [e1] at hlt
  obtain ⟨b, hb⟩ : ∃ b, (resOps (coreOf tr))[(received pre).length]? = some b := ⟨_, List.getElem?_eq_getElem hlt⟩
  obtain ⟨l, z, hc⟩ := h.wrun.exec.ctl.1.all_committed h.wrun.facts hnl (p := tr) (q := []) (by simp) hp (List.mem_of_getElem? hb)
  obtain ⟨u, v, huv⟩ := List.append_of_mem (mem_coreOf.1 hc)
  have hn := h.wrun.exec.at_pos huv rfl
  cases C70_try_recv_finds h htr hm hb hn (hk _ _ _ _ hn)

/-- **C70**, partly. Once the last `Sender` has been dropped and every message sent has been received, `try_recv` says `Closed`, whether or not the receiver's thread knows
of the drop. Missing: the case that the last `Sender` was dropped while its thread was panicking, and the case that the user's code panicked in a send call. -/
theorem C70_drained_says_closed_partial (h : PRun c w th tr xtr s) {pre mid post : Trace V Nat} {a : OpId} {r : TryRes}
    (htr : tr = pre ++ .core (.invoke a .pop) :: .api .callTry :: (mid ++ .api (.retTry r) :: post)) (hm : .api .callTry ∉ mid)
    (hl : .api .lastTxDropped ∈ pre) (hp : LastDrop tr false) (hnp : ∀ k, .api (.retSend k .panicked) ∉ tr)
    (hr : ∀ k b, .api (.retSend k (.ok b)) ∈ pre → Received pre b) : r = .closed := by
  have hE := h.wrun.exec.ctl.1
  obtain ⟨xtr1, s1, hr1⟩ := h.at_api (pre := pre ++ [.core (.invoke a .pop)]) (e := .callTry) (post := mid ++ .api (.retTry r) :: post) (by rw [htr]; simp) (by simp)
  have hE1 := hr1.wrun.exec.ctl.1
  have hf1 := hr1.wrun.facts
  have e1 : nDeq (coreOf pre) = (received pre).length := by
    have := congrArg List.length hE1.received
    simp [received] at this
    simp [received, nDeq, this, deqOps]
  have hlast : ∃ pan, LastDrop (pre ++ [.core (.invoke a .pop)] ++ [.api .callTry]) pan := by
    have hh := hE1.clInv.hist
    rw [hE1.clInv.fin (by simp [hl])] at hh
    obtain ⟨pan, _, _, h3, _⟩ := hh
    exact ⟨pan, h3.1⟩
  obtain ⟨pan, hlast⟩ := hlast
  have hno := hE1.lastDrop_handles hlast
  -- the messages are those of `pre`
  have hres : nRes (coreOf tr) = nRes (coreOf pre) := by
    have : resOps (coreOf (mid ++ .api (.retTry r) :: post)) = [] := List.eq_nil_iff_forall_not_mem.2 fun b hb => by
      obtain ⟨i, hi⟩ := mem_resOps.1 hb
      exact hE.no_reserve (p := pre ++ [.core (.invoke a .pop)] ++ [.api .callTry]) (q := mid ++ .api (.retTry r) :: post) (by rw [htr]; simp) hlast b i (mem_coreOf.1 hi)
    have e : coreOf tr = coreOf pre ++ .invoke a .pop :: coreOf (mid ++ .api (.retTry r) :: post) := by rw [htr]; simp
    show (resOps (coreOf tr)).length = _
    rw [e, resOps_append, show resOps (.invoke a .pop :: coreOf (mid ++ .api (.retTry r) :: post)) = resOps (coreOf (mid ++ .api (.retTry r) :: post)) from rfl, this]
    simp [nRes]
  have hle : nRes (coreOf pre) ≤ nDeq (coreOf pre) := by
    apply Classical.byContradiction
    intro hlt
    obtain ⟨b, hb⟩ : ∃ b, (resOps (coreOf pre))[nDeq (coreOf pre)]? = some b := ⟨_, List.getElem?_eq_getElem (by show _ < nRes _; omega)⟩
    obtain ⟨k, h6, h7, -⟩ := hE1.sender hf1 (a := b) (by simp [List.mem_of_getElem? hb])
    have h8 : .api (.retSend k (.ok b)) ∈ pre := by
      rcases h7 with ⟨att, h7⟩ | h7 | h7
      · exact absurd hno (hE1.active_handles (k := k) (by rw [h7]; rfl))
      · simpa using h7
      · exact absurd (show .api (.retSend k .panicked) ∈ tr by rw [htr]; simp at h7; simp [h7]) (hnp k)
    obtain ⟨i, b', _, _, h9, h10, -⟩ := hr k b h8
    have hnd : (resOps (coreOf pre)).Nodup := by
      have := hf1.nodup_res
      simp at this
      exact (List.nodup_append.1 this).1
    have h11 := (List.getElem?_inj (List.getElem?_eq_some_iff.1 h9).1 hnd).1 (h9.trans hb.symm)
    have h12 := (List.getElem?_eq_some_iff.1 h10).1
    omega
  cases r with
  | closed => rfl
  | empty =>
    have := h.try_left htr hm hl hp
    omega
  | ok d =>
    exfalso
    obtain ⟨xtr2, s2, hr2⟩ := h.at_api (pre := pre ++ .core (.invoke a .pop) :: .api .callTry :: mid) (e := .retTry (.ok d)) (post := post) (by rw [htr]; simp) (by simp)
    have h1 := congrArg List.length hr2.wrun.exec.ctl.1.received
    have h2 : (received pre).length < (received (pre ++ .core (.invoke a .pop) :: .api .callTry :: mid ++ [.api (.retTry (.ok d))])).length := by
      simp [received]
    have h3 := (hr2.wrun.facts.bounds (List.prefix_refl _)).1
    have h4 : nRes (coreOf (pre ++ .core (.invoke a .pop) :: .api .callTry :: mid ++ [.api (.retTry (.ok d))])) ≤ nRes (coreOf tr) :=
      (resOps_prefix ⟨coreOf post, by rw [← coreOf_append, htr]; simp⟩).length_le
    have h5 : (deqOps (coreOf (pre ++ .core (.invoke a .pop) :: .api .callTry :: mid ++ [.api (.retTry (.ok d))]))).length =
      nDeq (coreOf (pre ++ .core (.invoke a .pop) :: .api .callTry :: mid ++ [.api (.retTry (.ok d))])) := rfl
    omega

/-! ### Without stale loads -/

section
variable {W : Type} {c : Config W} {tr : Trace V W} {s : State w V W}

/-- **C70**, partly. If loads are never stale: after the drop of the last `Sender`, `try_recv` does not say `Empty`; it returns a message or says `Closed`. Missing: the case that
the last `Sender` was dropped while its thread was panicking, and the case that a `SendRef` was leaked or the user's code panicked in a send call. -/
theorem C70_sc_try_recv_not_empty_partial (h : Run c tr s) {pre mid post : Trace V W} {r : TryRes}
    (htr : tr = pre ++ .api .callTry :: (mid ++ .api (.retTry r) :: post)) (hm : .api .callTry ∉ mid)
    (hl : .api .lastTxDropped ∈ pre) (hp : LastDrop tr false) (hnl : NoLoss tr) : r ≠ .empty := by
  rintro rfl
  obtain ⟨-, -, -, s1, -, -, -, h2, -⟩ := h.exec.at_api htr (by simp)
  have hr2 : Run c (pre ++ [.api .callTry]) s1 := Run.before (l := mid ++ .api (.retTry .empty) :: post) (by rw [htr] at h; simpa using h) h2
  have hlast : LastDrop (pre ++ [.api .callTry]) false := by
    have hh := h2.clInv.hist
    rw [h2.clInv.fin (by simp [hl])] at hh
    obtain ⟨pan, _, _, h5, _⟩ := hh
    have hh' := h.exec.clInv.hist
    rw [h.exec.clInv.fin (by rw [htr]; simp [hl])] at hh'
    obtain ⟨pan', _, _, h6, _⟩ := hh'
    have e1 := h6.2 _ hp
    have e2 := h6.2 pan (by
      have := h5.1.mono (mid ++ .api (.retTry .empty) :: post)
      rw [htr]; simpa using this)
    rw [e1, ← e2]; exact h5.1
  obtain ⟨d, hd⟩ := h2.closed_by_last hr2.core.facts (by simp [hl]) hlast
  obtain ⟨m, ⟨t, hmt⟩, h3⟩ := C04_try_recv_empty h htr hm
  rcases h3 with ⟨-, h3⟩ | ⟨b, h3, h4⟩
  · exact h3 ⟨d, by simp at hd; simp [hd]⟩
  · have hb : b ∈ resOps (coreOf tr) := (resOps_prefix ⟨coreOf (t ++ .api (.retTry .empty) :: post), by rw [← coreOf_append, htr, ← hmt]; simp⟩).subset (List.mem_of_getElem? h3)
    obtain ⟨i, v, hc⟩ := h.exec.all_committed h.core.facts hnl (p := pre ++ [.api .callTry]) (q := mid ++ .api (.retTry .empty) :: post) (by rw [htr]; simp) hlast hb
    exact h4 ⟨i, v, by simp at hc; simp [hc]⟩

/-- **C70**, partly. The same if waiters are removed from the wait queue in two steps. Missing: as above. -/
theorem C70_fine_try_recv_not_empty_partial {f : FState w V W} (h : FRun c tr f) {pre mid post : Trace V W} {r : TryRes}
    (htr : tr = pre ++ .api .callTry :: (mid ++ .api (.retTry r) :: post)) (hm : .api .callTry ∉ mid)
    (hl : .api .lastTxDropped ∈ pre) (hp : LastDrop tr false) (hnl : NoLoss tr) : r ≠ .empty := by
  obtain ⟨tr', h1, hq⟩ := h.sim
  obtain ⟨pre', rest', h2, h3, h4⟩ := quiet_split (e := .api .callTry) rfl (htr ▸ hq)
  obtain ⟨mid', post', rfl, h5, -⟩ := quiet_split (e := .api (.retTry r)) rfl h4
  exact C70_sc_try_recv_not_empty_partial h1 h2 (fun hc => hm ((mem_of_quiet h5 rfl).1 hc)) ((mem_of_quiet h3 rfl).2 hl) (hp.congr hq.symm) (hnl.congr hq.symm)

end

/-! ### Concrete cases -/

/-- Two messages are sent and the `Sender` is dropped. The threads of the senders tell the receiver's (for example through a mutex). Then the receiver receives. -/
def pKnownDemo : List WIt :=
  (iSend 1 100 11 ++ iDropSend 1 200 ++ iSend 2 101 12 ++ iDropSend 2 201 ++ iDropTx 0 false [400, 401, 402]).map wOf ++ [.sync 1001 900, .sync 1002 900] ++
    (iTry 350 ++ iDropRecv 350 500 ++ iPoll 31 [310, 311, 312, 313] ++ iDropRecv 310 501 ++ iTry 360).map wOf

/-- C70: the hypotheses of `C70_try_recv_finds`, `C70_poll_finds`, `C70_known_later`, `C70_try_recv_not_empty_partial` and `C70_drained_says_closed_partial` are met by this
execution: the drops of the `SendRef`s, at positions 4 and 14, happen before the first pop operation, and so before the second. -/
example (blocking : Bool) : ∃ (tr : Trace Nat Nat) (xtr : List (RA.REv Nat)) (s : WState 8 Nat), PRun (demoC 2 blocking) 8 thN tr xtr s ∧
    [.lastTxDropped, .callTry, .retTry (.ok 350), .dropRecv 350, .dropRecvEnd 350, .callPoll 31, .retPoll (.some 310), .dropRecv 310, .dropRecvEnd 310, .callTry,
      .retTry .closed] <:+ apiOf tr ∧ LastDrop tr false ∧ received tr = [350, 310] ∧ resOps (coreOf tr) = [100, 101] ∧
    RA.At xtr 4 (.commit 100 0 (some 11)) ∧ RA.At xtr 14 (.commit 101 1 (some 12)) ∧
    RA.At xtr 28 (.invoke 350 .pop) ∧ RA.HB xtr 4 28 ∧ RA.HB xtr 14 28 ∧ RA.At xtr 32 (.invoke 310 .pop) ∧ RA.HB xtr 14 32 := by
  obtain ⟨s, hs⟩ := PExec.of_script (o := .source) (co := .source) (c := demoC 2 blocking) (l := pKnownDemo) (by cases blocking <;> decide +kernel) (by cases blocking <;> decide +kernel)
  refine ⟨_, _, s, ⟨by cases blocking <;> decide, rfl, hs⟩, ?_, lastDropB_imp (by cases blocking <;> decide +kernel), ?_⟩
  · cases blocking <;> decide +kernel
  · refine ⟨?_, ?_, ?_, ?_, ?_, ?_, ?_, ?_, ?_⟩ <;> cases blocking <;> decide +kernel

/-- The hypothesis of C70 is needed: if the receiver's thread does not know of the drop of the `SendRef`, `try_recv` can miss the message. -/
theorem C70_false_if_unknown (blocking : Bool) : ∃ (tr : Trace Nat Nat) (xtr : List (RA.REv Nat)) (s : WState 8 Nat), PRun (demoC 2 blocking) 8 thN tr xtr s ∧
    apiOf tr = [.callSend 1 0 true, .attempt 1 100, .retSend 1 (.ok 100), .dropSend 1, .dropSendEnd 1, .callTry, .retTry .empty] := by
  obtain ⟨s, hs⟩ := PExec.of_script (o := .source) (co := .source) (c := demoC 2 blocking)
    (l := (iSend 1 100 11 ++ iDropSend 1 200).map wOf ++ .one (.tryRecv 350) [] :: (iStalePop 350).drop 1) (by cases blocking <;> decide +kernel) (by cases blocking <;> decide +kernel)
  exact ⟨_, _, s, ⟨by cases blocking <;> decide, rfl, hs⟩, by cases blocking <;> decide +kernel⟩

/-- A message is sent and received, a second one is sent, and the `Sender` is dropped. Then `try_recv` finds the slot three times as it was when the first message was in it,
and once as it was when that message had been received. -/
def pStaleTry : List WIt :=
  let n : WIt := .one (.rx 0 false) []
  let st (i : Nat) : WIt := .at (.rx 0 false) { rd := i }
  (iSend 1 100 11 ++ iDropSend 1 200 ++ iTry 300 ++ iDropRecv 300 500 ++ iSend 2 101 12 ++ iDropSend 2 201 ++ iDropTx 0 false [400, 401, 402]).map wOf ++
    [.one (.tryRecv 350) [], n, st 1, n, st 1, n, st 1, n, st 2, n]

/-- The same after the drop of the last `Sender`: although the channel is closed and has a message, `try_recv` can say `Empty`. (`recv` cannot miss it, see C65.) -/
theorem C70_empty_after_last_drop_if_unknown (blocking : Bool) : ∃ (tr : Trace Nat Nat) (xtr : List (RA.REv Nat)) (s : WState 8 Nat), PRun (demoC 1 blocking) 8 thN tr xtr s ∧
    [.dropSendEnd 2, .dropTx 0 false, .lastTxDropped, .callTry, .retTry .empty] <:+ apiOf tr ∧ LastDrop tr false ∧ received tr = [300] ∧ resOps (coreOf tr) = [100, 101] := by
  obtain ⟨s, hs⟩ := PExec.of_script (o := .source) (co := .source) (c := demoC 1 blocking) (l := pStaleTry) (by cases blocking <;> decide +kernel) (by cases blocking <;> decide +kernel)
  exact ⟨_, _, s, ⟨by cases blocking <;> decide, rfl, hs⟩, by cases blocking <;> decide +kernel, lastDropB_imp (by cases blocking <;> decide +kernel),
    by cases blocking <;> decide +kernel, by cases blocking <;> decide +kernel⟩

/-- **C70 is false** if a `SendRef` was leaked (`mem::forget`): `try_recv` says `Empty` although there is no `Sender` any more. -/
theorem C70_false_if_leaked (blocking : Bool) : ∃ (tr : Trace Nat Nat) (xtr : List (RA.REv Nat)) (s : WState 8 Nat), PRun (demoC 2 blocking) 8 thN tr xtr s ∧
    [.retSend 1 (.ok 100), .forgetSend 1, .dropTx 0 false, .lastTxDropped, .callTry, .retTry .empty] <:+ apiOf tr := by
  obtain ⟨s, hs⟩ := PExec.of_script (o := .source) (co := .source) (c := demoC 2 blocking)
    (l := (iSend 1 100 11 ++ [(.one (.forgetSend 1) : It)] ++ iDropTx 0 false [400, 401, 402] ++ iTry 350).map wOf) (by cases blocking <;> decide +kernel) (by cases blocking <;> decide +kernel)
  exact ⟨_, _, s, ⟨by cases blocking <;> decide, rfl, hs⟩, by cases blocking <;> decide +kernel⟩

/-- **C70 is false** if the last `Sender` is dropped while its thread is panicking: `try_recv` says `Empty` although there is no `Sender` any more. -/
theorem C70_false_if_dropped_by_panic (blocking : Bool) : ∃ (tr : Trace Nat Nat) (xtr : List (RA.REv Nat)) (s : WState 8 Nat), PRun (demoC 2 blocking) 8 thN tr xtr s ∧
    apiOf tr = [.dropTx 0 true, .lastTxDropped, .callTry, .retTry .empty] := by
  obtain ⟨s, hs⟩ := PExec.of_script (o := .source) (co := .source) (c := demoC 2 blocking)
    (l := (iDropTx 0 true [400, 401, 402] ++ iTry 350).map wOf) (by cases blocking <;> decide +kernel) (by cases blocking <;> decide +kernel)
  exact ⟨_, _, s, ⟨by cases blocking <;> decide, rfl, hs⟩, by cases blocking <;> decide +kernel⟩

/-- C70: the hypotheses of `C70_sc_try_recv_not_empty_partial` are met by this run. -/
example (blocking : Bool) : ∃ s : State 8 Nat Nat,
    Run (demoC 2 blocking) (scriptTr (demoC 2 blocking) (iSend 1 100 11 ++ iDropSend 1 200 ++ iDropTx 0 false [400, 401, 402] ++ iTry 350)) s ∧
    apiOf (scriptTr (demoC 2 blocking) (iSend 1 100 11 ++ iDropSend 1 200 ++ iDropTx 0 false [400, 401, 402] ++ iTry 350)) =
      [.callSend 1 0 true, .attempt 1 100, .retSend 1 (.ok 100), .dropSend 1, .dropSendEnd 1, .dropTx 0 false, .lastTxDropped, .callTry, .retTry (.ok 350)] ∧
    LastDrop (scriptTr (demoC 2 blocking) (iSend 1 100 11 ++ iDropSend 1 200 ++ iDropTx 0 false [400, 401, 402] ++ iTry 350)) false := by
  obtain ⟨s, hs⟩ : ∃ s : State 8 Nat Nat, Run (demoC 2 blocking) (scriptTr (demoC 2 blocking) (iSend 1 100 11 ++ iDropSend 1 200 ++ iDropTx 0 false [400, 401, 402] ++ iTry 350)) s := by
    cases blocking <;> exact Run.of_scriptTr (by decide) (by decide +kernel) (by decide +kernel)
  exact ⟨s, hs, by cases blocking <;> decide +kernel, lastDropB_imp (by cases blocking <;> decide +kernel)⟩

end Thingbuf.Chan
