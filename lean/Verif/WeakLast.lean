import Verif.WeakRx
import Verif.ChanWakeProps

/-!
# The end of the messages, on the memory model

Helper lemmas for `WeakLastProps`.
-/

namespace Thingbuf.Chan

section
variable {w : Nat} {V W : Type} {c : Config W} {s : State w V W} {act : Act V W}

/-! ### Where the execution stands after an event of the API -/

/-- Only the beginning of a send call is followed, in the same step, by another event. -/
def OneApi (t : Trace V W) : Prop := ∀ l e r, t = l ++ .api e :: r → (∀ k x b, e ≠ .callSend k x b) → r = []

theorem oneApi_nil : OneApi ([] : Trace V W) := fun l e r h => by simp at h

theorem oneApi_one (e : Ev V W) : OneApi [e] := fun l e' r h _ => by
  have := congrArg List.length h
  simp at this
  exact List.eq_nil_of_length_eq_zero (by omega)

theorem oneApi_call (k x : Nat) (b : Bool) (e : Api W) : OneApi ([.api (.callSend k x b), .api e] : Trace V W) := fun l e' r h hne => by
  cases l with
  | nil => simp at h; exact absurd h.1.symm (hne _ _ _)
  | cons y l =>
    have := congrArg List.length h
    simp at this
    exact List.eq_nil_of_length_eq_zero (by omega)

theorem core_one {a : Thingbuf.Act V} {k} (h : plan c s act = .core a k) (u : State w V W) (r : Option Ret) : OneApi (k u r).2 := by
  cases act <;> simp only [plan, rxPlan, closerPlan] at h <;> (repeat' split at h) <;> first
    | cases h; done
    | cases h
      simp only [afterPop, afterPop2, afterLast, afterTry, afterRxClose, afterTxClose, afterPush, gotMessage]
      (repeat' split) <;> first | exact oneApi_nil | exact oneApi_one _ | exact oneApi_call _ _ _ _
    | cases h
      first | exact oneApi_nil | exact oneApi_one _ | exact oneApi_call _ _ _ _

theorem cell_one {a : Cell.Act W} {k} (h : plan c s act = .cell a k) (u : State w V W) (r : List (Cell.Event W)) : OneApi (k u r).2 := by
  cases act <;> simp only [plan, rxPlan, closerPlan] at h <;> (repeat' split at h) <;> first
    | cases h; done
    | cases h
      simp only [afterWait, afterSendNotify]
      (repeat' split) <;> first | exact oneApi_nil | exact oneApi_one _ | exact oneApi_call _ _ _ _
    | cases h
      first | exact oneApi_nil | exact oneApi_one _ | exact oneApi_call _ _ _ _

theorem queue_one {a : Queue.Act W} {k} (h : plan c s act = .queue a k) (u : State w V W) (r : List (Queue.Event W)) : OneApi (k u r).2 := by
  cases act <;> simp only [plan, rxPlan, closerPlan] at h <;> (repeat' split at h) <;> first
    | cases h; done
    | cases h
      simp only [afterStart, afterCont, afterDrop, afterRecvNotify]
      (repeat' split) <;> first | exact oneApi_nil | exact oneApi_one _ | exact oneApi_call _ _ _ _
    | cases h
      first | exact oneApi_nil | exact oneApi_one _ | exact oneApi_call _ _ _ _

theorem plan_one {r : Out w V W} (h : plan c s act = .api r) : OneApi r.2 := by
  cases act <;> simp only [plan, rxPlan, closerPlan] at h <;> (repeat' split at h) <;> first
    | cases h; done
    | cases h
      first | exact oneApi_nil | exact oneApi_one _ | exact oneApi_call _ _ _ _

theorem OneApi.after {x t : Trace V W} (h : OneApi t) (hx : ∀ e, .api e ∉ x) : OneApi (x ++ t) := by
  intro l e r hl
  rcases append_split hl with ⟨r', -, h1⟩ | ⟨e1, h1, -⟩
  · exact absurd (by rw [h1]; simp) (hx e)
  · exact h e1 e r h1

end

section
variable {w : Nat} {V : Type} {o : RA.Orders} {co : RA.CellOrders} {c : Config Nat} {th : Thread → OpId} {tr : Trace V Nat} {xtr : List (RA.REv V)} {s s' : WState w V}

theorem wstep_one {act : Act V Nat} {ch : Choice} {evs : Trace V Nat} {revs : List (RA.REv V)} (hs : wstep o co c s act ch = some (s', evs, revs)) : OneApi evs := by
  unfold wstep at hs
  split at hs
  · cases hs
  · cases hs; exact plan_one ‹_›
  · split at hs <;> cases hs
    exact (core_one ‹_› _ _).after (by simp)
  · split at hs <;> cases hs
    exact (cell_one ‹_› _ _).after (by simp)
  · split at hs <;> cases hs
    exact (queue_one ‹_› _ _).after (by simp)

/-- The execution up to an event of the API. -/
theorem PExec.at_api (h : PExec o co c w th tr xtr s) {pre post : Trace V Nat} {e : Api Nat} (htr : tr = pre ++ .api e :: post)
    (he : ∀ k x b, e ≠ .callSend k x b) : ∃ xtr1 s1, PExec o co c w th (pre ++ [.api e]) xtr1 s1 := by
  induction h generalizing post with
  | init => simp at htr
  | sync _ _ _ ih => exact ih htr
  | step h hs ht ih =>
    rcases append_split htr with ⟨post', -, h2⟩ | ⟨e1, h1, h2⟩
    · exact ih h2
    · have := wstep_one hs e1 e post h1 he
      subst this
      have := PExec.step h hs ht
      rw [h1, ← List.append_assoc, ← h2] at this
      exact ⟨_, _, this⟩

end

section
variable {w : Nat} {V : Type} {c : Config Nat} {th : Thread → OpId} {tr : Trace V Nat} {xtr : List (RA.REv V)} {s : WState w V}

open RA (XEv AtX HB)

theorem PRun.at_api (h : PRun c w th tr xtr s) {pre post : Trace V Nat} {e : Api Nat} (htr : tr = pre ++ .api e :: post)
    (he : ∀ k x b, e ≠ .callSend k x b) : ∃ xtr1 s1, PRun c w th (pre ++ [.api e]) xtr1 s1 := by
  obtain ⟨xtr1, s1, h1⟩ := h.exec.at_api htr he
  exact ⟨xtr1, s1, h.sized, h.std, h1⟩

/-! ### The receiver is told that there are no more senders -/

theorem WRun.closedTold (h : WRun c w tr xtr s) : ClosedTold tr := by
  intro pre o post htr
  obtain ⟨n, b, h1, h2, -⟩ := RA.C51_closed_truthful h.mem (h.exec.at_pos htr rfl)
  obtain ⟨f, hf, h3⟩ := h.exec.pos_before (post := .cell (.retWait o .closed) :: post) htr h1 (h.mem.inv.base.hb.lt h2)
  cases memEv_cell h3
  exact ⟨b, hf⟩

/-- No message is sent after the drop of the last `Sender`. -/
theorem ExecM.no_commit {W : Type} {c : Config W} {tr : Trace V W} {s : State w V W} {m : Bool} (h : ExecM m c tr s) {p q : Trace V W} {pan : Bool} (htr : tr = p ++ q) (hd : LastDrop p pan) (a : OpId) (i : Nat) (v : Option V) :
    .core (.commit a i v) ∉ q := by
  intro hm
  obtain ⟨x, y, hxy⟩ := List.append_of_mem hm
  obtain ⟨k, s0, post', h1, h2, -⟩ := h.commit_at (a := a) (i := i) (v := v) (pre := p ++ x) (post := y) (by rw [htr, hxy]; simp)
  exact absurd (h1.lastDrop_handles (hd.mono x)) (h1.active_handles (k := k) (by rw [h2]; rfl))

/-- The closer knows of all the messages. -/
theorem PRun.sent_closed (h : PRun c w th tr xtr s) {k n : Nat} {b d : OpId} {l : Nat} {y : Option V} (hk : RA.At xtr k (.commit b l y))
    (hn : AtX xtr n (.cell (.callNotify d true))) : HB xtr k n := by
  have hE := h.wrun.exec.ctl.1
  refine h.known.txThen k n b l y d ?_ hk hn
  obtain ⟨pre, e, post, h1, h2, h3⟩ := h.wrun.exec.of_pos hn
  cases memEv_cell h2
  obtain ⟨pan, h4⟩ := hE.notify_last h1
  apply Nat.lt_of_not_le
  intro hle
  obtain ⟨f, hf, h5⟩ := h.wrun.exec.pos_after (pre := pre) (post := .cell (.callNotify d true) :: post) h1 hk (by omega)
  cases memEv_core h5
  exact hE.no_commit h1 h4 b l y hf

/-- A pop operation that finds nothing after the receiver was told that there are no more senders. -/
theorem PRun.last_pop (h : PRun c w th tr xtr s) (hl : NoLoss tr) {p q : Trace V Nat} {o : OpId} {pan : Bool} (htr : tr = p ++ .cell (.retWait o .closed) :: q) (hd : LastDrop p pan)
    {a : OpId} {r : Ret} (h1 : .core (.invoke a .pop) ∈ q) (h2 : .core (.ret a r) ∈ q) (h3 : r ≠ .popped) :
    nDeq (coreOf tr) = nRes (coreOf tr) := by
  have hE := h.wrun.exec.ctl.1
  have hf := h.wrun.facts
  obtain ⟨x, y, hxy⟩ := List.append_of_mem h1
  obtain ⟨x', y', hxy'⟩ := List.append_of_mem h2
  have hti : tr = (p ++ .cell (.retWait o .closed) :: x) ++ .core (.invoke a .pop) :: y := by rw [htr, hxy]; simp
  have hi := h.wrun.exec.at_pos hti rfl
  have hp := h.wrun.exec.at_pos htr rfl
  have hj := h.wrun.exec.at_pos (pre := p ++ .cell (.retWait o .closed) :: x') (e := .core (.ret a r)) (post := y') (by rw [htr, hxy']; simp) rfl
  have hpi : HB xtr (memOf p).length (memOf (p ++ .cell (.retWait o .closed) :: x)).length :=
    h.known.rxThen _ _ _ _ (by rw [memOf_append, memOf_cons (x := .cell (.retWait o .closed)) rfl]; simp) hp rfl hi rfl
  have hb := (hf.bounds (List.prefix_refl _)).1
  have hle : nDeq (coreOf (p ++ .cell (.retWait o .closed) :: x)) ≤ nDeq (coreOf tr) :=
    (deqOps_prefix ⟨coreOf (.core (.invoke a .pop) :: y), by rw [← coreOf_append, hti]⟩).length_le
  apply Classical.byContradiction
  intro hne
  have hlt : nDeq (coreOf (p ++ .cell (.retWait o .closed) :: x)) < (resOps (coreOf tr)).length := by
    change _ < nRes (coreOf tr); omega
  obtain ⟨b, hb⟩ : ∃ b, (resOps (coreOf tr))[nDeq (coreOf (p ++ .cell (.retWait o .closed) :: x))]? = some b := ⟨_, List.getElem?_eq_getElem hlt⟩
  obtain ⟨l, z, hc⟩ := hE.all_committed hf hl htr hd (List.mem_of_getElem? hb)
  obtain ⟨u, v, huv⟩ := List.append_of_mem (mem_coreOf.1 hc)
  have hk := h.wrun.exec.at_pos (pre := u) (post := v ++ .cell (.retWait o .closed) :: q) (e := .core (.commit b l z)) (by rw [htr, huv]; simp) rfl
  refine h3 (RA.C51_closed_drains h.wrun.mem hp hi hpi hj (h.deq_known hi hj) ?_ hk fun e n hn => h.sent_closed hk hn)
  rw [h.wrun.exec.evs_take hti, ← h.wrun.exec.evs.1]
  exact hb

/-- What is known when a poll returns `None` or `try_recv` says `Closed`. -/
theorem PRun.told_closed (h : PRun c w th tr xtr s) {pre post : Trace V Nat} {e : Api Nat} (he : e = .retPoll .none ∨ e = .retTry .closed)
    (htr : tr = pre ++ .api e :: post) : ∃ xtr1 s1, PRun c w th (pre ++ [.api e]) xtr1 s1 ∧ (∃ pan, LastDrop pre pan) ∧
      ((e = .retTry .closed ∨ NoLoss pre) → nDeq (coreOf pre) = nRes (coreOf pre)) := by
  obtain ⟨xtr1, s1, hr⟩ := h.at_api htr (by rcases he with rfl | rfl <;> simp)
  have hcore : coreOf (pre ++ [.api e]) = coreOf pre := by simp
  obtain ⟨s2, -, h3⟩ := h.wrun.exec.ctl.1.told_closed he htr (by rw [← hcore]; exact hr.wrun.facts)
    (ClosedTold.before (q := .api e :: post) (by rw [← htr]; exact h.wrun.closedTold)) (by
      intro hn p o q pan a r h5 h6 h7 h8 h9 _
      rw [← hcore]
      exact hr.last_pop (a := a) (r := r) (fun k => by rcases he with rfl | rfl <;> simpa using hn k) (p := p) (o := o) (q := q ++ [.api e]) (by rw [h5]; simp) h6
        (by simp [h7]) (by simp [h8]) h9)
  exact ⟨xtr1, s1, hr, h3⟩

/-! ### The signal of the last `Sender` -/

/-- After the drop of the last `Sender`, no operation on the wait cell is running, except one of the receiver. -/
theorem ExecM.cell_over {W : Type} {c : Config W} {tr : Trace V W} {s : State w V W} {m : Bool} (h : ExecM m c tr s) (hd : .api .lastTxDropped ∈ tr) {a : OpId}
    (hc : Cell.Called (cellOf tr) a) (hr : ∀ v, s.rx ≠ .wait a v) : Cell.Returned (cellOf tr) a := by
  have hdone := h.clInv.fin hd
  have hno : s.handles = [] := by
    apply Classical.byContradiction
    intro hn
    have := h.hinv.closer.2 hn
    rw [hdone] at this; cases this
  apply Classical.byContradiction
  intro hn
  rcases h.cell_owner hc hn with ⟨k, hk⟩ | ⟨v, hv⟩ | hc
  · exact absurd hno (h.active_handles (k := k) (by rw [hk]; rfl))
  · exact hr v hv
  · rw [hdone] at hc; cases hc

/-- The receiver does not run `notify`. -/
theorem ExecM.not_waiting {W : Type} {c : Config W} {tr : Trace V W} {s : State w V W} {m : Bool} (h : ExecM m c tr s) {a : OpId} {x : Bool} (hc : .cell (.callNotify a x) ∈ tr) (v : W) :
    s.rx ≠ .wait a v := by
  intro hx
  have hk := h.cellOwns.sat .rx a .wait (by simp [cellClaim, claimOf, hx, rxCell])
  have hm : Cell.Event.callNotify a x ∈ Cell.mine (cellOf tr) a := Cell.mem_mine.2 ⟨mem_cellOf.2 hc, rfl⟩
  have hop := h.cellOpOk a
  cases hp : s.cell.pc a <;> simp only [hp, cellKind] at hk <;> simp only [hp, Cell.OpOk] at hop <;> first
    | (cases hk; done)
    | exact absurd hm (hop.2.2.1 _)

/-- A receiver whose last poll returned `Pending` is woken by the drop of the last `Sender`. -/
theorem PRun.rx_woken_last (h : PRun c w th tr xtr s) {v : Nat} {post : Trace V Nat} (hs : Since tr v post) (hp : .api (.retPoll .pending) ∈ post)
    (hx : ∀ b, .api (.dropRx b) ∉ tr) (hd : .api .lastTxDropped ∈ tr) (hb : c.blocking = false ∨ LastDrop tr false) :
    ∃ d, .cell (.wake d v) ∈ post := by
  have hE := h.wrun.exec.ctl.1
  obtain ⟨hrx, m2, a, r, hr, -⟩ := hE.pending hs hp hx
  have hone := h.oneReceiver
  obtain ⟨A, o, k, htr, hpA, hkA, hmk, hlast⟩ := h.wrun.reg hone hr
  have hquiet := h.wrun.cellQuiet fun a ha => hE.cell_over hd ha (hrx a)
  have hsub : ∀ e ∈ m2, e ∈ post := by
    obtain ⟨m1, o', h5, _⟩ := hr
    obtain ⟨-, rfl⟩ := hs.uniq h5
    intro e he; simp [he]
  obtain ⟨b, hn⟩ := hE.last_notify h.wrun.facts hx hd hb
  obtain ⟨x, y, hxy⟩ := List.append_of_mem hn
  obtain ⟨q, d, h1, h2⟩ := RA.C51_close_wakes h.wrun.mem hone hquiet h.wrun.no_assert hpA hmk hkA hlast (h.wrun.exec.at_pos hxy rfl)
  exact ⟨d, hsub _ (h.wrun.wake_after htr (by simp) h2 h1)⟩

/-- A poll that begins after the drop of the last `Sender` does not return `Pending`. -/
theorem PRun.not_pending (h : PRun c w th tr xtr s) {pre mid post : Trace V Nat} {v : Nat} (htr : tr = pre ++ .api (.callPoll v) :: mid ++ .api (.retPoll .pending) :: post)
    (hm : ∀ u, .api (.callPoll u) ∉ mid) (hd : .api .lastTxDropped ∈ pre) (hb : c.blocking = false ∨ LastDrop tr false) : False := by
  have hal := h.wrun.exec.ctl.1.poll_alive htr
  -- the poll
  obtain ⟨xtr2, s2, h2⟩ := h.at_api htr (by simp)
  have hE2 := h2.wrun.exec.ctl.1
  have hs : Since (pre ++ .api (.callPoll v) :: mid ++ [.api (.retPoll .pending)]) v (mid ++ [.api (.retPoll .pending)]) :=
    ⟨⟨pre, by simp⟩, by simpa using hm⟩
  obtain ⟨-, m2, a, r, hr, -⟩ := hE2.pending hs (by simp) (fun b hb => hal b (by simpa using hb))
  obtain ⟨m1, o', h5, -⟩ := id hr
  obtain ⟨-, h6⟩ := hs.uniq h5
  obtain ⟨A, o, k, htrA, hpA, hkA, hmk, -⟩ := h2.wrun.reg h2.oneReceiver hr
  obtain ⟨h7, h8⟩ := h2.wrun.mem.registered h2.oneReceiver hpA hmk hkA
  -- the signal
  obtain ⟨x, y, rfl⟩ := List.append_of_mem hd
  obtain ⟨xtr3, s3, h3⟩ := h.at_api (pre := x) (e := .lastTxDropped) (post := y ++ .api (.callPoll v) :: mid ++ .api (.retPoll .pending) :: post) (by rw [htr]; simp) (by simp)
  have hE3 := h3.wrun.exec.ctl.1
  obtain ⟨b, hn⟩ := hE3.last_notify h3.wrun.facts (fun b hb => hal b (by simp at hb; simp [hb])) (by simp) (by
    refine hb.imp id fun hb => ?_
    have hh := hE3.clInv.hist
    rw [hE3.clInv.fin (by simp)] at hh
    obtain ⟨pan, _, _, h8, _⟩ := hh
    have : LastDrop tr pan := by rw [htr]; simpa using h8.1.mono (y ++ .api (.callPoll v) :: mid ++ .api (.retPoll .pending) :: post)
    rw [h.wrun.exec.ctl.1.last_unique hb this]
    exact h8.1)
  obtain ⟨u, z, huz⟩ := List.append_of_mem hn
  obtain ⟨n, q, h9⟩ : ∃ n q, AtX xtr3 n (.cell (.retNotify b q)) := by
    refine h3.wrun.retNotify_of (h3.wrun.exec.at_pos huz rfl) ?_
    rw [← h3.wrun.exec.evs.2]
    exact hE3.cell_over (by simp) (.inr ⟨true, mem_cellOf.2 hn⟩) (hE3.not_waiting hn)
  have hmem : .cell (.retNotify b q) ∈ x := by
    have := h9.cellOf
    rw [← h3.wrun.exec.evs.2] at this
    simpa using mem_cellOf.1 this
  have hn : .cell (.callNotify b true) ∈ x := by simpa using hn
  obtain ⟨u1, u2, hu⟩ := List.append_of_mem hn
  obtain ⟨z1, z2, hz⟩ := List.append_of_mem hmem
  have hA : A = x ++ .api .lastTxDropped :: y ++ .api (.callPoll v) :: m1 := by
    have h16 : x ++ Ev.api .lastTxDropped :: y ++ .api (.callPoll v) :: mid ++ [.api (.retPoll .pending)] =
        (x ++ .api .lastTxDropped :: y ++ .api (.callPoll v) :: m1) ++ .cell (.retWait o' .wait) :: m2 := by
      have : x ++ Ev.api .lastTxDropped :: y ++ .api (.callPoll v) :: mid ++ [.api (.retPoll .pending)] =
        x ++ .api .lastTxDropped :: y ++ .api (.callPoll v) :: (mid ++ [.api (.retPoll .pending)]) := by simp
      rw [this, h6]; simp
    rw [htrA] at h16
    exact (List.append_inj' h16 (by simp)).1
  have h10 := h2.wrun.exec.at_pos (pre := u1) (e := .cell (.callNotify b true)) (post := u2 ++ .api .lastTxDropped :: y ++ .api (.callPoll v) :: mid ++ [.api (.retPoll .pending)])
    (by rw [hu]; simp) rfl
  have h11 := h2.wrun.exec.at_pos (pre := z1) (e := .cell (.retNotify b q)) (post := z2 ++ .api .lastTxDropped :: y ++ .api (.callPoll v) :: mid ++ [.api (.retPoll .pending)])
    (by rw [hz]; simp) rfl
  obtain ⟨j, -, h12, h13⟩ := h2.wrun.mem.inv.cell.signal_of_ret h2.wrun.mem.std h10 h11
  have h14 := h2.wrun.mem.minv.regOpen _ _ _ _ _ h13 h8
  have h15 : (memOf z1).length < (memOf A).length := by
    rw [hA, hz]
    simp only [List.append_assoc, List.cons_append, memOf_append]
    rw [memOf_cons (e := .cell (.retNotify b q)) rfl]
    simp
  omega

end

end Thingbuf.Chan
