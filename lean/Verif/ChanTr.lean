import Verif.Channel

/-!
# The steps of the channel, as a relation

`step_tr`: every step is a step of one of the three machines, or none, together with a move of one of the users of the channel.
-/

namespace Thingbuf.Chan

variable {w : Nat} {V W : Type} {c : Config W}

/-- Moves without a step of one of the machines. -/
inductive ApiMove (c : Config W) (s : State w V W) : State w V W → Api W → Prop where
  | clone (h h' : Nat) (h1 : h ∈ s.handles) (h2 : h' ∉ s.handles) :
      ApiMove c s { s with handles := h' :: s.handles, txCount := s.txCount + 1 } (.clone h h')
  | dropTx (h : Nat) (pan : Bool) (h1 : h ∈ s.handles) (h2 : ∀ x ∈ s.calls, x.2 ≠ h) (h3 : s.txCount > 1) :
      ApiMove c s { s with handles := s.handles.erase h, txCount := s.txCount - 1 } (.dropTx h pan)
  | dropLast (h : Nat) (pan : Bool) (h1 : h ∈ s.handles) (h2 : ∀ x ∈ s.calls, x.2 ≠ h) (h3 : ¬ s.txCount > 1) :
      ApiMove c s { s with handles := s.handles.erase h, txCount := s.txCount - 1, closer := .toClose pan }
        (.dropTx h pan)
  | forgetSend (k : Nat) (a : OpId) (h : s.snd k = .held a) : ApiMove c s (s.sendEnd k (.forgotten a)) (.forgetSend k)
  | poll (p : Option W) (v : W) (h : s.rx = .idle p) : ApiMove c s (s.rgoto (.toPop v)) (.callPoll v)
  | forgetRecv (a : OpId) (h : s.ref a = .held) : ApiMove c s (s.refEnd a .forgotten) (.forgetRecv a)
  | dropRx (p : Option W) (pan : Bool) (h : s.rx = .idle p) (h1 : s.refs = []) :
      ApiMove c s (s.rgoto (.toClose pan)) (.dropRx pan)

/-- The moves that go with a step of the ring buffer that returns `r`. -/
inductive CoreMove (c : Config W) (s : State w V W) :
    Thingbuf.Act V → Option Ret → State w V W → List (Api W) → Prop where
  -- the last `Sender`
  | cCall (pan : Bool) (o : OpId) (r) (h : s.closer = .toClose pan) :
      CoreMove c s (.invoke o (.close pan)) r { s with closer := .closing o } []
  | cStay (a : OpId) (h : s.closer = .closing a) : CoreMove c s (.run a) none s []
  | cNext (a : OpId) (r : Ret) (h : s.closer = .closing a) (h1 : r = .closeRet true ∨ c.blocking = false) :
      CoreMove c s (.run a) (some r) { s with closer := .toCloseTx } []
  | cSkip (a : OpId) (r : Ret) (h : s.closer = .closing a) (h1 : r ≠ .closeRet true) (h2 : c.blocking = true) :
      CoreMove c s (.run a) (some r) { s with closer := .done } [.lastTxDropped]
  -- senders
  | send (k h : Nat) (wait : Bool) (a : OpId) (r) (h1 : s.snd k = .off) (h2 : h ∈ s.handles) :
      CoreMove c s (.invoke a .push) r
        { s.sgoto k (.push a (if wait then .start else .only)) with calls := (k, h) :: s.calls }
        [.callSend k h wait, .attempt k a]
  | pushStay (k : Nat) (a : OpId) (att : Att) (i : PushIn V) (h : s.snd k = .push a att) :
      CoreMove c s (i.act a) none s []
  | pushOk (k : Nat) (a : OpId) (att : Att) (i : PushIn V) (h : s.snd k = .push a att) :
      CoreMove c s (i.act a) (some .pushed) (s.sgoto k (.held a)) [.retSend k (.ok a)]
  | pushClosed (k : Nat) (a : OpId) (att : Att) (i : PushIn V) (h : s.snd k = .push a att) :
      CoreMove c s (i.act a) (some .closed) (s.sendEnd k) [.retSend k .closed]
  | fullOnly (k : Nat) (a : OpId) (i : PushIn V) (h : s.snd k = .push a .only) :
      CoreMove c s (i.act a) (some .full) (s.sendEnd k) [.retSend k .full]
  | fullStart (k : Nat) (a : OpId) (i : PushIn V) (h : s.snd k = .push a .start) :
      CoreMove c s (i.act a) (some .full) (s.sgoto k .toStart) []
  | fullBlocking (k : Nat) (a : OpId) (i : PushIn V) (h : s.snd k = .push a .queued) (h1 : c.blocking = true) :
      CoreMove c s (i.act a) (some .full) (s.sgoto k .toCont) []
  | fullAsync (k : Nat) (a : OpId) (i : PushIn V) (h : s.snd k = .push a .queued) (h1 : c.blocking = false) :
      CoreMove c s (i.act a) (some .full) (s.sgoto k (.retry .start)) []
  | pushPanic (k : Nat) (a : OpId) (att : Att) (i : PushIn V) (r : Ret) (h : s.snd k = .push a att)
      (h1 : r ≠ .pushed) (h2 : r ≠ .closed) (h3 : r ≠ .full) :
      CoreMove c s (i.act a) (some r) (s.sendEnd k) [.retSend k .panicked]
  | retry (k : Nat) (att : Att) (a : OpId) (r) (h : s.snd k = .retry att) :
      CoreMove c s (.invoke a .push) r (s.sgoto k (.push a att)) [.attempt k a]
  | sendRead (k : Nat) (a : OpId) (r) (h : s.snd k = .held a) : CoreMove c s (.read a) r s []
  | sendWrite (k : Nat) (a : OpId) (v : V) (r) (h : s.snd k = .held a) : CoreMove c s (.write a v) r s []
  | dropSend (k : Nat) (a : OpId) (r) (h : s.snd k = .held a) :
      CoreMove c s (.dropRef a) r (s.sgoto k .toNotify) [.dropSend k]
  -- the receiver
  | tryRecv (p : Option W) (a : OpId) (r) (h : s.rx = .idle p) :
      CoreMove c s (.invoke a .pop) r (s.rgoto (.tryPop a p)) [.callTry]
  | tryStay (a : OpId) (p : Option W) (spur : Bool) (h : s.rx = .tryPop a p) : CoreMove c s (runAct a spur) none s []
  | tryOk (a : OpId) (p : Option W) (spur : Bool) (h : s.rx = .tryPop a p) :
      CoreMove c s (runAct a spur) (some .popped) ((s.newRef a).rgoto (.idle p)) [.retTry (.ok a)]
  | tryClosed (a : OpId) (p : Option W) (spur : Bool) (h : s.rx = .tryPop a p) :
      CoreMove c s (runAct a spur) (some .closed) (s.rgoto (.idle p)) [.retTry .closed]
  | tryEmpty (a : OpId) (p : Option W) (spur : Bool) (r : Ret) (h : s.rx = .tryPop a p) (h1 : r ≠ .popped)
      (h2 : r ≠ .closed) : CoreMove c s (runAct a spur) (some r) (s.rgoto (.idle p)) [.retTry .empty]
  | toPop (v : W) (o : OpId) (r) (h : s.rx = .toPop v) : CoreMove c s (.invoke o .pop) r (s.rgoto (.pop o v)) []
  | popStay (a : OpId) (v : W) (spur : Bool) (h : s.rx = .pop a v) : CoreMove c s (runAct a spur) none s []
  | popSome (a : OpId) (v : W) (spur : Bool) (h : s.rx = .pop a v) :
      CoreMove c s (runAct a spur) (some .popped) ((s.newRef a).rgoto (.idle none)) [.retPoll (.some a)]
  | popNone (a : OpId) (v : W) (spur : Bool) (h : s.rx = .pop a v) :
      CoreMove c s (runAct a spur) (some .closed) (s.rgoto (.idle none)) [.retPoll .none]
  | popEmpty (a : OpId) (v : W) (spur : Bool) (r : Ret) (h : s.rx = .pop a v) (h1 : r ≠ .popped) (h2 : r ≠ .closed) :
      CoreMove c s (runAct a spur) (some r) (s.rgoto (.toWait v)) []
  | toPop2 (v : W) (o : OpId) (r) (h : s.rx = .toPop2 v) : CoreMove c s (.invoke o .pop) r (s.rgoto (.pop2 o v)) []
  | pop2Stay (a : OpId) (v : W) (spur : Bool) (h : s.rx = .pop2 a v) : CoreMove c s (runAct a spur) none s []
  | pop2Some (a : OpId) (v : W) (spur : Bool) (h : s.rx = .pop2 a v) :
      CoreMove c s (runAct a spur) (some .popped) ((s.newRef a).rgoto (.idle none)) [.retPoll (.some a)]
  | pop2None (a : OpId) (v : W) (spur : Bool) (h : s.rx = .pop2 a v) :
      CoreMove c s (runAct a spur) (some .closed) (s.rgoto (.idle none)) [.retPoll .none]
  | pop2Pending (a : OpId) (v : W) (spur : Bool) (r : Ret) (h : s.rx = .pop2 a v) (h1 : r ≠ .popped)
      (h2 : r ≠ .closed) : CoreMove c s (runAct a spur) (some r) (s.rgoto (.idle (some v))) [.retPoll .pending]
  | toLast (o : OpId) (r) (h : s.rx = .toLast) : CoreMove c s (.invoke o .pop) r (s.rgoto (.last o)) []
  | lastStay (a : OpId) (spur : Bool) (h : s.rx = .last a) : CoreMove c s (runAct a spur) none s []
  | lastSome (a : OpId) (spur : Bool) (h : s.rx = .last a) :
      CoreMove c s (runAct a spur) (some .popped) ((s.newRef a).rgoto (.idle none)) [.retPoll (.some a)]
  | lastNone (a : OpId) (spur : Bool) (r : Ret) (h : s.rx = .last a) (h1 : r ≠ .popped) :
      CoreMove c s (runAct a spur) (some r) (s.rgoto (.idle none)) [.retPoll .none]
  | rxClose (pan : Bool) (o : OpId) (r) (h : s.rx = .toClose pan) :
      CoreMove c s (.invoke o (.close pan)) r (s.rgoto (.closing o)) []
  | rxStay (a : OpId) (h : s.rx = .closing a) : CoreMove c s (.run a) none s []
  | rxClosed (a : OpId) (h : s.rx = .closing a) : CoreMove c s (.run a) (some (.closeRet true)) (s.rgoto .toQClose) []
  | rxSkip (a : OpId) (r : Ret) (h : s.rx = .closing a) (h1 : r ≠ .closeRet true) :
      CoreMove c s (.run a) (some r) (s.rgoto .gone) [.rxDropped]
  -- `RecvRef`s
  | recvRead (a : OpId) (r) (h : s.ref a = .held) : CoreMove c s (.read a) r s []
  | recvWrite (a : OpId) (v : V) (r) (h : s.ref a = .held) : CoreMove c s (.write a v) r s []
  | dropRecv (a : OpId) (r) (h : s.ref a = .held) :
      CoreMove c s (.dropRef a) r (s.refgoto a .toNotify) [.dropRecv a]

/-- The moves that go with a step of the wait cell. -/
inductive CellMove (c : Config W) (s : State w V W) :
    Cell.Act W → List (Cell.Event W) → State w V W → List (Api W) → Prop where
  | cCall (o : OpId) (evs) (h : s.closer = .toCloseTx) :
      CellMove c s (.callNotify o true) evs { s with closer := .closeTx o } []
  | cStay (o : OpId) (evs) (h : s.closer = .closeTx o) (h1 : notifyOver evs = false) : CellMove c s (.run o) evs s []
  | cEnd (o : OpId) (evs) (h : s.closer = .closeTx o) (h1 : notifyOver evs = true) :
      CellMove c s (.run o) evs { s with closer := .done } [.lastTxDropped]
  | notify (k : Nat) (o : OpId) (evs) (h : s.snd k = .toNotify) :
      CellMove c s (.callNotify o false) evs (s.sgoto k (.notifying o)) []
  | notifyStay (k : Nat) (o : OpId) (evs) (h : s.snd k = .notifying o) (h1 : notifyOver evs = false) :
      CellMove c s (.run o) evs s []
  | notifyEnd (k : Nat) (o : OpId) (evs) (h : s.snd k = .notifying o) (h1 : notifyOver evs = true) :
      CellMove c s (.run o) evs (s.sendEnd k) [.dropSendEnd k]
  | wait (v : W) (o : OpId) (evs) (h : s.rx = .toWait v) : CellMove c s (.callWait o) evs (s.rgoto (.wait o v)) []
  | waitStay (o : OpId) (v : W) (evs) (h : s.rx = .wait o v) (h1 : waitRet evs = none) :
      CellMove c s (waitAct s o v) evs s []
  | waitWait (o : OpId) (v : W) (evs) (h : s.rx = .wait o v) (h1 : waitRet evs = some .wait) :
      CellMove c s (waitAct s o v) evs (s.rgoto (.toPop2 v)) []
  | waitClosed (o : OpId) (v : W) (evs) (h : s.rx = .wait o v) (h1 : waitRet evs = some .closed) :
      CellMove c s (waitAct s o v) evs (s.rgoto .toLast) []
  | waitNotified (o : OpId) (v : W) (evs) (h : s.rx = .wait o v) (h1 : waitRet evs = some .notified) :
      CellMove c s (waitAct s o v) evs (s.rgoto (.toPop v)) []
  | waitPanic (o : OpId) (v : W) (evs) (h : s.rx = .wait o v) (h1 : waitRet evs = some .panicked) :
      CellMove c s (waitAct s o v) evs (s.rgoto (.idle none)) []

/-- The moves that go with a step of the wait queue. -/
inductive QueueMove (c : Config W) (s : State w V W) :
    Queue.Act W → List (Queue.Event W) → State w V W → List (Api W) → Prop where
  | start (k : Nat) (v : W) (evs) (h : s.snd k = .toStart) : QueueMove c s (.start k v) evs (s.sgoto k .starting) []
  | cont (k : Nat) (v : W) (evs) (h : s.snd k = .waiting ∨ s.snd k = .toCont) :
      QueueMove c s (.cont k v) evs (s.sgoto k .conting) []
  | startStay (k : Nat) (spur : Bool) (evs) (h : s.snd k = .starting) (h1 : nodeRet evs = none) :
      QueueMove c s (.node k spur) evs s []
  | startClosed (k : Nat) (spur : Bool) (evs) (h : s.snd k = .starting) (h1 : nodeRet evs = some (.ret .closed)) :
      QueueMove c s (.node k spur) evs (s.sendEnd k) [.retSend k .closed]
  | startWait (k : Nat) (spur : Bool) (evs) (h : s.snd k = .starting) (h1 : nodeRet evs = some (.ret .wait)) :
      QueueMove c s (.node k spur) evs (s.sgoto k .waiting) [.sleep k]
  | startNotified (k : Nat) (spur : Bool) (evs) (h : s.snd k = .starting) (h1 : nodeRet evs = some (.ret .notified)) :
      QueueMove c s (.node k spur) evs (s.sgoto k (.retry .start)) []
  | startPanic (k : Nat) (spur : Bool) (evs) (r : NodeRes) (h : s.snd k = .starting) (h1 : nodeRet evs = some r)
      (h2 : ∀ r', r ≠ .ret r') : QueueMove c s (.node k spur) evs (s.sendEnd k) [.retSend k .panicked]
  | contStay (k : Nat) (spur : Bool) (evs) (h : s.snd k = .conting) (h1 : nodeRet evs = none) :
      QueueMove c s (.node k spur) evs s []
  | contClosed (k : Nat) (spur : Bool) (evs) (h : s.snd k = .conting) (h1 : nodeRet evs = some (.ret .closed)) :
      QueueMove c s (.node k spur) evs (s.sendEnd k) [.retSend k .closed]
  | contWait (k : Nat) (spur : Bool) (evs) (h : s.snd k = .conting) (h1 : nodeRet evs = some (.ret .wait)) :
      QueueMove c s (.node k spur) evs (s.sgoto k .waiting) [.sleep k]
  | contNotified (k : Nat) (spur : Bool) (evs) (h : s.snd k = .conting) (h1 : nodeRet evs = some (.ret .notified)) :
      QueueMove c s (.node k spur) evs (s.sgoto k (.retry .queued)) []
  | contPanic (k : Nat) (spur : Bool) (evs) (r : NodeRes) (h : s.snd k = .conting) (h1 : nodeRet evs = some r)
      (h2 : ∀ r', r ≠ .ret r') : QueueMove c s (.node k spur) evs (s.sendEnd k) [.retSend k .panicked]
  | cancel (k : Nat) (evs) (h : s.snd k = .waiting) (h1 : c.blocking = false) :
      QueueMove c s (.drop k) evs (s.sgoto k .dropping) [.cancel k]
  | timeout (k : Nat) (evs) (h : s.snd k = .waiting) (h1 : c.blocking = true) :
      QueueMove c s (.giveUp k) evs (s.sendEnd k) [.retSend k .timeout]
  | dropStay (k : Nat) (spur : Bool) (evs) (h : s.snd k = .dropping) (h1 : nodeRet evs = none) :
      QueueMove c s (.node k spur) evs s []
  | dropEnd (k : Nat) (spur : Bool) (evs) (r : NodeRes) (h : s.snd k = .dropping) (h1 : nodeRet evs = some r) :
      QueueMove c s (.node k spur) evs (s.sendEnd k) [.cancelled k]
  | notify (a : OpId) (o : Nat) (evs) (h : s.ref a = .toNotify) :
      QueueMove c s (.notify o) evs (s.refgoto a (.notifying o)) []
  | notifyStay (a : OpId) (o : Nat) (spur : Bool) (evs) (h : s.ref a = .notifying o) (h1 : opOver evs = false) :
      QueueMove c s (.op o spur) evs s []
  | notifyEnd (a : OpId) (o : Nat) (spur : Bool) (evs) (h : s.ref a = .notifying o) (h1 : opOver evs = true) :
      QueueMove c s (.op o spur) evs (s.refEnd a) [.dropRecvEnd a]
  | close (o : Nat) (evs) (h : s.rx = .toQClose) : QueueMove c s (.close o) evs (s.rgoto (.qclose o)) []
  | closeStay (o : Nat) (spur : Bool) (evs) (h : s.rx = .qclose o) (h1 : opOver evs = false) :
      QueueMove c s (.op o spur) evs s []
  | closeEnd (o : Nat) (spur : Bool) (evs) (h : s.rx = .qclose o) (h1 : opOver evs = true) :
      QueueMove c s (.op o spur) evs (s.rgoto .gone) [.rxDropped]

/-- The steps of the channel. -/
inductive Tr (c : Config W) (s : State w V W) : State w V W → Trace V W → Prop where
  | api {t : State w V W} {e : Api W} (h : ApiMove c s t e) : Tr c s t [.api e]
  | core {act : Thingbuf.Act V} {s1 : Thingbuf.State w V} {evs : List (Event V)} {t : State w V W} {es : List (Api W)}
      (h1 : Thingbuf.step c.cap s.core act = some (s1, evs)) (h : CoreMove c s act (coreRet evs) t es) :
      Tr c s { t with core := s1 } (evs.map .core ++ es.map .api)
  | cell {act : Cell.Act W} {s1 : Cell.State W} {evs : List (Cell.Event W)} {t : State w V W} {es : List (Api W)}
      (h1 : Cell.step c.cell s.cell act = some (s1, evs)) (h : CellMove c s act evs t es) :
      Tr c s { t with cell := s1 } (evs.map .cell ++ es.map .api)
  | queue {act : Queue.Act W} {s1 : Queue.State W} {evs : List (Queue.Event W)} {t : State w V W} {es : List (Api W)}
      (h1 : Queue.step c.queue s.queue act = some (s1, evs)) (h : QueueMove c s act evs t es) :
      Tr c s { t with queue := s1 } (evs.map .queue ++ es.map .api)

section
variable {s : State w V W} {o : Out w V W}

theorem onCore_eq {act : Thingbuf.Act V} {k : State w V W → Option Ret → Out w V W}
    (h : onCore c s act k = some o) : ∃ s1 evs, Thingbuf.step c.cap s.core act = some (s1, evs) ∧
      o.1 = (k { s with core := s1 } (coreRet evs)).1 ∧
      o.2 = evs.map .core ++ (k { s with core := s1 } (coreRet evs)).2 := by
  unfold onCore at h
  split at h
  · cases h
  · rename_i s1 evs he
    cases h
    exact ⟨s1, evs, he, rfl, rfl⟩

theorem onCell_eq {act : Cell.Act W} {k : State w V W → List (Cell.Event W) → Out w V W}
    (h : onCell c s act k = some o) : ∃ s1 evs, Cell.step c.cell s.cell act = some (s1, evs) ∧
      o.1 = (k { s with cell := s1 } evs).1 ∧ o.2 = evs.map .cell ++ (k { s with cell := s1 } evs).2 := by
  unfold onCell at h
  split at h
  · cases h
  · rename_i s1 evs he
    cases h
    exact ⟨s1, evs, he, rfl, rfl⟩

theorem onQueue_eq {act : Queue.Act W} {k : State w V W → List (Queue.Event W) → Out w V W}
    (h : onQueue c s act k = some o) : ∃ s1 evs, Queue.step c.queue s.queue act = some (s1, evs) ∧
      o.1 = (k { s with queue := s1 } evs).1 ∧ o.2 = evs.map .queue ++ (k { s with queue := s1 } evs).2 := by
  unfold onQueue at h
  split at h
  · cases h
  · rename_i s1 evs he
    cases h
    exact ⟨s1, evs, he, rfl, rfl⟩

/-- Reduces a core step to its move. -/
theorem core_tr {act : Thingbuf.Act V} {k : State w V W → Option Ret → Out w V W}
    (h : onCore c s act k = some o)
    (hk : ∀ s1 evs, Thingbuf.step c.cap s.core act = some (s1, evs) → ∃ t es, CoreMove c s act (coreRet evs) t es ∧
      k { s with core := s1 } (coreRet evs) = ({ t with core := s1 }, es.map .api)) : Tr c s o.1 o.2 := by
  obtain ⟨s1, evs, h1, h2, h3⟩ := onCore_eq h
  obtain ⟨t, es, h4, h5⟩ := hk s1 evs h1
  rw [h2, h3, h5]
  exact .core h1 h4

theorem cell_tr {act : Cell.Act W} {k : State w V W → List (Cell.Event W) → Out w V W}
    (h : onCell c s act k = some o)
    (hk : ∀ s1 evs, Cell.step c.cell s.cell act = some (s1, evs) → ∃ t es, CellMove c s act evs t es ∧
      k { s with cell := s1 } evs = ({ t with cell := s1 }, es.map .api)) : Tr c s o.1 o.2 := by
  obtain ⟨s1, evs, h1, h2, h3⟩ := onCell_eq h
  obtain ⟨t, es, h4, h5⟩ := hk s1 evs h1
  rw [h2, h3, h5]
  exact .cell h1 h4

theorem queue_tr {act : Queue.Act W} {k : State w V W → List (Queue.Event W) → Out w V W}
    (h : onQueue c s act k = some o)
    (hk : ∀ s1 evs, Queue.step c.queue s.queue act = some (s1, evs) → ∃ t es, QueueMove c s act evs t es ∧
      k { s with queue := s1 } evs = ({ t with queue := s1 }, es.map .api)) : Tr c s o.1 o.2 := by
  obtain ⟨s1, evs, h1, h2, h3⟩ := onQueue_eq h
  obtain ⟨t, es, h4, h5⟩ := hk s1 evs h1
  rw [h2, h3, h5]
  exact .queue h1 h4

theorem rxStep_tr {n : Nat} {spur : Bool} (h : rxStep c s n spur = some o) : Tr c s o.1 o.2 := by
  unfold rxStep at h
  split at h
  · cases h
  · cases h
  · rename_i v hrx; exact core_tr h fun s1 evs _ => ⟨_, [], .toPop v n _ hrx, rfl⟩
  · rename_i a v hrx
    refine core_tr h fun s1 evs _ => ?_
    generalize coreRet evs = r
    rcases r with _ | r
    · exact ⟨_, [], .popStay a v spur hrx, rfl⟩
    by_cases h1 : r = .popped
    · subst h1; exact ⟨_, [_], .popSome a v spur hrx, rfl⟩
    by_cases h2 : r = .closed
    · subst h2; exact ⟨_, [_], .popNone a v spur hrx, rfl⟩
    refine ⟨_, [], .popEmpty a v spur r hrx h1 h2, ?_⟩
    cases r <;> first | rfl | exact absurd rfl h1 | exact absurd rfl h2
  · rename_i v hrx; exact cell_tr h fun s1 evs _ => ⟨_, [], .wait v n _ hrx, rfl⟩
  · rename_i a v hrx
    refine cell_tr h fun s1 evs _ => ?_
    unfold afterWait
    split
    · exact ⟨_, [], .waitStay a v evs hrx ‹_›, rfl⟩
    · exact ⟨_, [], .waitWait a v evs hrx ‹_›, rfl⟩
    · exact ⟨_, [], .waitClosed a v evs hrx ‹_›, rfl⟩
    · exact ⟨_, [], .waitNotified a v evs hrx ‹_›, rfl⟩
    · exact ⟨_, [], .waitPanic a v evs hrx ‹_›, rfl⟩
  · rename_i v hrx; exact core_tr h fun s1 evs _ => ⟨_, [], .toPop2 v n _ hrx, rfl⟩
  · rename_i a v hrx
    refine core_tr h fun s1 evs _ => ?_
    generalize coreRet evs = r
    rcases r with _ | r
    · exact ⟨_, [], .pop2Stay a v spur hrx, rfl⟩
    by_cases h1 : r = .popped
    · subst h1; exact ⟨_, [_], .pop2Some a v spur hrx, rfl⟩
    by_cases h2 : r = .closed
    · subst h2; exact ⟨_, [_], .pop2None a v spur hrx, rfl⟩
    refine ⟨_, [_], .pop2Pending a v spur r hrx h1 h2, ?_⟩
    cases r <;> first | rfl | exact absurd rfl h1 | exact absurd rfl h2
  · rename_i hrx; exact core_tr h fun s1 evs _ => ⟨_, [], .toLast n _ hrx, rfl⟩
  · rename_i a hrx
    refine core_tr h fun s1 evs _ => ?_
    generalize coreRet evs = r
    rcases r with _ | r
    · exact ⟨_, [], .lastStay a spur hrx, rfl⟩
    by_cases h1 : r = .popped
    · subst h1; exact ⟨_, [_], .lastSome a spur hrx, rfl⟩
    refine ⟨_, [_], .lastNone a spur r hrx h1, ?_⟩
    cases r <;> first | rfl | exact absurd rfl h1
  · rename_i a p hrx
    refine core_tr h fun s1 evs _ => ?_
    generalize coreRet evs = r
    rcases r with _ | r
    · exact ⟨_, [], .tryStay a p spur hrx, rfl⟩
    by_cases h1 : r = .popped
    · subst h1; exact ⟨_, [_], .tryOk a p spur hrx, rfl⟩
    by_cases h2 : r = .closed
    · subst h2; exact ⟨_, [_], .tryClosed a p spur hrx, rfl⟩
    refine ⟨_, [_], .tryEmpty a p spur r hrx h1 h2, ?_⟩
    cases r <;> first | rfl | exact absurd rfl h1 | exact absurd rfl h2
  · rename_i pan hrx; exact core_tr h fun s1 evs _ => ⟨_, [], .rxClose pan n _ hrx, rfl⟩
  · rename_i a hrx
    refine core_tr h fun s1 evs _ => ?_
    generalize coreRet evs = r
    rcases r with _ | r
    · exact ⟨_, [], .rxStay a hrx, rfl⟩
    by_cases h1 : r = .closeRet true
    · subst h1; exact ⟨_, [], .rxClosed a hrx, rfl⟩
    refine ⟨_, [_], .rxSkip a r hrx h1, ?_⟩
    unfold afterRxClose
    split
    · exact absurd (Option.some.inj ‹_›) h1
    · cases ‹some r = none›
    · rfl
  · rename_i hrx; exact queue_tr h fun s1 evs _ => ⟨_, [], .close n _ hrx, rfl⟩
  · rename_i a hrx
    refine queue_tr h fun s1 evs _ => ?_
    split
    · exact ⟨_, [_], .closeEnd a spur evs hrx ‹_›, rfl⟩
    · exact ⟨_, [], .closeStay a spur evs hrx ((Bool.not_eq_true _).mp ‹_›), rfl⟩

theorem closerStep_tr {n : Nat} (h : closerStep c s n = some o) : Tr c s o.1 o.2 := by
  unfold closerStep at h
  split at h
  · cases h
  · cases h
  · rename_i pan hc; exact core_tr h fun s1 evs _ => ⟨_, [], .cCall pan n _ hc, rfl⟩
  · rename_i a hc
    refine core_tr h fun s1 evs _ => ?_
    generalize coreRet evs = r
    rcases r with _ | r
    · exact ⟨_, [], .cStay a hc, rfl⟩
    by_cases h1 : r = .closeRet true
    · subst h1; exact ⟨_, [], .cNext a _ hc (.inl rfl), rfl⟩
    cases hb : c.blocking
    · refine ⟨_, [], .cNext a r hc (.inr hb), ?_⟩
      unfold afterTxClose
      split
      · cases ‹some r = none›
      · rfl
      · simp [hb]
    · refine ⟨_, [_], .cSkip a r hc h1 hb, ?_⟩
      unfold afterTxClose
      split
      · cases ‹some r = none›
      · exact absurd (Option.some.inj ‹_›) h1
      · simp [hb]
  · rename_i hc; exact cell_tr h fun s1 evs _ => ⟨_, [], .cCall n _ hc, rfl⟩
  · rename_i a hc
    refine cell_tr h fun s1 evs _ => ?_
    split
    · exact ⟨_, [_], .cEnd a evs hc ‹_›, rfl⟩
    · exact ⟨_, [], .cStay a evs hc ((Bool.not_eq_true _).mp ‹_›), rfl⟩

theorem push_tr {k : Nat} {a : OpId} {att : Att} {i : PushIn V} (hs : s.snd k = .push a att)
    (h : onCore c s (i.act a) (afterPush c k a att) = some o) : Tr c s o.1 o.2 := by
  refine core_tr h fun s1 evs _ => ?_
  generalize coreRet evs = r
  rcases r with _ | r
  · exact ⟨_, [], .pushStay k a att i hs, rfl⟩
  by_cases h1 : r = .pushed
  · subst h1; exact ⟨_, [_], .pushOk k a att i hs, rfl⟩
  by_cases h2 : r = .closed
  · subst h2; exact ⟨_, [_], .pushClosed k a att i hs, rfl⟩
  by_cases h3 : r = .full
  · subst h3
    cases att with
    | only => exact ⟨_, [_], .fullOnly k a i hs, rfl⟩
    | start => exact ⟨_, [], .fullStart k a i hs, rfl⟩
    | queued =>
      cases hb : c.blocking with
      | true => exact ⟨_, [], .fullBlocking k a i hs hb, by simp only [afterPush, hb]; rfl⟩
      | false => exact ⟨_, [], .fullAsync k a i hs hb, by simp only [afterPush, hb]; rfl⟩
  refine ⟨_, [_], .pushPanic k a att i r hs h1 h2 h3, ?_⟩
  cases r <;> first | rfl | exact absurd rfl h1 | exact absurd rfl h2 | exact absurd rfl h3

theorem node_tr {k : Nat} {spur : Bool} (h : step c s (.node k spur) = some o) : Tr c s o.1 o.2 := by
  simp only [step] at h
  split at h
  · rename_i hs
    refine queue_tr h fun s1 evs _ => ?_
    unfold afterStart
    split
    · exact ⟨_, [_], .startClosed k spur evs hs ‹_›, rfl⟩
    · exact ⟨_, [_], .startWait k spur evs hs ‹_›, rfl⟩
    · exact ⟨_, [], .startNotified k spur evs hs ‹_›, rfl⟩
    · rename_i r n1 n2 n3 hr
      refine ⟨_, [_], .startPanic k spur evs r hs hr ?_, rfl⟩
      rintro r' rfl
      cases r' <;> first | exact n1 rfl | exact n2 rfl | exact n3 rfl
    · exact ⟨_, [], .startStay k spur evs hs ‹_›, rfl⟩
  · rename_i hs
    refine queue_tr h fun s1 evs _ => ?_
    unfold afterCont
    split
    · exact ⟨_, [_], .contClosed k spur evs hs ‹_›, rfl⟩
    · exact ⟨_, [_], .contWait k spur evs hs ‹_›, rfl⟩
    · exact ⟨_, [], .contNotified k spur evs hs ‹_›, rfl⟩
    · rename_i r n1 n2 n3 hr
      refine ⟨_, [_], .contPanic k spur evs r hs hr ?_, rfl⟩
      rintro r' rfl
      cases r' <;> first | exact n1 rfl | exact n2 rfl | exact n3 rfl
    · exact ⟨_, [], .contStay k spur evs hs ‹_›, rfl⟩
  · rename_i hs
    refine queue_tr h fun s1 evs _ => ?_
    unfold afterDrop
    split
    · exact ⟨_, [_], .dropEnd k spur evs _ hs ‹_›, rfl⟩
    · exact ⟨_, [], .dropStay k spur evs hs ‹_›, rfl⟩
  · cases h

theorem step_tr {act : Act V W} (h : step c s act = some o) : Tr c s o.1 o.2 := by
  cases act with
  | clone h0 h' =>
    simp only [step] at h
    split at h <;> cases h
    exact .api (.clone h0 h' (‹_ ∧ _›).1 (‹_ ∧ _›).2)
  | dropTx h0 pan =>
    simp only [step] at h
    split at h
    · rename_i hh
      split at h <;> cases h
      · exact .api (.dropTx h0 pan hh.1 hh.2 ‹_›)
      · exact .api (.dropLast h0 pan hh.1 hh.2 ‹_›)
    · cases h
  | closer n => exact closerStep_tr h
  | send k h0 wait a =>
    simp only [step] at h
    split at h
    · split at h
      · exact core_tr h fun s1 evs _ => ⟨_, [_, _], .send k h0 wait a _ ‹_› ‹_›, rfl⟩
      · cases h
    · cases h
  | push k i =>
    simp only [step] at h
    split at h
    · exact push_tr ‹_› h
    · cases h
  | retry k a =>
    simp only [step] at h
    split at h
    · exact core_tr h fun s1 evs _ => ⟨_, [_], .retry k _ a _ ‹_›, rfl⟩
    · cases h
  | start k v =>
    simp only [step] at h
    split at h
    · exact queue_tr h fun s1 evs _ => ⟨_, [], .start k v _ ‹_›, rfl⟩
    · cases h
  | cont k v =>
    simp only [step] at h
    split at h
    · exact queue_tr h fun s1 evs _ => ⟨_, [], .cont k v _ (.inl ‹_›), rfl⟩
    · exact queue_tr h fun s1 evs _ => ⟨_, [], .cont k v _ (.inr ‹_›), rfl⟩
    · cases h
  | node k spur => exact node_tr h
  | cancel k =>
    simp only [step] at h
    split at h
    · split at h
      · cases h
      · exact queue_tr h fun s1 evs _ => ⟨_, [_], .cancel k _ ‹_› ((Bool.not_eq_true _).mp ‹_›), rfl⟩
    · cases h
  | timeout k =>
    simp only [step] at h
    split at h
    · split at h
      · exact queue_tr h fun s1 evs _ => ⟨_, [_], .timeout k _ ‹_› ‹_›, rfl⟩
      · cases h
    · cases h
  | sendRead k =>
    simp only [step] at h
    split at h
    · exact core_tr h fun s1 evs _ => ⟨_, [], .sendRead k _ _ ‹_›, rfl⟩
    · cases h
  | sendWrite k v =>
    simp only [step] at h
    split at h
    · exact core_tr h fun s1 evs _ => ⟨_, [], .sendWrite k _ v _ ‹_›, rfl⟩
    · cases h
  | dropSend k =>
    simp only [step] at h
    split at h
    · exact core_tr h fun s1 evs _ => ⟨_, [_], .dropSend k _ _ ‹_›, rfl⟩
    · cases h
  | sendNotify k n =>
    simp only [step] at h
    split at h
    · exact cell_tr h fun s1 evs _ => ⟨_, [], .notify k n _ ‹_›, rfl⟩
    · cases h
  | sendNotifyRun k =>
    simp only [step] at h
    split at h
    · refine cell_tr h fun s1 evs _ => ?_
      unfold afterSendNotify
      split
      · exact ⟨_, [_], .notifyEnd k _ evs ‹_› ‹_›, rfl⟩
      · exact ⟨_, [], .notifyStay k _ evs ‹_› ((Bool.not_eq_true _).mp ‹_›), rfl⟩
    · cases h
  | forgetSend k =>
    simp only [step] at h
    split at h
    · cases h; exact .api (.forgetSend k _ ‹_›)
    · cases h
  | poll v =>
    simp only [step] at h
    split at h
    · cases h; exact .api (.poll _ v ‹_›)
    · cases h
  | tryRecv a =>
    simp only [step] at h
    split at h
    · exact core_tr h fun s1 evs _ => ⟨_, [_], .tryRecv _ a _ ‹_›, rfl⟩
    · cases h
  | rx n spur => exact rxStep_tr h
  | recvRead a =>
    simp only [step] at h
    split at h
    · exact core_tr h fun s1 evs _ => ⟨_, [], .recvRead a _ ‹_›, rfl⟩
    · cases h
  | recvWrite a v =>
    simp only [step] at h
    split at h
    · exact core_tr h fun s1 evs _ => ⟨_, [], .recvWrite a v _ ‹_›, rfl⟩
    · cases h
  | dropRecv a =>
    simp only [step] at h
    split at h
    · exact core_tr h fun s1 evs _ => ⟨_, [_], .dropRecv a _ ‹_›, rfl⟩
    · cases h
  | recvNotify a n =>
    simp only [step] at h
    split at h
    · exact queue_tr h fun s1 evs _ => ⟨_, [], .notify a n _ ‹_›, rfl⟩
    · cases h
  | recvNotifyRun a spur =>
    simp only [step] at h
    split at h
    · refine queue_tr h fun s1 evs _ => ?_
      unfold afterRecvNotify
      split
      · exact ⟨_, [_], .notifyEnd a _ spur evs ‹_› ‹_›, rfl⟩
      · exact ⟨_, [], .notifyStay a _ spur evs ‹_› ((Bool.not_eq_true _).mp ‹_›), rfl⟩
    · cases h
  | forgetRecv a =>
    simp only [step] at h
    split at h
    · cases h; exact .api (.forgetRecv a ‹_›)
    · cases h
  | dropRx pan =>
    simp only [step] at h
    split at h
    · split at h
      · cases h; exact .api (.dropRx _ pan ‹_› ‹_›)
      · cases h
    · cases h

end

end Thingbuf.Chan
