import Verif.QueueSpec

/-!
# Invariants of the wait queue

Helper lemmas for `QueueProps`.
-/

namespace Thingbuf.Queue

variable {W : Type} {c : Config W}

/-- Program counters of the owner of a node. -/
def PC.isNode : PC W → Bool
  | .idle _ | .startCas _ | .startLock _ | .startLoad _ | .startLoop _ _ | .startSet _ | .startEnq _
  | .contLoad _ | .contLock _ | .contReload _ | .contUpd _
  | .remCheck | .remLock | .remList | .remCas | .remUnlock | .gone | .abandoned | .panicked => true
  | _ => false

/-- Program counters of a `notify` in progress. -/
def PC.inNotify : PC W → Bool
  | .nLoad | .nLoop _ | .nLock _ | .nMatch _ | .nForce | .nStore _ | .nUnlock _ | .nWake _ _ => true
  | _ => false

/-- Program counters of a `close` in progress. -/
def PC.inClose : PC W → Bool
  | .cSwap | .cLock | .cLoop | .cWake _ _ => true
  | _ => false

/-- Program counters of a `notify` or `close`. -/
def PC.isOp (p : PC W) : Bool :=
  p.inNotify || p.inClose || (match p with | .off | .done | .panicked => true | _ => false)

/-- Program counters at which the lock is held. -/
def PC.crit : PC W → Bool
  | .startLoad _ | .startLoop _ _ | .startSet _ | .startEnq _ | .contReload _ | .contUpd _
  | .remList | .remCas | .remUnlock | .nMatch _ | .nForce | .nStore _ | .nUnlock _ | .cLoop
  | .cWake _ _ => true
  | _ => false

/-- Lock acquisitions. -/
inductive Acq : Tid → PC W → PC W → Prop where
  | start (n v) : Acq (.node n) (.startLock v) (.startLoad v)
  | cont (n v) : Acq (.node n) (.contLock v) (.contReload v)
  | rem (n) : Acq (.node n) .remLock .remList
  | notify (o q) : Acq (.op o) (.nLock q) (.nMatch q)
  | close (o) : Acq (.op o) .cLock .cLoop

/-- The transitions of `step`, one constructor per path. -/
inductive Tr (c : Config W) (s : State W) :
    Tid → PC W → QSt → Option Tid → WList W → List Nat → Bool → Trace W → Prop where
  | callStart (n v l) (h : s.pc (.node n) = .idle l) (hl : l.mayStart = true) :
      Tr c s (.node n) (.startCas v) s.st s.lock s.list s.borrows s.rxGone [.callStart n v]
  | callCont (n v l) (h : s.pc (.node n) = .idle l) (hl : l.mayCont = true) :
      Tr c s (.node n) (.contLoad v) s.st s.lock s.list s.borrows s.rxGone [.callCont n v]
  | callDropW (n) (h : s.pc (.node n) = .idle .waiting) :
      Tr c s (.node n) .remCheck s.st s.lock s.list s.borrows s.rxGone [.callDrop n]
  | callDrop (n l) (h : s.pc (.node n) = .idle l) (hl : l ≠ .waiting) :
      Tr c s (.node n) .gone s.st s.lock s.list s.borrows s.rxGone [.callDrop n, .free n]
  | giveUp (n) (h : s.pc (.node n) = .idle .waiting) :
      Tr c s (.node n) .abandoned s.st s.lock s.list s.borrows s.rxGone [.giveUp n, .free n]
  | callNotify (o) (h : s.pc (.op o) = .off) (hr : s.rxGone = false) :
      Tr c s (.op o) .nLoad s.st s.lock s.list (o :: s.borrows) s.rxGone [.callNotify o]
  | callClose (o) (h : s.pc (.op o) = .off) (hb : s.borrows = []) (hr : s.rxGone = false) :
      Tr c s (.op o) .cSwap s.st s.lock s.list s.borrows true [.callClose o]
  | startConsume (n v) (h : s.pc (.node n) = .startCas v) (hs : s.st = .waking) :
      Tr c s (.node n) (.idle .startNotified) .empty s.lock s.list s.borrows s.rxGone
        [.consume n, .retStart n .notified]
  | startClosed (n v) (h : s.pc (.node n) = .startCas v) (hs : s.st = .closed) :
      Tr c s (.node n) (.idle .closed) s.st s.lock s.list s.borrows s.rxGone [.retStart n .closed]
  | startSlow (n v) (h : s.pc (.node n) = .startCas v) (hs : s.st = .empty ∨ s.st = .waiting) :
      Tr c s (.node n) (.startLock v) s.st s.lock s.list s.borrows s.rxGone []
  | acq (t p') (hl : s.lock = none) (ha : Acq t (s.pc t) p') :
      Tr c s t p' s.st (some t) s.list s.borrows s.rxGone []
  | startLoad (n v) (h : s.pc (.node n) = .startLoad v) :
      Tr c s (.node n) (.startLoop v s.st) s.st s.lock s.list s.borrows s.rxGone []
  | loopSet (n v) (h : s.pc (.node n) = .startLoop v .empty) (hs : s.st = .empty) :
      Tr c s (.node n) (.startSet v) .waiting s.lock s.list s.borrows s.rxGone []
  | loopAgain (n v q) (h : s.pc (.node n) = .startLoop v q) (hq : q = .empty ∨ q = .waking) :
      Tr c s (.node n) (.startLoop v s.st) s.st s.lock s.list s.borrows s.rxGone []
  | loopAssert (n v q) (h : s.pc (.node n) = .startLoop v q) (hq : q = .empty ∨ q = .waking)
      (hd : c.debug = true) (hs : s.st = .waiting) :
      Tr c s (.node n) .panicked s.st (if s.lock = some (.node n) then none else s.lock) s.list
        s.borrows s.rxGone [.assertFailed (.node n)]
  | loopConsume (n v) (h : s.pc (.node n) = .startLoop v .waking) (hs : s.st = .waking) :
      Tr c s (.node n) (.idle .startNotified) .empty none s.list s.borrows s.rxGone
        [.consume n, .retStart n .notified]
  | loopClosed (n v) (h : s.pc (.node n) = .startLoop v .closed) :
      Tr c s (.node n) (.idle .closed) s.st none s.list s.borrows s.rxGone [.retStart n .closed]
  | loopWaiting (n v) (h : s.pc (.node n) = .startLoop v .waiting) :
      Tr c s (.node n) (.startSet v) s.st s.lock s.list s.borrows s.rxGone []
  | setAssert (n v) (h : s.pc (.node n) = .startSet v) (hd : c.debug = true)
      (hn : ¬ ((s.list.node n).waiter.isNone ∧
        ((s.list.node n).state = .empty ∨ (s.list.node n).state = .waking))) :
      Tr c s (.node n) .panicked s.st (if s.lock = some (.node n) then none else s.lock)
        (s.list.set n fun nd => { nd with waiter := some v, state := .waiting })
        s.borrows s.rxGone [.assertFailed (.node n)]
  | set (n v) (h : s.pc (.node n) = .startSet v) :
      Tr c s (.node n) (.startEnq v) s.st s.lock
        (s.list.set n fun nd => { nd with waiter := some v, state := .waiting })
        s.borrows s.rxGone []
  | enq (n v) (h : s.pc (.node n) = .startEnq v) :
      Tr c s (.node n) (.idle .waiting) s.st none (s.list.enqueue n).list s.borrows s.rxGone
        ((s.list.enqueue n).touched.map (.touch (.node n)) ++ [.enq n v] ++ [.retStart n .wait])
  | contNotified (n v) (h : s.pc (.node n) = .contLoad v) (hs : (s.list.node n).state = .waking) :
      Tr c s (.node n) (.idle .contNotified) s.st s.lock s.list s.borrows s.rxGone
        [.retCont n .notified]
  | contClosed (n v) (h : s.pc (.node n) = .contLoad v) (hs : (s.list.node n).state = .closed) :
      Tr c s (.node n) (.idle .closed) s.st s.lock s.list s.borrows s.rxGone [.retCont n .closed]
  | contSlow (n v) (h : s.pc (.node n) = .contLoad v)
      (hs : (s.list.node n).state = .waiting ∨ (s.list.node n).state = .empty) :
      Tr c s (.node n) (.contLock v) s.st s.lock s.list s.borrows s.rxGone []
  | contAssert (n v) (h : s.pc (.node n) = .contLoad v) (hs : (s.list.node n).state = .empty) :
      Tr c s (.node n) .panicked s.st (if s.lock = some (.node n) then none else s.lock) s.list
        s.borrows s.rxGone [.assertFailed (.node n)]
  | reloadNotified (n v) (h : s.pc (.node n) = .contReload v)
      (hs : (s.list.node n).state = .waking) :
      Tr c s (.node n) (.idle .contNotified) s.st none s.list s.borrows s.rxGone
        [.retCont n .notified]
  | reloadClosed (n v) (h : s.pc (.node n) = .contReload v)
      (hs : (s.list.node n).state = .closed) :
      Tr c s (.node n) (.idle .closed) s.st none s.list s.borrows s.rxGone [.retCont n .closed]
  | reloadSlow (n v) (h : s.pc (.node n) = .contReload v)
      (hs : (s.list.node n).state = .waiting ∨ (s.list.node n).state = .empty) :
      Tr c s (.node n) (.contUpd v) s.st s.lock s.list s.borrows s.rxGone []
  | reloadAssert (n v) (h : s.pc (.node n) = .contReload v)
      (hs : (s.list.node n).state = .empty) :
      Tr c s (.node n) .panicked s.st (if s.lock = some (.node n) then none else s.lock) s.list
        s.borrows s.rxGone [.assertFailed (.node n)]
  | upd (n v) (h : s.pc (.node n) = .contUpd v) :
      Tr c s (.node n) (.idle .waiting) s.st none
        (s.list.set n fun nd =>
          { nd with waiter := some (newWaiter c (s.list.node n).waiter v) })
        s.borrows s.rxGone
        [.upd n (newWaiter c (s.list.node n).waiter v), .retCont n .wait]
  | remLinked (n) (h : s.pc (.node n) = .remCheck) (hs : (s.list.node n).state = .waiting) :
      Tr c s (.node n) .remLock s.st s.lock s.list s.borrows s.rxGone []
  | remFree (n) (h : s.pc (.node n) = .remCheck) (hs : (s.list.node n).state ≠ .waiting) :
      Tr c s (.node n) .gone s.st s.lock s.list s.borrows s.rxGone [.free n]
  | remAssert (n) (h : s.pc (.node n) = .remList) (ho : (s.list.remove n).ok = false) :
      Tr c s (.node n) .panicked s.st (if s.lock = some (.node n) then none else s.lock)
        (s.list.remove n).list s.borrows s.rxGone
        ((s.list.remove n).touched.map (.touch (.node n)) ++ [.rem n] ++ [.assertFailed (.node n)])
  | rem (n) (h : s.pc (.node n) = .remList) :
      Tr c s (.node n) .remCas s.st s.lock (s.list.remove n).list s.borrows s.rxGone
        ((s.list.remove n).touched.map (.touch (.node n)) ++ [.rem n])
  | remEmpty (n) (h : s.pc (.node n) = .remCas) (he : s.list.isEmpty = true)
      (hs : s.st = .waiting) :
      Tr c s (.node n) .remUnlock .empty s.lock s.list s.borrows s.rxGone []
  | remSkip (n) (h : s.pc (.node n) = .remCas) (he : ¬ (s.list.isEmpty = true ∧ s.st = .waiting)) :
      Tr c s (.node n) .remUnlock s.st s.lock s.list s.borrows s.rxGone []
  | remUnlock (n) (h : s.pc (.node n) = .remUnlock) :
      Tr c s (.node n) .gone s.st none s.list s.borrows s.rxGone [.free n]
  | nLoad (o) (h : s.pc (.op o) = .nLoad) :
      Tr c s (.op o) (.nLoop s.st) s.st s.lock s.list s.borrows s.rxGone []
  | nFast (o q) (h : s.pc (.op o) = .nLoop q) (hq : q = .waking ∨ q = .empty) (hs : s.st = q) :
      Tr c s (.op o) .done .waking s.lock s.list (s.borrows.erase o) s.rxGone
        [.store o, .retNotify o false]
  | nAgain (o q) (h : s.pc (.op o) = .nLoop q) (hq : q = .waking ∨ q = .empty) :
      Tr c s (.op o) (.nLoop s.st) s.st s.lock s.list s.borrows s.rxGone []
  | nSlow (o q) (h : s.pc (.op o) = .nLoop q) (hq : ¬ (q = .waking ∨ q = .empty)) :
      Tr c s (.op o) (.nLock q) s.st s.lock s.list s.borrows s.rxGone []
  | mFast (o q) (h : s.pc (.op o) = .nMatch q) (hq : q = .waking ∨ q = .empty) (hs : s.st = q) :
      Tr c s (.op o) .done .waking none s.list (s.borrows.erase o) s.rxGone
        [.store o, .retNotify o false]
  | mAssert (o q) (h : s.pc (.op o) = .nMatch q) (hq : q = .waking ∨ q = .empty) :
      Tr c s (.op o) .panicked s.st (if s.lock = some (.op o) then none else s.lock) s.list
        (s.borrows.erase o) s.rxGone [.assertFailed (.op o)]
  | mForce (o q) (h : s.pc (.op o) = .nMatch q) (hq : q = .waking ∨ q = .empty) :
      Tr c s (.op o) .nForce s.st s.lock s.list s.borrows s.rxGone []
  | force (o) (h : s.pc (.op o) = .nForce) :
      Tr c s (.op o) .done .waking none s.list (s.borrows.erase o) s.rxGone
        [.store o, .retNotify o false]
  | deqAssert (o) (h : s.pc (.op o) = .nMatch .waiting) (hd : c.debug = true)
      (hn : ¬ ((s.list.dequeue .waking).ok = true ∧ (taken (s.list.dequeue .waking).val).isSome)) :
      Tr c s (.op o) .panicked s.st (if s.lock = some (.op o) then none else s.lock)
        (s.list.dequeue .waking).list (s.borrows.erase o) s.rxGone
        ((s.list.dequeue .waking).touched.map (.touch (.op o)) ++
          deqEvents o (s.list.dequeue .waking).val ++ [.assertFailed (.op o)])
  | deq (o) (h : s.pc (.op o) = .nMatch .waiting)
      (hn : c.debug = true →
        (s.list.dequeue .waking).ok = true ∧ (taken (s.list.dequeue .waking).val).isSome) :
      Tr c s (.op o) (.nStore (taken (s.list.dequeue .waking).val)) s.st s.lock
        (s.list.dequeue .waking).list s.borrows s.rxGone
        ((s.list.dequeue .waking).touched.map (.touch (.op o)) ++
          deqEvents o (s.list.dequeue .waking).val)
  | mClosedAssert (o) (h : s.pc (.op o) = .nMatch .closed) :
      Tr c s (.op o) .panicked s.st (if s.lock = some (.op o) then none else s.lock) s.list
        (s.borrows.erase o) s.rxGone [.assertFailed (.op o)]
  | mClosed (o) (h : s.pc (.op o) = .nMatch .closed) :
      Tr c s (.op o) .done s.st none s.list (s.borrows.erase o) s.rxGone [.retNotify o false]
  | nStoreEmpty (o w) (h : s.pc (.op o) = .nStore w) (he : s.list.isEmpty = true) :
      Tr c s (.op o) (.nUnlock w) .empty s.lock s.list s.borrows s.rxGone []
  | nStoreSkip (o w) (h : s.pc (.op o) = .nStore w) (he : s.list.isEmpty = false) :
      Tr c s (.op o) (.nUnlock w) s.st s.lock s.list s.borrows s.rxGone []
  | nUnlock (o n v) (h : s.pc (.op o) = .nUnlock (some (n, v))) :
      Tr c s (.op o) (.nWake n v) s.st none s.list s.borrows s.rxGone []
  | nUnlockNone (o) (h : s.pc (.op o) = .nUnlock none) :
      Tr c s (.op o) .done s.st none s.list (s.borrows.erase o) s.rxGone [.retNotify o false]
  | nWake (o n v) (h : s.pc (.op o) = .nWake n v) :
      Tr c s (.op o) .done s.st s.lock s.list (s.borrows.erase o) s.rxGone
        [.wake o n v, .retNotify o true]
  | cSwap (o) (h : s.pc (.op o) = .cSwap) :
      Tr c s (.op o) .cLock .closed s.lock s.list s.borrows s.rxGone [.closing o]
  | cRet (o) (h : s.pc (.op o) = .cLoop) (he : s.list.isEmpty = true) :
      Tr c s (.op o) .done s.st none s.list s.borrows s.rxGone [.retClose o]
  | cAssert (o) (h : s.pc (.op o) = .cLoop) (he : s.list.isEmpty = false)
      (ho : (s.list.dequeue .closed).ok = false) :
      Tr c s (.op o) .panicked s.st (if s.lock = some (.op o) then none else s.lock)
        (s.list.dequeue .closed).list s.borrows s.rxGone
        ((s.list.dequeue .closed).touched.map (.touch (.op o)) ++
          deqEvents o (s.list.dequeue .closed).val ++ [.assertFailed (.op o)])
  | cDeq (o n v) (h : s.pc (.op o) = .cLoop) (he : s.list.isEmpty = false)
      (ht : taken (s.list.dequeue .closed).val = some (n, v)) :
      Tr c s (.op o) (.cWake n v) s.st s.lock (s.list.dequeue .closed).list s.borrows s.rxGone
        ((s.list.dequeue .closed).touched.map (.touch (.op o)) ++
          deqEvents o (s.list.dequeue .closed).val)
  | cSkip (o) (h : s.pc (.op o) = .cLoop) (he : s.list.isEmpty = false)
      (ht : taken (s.list.dequeue .closed).val = none) :
      Tr c s (.op o) .cLoop s.st s.lock (s.list.dequeue .closed).list s.borrows s.rxGone
        ((s.list.dequeue .closed).touched.map (.touch (.op o)) ++
          deqEvents o (s.list.dequeue .closed).val)
  | cWake (o n v) (h : s.pc (.op o) = .cWake n v) :
      Tr c s (.op o) .cLoop s.st s.lock s.list s.borrows s.rxGone [.wake o n v]

/-- The state after a transition. -/
def State.after (s : State W) (t : Tid) (p : PC W) (st : QSt) (lock : Option Tid) (list : WList W)
    (borrows : List Nat) (rx : Bool) : State W :=
  { st := st, lock := lock, list := list, pc := fun u => if u = t then p else s.pc u,
    borrows := borrows, rxGone := rx }

theorem acquire_tr {s s' : State W} {t : Tid} {p p' : PC W} {evs : Trace W} (h : s.pc t = p)
    (ha : Acq t p p') (hs : acquire s t p' = some (s', evs)) :
    ∃ p st lk l b rx, s' = s.after t p st lk l b rx ∧ Tr c s t p st lk l b rx evs := by
  unfold acquire at hs
  split at hs
  · cases hs
    exact ⟨_, _, _, _, _, _, rfl, .acq t p' (by assumption) (h ▸ ha)⟩
  · cases hs

theorem step_tr' {s s' : State W} {act : Act W} {evs : Trace W} (h : step c s act = some (s', evs)) :
    ∃ p st lk l b rx, s' = s.after act.tid p st lk l b rx ∧ Tr c s act.tid p st lk l b rx evs := by
  cases act with
  | start n v =>
    simp only [step] at h
    split at h
    · split at h <;> cases h
      exact ⟨_, _, _, _, _, _, rfl, .callStart n v _ (by assumption) (by assumption)⟩
    · cases h
  | cont n v =>
    simp only [step] at h
    split at h
    · split at h <;> cases h
      exact ⟨_, _, _, _, _, _, rfl, .callCont n v _ (by assumption) (by assumption)⟩
    · cases h
  | drop n =>
    simp only [step] at h
    split at h
    · cases h; exact ⟨_, _, _, _, _, _, rfl, .callDropW n (by assumption)⟩
    · rename_i l hl hpc
      cases h
      exact ⟨_, _, _, _, _, _, rfl, .callDrop n l hpc (by rintro rfl; exact hl rfl)⟩
    · cases h
  | giveUp n =>
    simp only [step] at h
    split at h
    · cases h; exact ⟨_, _, _, _, _, _, rfl, .giveUp n (by assumption)⟩
    · cases h
  | notify o =>
    simp only [step] at h
    split at h
    · split at h <;> rename_i hr <;> cases h
      exact ⟨_, _, _, _, _, _, rfl, .callNotify o (by assumption) (by simpa using hr)⟩
    · cases h
  | close o =>
    simp only [step] at h
    split at h
    · rename_i hpc hb
      split at h <;> rename_i hr <;> cases h
      exact ⟨_, _, _, _, _, _, rfl, .callClose o hpc hb (by simpa using hr)⟩
    · cases h
  | node n spur =>
    simp only [step, nodeStep] at h
    split at h <;> rename_i hpc
    · simp only [startCas, Option.some.injEq] at h
      split at h <;> rename_i hs <;> cases h
      · exact ⟨_, _, _, _, _, _, rfl, .startConsume n _ hpc hs⟩
      · exact ⟨_, _, _, _, _, _, rfl, .startClosed n _ hpc hs⟩
      · exact ⟨_, _, _, _, _, _, rfl, .startSlow n _ hpc (by
          cases hq : s.st <;> simp_all)⟩
    · exact acquire_tr hpc (.start n _) h
    · cases h; exact ⟨_, _, _, _, _, _, rfl, .startLoad n _ hpc⟩
    · rename_i v q
      simp only [startLoop, Option.some.injEq] at h
      split at h
      · split at h
        · rename_i hs; cases h
          exact ⟨_, _, _, _, _, _, rfl, .loopSet n _ hpc hs.1⟩
        · split at h
          · rename_i hd; cases h
            exact ⟨_, _, _, _, _, _, rfl, .loopAssert n _ _ hpc (.inl rfl) hd.1 (by
              cases hq : s.st <;> simp_all)⟩
          · cases h; exact ⟨_, _, _, _, _, _, rfl, .loopAgain n _ _ hpc (.inl rfl)⟩
      · split at h
        · rename_i hs; cases h
          exact ⟨_, _, _, _, _, _, rfl, .loopConsume n _ hpc hs.1⟩
        · split at h
          · rename_i hd; cases h
            exact ⟨_, _, _, _, _, _, rfl, .loopAssert n _ _ hpc (.inr rfl) hd.1 (by
              cases hq : s.st <;> simp_all)⟩
          · cases h; exact ⟨_, _, _, _, _, _, rfl, .loopAgain n _ _ hpc (.inr rfl)⟩
      · cases h; exact ⟨_, _, _, _, _, _, rfl, .loopClosed n _ hpc⟩
      · cases h; exact ⟨_, _, _, _, _, _, rfl, .loopWaiting n _ hpc⟩
    · rename_i v
      simp only [startSet, Option.some.injEq] at h
      split at h
      · rename_i hd; cases h
        exact ⟨_, _, _, _, _, _, rfl, .setAssert n v hpc hd.1 hd.2⟩
      · cases h; exact ⟨_, _, _, _, _, _, rfl, .set n v hpc⟩
    · rename_i v
      simp only [startEnq, Option.some.injEq] at h
      split at h
      · rename_i hd; simp [WList.enqueue] at hd
      · cases h
        exact ⟨_, _, _, _, _, _, rfl, .enq n v hpc⟩
    · rename_i v
      simp only [contLoad, Option.some.injEq] at h
      split at h <;> rename_i hs
      · cases h; exact ⟨_, _, _, _, _, _, rfl, .contNotified n v hpc hs⟩
      · cases h; exact ⟨_, _, _, _, _, _, rfl, .contClosed n v hpc hs⟩
      · cases h; exact ⟨_, _, _, _, _, _, rfl, .contSlow n v hpc (.inl hs)⟩
      · split at h <;> cases h
        · exact ⟨_, _, _, _, _, _, rfl, .contAssert n v hpc hs⟩
        · exact ⟨_, _, _, _, _, _, rfl, .contSlow n v hpc (.inr hs)⟩
    · exact acquire_tr hpc (.cont n _) h
    · rename_i v
      simp only [contReload, Option.some.injEq] at h
      split at h <;> rename_i hs
      · cases h; exact ⟨_, _, _, _, _, _, rfl, .reloadNotified n v hpc hs⟩
      · cases h; exact ⟨_, _, _, _, _, _, rfl, .reloadClosed n v hpc hs⟩
      · cases h; exact ⟨_, _, _, _, _, _, rfl, .reloadSlow n v hpc (.inl hs)⟩
      · split at h <;> cases h
        · exact ⟨_, _, _, _, _, _, rfl, .reloadAssert n v hpc hs⟩
        · exact ⟨_, _, _, _, _, _, rfl, .reloadSlow n v hpc (.inr hs)⟩
    · cases h; exact ⟨_, _, _, _, _, _, rfl, .upd n _ hpc⟩
    · simp only [remCheck, Option.some.injEq] at h
      split at h <;> rename_i hs <;> cases h
      · exact ⟨_, _, _, _, _, _, rfl, .remLinked n hpc hs⟩
      · exact ⟨_, _, _, _, _, _, rfl, .remFree n hpc hs⟩
    · exact acquire_tr hpc (.rem n) h
    · simp only [remList, Option.some.injEq] at h
      split at h
      · rename_i hd; cases h
        exact ⟨_, _, _, _, _, _, rfl, .remAssert n hpc hd.2⟩
      · cases h; exact ⟨_, _, _, _, _, _, rfl, .rem n hpc⟩
    · simp only [remCas, Option.some.injEq] at h
      split at h <;> rename_i hs <;> cases h
      · exact ⟨_, _, _, _, _, _, rfl, .remEmpty n hpc hs.1 hs.2⟩
      · exact ⟨_, _, _, _, _, _, rfl, .remSkip n hpc hs⟩
    · cases h; exact ⟨_, _, _, _, _, _, rfl, .remUnlock n hpc⟩
    · cases h
  | op o spur =>
    simp only [step, opStep] at h
    split at h <;> rename_i hpc
    · cases h; exact ⟨_, _, _, _, _, _, rfl, .nLoad o hpc⟩
    · rename_i q
      simp only [nLoop, Option.some.injEq] at h
      split at h <;> rename_i hq
      · split at h <;> rename_i hs <;> cases h
        · exact ⟨_, _, _, _, _, _, rfl, .nFast o q hpc hq hs.1⟩
        · exact ⟨_, _, _, _, _, _, rfl, .nAgain o q hpc hq⟩
      · cases h; exact ⟨_, _, _, _, _, _, rfl, .nSlow o q hpc hq⟩
    · exact acquire_tr hpc (.notify o _) h
    · rename_i q
      simp only [nMatch, Option.some.injEq] at h
      split at h
      · split at h <;> rename_i hs
        · cases h; exact ⟨_, _, _, _, _, _, rfl, .mFast o _ hpc (.inr rfl) hs⟩
        · split at h <;> cases h
          · exact ⟨_, _, _, _, _, _, rfl, .mAssert o _ hpc (.inr rfl)⟩
          · exact ⟨_, _, _, _, _, _, rfl, .mForce o _ hpc (.inr rfl)⟩
      · split at h <;> rename_i hs
        · cases h; exact ⟨_, _, _, _, _, _, rfl, .mFast o _ hpc (.inl rfl) hs⟩
        · split at h <;> cases h
          · exact ⟨_, _, _, _, _, _, rfl, .mAssert o _ hpc (.inl rfl)⟩
          · exact ⟨_, _, _, _, _, _, rfl, .mForce o _ hpc (.inl rfl)⟩
      · split at h <;> rename_i hd <;> cases h
        · exact ⟨_, _, _, _, _, _, rfl, .deqAssert o hpc hd.1 hd.2⟩
        · exact ⟨_, _, _, _, _, _, rfl, .deq o hpc (by
            intro hdd; exact Classical.byContradiction fun hc => hd ⟨hdd, hc⟩)⟩
      · split at h <;> cases h
        · exact ⟨_, _, _, _, _, _, rfl, .mClosedAssert o hpc⟩
        · exact ⟨_, _, _, _, _, _, rfl, .mClosed o hpc⟩
    · cases h; exact ⟨_, _, _, _, _, _, rfl, .force o hpc⟩
    · rename_i w
      simp only [nStore, Option.some.injEq] at h
      split at h <;> rename_i hs <;> cases h
      · exact ⟨_, _, _, _, _, _, rfl, .nStoreEmpty o w hpc hs⟩
      · exact ⟨_, _, _, _, _, _, rfl, .nStoreSkip o w hpc (by simpa using hs)⟩
    · rename_i w
      simp only [nUnlock, Option.some.injEq] at h
      split at h <;> cases h
      · exact ⟨_, _, _, _, _, _, rfl, .nUnlock o _ _ hpc⟩
      · exact ⟨_, _, _, _, _, _, rfl, .nUnlockNone o hpc⟩
    · cases h; exact ⟨_, _, _, _, _, _, rfl, .nWake o _ _ hpc⟩
    · cases h; exact ⟨_, _, _, _, _, _, rfl, .cSwap o hpc⟩
    · exact acquire_tr hpc (.close o) h
    · simp only [cLoop, Option.some.injEq] at h
      split at h <;> rename_i hs
      · cases h; exact ⟨_, _, _, _, _, _, rfl, .cRet o hpc hs⟩
      · have hs' : s.list.isEmpty = false := by simpa using hs
        split at h
        · rename_i hd; cases h
          exact ⟨_, _, _, _, _, _, rfl, .cAssert o hpc hs' hd.2⟩
        · split at h <;> rename_i ht <;> cases h
          · exact ⟨_, _, _, _, _, _, rfl, .cDeq o _ _ hpc hs' ht⟩
          · exact ⟨_, _, _, _, _, _, rfl, .cSkip o hpc hs' ht⟩
    · cases h; exact ⟨_, _, _, _, _, _, rfl, .cWake o _ _ hpc⟩
    · cases h

theorem step_tr {s s' : State W} {act : Act W} {evs : Trace W} (h : step c s act = some (s', evs)) :
    ∃ t p st lk l b rx, s' = s.after t p st lk l b rx ∧ Tr c s t p st lk l b rx evs :=
  ⟨_, step_tr' h⟩

end Thingbuf.Queue
