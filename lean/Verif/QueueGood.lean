import Verif.QueueSafe

/-!
# The transitions that can happen

The invariant of `QueueSafe` rules out most failing paths. `Good` lists the transitions that
remain, with what is known of the list of waiting nodes. Helper lemmas for `QueueProps`.
-/

namespace Thingbuf.Queue

variable {W : Type} {c : Config W}

/-- A transition of thread `t` to program counter `p` and state word `st`, with the given
events; `q` are the waiting nodes before. -/
inductive Good (c : Config W) (s : State W) (q : List Nat) : Tid → PC W → QSt → Trace W → Prop where
  | callStart (n v l) (h : s.pc (.node n) = .idle l) (hl : l.mayStart = true) (hq : n ∉ q) :
      Good c s q (.node n) (.startCas v) s.st [.callStart n v]
  | callCont (n v l) (h : s.pc (.node n) = .idle l) (hl : l.mayCont = true) :
      Good c s q (.node n) (.contLoad v) s.st [.callCont n v]
  | callDropW (n) (h : s.pc (.node n) = .idle .waiting) :
      Good c s q (.node n) .remCheck s.st [.callDrop n]
  | callDrop (n l) (h : s.pc (.node n) = .idle l) (hl : l ≠ .waiting) (hq : n ∉ q) :
      Good c s q (.node n) .gone s.st [.callDrop n, .free n]
  | giveUp (n) (h : s.pc (.node n) = .idle .waiting) :
      Good c s q (.node n) .abandoned s.st [.giveUp n, .free n]
  | callNotify (o) (h : s.pc (.op o) = .off) (hr : s.rxGone = false) :
      Good c s q (.op o) .nLoad s.st [.callNotify o]
  | callClose (o) (h : s.pc (.op o) = .off) (hb : s.borrows = []) (hr : s.rxGone = false) :
      Good c s q (.op o) .cSwap s.st [.callClose o]
  | startConsume (n v) (h : s.pc (.node n) = .startCas v) (hs : s.st = .waking) :
      Good c s q (.node n) (.idle .startNotified) .empty [.consume n, .retStart n .notified]
  | startClosed (n v) (h : s.pc (.node n) = .startCas v) (hs : s.st = .closed) :
      Good c s q (.node n) (.idle .closed) s.st [.retStart n .closed]
  | startSlow (n v) (h : s.pc (.node n) = .startCas v) (hs : s.st = .empty ∨ s.st = .waiting) :
      Good c s q (.node n) (.startLock v) s.st []
  | acqStart (n v) (h : s.pc (.node n) = .startLock v) (hl : s.lock = none) :
      Good c s q (.node n) (.startLoad v) s.st []
  | startLoad (n v) (h : s.pc (.node n) = .startLoad v) :
      Good c s q (.node n) (.startLoop v s.st) s.st []
  | loopSet (n v) (h : s.pc (.node n) = .startLoop v .empty) (hs : s.st = .empty) :
      Good c s q (.node n) (.startSet v) .waiting []
  | loopAgain (n v q0) (h : s.pc (.node n) = .startLoop v q0) (hq : q0 = .empty ∨ q0 = .waking) :
      Good c s q (.node n) (.startLoop v s.st) s.st []
  | loopConsume (n v) (h : s.pc (.node n) = .startLoop v .waking) (hs : s.st = .waking) :
      Good c s q (.node n) (.idle .startNotified) .empty [.consume n, .retStart n .notified]
  | loopClosed (n v) (h : s.pc (.node n) = .startLoop v .closed) (hs : s.st = .closed) :
      Good c s q (.node n) (.idle .closed) s.st [.retStart n .closed]
  | loopWaiting (n v) (h : s.pc (.node n) = .startLoop v .waiting) :
      Good c s q (.node n) (.startSet v) s.st []
  | set (n v) (h : s.pc (.node n) = .startSet v) :
      Good c s q (.node n) (.startEnq v) s.st []
  | enq (n v) (ns : List Nat) (h : s.pc (.node n) = .startEnq v) (hq : n ∉ q)
      (hn : ∀ m ∈ ns, m = n ∨ m ∈ q) :
      Good c s q (.node n) (.idle .waiting) s.st
        (ns.map (.touch (.node n)) ++ [.enq n v, .retStart n .wait])
  | contNotified (n v) (h : s.pc (.node n) = .contLoad v) (hs : (s.list.node n).state = .waking)
      (hq : n ∉ q) :
      Good c s q (.node n) (.idle .contNotified) s.st [.retCont n .notified]
  | contClosed (n v) (h : s.pc (.node n) = .contLoad v) (hs : (s.list.node n).state = .closed)
      (hq : n ∉ q) :
      Good c s q (.node n) (.idle .closed) s.st [.retCont n .closed]
  | contSlow (n v) (h : s.pc (.node n) = .contLoad v) (hs : (s.list.node n).state = .waiting)
      (hq : n ∈ q) :
      Good c s q (.node n) (.contLock v) s.st []
  | acqCont (n v) (h : s.pc (.node n) = .contLock v) (hl : s.lock = none) :
      Good c s q (.node n) (.contReload v) s.st []
  | reloadNotified (n v) (h : s.pc (.node n) = .contReload v)
      (hs : (s.list.node n).state = .waking) (hq : n ∉ q) :
      Good c s q (.node n) (.idle .contNotified) s.st [.retCont n .notified]
  | reloadClosed (n v) (h : s.pc (.node n) = .contReload v)
      (hs : (s.list.node n).state = .closed) (hq : n ∉ q) :
      Good c s q (.node n) (.idle .closed) s.st [.retCont n .closed]
  | reloadSlow (n v) (h : s.pc (.node n) = .contReload v)
      (hs : (s.list.node n).state = .waiting) (hq : n ∈ q) :
      Good c s q (.node n) (.contUpd v) s.st []
  | upd (n v u) (h : s.pc (.node n) = .contUpd v) (hw : (s.list.node n).waiter = some u)
      (hq : n ∈ q) :
      Good c s q (.node n) (.idle .waiting) s.st
        [.upd n (if c.same u v then u else v), .retCont n .wait]
  | remLinked (n) (h : s.pc (.node n) = .remCheck) (hq : n ∈ q) :
      Good c s q (.node n) .remLock s.st []
  | remFree (n) (h : s.pc (.node n) = .remCheck) (hq : n ∉ q) :
      Good c s q (.node n) .gone s.st [.free n]
  | acqRem (n) (h : s.pc (.node n) = .remLock) (hl : s.lock = none) :
      Good c s q (.node n) .remList s.st []
  | rem (n) (ns : List Nat) (h : s.pc (.node n) = .remList) (hn : ∀ m ∈ ns, m = n ∨ m ∈ q) :
      Good c s q (.node n) .remCas s.st (ns.map (.touch (.node n)) ++ [.rem n])
  | remEmpty (n) (h : s.pc (.node n) = .remCas) (hq : q = []) (hs : s.st = .waiting) :
      Good c s q (.node n) .remUnlock .empty []
  | remSkip (n) (h : s.pc (.node n) = .remCas) (hq : ¬ (q = [] ∧ s.st = .waiting)) :
      Good c s q (.node n) .remUnlock s.st []
  | remUnlock (n) (h : s.pc (.node n) = .remUnlock) (hq : n ∉ q) :
      Good c s q (.node n) .gone s.st [.free n]
  | nLoad (o) (h : s.pc (.op o) = .nLoad) :
      Good c s q (.op o) (.nLoop s.st) s.st []
  | nFast (o q0) (h : s.pc (.op o) = .nLoop q0) (hq : q0 = .waking ∨ q0 = .empty) (hs : s.st = q0) :
      Good c s q (.op o) .done .waking [.store o, .retNotify o false]
  | nAgain (o q0) (h : s.pc (.op o) = .nLoop q0) (hq : q0 = .waking ∨ q0 = .empty) :
      Good c s q (.op o) (.nLoop s.st) s.st []
  | nSlow (o) (h : s.pc (.op o) = .nLoop .waiting) :
      Good c s q (.op o) (.nLock .waiting) s.st []
  | acqNotify (o) (h : s.pc (.op o) = .nLock .waiting) (hl : s.lock = none) :
      Good c s q (.op o) (.nMatch .waiting) s.st []
  | deq (o x v) (q' : List Nat) (ns : List Nat) (h : s.pc (.op o) = .nMatch .waiting)
      (hq : q = q' ++ [x]) (hv : (s.list.node x).waiter = some v) (hn : ∀ m ∈ ns, m ∈ q)
      (hst : s.st = .waiting) :
      Good c s q (.op o) (.nStore (some (x, v))) s.st (ns.map (.touch (.op o)) ++ [.deq o x])
  | deqNone (o) (h : s.pc (.op o) = .nMatch .waiting) (hq : q = []) (hd : c.debug = false)
      (hst : s.st ≠ .waiting) :
      Good c s q (.op o) (.nStore none) s.st []
  | deqFail (o) (h : s.pc (.op o) = .nMatch .waiting) (hq : q = []) (hd : c.debug = true)
      (hst : s.st ≠ .waiting) :
      Good c s q (.op o) .panicked s.st [.assertFailed (.op o)]
  | nStoreEmpty (o w) (h : s.pc (.op o) = .nStore w) (hq : q = []) :
      Good c s q (.op o) (.nUnlock w) .empty []
  | nStoreSkip (o w) (h : s.pc (.op o) = .nStore w) (hq : q ≠ []) :
      Good c s q (.op o) (.nUnlock w) s.st []
  | nUnlock (o n v) (h : s.pc (.op o) = .nUnlock (some (n, v))) :
      Good c s q (.op o) (.nWake n v) s.st []
  | nUnlockNone (o) (h : s.pc (.op o) = .nUnlock none) :
      Good c s q (.op o) .done s.st [.retNotify o false]
  | nWake (o n v) (h : s.pc (.op o) = .nWake n v) :
      Good c s q (.op o) .done s.st [.wake o n v, .retNotify o true]
  | cSwap (o) (h : s.pc (.op o) = .cSwap) :
      Good c s q (.op o) .cLock .closed [.closing o]
  | acqClose (o) (h : s.pc (.op o) = .cLock) (hl : s.lock = none) :
      Good c s q (.op o) .cLoop s.st []
  | cRet (o) (h : s.pc (.op o) = .cLoop) (hq : q = []) (hs : s.st = .closed) :
      Good c s q (.op o) .done s.st [.retClose o]
  | cDeq (o x v) (q' : List Nat) (ns : List Nat) (h : s.pc (.op o) = .cLoop) (hq : q = q' ++ [x])
      (hv : (s.list.node x).waiter = some v) (hn : ∀ m ∈ ns, m ∈ q) (hs : s.st = .closed) :
      Good c s q (.op o) (.cWake x v) s.st (ns.map (.touch (.op o)) ++ [.deq o x])
  | cWake (o n v) (h : s.pc (.op o) = .cWake n v) (hs : s.st = .closed) :
      Good c s q (.op o) .cLoop s.st [.wake o n v]

section
variable {s : State W} {q : List Nat} {t : Tid} {p : PC W} {st : QSt} {lk : Option Tid}
  {l : WList W} {b : List Nat} {rx : Bool} {evs : Trace W}

theorem SInv.isEmpty_iff (h : SInv s q) : s.list.isEmpty = true ↔ q = [] := by
  rw [h.rep.isEmpty, List.isEmpty_iff]

/-- Holding the lock at a point where the state word is not in transit, "waiting" means that
the list is not empty. -/
theorem Inv.settled (h : Inv s q) {t : Tid} (hc : (s.pc t).crit = true)
    (hl : (s.pc t).loose = false) (hw : s.st = .waiting) : q ≠ [] := by
  rcases h.wait' t hw hl with h1 | ⟨h1, _⟩
  · exact h1
  · rw [hc] at h1; cases h1

theorem Inv.good (h : Inv s q) (ht : Tr c s t p st lk l b rx evs) : Good c s q t p st evs := by
  have hloc := h.loc t
  have hdq := h.dequeue .waking
  have hdc := h.dequeue .closed
  cases ht
  case callStart n v k hpc hk =>
    refine .callStart n v k hpc hk ?_
    have := h.node n
    rw [hpc] at this
    cases k <;> simp_all [NodeOk, Last.mayStart]
  case callCont n v k hpc hk => exact .callCont n v k hpc hk
  case callDropW n hpc => exact .callDropW n hpc
  case callDrop n k hpc hk =>
    refine .callDrop n k hpc hk ?_
    have := h.node n
    rw [hpc] at this
    cases k <;> simp_all [NodeOk]
  case giveUp n hpc => exact .giveUp n hpc
  case callNotify o hpc hr => exact .callNotify o hpc hr
  case callClose o hpc hr hb => exact .callClose o hpc (by assumption) (by assumption)
  case startConsume n v hpc hs => exact .startConsume n v hpc hs
  case startClosed n v hpc hs => exact .startClosed n v hpc hs
  case startSlow n v hpc hs => exact .startSlow n v hpc hs
  case acq hl ha =>
    generalize hpc : s.pc t = p0 at ha hloc
    cases ha
    · exact .acqStart _ _ hpc hl
    · exact .acqCont _ _ hpc hl
    · exact .acqRem _ hpc hl
    · simp only [LocalSt] at hloc; subst hloc; exact .acqNotify _ hpc hl
    · exact .acqClose _ hpc hl
  case startLoad n v hpc => exact .startLoad n v hpc
  case loopSet n v hpc hs => exact .loopSet n v hpc hs
  case loopAgain n v q0 hpc hq => exact .loopAgain n v q0 hpc hq
  case loopAssert n v q0 hpc hq hd hs =>
    rw [hpc] at hloc
    rcases hq with rfl | rfl <;> exact absurd hs hloc
  case loopConsume n v hpc hs => exact .loopConsume n v hpc hs
  case loopClosed n v hpc => rw [hpc] at hloc; exact .loopClosed n v hpc hloc
  case loopWaiting n v hpc => exact .loopWaiting n v hpc
  case setAssert n v hpc hd hn =>
    have hx := h.node n
    rw [hpc] at hx
    simp only [NodeOk] at hx
    simp [hx] at hn
  case set n v hpc => exact .set n v hpc
  case enq n v hpc =>
    rw [List.append_assoc]
    refine .enq n v _ hpc (h.enq_off hpc) ?_
    intro m hm
    simp only [WList.enqueue, h.rep.head, List.mem_cons, Option.mem_toList] at hm
    rcases hm with rfl | hm
    · exact .inl rfl
    · exact .inr (List.mem_of_mem_head? hm)
  case contNotified n v hpc hs =>
    have hx := h.node n
    rw [hpc] at hx; simp only [NodeOk] at hx
    exact .contNotified n v hpc hs (by simp_all)
  case contClosed n v hpc hs =>
    have hx := h.node n
    rw [hpc] at hx; simp only [NodeOk] at hx
    exact .contClosed n v hpc hs (by simp_all)
  case contSlow n v hpc hs =>
    have hx := h.node n
    rw [hpc] at hx; simp only [NodeOk] at hx
    exact .contSlow n v hpc (by rcases hs with hs | hs <;> simp_all)
      (by rcases hs with hs | hs <;> simp_all)
  case contAssert n v hpc hs =>
    have hx := h.node n
    rw [hpc] at hx; simp only [NodeOk] at hx
    simp [hs] at hx
  case reloadNotified n v hpc hs =>
    have hx := h.node n
    rw [hpc] at hx; simp only [NodeOk] at hx
    exact .reloadNotified n v hpc hs (by simp_all)
  case reloadClosed n v hpc hs =>
    have hx := h.node n
    rw [hpc] at hx; simp only [NodeOk] at hx
    exact .reloadClosed n v hpc hs (by simp_all)
  case reloadSlow n v hpc hs =>
    have hx := h.node n
    rw [hpc] at hx; simp only [NodeOk] at hx
    exact .reloadSlow n v hpc (by rcases hs with hs | hs <;> simp_all)
      (by rcases hs with hs | hs <;> simp_all)
  case reloadAssert n v hpc hs =>
    have hx := h.node n
    rw [hpc] at hx; simp only [NodeOk] at hx
    simp [hs] at hx
  case upd n v hpc =>
    have hx := h.node n
    rw [hpc] at hx; simp only [NodeOk] at hx
    obtain ⟨u, hu⟩ := Option.isSome_iff_exists.1 hx.2.2
    rw [hu]
    exact .upd n v u hpc hu hx.1
  case remLinked n hpc hs =>
    have hx := h.node n
    rw [hpc] at hx; simp only [NodeOk] at hx
    exact .remLinked n hpc (by simp_all)
  case remFree n hpc hs =>
    have hx := h.node n
    rw [hpc] at hx; simp only [NodeOk] at hx
    exact .remFree n hpc (by simp_all)
  case remAssert n hpc ho => rw [(h.remove_rep n).2.1] at ho; cases ho
  case rem n hpc => exact .rem n _ hpc (h.remove_rep n).2.2.2
  case remEmpty n hpc he hs => exact .remEmpty n hpc (h.isEmpty_iff.1 he) hs
  case remSkip n hpc he => exact .remSkip n hpc (by rwa [h.isEmpty_iff] at he)
  case remUnlock n hpc =>
    have hx := h.node n
    rw [hpc] at hx; simp only [NodeOk] at hx
    exact .remUnlock n hpc hx
  case nLoad o hpc => exact .nLoad o hpc
  case nFast hpc hq hs => exact .nFast _ _ hpc hq hs
  case nAgain o q0 hpc hq => exact .nAgain o q0 hpc hq
  case nSlow o q0 hpc hq =>
    rw [hpc] at hloc; simp only [LocalSt] at hloc
    have : q0 = .waiting := by cases q0 <;> simp_all
    subst this
    exact .nSlow o hpc
  case mFast o hpc hq =>
    exfalso; simp_all [LocalSt]
  case mAssert o q0 hpc hq =>
    rw [hpc] at hloc; simp only [LocalSt] at hloc; subst hloc; simp at hq
  case mForce o q0 hpc hq =>
    rw [hpc] at hloc; simp only [LocalSt] at hloc; subst hloc; simp at hq
  case force o hpc => rw [hpc] at hloc; exact hloc.elim
  case deqAssert o hpc hd hn =>
    have hns : q = [] → s.st ≠ .waiting := fun h1 h2 =>
      h.settled (t := .op o) (by rw [hpc]; rfl) (by rw [hpc]; rfl) h2 h1
    rcases hdq with ⟨hq, hd'⟩ | ⟨q', x, v, rfl, hv, hst', hval, hok, _⟩
    · rw [hd']; exact .deqFail o hpc hq hd (hns hq)
    · simp [hval, hok, taken] at hn
  case deq o hpc hn =>
    have hns : q = [] → s.st ≠ .waiting := fun h1 h2 =>
      h.settled (t := .op o) (by rw [hpc]; rfl) (by rw [hpc]; rfl) h2 h1
    rcases hdq with ⟨hq, hd'⟩ | ⟨q', x, v, hq, hv, hst', hval, hok, htch, _⟩
    · rw [hd'] at hn ⊢
      refine .deqNone o hpc hq ?_ (hns hq)
      cases hdb : c.debug with
      | false => rfl
      | true => exact absurd (hn hdb).2 (by simp [taken])
    · rw [hval]
      refine .deq o x v q' _ hpc hq hv ?_ ?_
      · rw [htch, hq]
        intro m hm
        simp only [List.mem_cons, Option.mem_toList] at hm
        rcases hm with rfl | hm
        · simp
        · simp [List.mem_of_getLast? hm]
      · rcases h.full (by rw [hq]; simp) with h1 | h1
        · exact h1
        · exact absurd h1 (h.notClosed (t := .op o) (by rw [hpc]; rfl))
  case mClosedAssert o hpc => rw [hpc] at hloc; cases hloc
  case mClosed o hpc => rw [hpc] at hloc; cases hloc
  case nStoreEmpty o w hpc he => exact .nStoreEmpty o w hpc (h.isEmpty_iff.1 he)
  case nStoreSkip o w hpc he =>
    exact .nStoreSkip o w hpc (fun hq => by rw [h.isEmpty_iff.2 hq] at he; cases he)
  case nUnlock o n v hpc => exact .nUnlock o n v hpc
  case nUnlockNone o hpc => exact .nUnlockNone o hpc
  case nWake o n v hpc => exact .nWake o n v hpc
  case cSwap o hpc => exact .cSwap o hpc
  case cRet o hpc he => rw [hpc] at hloc; exact .cRet o hpc (h.isEmpty_iff.1 he) hloc
  case cAssert o hpc he ho =>
    rcases hdc with ⟨hq, hd'⟩ | ⟨q', x, v, rfl, hv, hst', hval, hok, _⟩
    · rw [h.isEmpty_iff.2 hq] at he; cases he
    · rw [hok] at ho; cases ho
  case cDeq o n v hpc he hv =>
    rw [hpc] at hloc
    rcases hdc with ⟨hq, hd'⟩ | ⟨q', x, w, hq, hw, hst', hval, hok, htch, _⟩
    · rw [h.isEmpty_iff.2 hq] at he; cases he
    · rw [hval] at hv ⊢
      simp only [taken, Option.some.injEq, Prod.mk.injEq] at hv
      obtain ⟨rfl, rfl⟩ := hv
      refine .cDeq o x w q' _ hpc hq hw ?_ hloc
      rw [htch, hq]
      intro m hm
      simp only [List.mem_cons, Option.mem_toList] at hm
      rcases hm with rfl | hm
      · simp
      · simp [List.mem_of_getLast? hm]
  case cSkip o hpc he hv =>
    rcases hdc with ⟨hq, hd'⟩ | ⟨q', x, w, hq, hw, hst', hval, hok, htch, _⟩
    · rw [h.isEmpty_iff.2 hq] at he; cases he
    · rw [hval] at hv; simp [taken] at hv
  case cWake o n v hpc => rw [hpc] at hloc; exact .cWake o n v hpc hloc

end

end Thingbuf.Queue
