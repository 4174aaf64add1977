import Verif.ChanSeq
import Verif.QueueSafe
/-!
# Sequential use of the channel: the senders' wait queue
-/

namespace Thingbuf.Chan

open Queue (QSt WList Rep Tid)

variable {V W R : Type}

def queueWakes (e : List (Queue.Event W)) : List W := e.filterMap fun | .wake _ _ v => some v | _ => none

theorem obs_queue {e : List (Queue.Event W)} (h : ∀ a, Queue.Event.assertFailed a ∉ e) :
    obs (e.map Ev.queue : Trace V W) = (queueWakes e).map .woke := by
  induction e with
  | nil => rfl
  | cons x e ih =>
    have ih := ih fun a ha => h a (List.mem_cons_of_mem _ ha)
    cases x with
    | assertFailed a => exact absurd (List.mem_cons_self ..) (h a)
    | wake a n v => exact congrArg (_ :: ·) ih
    | _ => exact ih

theorem nodeRet_touch (t : Tid) (l : List Nat) (e : List (Queue.Event W)) :
    nodeRet (l.map (.touch t) ++ e) = nodeRet e := by
  induction l with
  | nil => rfl
  | cons x l ih => exact ih

theorem opOver_touch (t : Tid) (l : List Nat) (e : List (Queue.Event W)) :
    opOver (l.map (.touch t) ++ e) = opOver e := by
  induction l with
  | nil => rfl
  | cons x l ih => exact ih

theorem queueWakes_touch (t : Tid) (l : List Nat) (e : List (Queue.Event W)) :
    queueWakes (l.map (.touch t) ++ e) = queueWakes e := by
  induction l with
  | nil => rfl
  | cons x l ih => exact ih

/-- An operation on the wait queue runs alone, by the actions `act`, until its result is `r`; it wakes `ws`. -/
inductive QRun (c : Queue.Config W) (act : Nat → Queue.Act W) (over : List (Queue.Event W) → Option R) :
    Queue.State W → Nat → Queue.State W → List W → R → Nat → Prop where
  | last {s s' : Queue.State W} {i : Nat} {e : List (Queue.Event W)} {r : R} {ws : List W} :
      Queue.step c s (act i) = some (s', e) → over e = some r → (∀ a, Queue.Event.assertFailed a ∉ e) → queueWakes e = ws →
      QRun c act over s i s' ws r (i + 1)
  | more {s s1 s' : Queue.State W} {i j : Nat} {e : List (Queue.Event W)} {r : R} {ws ws' : List W} :
      Queue.step c s (act i) = some (s1, e) → over e = none → (∀ a, Queue.Event.assertFailed a ∉ e) → queueWakes e = ws →
      QRun c act over s1 (i + 1) s' ws' r j → QRun c act over s i s' (ws ++ ws') r j

/-- A step that wakes nobody, and then the rest. -/
theorem QRun.quiet {c : Queue.Config W} {act : Nat → Queue.Act W} {over : List (Queue.Event W) → Option R}
    {s s1 s' : Queue.State W} {i j : Nat} {e : List (Queue.Event W)} {r : R} {ws : List W}
    (h1 : Queue.step c s (act i) = some (s1, e)) (h2 : over e = none) (h3 : ∀ a, Queue.Event.assertFailed a ∉ e)
    (h4 : queueWakes e = []) (h5 : QRun c act over s1 (i + 1) s' ws r j) : QRun c act over s i s' ws r j :=
  .more (ws := []) h1 h2 h3 h4 h5

section
variable (s : Queue.State W) (t : Tid) (p p' : Queue.PC W) (st : QSt) (lk : Option Tid) (l : WList W) (b : List Nat) (rx : Bool)

@[simp] theorem after_pc : (s.after t p st lk l b rx).pc t = p := by simp [Queue.State.after]
@[simp] theorem after_st : (s.after t p st lk l b rx).st = st := rfl
@[simp] theorem after_lock : (s.after t p st lk l b rx).lock = lk := rfl
@[simp] theorem after_list : (s.after t p st lk l b rx).list = l := rfl
@[simp] theorem after_borrows : (s.after t p st lk l b rx).borrows = b := rfl
@[simp] theorem after_rxGone : (s.after t p st lk l b rx).rxGone = rx := rfl

@[simp] theorem after_goto : (s.after t p st lk l b rx).goto t p' = s.after t p' st lk l b rx := by
  simp only [Queue.State.after, Queue.State.goto]
  congr 1
  funext u
  split <;> rfl

theorem goto_after : s.goto t p = s.after t p s.st s.lock s.list s.borrows s.rxGone := rfl

end

variable {c : Queue.Config W} {s : Queue.State W} {k i : Nat} {l : WList W} {b : List Nat} {rx : Bool} {spur : Nat → Bool}

/-- `start_wait` when a notification is stored. -/
theorem QRun.start_stored (v : W) :
    QRun c (fun i => .node k (spur i)) nodeRet (s.after (.node k) (.startCas v) .waking none l b rx) i
      (s.after (.node k) (.idle .startNotified) .empty none l b rx) [] (.ret .notified) (i + 1) := by
  refine .last (e := [.consume k, .retStart k .notified]) ?_ rfl (by simp) rfl
  simp only [Queue.step, Queue.nodeStep, after_pc, Queue.startCas, after_st, after_goto]
  rfl

/-- The node is filled in. -/
def fill (l : WList W) (k : Nat) (v : W) : WList W := l.set k fun nd => { nd with waiter := some v, state := .waiting }

/-- The end of `start_wait`. -/
theorem QRun.start_end (v : W) (h1 : (l.node k).waiter = none)
    (h2 : (l.node k).state = .empty ∨ (l.node k).state = .waking) :
    ∃ j, QRun c (fun i => .node k (spur i)) nodeRet (s.after (.node k) (.startSet v) .waiting (some (.node k)) l b rx) i
      (s.after (.node k) (.idle .waiting) .waiting none ((fill l k v).enqueue k).list b rx) [] (.ret .wait) j ∧ i ≤ j := by
  refine ⟨i + 1 + 1, .quiet (s1 := s.after (.node k) (.startEnq v) .waiting (some (.node k)) (fill l k v) b rx) (e := []) ?_ rfl (by simp) rfl
    (.last (e := ((fill l k v).enqueue k).touched.map (.touch (.node k)) ++ [.enq k v] ++ [.retStart k .wait]) ?_ ?_ ?_ ?_), by omega⟩
  · simp only [Queue.step, Queue.nodeStep, after_pc, Queue.startSet]
    rw [if_neg (by simp only [after_list]; simp [h1, h2])]
    exact congrArg (fun x => some (x, ([] : List (Queue.Event W)))) (after_goto ..)
  · have : ((fill l k v).enqueue k).ok = true := by simp [WList.enqueue]
    simp only [Queue.step, Queue.nodeStep, after_pc, Queue.startEnq]
    rw [if_neg (by simp only [after_list]; simp [this])]
    refine congrArg some (Prod.ext ?_ (by simp))
    exact congrArg Queue.State.unlock (after_goto s (.node k) (.startEnq v) (.idle .waiting) .waiting (some (.node k))
      ((fill l k v).enqueue k).list b rx)
  · rw [List.append_assoc, nodeRet_touch]; rfl
  · simp
  · rw [List.append_assoc, queueWakes_touch]; rfl

theorem QRun.start_loop {N : Nat} (hN : ∀ i, N ≤ i → spur i = false) (v : W) (h1 : (l.node k).waiter = none)
    (h2 : (l.node k).state = .empty ∨ (l.node k).state = .waking) :
    ∀ m i, N ≤ i + m → ∃ j, QRun c (fun i => .node k (spur i)) nodeRet
      (s.after (.node k) (.startLoop v .empty) .empty (some (.node k)) l b rx) i
      (s.after (.node k) (.idle .waiting) .waiting none ((fill l k v).enqueue k).list b rx) [] (.ret .wait) j ∧ i ≤ j := by
  have hok : ∀ i, spur i = false → ∃ j, QRun c (fun i => .node k (spur i)) nodeRet
      (s.after (.node k) (.startLoop v .empty) .empty (some (.node k)) l b rx) i
      (s.after (.node k) (.idle .waiting) .waiting none ((fill l k v).enqueue k).list b rx) [] (.ret .wait) j ∧ i ≤ j := by
    intro i hi
    obtain ⟨j, hj, hij⟩ := QRun.start_end (c := c) (s := s) (b := b) (rx := rx) (spur := spur) (i := i + 1) v h1 h2
    refine ⟨j, .quiet (e := []) ?_ rfl (by simp) rfl hj, by omega⟩
    simp only [Queue.step, Queue.nodeStep, after_pc, Queue.startLoop, after_st, hi, and_self, if_true, after_goto]
    rfl
  intro m
  induction m with
  | zero => intro i hi; exact hok i (hN _ (by omega))
  | succ m ih =>
    intro i hi
    cases hsp : spur i with
    | false => exact hok i hsp
    | true =>
      obtain ⟨j, hj, hij⟩ := ih (i + 1) (by omega)
      refine ⟨j, .quiet (e := []) ?_ rfl (by simp) rfl hj, by omega⟩
      simp [Queue.step, Queue.nodeStep, Queue.startLoop, hsp]

/-- `start_wait` when no notification is stored. -/
theorem QRun.start_wait (hc : ∃ n, ∀ i, n ≤ i → spur i = false) (v : W) {st : QSt} (hst : st = .empty ∨ st = .waiting)
    (h1 : (l.node k).waiter = none) (h2 : (l.node k).state = .empty ∨ (l.node k).state = .waking) :
    ∃ j, QRun c (fun i => .node k (spur i)) nodeRet (s.after (.node k) (.startCas v) st none l b rx) i
      (s.after (.node k) (.idle .waiting) .waiting none ((fill l k v).enqueue k).list b rx) [] (.ret .wait) j ∧ i ≤ j := by
  obtain ⟨N, hN⟩ := hc
  suffices ∃ j, QRun c (fun i => .node k (spur i)) nodeRet
      (s.after (.node k) (.startLoop v st) st (some (.node k)) l b rx) (i + 1 + 1 + 1)
      (s.after (.node k) (.idle .waiting) .waiting none ((fill l k v).enqueue k).list b rx) [] (.ret .wait) j ∧ i + 1 + 1 + 1 ≤ j by
    obtain ⟨j, hj, hij⟩ := this
    refine ⟨j, .quiet (s1 := s.after (.node k) (.startLock v) st none l b rx) (e := []) ?_ rfl (by simp) rfl
      (.quiet (s1 := s.after (.node k) (.startLoad v) st (some (.node k)) l b rx) (e := []) ?_ rfl (by simp) rfl
      (.quiet (e := []) ?_ rfl (by simp) rfl hj)), by omega⟩
    · rcases hst with rfl | rfl <;> simp [Queue.step, Queue.nodeStep, Queue.startCas]
    · simp only [Queue.step, Queue.nodeStep, after_pc, Queue.acquire, after_lock, after_goto]
      rfl
    · simp [Queue.step, Queue.nodeStep]
  rcases hst with rfl | rfl
  · exact QRun.start_loop hN v h1 h2 N _ (by omega)
  · obtain ⟨j, hj, hij⟩ := QRun.start_end (c := c) (s := s) (b := b) (rx := rx) (spur := spur) (i := i + 1 + 1 + 1 + 1) v h1 h2
    refine ⟨j, .quiet (e := []) ?_ rfl (by simp) rfl hj, by omega⟩
    simp [Queue.step, Queue.nodeStep, Queue.startLoop]

/-- `continue_wait` of a notified node. -/
theorem QRun.cont_notified (v : W) {st : QSt} (h : (l.node k).state = .waking) :
    QRun c (fun i => .node k (spur i)) nodeRet (s.after (.node k) (.contLoad v) st none l b rx) i
      (s.after (.node k) (.idle .contNotified) st none l b rx) [] (.ret .notified) (i + 1) := by
  refine .last (e := [.retCont k .notified]) ?_ rfl (by simp) rfl
  simp [Queue.step, Queue.nodeStep, Queue.contLoad, h]

/-- `continue_wait` of a node that `close` took out. -/
theorem QRun.cont_closed (v : W) {st : QSt} (h : (l.node k).state = .closed) :
    QRun c (fun i => .node k (spur i)) nodeRet (s.after (.node k) (.contLoad v) st none l b rx) i
      (s.after (.node k) (.idle .closed) st none l b rx) [] (.ret .closed) (i + 1) := by
  refine .last (e := [.retCont k .closed]) ?_ rfl (by simp) rfl
  simp [Queue.step, Queue.nodeStep, Queue.contLoad, h]

/-- `continue_wait` of a node that still waits. -/
theorem QRun.cont_wait (v u : W) {st : QSt} (h : (l.node k).state = .waiting) (hu : (l.node k).waiter = some u) :
    ∃ j, QRun c (fun i => .node k (spur i)) nodeRet (s.after (.node k) (.contLoad v) st none l b rx) i
      (s.after (.node k) (.idle .waiting) st none
        (l.set k fun nd => { nd with waiter := some (if c.same u v then u else v) }) b rx) [] (.ret .wait) j ∧ i ≤ j := by
  refine ⟨i + 1 + 1 + 1 + 1, .quiet (s1 := s.after (.node k) (.contLock v) st none l b rx) (e := []) ?_ rfl (by simp) rfl
    (.quiet (s1 := s.after (.node k) (.contReload v) st (some (.node k)) l b rx) (e := []) ?_ rfl (by simp) rfl
    (.quiet (s1 := s.after (.node k) (.contUpd v) st (some (.node k)) l b rx) (e := []) ?_ rfl (by simp) rfl
    (.last (e := [.upd k (if c.same u v then u else v), .retCont k .wait]) ?_ rfl (by simp) rfl))), by omega⟩
  · simp [Queue.step, Queue.nodeStep, Queue.contLoad, h]
  · simp only [Queue.step, Queue.nodeStep, after_pc, Queue.acquire, after_lock, after_goto]
    rfl
  · simp [Queue.step, Queue.nodeStep, Queue.contReload, h]
  · simp only [Queue.step, Queue.nodeStep, after_pc, Queue.contUpd, after_list, hu, Queue.newWaiter]
    refine congrArg some (Prod.ext ?_ rfl)
    exact congrArg Queue.State.unlock (after_goto s (.node k) (.contUpd v) (.idle .waiting) st (some (.node k))
      (l.set k fun nd => { nd with waiter := some (if c.same u v then u else v) }) b rx)

/-- The drop of a future whose node is not in the list. -/
theorem QRun.drop_off {st : QSt} (h : (l.node k).state ≠ .waiting) :
    QRun c (fun i => .node k (spur i)) nodeRet (s.after (.node k) .remCheck st none l b rx) i
      (s.after (.node k) .gone st none l b rx) [] .freed (i + 1) := by
  refine .last (e := [.free k]) ?_ rfl (by simp) rfl
  simp [Queue.step, Queue.nodeStep, Queue.remCheck, h]

/-- The drop of a future whose node is in the list. -/
theorem QRun.drop_in {x y : List Nat} (hr : Rep l (x ++ k :: y)) (h : (l.node k).state = .waiting) :
    ∃ j, QRun c (fun i => .node k (spur i)) nodeRet (s.after (.node k) .remCheck .waiting none l b rx) i
      (s.after (.node k) .gone (if x ++ y = [] then .empty else .waiting) none (l.remove k).list b rx) [] .freed j ∧ i ≤ j := by
  refine ⟨i + 1 + 1 + 1 + 1 + 1, .quiet (s1 := s.after (.node k) .remLock .waiting none l b rx) (e := []) ?_ rfl (by simp) rfl
    (.quiet (s1 := s.after (.node k) .remList .waiting (some (.node k)) l b rx) (e := []) ?_ rfl (by simp) rfl
    (.quiet (s1 := s.after (.node k) .remCas .waiting (some (.node k)) (l.remove k).list b rx)
      (e := (l.remove k).touched.map (.touch (.node k)) ++ [.rem k]) ?_ ?_ ?_ ?_
    (.quiet (s1 := s.after (.node k) .remUnlock (if x ++ y = [] then .empty else .waiting) (some (.node k)) (l.remove k).list b rx)
      (e := []) ?_ rfl (by simp) rfl
    (.last (e := [.free k]) ?_ rfl (by simp) rfl)))), by omega⟩
  · simp [Queue.step, Queue.nodeStep, Queue.remCheck, h]
  · simp only [Queue.step, Queue.nodeStep, after_pc, Queue.acquire, after_lock, after_goto]
    rfl
  · simp only [Queue.step, Queue.nodeStep, after_pc, Queue.remList]
    rw [if_neg (by simp only [after_list]; simp [hr.remove_ok.1])]
    refine congrArg some (Prod.ext ?_ rfl)
    exact after_goto s (.node k) .remList .remCas .waiting (some (.node k)) (l.remove k).list b rx
  · rw [nodeRet_touch]; rfl
  · simp
  · rw [queueWakes_touch]; rfl
  · simp only [Queue.step, Queue.nodeStep, after_pc, Queue.remCas, after_list, after_st, hr.remove.isEmpty, and_true]
    cases hxy : x ++ y with
    | nil => simp only [List.isEmpty_nil, if_true, after_goto]; rfl
    | cons z zs => simp
  · simp only [Queue.step, Queue.nodeStep, after_pc, after_goto]
    rfl

/-- Has the `notify` or `close` ended? -/
def opRet (e : List (Queue.Event W)) : Option Unit := if opOver e then some () else none

theorem QRun.notify_loop {N o : Nat} (hN : ∀ i, N ≤ i → spur i = false) (hb : b.erase o = []) {st : QSt} (hst : st = .empty ∨ st = .waking) :
    ∀ m i, N ≤ i + m → ∃ j, QRun c (fun i => .op o (spur i)) opRet (s.after (.op o) (.nLoop st) st none l b rx) i
      (s.after (.op o) .done .waking none l [] rx) [] () j ∧ i ≤ j := by
  have hok : ∀ i, spur i = false → ∃ j, QRun c (fun i => .op o (spur i)) opRet (s.after (.op o) (.nLoop st) st none l b rx) i
      (s.after (.op o) .done .waking none l [] rx) [] () j ∧ i ≤ j := by
    intro i hi
    refine ⟨i + 1, .last (e := [.store o, .retNotify o false]) ?_ rfl (by simp) rfl, by omega⟩
    simp only [Queue.step, Queue.opStep, after_pc, Queue.nLoop, after_st, hi, and_self, if_true]
    rw [if_pos (by rcases hst with rfl | rfl <;> simp)]
    simp only [Queue.State.endNotify, after_goto, after_borrows, hb]
    rfl
  intro m
  induction m with
  | zero => intro i hi; exact hok i (hN _ (by omega))
  | succ m ih =>
    intro i hi
    cases hsp : spur i with
    | false => exact hok i hsp
    | true =>
      obtain ⟨j, hj, hij⟩ := ih (i + 1) (by omega)
      refine ⟨j, .quiet (e := []) ?_ rfl (by simp) rfl hj, by omega⟩
      rcases hst with rfl | rfl <;> simp [Queue.step, Queue.opStep, Queue.nLoop, hsp]

/-- `notify` when nobody waits. -/
theorem QRun.notify_store (hc : ∃ n, ∀ i, n ≤ i → spur i = false) {o : Nat} (hb : b.erase o = []) {st : QSt} (hst : st = .empty ∨ st = .waking) :
    ∃ j, QRun c (fun i => .op o (spur i)) opRet (s.after (.op o) .nLoad st none l b rx) i
      (s.after (.op o) .done .waking none l [] rx) [] () j ∧ i ≤ j := by
  obtain ⟨N, hN⟩ := hc
  obtain ⟨j, hj, hij⟩ := QRun.notify_loop (c := c) (s := s) (l := l) (rx := rx) hN hb hst N (i + 1) (by omega)
  refine ⟨j, .quiet (e := []) ?_ rfl (by simp) rfl hj, by omega⟩
  simp [Queue.step, Queue.opStep]

/-- `notify` when somebody waits. -/
theorem QRun.notify_wake {o : Nat} (hb : b.erase o = []) {x : List Nat} {v : W} (hr : Rep l (x ++ [k]))
    (h : (l.node k).state = .waiting) (hv : (l.node k).waiter = some v) :
    ∃ j, QRun c (fun i => .op o (spur i)) opRet (s.after (.op o) .nLoad .waiting none l b rx) i
      (s.after (.op o) .done (if x = [] then .empty else .waiting) none (l.dequeue .waking).list [] rx) [v] () j ∧ i ≤ j := by
  have hd := hr.dequeue_val .waking
  rw [h] at hd
  obtain ⟨hval, hok, htch⟩ := hd
  refine ⟨i + 1 + 1 + 1 + 1 + 1 + 1 + 1, .quiet (s1 := s.after (.op o) (.nLoop .waiting) .waiting none l b rx) (e := []) ?_ rfl (by simp) rfl
    (.quiet (s1 := s.after (.op o) (.nLock .waiting) .waiting none l b rx) (e := []) ?_ rfl (by simp) rfl
    (.quiet (s1 := s.after (.op o) (.nMatch .waiting) .waiting (some (.op o)) l b rx) (e := []) ?_ rfl (by simp) rfl
    (.quiet (s1 := s.after (.op o) (.nStore (some (k, v))) .waiting (some (.op o)) (l.dequeue .waking).list b rx)
      (e := (l.dequeue .waking).touched.map (.touch (.op o)) ++ [.deq o k]) ?_ ?_ ?_ ?_
    (.quiet (s1 := s.after (.op o) (.nUnlock (some (k, v))) (if x = [] then .empty else .waiting) (some (.op o))
      (l.dequeue .waking).list b rx) (e := []) ?_ rfl (by simp) rfl
    (.quiet (s1 := s.after (.op o) (.nWake k v) (if x = [] then .empty else .waiting) none
      (l.dequeue .waking).list b rx) (e := []) ?_ rfl (by simp) rfl
    (.last (e := [.wake o k v, .retNotify o true]) ?_ rfl (by simp) rfl)))))), by omega⟩
  · simp [Queue.step, Queue.opStep]
  · simp [Queue.step, Queue.opStep, Queue.nLoop]
  · simp only [Queue.step, Queue.opStep, after_pc, Queue.acquire, after_lock, after_goto]
    rfl
  · simp only [Queue.step, Queue.opStep, after_pc, Queue.nMatch]
    rw [if_neg (by simp only [after_list, hval, hok, hv, Queue.taken]; simp)]
    simp only [after_list, hval, hv, Queue.taken, Queue.deqEvents]
    refine congrArg some (Prod.ext ?_ rfl)
    exact after_goto s (.op o) (.nMatch .waiting) (.nStore (some (k, v))) .waiting (some (.op o)) (l.dequeue .waking).list b rx
  · rw [opRet, opOver_touch]; rfl
  · simp
  · rw [queueWakes_touch]; rfl
  · simp only [Queue.step, Queue.opStep, after_pc, Queue.nStore, after_list, (hr.dequeue .waking).isEmpty]
    cases x with
    | nil => simp only [List.isEmpty_nil, if_true, after_goto]; rfl
    | cons z zs => simp
  · simp only [Queue.step, Queue.opStep, after_pc, Queue.nUnlock, after_goto]
    rfl
  · simp only [Queue.step, Queue.opStep, after_pc, Queue.State.endNotify, after_goto, after_borrows, hb]
    rfl

/-- All nodes are taken out of the list, oldest first. -/
def drain (l : WList W) : Nat → WList W
  | 0 => l
  | n + 1 => drain (l.dequeue .closed).list n

/-- The loop of `close`. -/
theorem QRun.close_loop {o : Nat} : ∀ {wt : List (Nat × W)} {l : WList W} {i : Nat},
    Rep l (wt.map Prod.fst).reverse → (∀ x ∈ wt, (l.node x.1).state = .waiting ∧ (l.node x.1).waiter = some x.2) →
    ∃ j, QRun c (fun i => .op o (spur i)) opRet (s.after (.op o) .cLoop .closed (some (.op o)) l b rx) i
      (s.after (.op o) .done .closed none (drain l wt.length) b rx) (wt.map Prod.snd) () j ∧ i ≤ j
  | [], l, i, hr, _ => by
    refine ⟨i + 1, .last (e := [.retClose o]) ?_ rfl (by simp) rfl, by omega⟩
    simp only [Queue.step, Queue.opStep, after_pc, Queue.cLoop]
    rw [if_pos (by simp only [after_list, hr.isEmpty]; simp)]
    simp only [after_goto]
    rfl
  | (k, v) :: wt, l, i, hr, hw => by
    have hr' : Rep l ((wt.map Prod.fst).reverse ++ [k]) := by simpa using hr
    have hk := hw (k, v) (by simp)
    have hd := hr'.dequeue_val .closed
    rw [hk.1, hk.2] at hd
    obtain ⟨hval, hok, htch⟩ := hd
    have hne : ∀ x ∈ wt, x.1 ≠ k := by
      intro x hx he
      have hnd := hr'.nodup
      rw [List.nodup_append] at hnd
      exact hnd.2.2 x.1 (by simpa using ⟨x.2, hx⟩) k (by simp) he
    obtain ⟨j, hj, hij⟩ := QRun.close_loop (wt := wt) (l := (l.dequeue .closed).list) (i := i + 1 + 1)
      (hr'.dequeue .closed) (fun x hx => by
        rw [hr'.dequeue_node .closed]
        have h1 := hw x (List.mem_cons_of_mem _ hx)
        simp only [hne x hx, if_false]
        split <;> exact h1)
    refine ⟨j, .quiet (s1 := s.after (.op o) (.cWake k v) .closed (some (.op o)) (l.dequeue .closed).list b rx)
      (e := (l.dequeue .closed).touched.map (.touch (.op o)) ++ [.deq o k]) ?_ ?_ ?_ ?_
      (.more (ws := [v]) (e := [.wake o k v]) ?_ rfl (by simp) rfl hj), by omega⟩
    · simp only [Queue.step, Queue.opStep, after_pc, Queue.cLoop]
      rw [if_neg (by simp only [after_list, hr'.isEmpty]; simp), if_neg (by simp only [after_list, hok]; simp)]
      simp only [after_list, hval, Queue.taken, Queue.deqEvents]
      refine congrArg some (Prod.ext ?_ rfl)
      exact after_goto s (.op o) .cLoop (.cWake k v) .closed (some (.op o)) (l.dequeue .closed).list b rx
    · rw [opRet, opOver_touch]; rfl
    · simp
    · rw [queueWakes_touch]; rfl
    · simp [Queue.step, Queue.opStep]

/-- `close`. -/
theorem QRun.close {o : Nat} {wt : List (Nat × W)} {st : QSt} (hr : Rep l (wt.map Prod.fst).reverse)
    (hw : ∀ x ∈ wt, (l.node x.1).state = .waiting ∧ (l.node x.1).waiter = some x.2) :
    ∃ j, QRun c (fun i => .op o (spur i)) opRet (s.after (.op o) .cSwap st none l b rx) i
      (s.after (.op o) .done .closed none (drain l wt.length) b rx) (wt.map Prod.snd) () j ∧ i ≤ j := by
  obtain ⟨j, hj, hij⟩ := QRun.close_loop (c := c) (spur := spur) (s := s) (b := b) (rx := rx) (o := o) (i := i + 1 + 1) hr hw
  refine ⟨j, .quiet (s1 := s.after (.op o) .cLock .closed none l b rx) (e := [.closing o]) ?_ rfl (by simp) rfl
    (.quiet (e := []) ?_ rfl (by simp) rfl hj), by omega⟩
  · simp only [Queue.step, Queue.opStep, after_pc, after_goto]
    rfl
  · simp only [Queue.step, Queue.opStep, after_pc, Queue.acquire, after_lock, after_goto]
    rfl

end Thingbuf.Chan
