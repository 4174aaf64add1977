import Verif.ChanSeq
/-!
# Sequential use of the channel: the receiver's wait cell
-/

namespace Thingbuf.Chan

variable {V W R : Type}

def cellWakes (e : List (Cell.Event W)) : List W := e.filterMap fun | .wake _ v => some v | _ => none

theorem obs_cell {e : List (Cell.Event W)} (h : ∀ a, Cell.Event.assertFailed a ∉ e) :
    obs (e.map Ev.cell : Trace V W) = (cellWakes e).map .woke := by
  induction e with
  | nil => rfl
  | cons x e ih =>
    have ih := ih fun a ha => h a (List.mem_cons_of_mem _ ha)
    cases x with
    | assertFailed a => exact absurd (List.mem_cons_self ..) (h a)
    | wake a v => exact congrArg (_ :: ·) ih
    | _ => exact ih

/-- An operation on the wait cell runs alone, by the actions `act`, until its result is `r`; it wakes `ws`. -/
inductive CellRun (c : Cell.Config) (act : Cell.State W → Cell.Act W) (over : List (Cell.Event W) → Option R) :
    Cell.State W → Nat → Cell.State W → List W → R → Nat → Prop where
  | last {s s' : Cell.State W} {i : Nat} {e : List (Cell.Event W)} {r : R} {ws : List W} :
      Cell.step c s (act s) = some (s', e) → over e = some r → (∀ a, Cell.Event.assertFailed a ∉ e) → cellWakes e = ws →
      CellRun c act over s i s' ws r (i + 1)
  | more {s s1 s' : Cell.State W} {i j : Nat} {e : List (Cell.Event W)} {r : R} {ws : List W} :
      Cell.step c s (act s) = some (s1, e) → over e = none → (∀ a, Cell.Event.assertFailed a ∉ e) → cellWakes e = [] →
      CellRun c act over s1 (i + 1) s' ws r j → CellRun c act over s i s' ws r j

/-- At rest: the lock, the stored waker, and the operation numbers from `n` on are unused. -/
structure CellAt (s : Cell.State W) (lock : Cell.Bits) (u : Option W) (n : Nat) : Prop where
  lock : s.lock = lock
  waiter : s.waiter = u
  fresh : ∀ a, n ≤ a → s.pc a = .idle

@[simp] theorem Cell.goto_goto (s : Cell.State W) (a : OpId) (x y : Cell.PC W) :
    (s.goto a x).goto a y = s.goto a y := by
  simp only [Cell.State.goto]
  congr 1
  funext j
  split <;> rfl

@[simp] theorem Cell.goto_lock (s : Cell.State W) (a : OpId) (x : Cell.PC W) : (s.goto a x).lock = s.lock := rfl
@[simp] theorem Cell.goto_waiter (s : Cell.State W) (a : OpId) (x : Cell.PC W) : (s.goto a x).waiter = s.waiter := rfl
@[simp] theorem Cell.goto_pc_self (s : Cell.State W) (a : OpId) (x : Cell.PC W) : (s.goto a x).pc a = x := by
  simp [Cell.State.goto]

/-- `notify` and `close_tx`. -/
theorem CellRun.notify {c : Cell.Config} {s : Cell.State W} {o : OpId} (hl : s.lock = Cell.WAITING) (cl : Bool) (i : Nat) :
    ∃ j, CellRun c (fun _ => .run o) (fun e => if notifyOver e then some () else none) (s.goto o (.notifyStart cl)) i
      { s.goto o .done with lock := if cl then Cell.TX_CLOSED else Cell.WAITING, waiter := none } s.waiter.toList () j ∧ i ≤ j := by
  let bits := Cell.NOTIFYING ||| (if cl then Cell.TX_CLOSED else Cell.WAITING)
  refine ⟨i + 1 + 1 + 1 + 1 + 1, .more (s1 := { s.goto o .notifyTake with lock := Cell.WAITING ||| bits }) (e := [.signal o cl])
    ?_ rfl (by simp) rfl (.more (s1 := { s.goto o .notifyTaking with lock := Cell.WAITING ||| bits }) (e := [.accBegin o])
    ?_ rfl (by simp) rfl (.more (s1 := { s.goto o (.notifyClear s.waiter) with lock := Cell.WAITING ||| bits, waiter := none })
      (e := [.accEnd o]) ?_ rfl (by simp) rfl (.more (s1 := { s.goto o (.notifyWake s.waiter) with
        lock := if cl then Cell.TX_CLOSED else Cell.WAITING, waiter := none }) (e := []) ?_ rfl (by simp) rfl
      (.last (e := match s.waiter with | some v => [.wake o v, .retNotify o true] | none => [.retNotify o false])
        ?_ ?_ ?_ ?_)))), by omega⟩
  · simp only [Cell.step, Cell.runStep, Cell.goto_pc_self, Cell.notifyStart, Cell.goto_lock, hl, if_true]
    simp [Cell.State.goto, bits]
    funext b
    split <;> rfl
  · simp only [Cell.step, Cell.runStep, Cell.goto_pc_self]
    simp [Cell.State.goto, bits]
    funext b
    split <;> rfl
  · simp only [Cell.step, Cell.runStep, Cell.goto_pc_self]
    simp [Cell.State.goto, bits]
    funext b
    split <;> rfl
  · simp only [Cell.step, Cell.runStep, Cell.goto_pc_self]
    have : (Cell.WAITING ||| bits) &&& ~~~Cell.NOTIFYING = if cl then Cell.TX_CLOSED else Cell.WAITING := by
      cases cl <;> decide
    simp [Cell.State.goto, this]
    funext b
    split <;> rfl
  · simp only [Cell.step, Cell.runStep, Cell.goto_pc_self]
    cases s.waiter <;> simp [Cell.State.goto] <;> (funext b; split <;> rfl)
  · cases s.waiter <;> rfl
  · cases s.waiter <;> simp
  · cases s.waiter <;> rfl

/-- The next action of `wait_with`. -/
def waitAct' (o : OpId) (v : W) (s : Cell.State W) : Cell.Act W :=
  match s.pc o with
  | .waitLocked | .waitSelf => .mk o v
  | _ => .run o

/-- `wait_with`. -/
theorem CellRun.wait {c : Cell.Config} {s : Cell.State W} {o : OpId} (hl : s.lock = Cell.WAITING) (v : W) (i : Nat) :
    ∃ j, CellRun c (waitAct' o v) waitRet (s.goto o .waitStart) i { s.goto o .done with waiter := some v } [] .wait j ∧ i ≤ j := by
  refine ⟨i + 1 + 1 + 1 + 1 + 1, .more (s1 := { s.goto o .waitLocked with lock := Cell.PARKING }) (e := [])
    ?_ rfl (by simp) rfl (.more (s1 := { s.goto o (.waitStore v) with lock := Cell.PARKING }) (e := [.mk o v])
    ?_ rfl (by simp) rfl (.more (s1 := { s.goto o (.waitStoring v) with lock := Cell.PARKING })
      (e := [.accBegin o]) ?_ rfl (by simp) rfl (.more (s1 := { s.goto o (.waitUnlock s.waiter false) with
        lock := Cell.PARKING, waiter := some v }) (e := [.accEnd o]) ?_ rfl (by simp) rfl
      (.last (e := [.register o v, .retWait o .wait]) ?_ rfl (by simp) rfl)))), by omega⟩
  · simp only [waitAct', Cell.step, Cell.runStep, Cell.goto_pc_self, Cell.waitStart, Cell.goto_lock, hl, if_true]
    simp [Cell.State.goto]
    funext b
    split <;> rfl
  · simp only [waitAct', Cell.step, Cell.runStep, Cell.goto_pc_self]
    simp [Cell.State.goto]
    funext b
    split <;> rfl
  · simp only [waitAct', Cell.step, Cell.runStep, Cell.goto_pc_self]
    simp [Cell.State.goto]
    funext b
    split <;> rfl
  · simp only [waitAct', Cell.step, Cell.runStep, Cell.goto_pc_self]
    simp [Cell.State.goto]
    funext b
    split <;> rfl
  · simp only [waitAct', Cell.step, Cell.runStep, Cell.goto_pc_self, Cell.waitUnlock, if_true]
    simp [Cell.State.goto, hl]
    funext b
    split <;> rfl

end Thingbuf.Chan
