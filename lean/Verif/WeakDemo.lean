import Verif.WeakChanSim
import Verif.ChanSleepProps

/-!
# Concrete executions of the channel on the memory model

Used beside the theorems to show that hypotheses can be met, and as counterexamples.
-/

namespace Thingbuf.Chan

section
variable {w : Nat} {V : Type}

/-- The timestamp of the newest message. -/
def newest (s : RA.RState w V) (l : RA.Loc) : Nat := ((s.mem l).getLast?.map (·.ts)).getD 0

/-- Every access reads the newest value, and writes a newer one. -/
def newestChoice (c : Config Nat) (s : WState w V) (act : Act V Nat) (known : List Queue.Tid) : Choice :=
  let p := Params.new w c.cap
  match plan c s.ctl act with
  | .core a _ =>
    let pc := s.mem.core.pc (actOp a)
    match a with
    | .elem .. | .elemPanic .. | .read .. => match RA.elemOf p pc with
      | some i => { rd := (s.mem.core.cont i).length }
      | none => {}
    | .dropRef _ => match RA.elemOf p pc with
      | some i => { wr := newest s.mem.core (.slot i) + 1 }
      | none => {}
    | _ => match RA.Orders.source.acc p c.cap pc with
      | .none => {}
      | .load l _ | .rmw l _ | .cas l .. => { rd := newest s.mem.core l, wr := newest s.mem.core l + 1 }
  | .cell a _ => match RA.CellOrders.source.actAcc (s.mem.cpc (RA.cellActOp a)) a with
    | .waker => { rd := s.mem.waiter.length }
    | _ => { rd := s.mem.lock.length - 1 }
  | .queue a _ => match (s.queue.q.pc a.tid).plain a.tid with
    | some x => { rd := (s.queue.word x).top }
    | none => { known := known }
  | _ => {}

/-- One action, with the newest values or as chosen; as many of the given actions as possible; an order between two
operations. -/
inductive WItem (V : Type) where
  | one (a : Act V Nat) (known : List Queue.Tid)
  | at (a : Act V Nat) (ch : Choice)
  | all (l : List (Act V Nat))
  | sync (a b : OpId)

abbrev WOut (w : Nat) (V : Type) := WState w V × Trace V Nat × List (RA.REv V)

/-- What does a step: `wstep`, or the like. -/
abbrev Stepper (w : Nat) (V : Type) := WState w V → Act V Nat → Choice → Option (WOut w V)

def wmany (st : Stepper w V) (c : Config Nat) : Nat → List (Act V Nat) → WState w V → WOut w V
  | 0, _, s => (s, [], [])
  | n + 1, l, s => match l.findSome? fun a => st s a (newestChoice c s a []) with
    | none => (s, [], [])
    | some (s1, e1, r1) => let (s2, e2, r2) := wmany st c n l s1; (s2, e1 ++ e2, r1 ++ r2)

def WItem.exec (st : Stepper w V) (c : Config Nat) (s : WState w V) : WItem V → Option (WOut w V)
  | .one a known => st s a (newestChoice c s a known)
  | .at a ch => st s a ch
  | .all l => some (wmany st c 60 l s)
  | .sync a b => some (s.sync a b, [], [])

def wscript (st : Stepper w V) (c : Config Nat) (s : WState w V) : List (WItem V) → Option (WOut w V)
  | [] => some (s, [], [])
  | i :: l => do
    let (s1, e1, r1) ← i.exec st c s
    let (s2, e2, r2) ← wscript st c s1 l
    pure (s2, e1 ++ e2, r1 ++ r2)

/-- An execution without the assumption about the age of what is read. -/
inductive WSteps (st : Stepper w V) : WState w V → Trace V Nat → List (RA.REv V) → WState w V → Prop where
  | nil {s : WState w V} : WSteps st s [] [] s
  | step {s s1 s2 : WState w V} {act ch e1 r1 e2 r2} : st s act ch = some (s1, e1, r1) → WSteps st s1 e2 r2 s2 →
      WSteps st s (e1 ++ e2) (r1 ++ r2) s2
  | sync {s s2 : WState w V} {e2 r2} (a b : OpId) : WSteps st (s.sync a b) e2 r2 s2 → WSteps st s e2 r2 s2

variable {o : RA.Orders} {co : RA.CellOrders} {c : Config Nat} {st : Stepper w V}

theorem WSteps.trans {s s1 s2 : WState w V} {e1 r1 e2 r2} (h : WSteps st s e1 r1 s1) (h' : WSteps st s1 e2 r2 s2) : WSteps st s (e1 ++ e2) (r1 ++ r2) s2 := by
  induction h with
  | nil => exact h'
  | step hs _ ih => rw [List.append_assoc, List.append_assoc]; exact .step hs (ih h')
  | sync a b _ ih => exact .sync a b (ih h')

theorem WSteps.many {l : List (Act V Nat)} (n : Nat) : ∀ {s : WState w V}, WSteps st s (wmany st c n l s).2.1 (wmany st c n l s).2.2 (wmany st c n l s).1 := by
  induction n with
  | zero => intro s; exact .nil
  | succ n ih =>
    intro s
    simp only [wmany]
    split
    · exact .nil
    · rename_i s1 e1 r1 hs
      obtain ⟨_, a, _, _, h1, _⟩ := List.findSome?_eq_some_iff.1 hs
      exact .step h1 ih

theorem WSteps.script {l : List (WItem V)} : ∀ {s s' : WState w V} {evs revs}, wscript st c s l = some (s', evs, revs) → WSteps st s evs revs s' := by
  induction l with
  | nil => intro s s' evs revs h; cases h; exact .nil
  | cons i l ih =>
    intro s s' evs revs h
    simp only [wscript, Option.bind_eq_bind, Option.bind_eq_some_iff, Option.pure_def, Option.some.injEq, Prod.exists, Prod.mk.injEq] at h
    obtain ⟨s1, e1, r1, h1, s2, e2, r2, h2, rfl, rfl, rfl⟩ := h
    refine WSteps.trans ?_ (ih h2)
    have key : ∀ {a ch}, st s a ch = some (s1, e1, r1) → WSteps st s e1 r1 s1 := by
      intro a ch h
      have := WSteps.step h .nil
      rwa [List.append_nil, List.append_nil] at this
    cases i with
    | one a known => exact key h1
    | «at» a ch => exact key h1
    | sync a b => cases h1; exact .sync a b .nil
    | all l =>
      simp only [WItem.exec, Option.some.injEq] at h1
      have := WSteps.many (st := st) (c := c) (l := l) 60 (s := s)
      rw [h1] at this
      exact this

theorem WSteps.exec {s s' : WState w V} {evs revs} (h : WSteps (wstep o co c) s evs revs s') : ∀ {tr xtr}, WExec o co c w tr xtr s →
    nRes (RA.evsOf (xtr ++ revs)) + 2 * c.cap < period w c.cap → WExec o co c w (tr ++ evs) (xtr ++ revs) s' := by
  induction h with
  | nil => intro tr xtr h _; rw [List.append_nil, List.append_nil]; exact h
  | @step s s1 s2 act ch e1 r1 e2 r2 hs _ ih =>
    intro tr xtr h hn
    rw [← List.append_assoc] at hn
    rw [← List.append_assoc, ← List.append_assoc]
    refine ih (h.step hs ?_) hn
    intro a _
    have : nRes (RA.evsOf (xtr ++ r1)) ≤ nRes (RA.evsOf ((xtr ++ r1) ++ r2)) := by
      rw [RA.evsOf_append (xtr ++ r1) r2, nRes_append]; omega
    omega
  | sync a b _ ih => intro tr xtr h hn; exact ih (.sync a b h) hn

end

abbrev WIt := WItem Nat

/-- The traces of a script, with 8-bit words and the orderings of the source. -/
def wTr (c : Config Nat) (l : List WIt) : Trace Nat Nat × List (RA.REv Nat) :=
  ((wscript (wstep .source .source c) c (WState.init 8 Nat) l).map Prod.snd).getD ([], [])

/-- What the calls of `notify` knew in a script. -/
def wKnown (c : Config Nat) (l : List WIt) (n : Nat) : List (List Queue.Tid) :=
  ((wscript (wstep .source .source c) c (WState.init 8 Nat) l).map fun r => (List.range n).map r.1.queue.before).getD []

theorem WExec.of_script {c : Config Nat} {l : List WIt} (n : Nat) (h : (wscript (wstep .source .source c) c (WState.init 8 Nat) l).isSome)
    (hn : nRes (RA.evsOf (wTr c l).2) + 2 * c.cap < period 8 c.cap) :
    ∃ s : WState 8 Nat, WExec .source .source c 8 (wTr c l).1 (wTr c l).2 s ∧ (List.range n).map s.queue.before = wKnown c l n := by
  obtain ⟨⟨s, e, r⟩, hx⟩ := Option.isSome_iff_exists.1 h
  have h1 := WSteps.script hx
  have h2 : wTr c l = (e, r) := by simp [wTr, hx]
  rw [h2] at hn ⊢
  exact ⟨s, by simpa using h1.exec .init (by simpa using hn), by simp [wKnown, hx]⟩

/-! The calls, as in `ChanDemo`. -/

def wOf : It → WIt
  | .one a => .one a []
  | .all l => .all l

/-- The `RecvRef` of operation `a` is dropped; its `notify` `o` knows of the `notify` calls in `l`. -/
def wDropRecv (a o : Nat) (l : List Nat) : List WIt := [.one (.dropRecv a) [], .one (.recvNotify a o) (l.map .op), .all [.recvNotifyRun a false]]

/-- As `sleepDemo`: capacity 1. Call 1 sends; calls 2 and 3 find the channel full and sleep; the message is received and its `RecvRef` dropped, which wakes call 2; it sends. Its
message is received and the `RecvRef` dropped by the same thread, which wakes call 3; it sends, and call 4 finds the channel full and sleeps. -/
def wSleepDemo : List WIt :=
  (iSend 1 10 1 ++ iDropSend 1 100 ++ iSend 2 11 2 ++ iStart 2 7 ++ iSend 3 12 3 ++ iStart 3 8 ++ iTry 50).map wOf ++ wDropRecv 50 0 [] ++
    (iCont 2 7 ++ iRetry 2 13 2 ++ iDropSend 2 101 ++ iTry 51).map wOf ++ wDropRecv 51 1 [0] ++
    (iCont 3 8 ++ iRetry 3 14 3 ++ iDropSend 3 102 ++ iSend 4 15 4 ++ iStart 4 9).map wOf

/-- Capacity 2, full. Call 3 sleeps; call 4 found the channel full, and is about to wait. Both messages are received. The `RecvRef` of the first one is dropped, which wakes
call 3. Call 3 sends, its message is received and the `RecvRef` dropped, which stores a notification, as nobody waits. Then the `RecvRef` of the second message is dropped by
another thread, which does not know of the other drops: it reads the outdated "waiting" (message 1 of the state), takes the lock, finds nobody to wake, and throws the
notification away. Call 4 waits. -/
def wLostDemo : List WIt :=
  (iSend 1 10 1 ++ iDropSend 1 100 ++ iSend 2 11 2 ++ iDropSend 2 101 ++ iSend 3 12 3 ++ iStart 3 7 ++ iSend 4 13 4 ++ iTry 50 ++ iTry 51).map wOf ++
    wDropRecv 50 0 [] ++ (iCont 3 7 ++ iRetry 3 14 3 ++ iDropSend 3 102 ++ iTry 52).map wOf ++ wDropRecv 52 1 [0] ++
    [.one (.dropRecv 51) [], .one (.recvNotify 51 2) [], .at (.recvNotifyRun 51 false) { rd := 1 }, .all [.recvNotifyRun 51 false]] ++
    (iStart 4 8).map wOf

end Thingbuf.Chan
