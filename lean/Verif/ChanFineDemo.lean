import Verif.ChanFineTrace
import Verif.ChanDemo

/-!
# Concrete executions of the channel with the two-step dequeue
-/

namespace Thingbuf.Chan

section
variable {w : Nat} {V W : Type} {c : Config W}

/-- Some of the actions, as long as one is possible. -/
def fmany (c : Config W) : Nat → List (Act V W) → FState w V W → FState w V W × Trace V W
  | 0, _, s => (s, [])
  | n + 1, l, s => match l.findSome? (fstep c s) with
    | none => (s, [])
    | some (s1, e1) => let (s2, e2) := fmany c n l s1; (s2, e1 ++ e2)

def Item.fexec (c : Config W) (s : FState w V W) : Item V W → Option (FState w V W × Trace V W)
  | .one a => fstep c s a
  | .all l => some (fmany c 60 l s)

def fscript (c : Config W) (s : FState w V W) : List (Item V W) → Option (FState w V W × Trace V W)
  | [] => some (s, [])
  | i :: l => do
    let (s1, e1) ← i.fexec c s
    let (s2, e2) ← fscript c s1 l
    pure (s2, e1 ++ e2)

theorem FExec.fmany (l : List (Act V W)) (n : Nat) : ∀ {tr : Trace V W} {s : FState w V W}, FExec c tr s →
    FExec c (tr ++ (Chan.fmany c n l s).2) (Chan.fmany c n l s).1 := by
  induction n with
  | zero => intro tr s h; simpa [Chan.fmany] using h
  | succ n ih =>
    intro tr s h
    simp only [Chan.fmany]
    split
    · simpa using h
    · rename_i s1 e1 hs
      obtain ⟨_, a, _, _, h1, _⟩ := List.findSome?_eq_some_iff.1 hs
      have := ih (h.step h1)
      simpa using this

theorem FExec.fscript {l : List (Item V W)} : ∀ {tr : Trace V W} {s s' : FState w V W} {evs : Trace V W}, FExec c tr s →
    Chan.fscript c s l = some (s', evs) → FExec c (tr ++ evs) s' := by
  induction l with
  | nil =>
    intro tr s s' evs h hr
    simp only [Chan.fscript, Option.some.injEq, Prod.mk.injEq] at hr
    obtain ⟨rfl, rfl⟩ := hr
    simpa using h
  | cons i l ih =>
    intro tr s s' evs h hr
    simp only [Chan.fscript, Option.bind_eq_bind, Option.bind_eq_some_iff, Option.pure_def, Option.some.injEq, Prod.exists, Prod.mk.injEq] at hr
    obtain ⟨s1, e1, h1, s2, e2, h2, rfl, rfl⟩ := hr
    rw [← List.append_assoc]
    refine ih ?_ h2
    cases i with
    | one a => exact h.step h1
    | all l =>
      simp only [Item.fexec, Option.some.injEq] at h1
      have := FExec.fmany (c := c) l 60 h
      rw [h1] at this
      exact this

end

/-- The trace of a script. -/
def fscriptTr (c : Config Nat) (l : List It) : Trace Nat Nat := ((fscript c (FState.init 8 Nat Nat) l).map Prod.snd).getD []

theorem FRun.of_fscriptTr {c : Config Nat} {l : List It} (hw : WellSized 8 c.cap) (h : (fscript c (FState.init 8 Nat Nat) l).isSome)
    (hn : nRes (coreOf (fscriptTr c l)) + 2 * c.cap < period 8 c.cap) : ∃ f : FState 8 Nat Nat, FRun c (fscriptTr c l) f := by
  obtain ⟨⟨f, tr⟩, hx⟩ := Option.isSome_iff_exists.1 h
  refine ⟨f, hw, ?_, NoStall.of_few hn⟩
  have : fscriptTr c l = tr := by simp [fscriptTr, hx]
  rw [this]
  simpa using FExec.init.fscript hx

/-- Until the receiver has marked the node of send call 2, and not yet done the rest of `List::dequeue`: the channel has capacity 1 and is full,
call 2 waits, the message is received, and its `RecvRef` is being dropped. -/
def gapDemo : List It := iSend 1 100 11 ++ iDropSend 1 200 ++ iSend 2 101 12 ++ iStart 2 22 ++ iTry 300 ++
  [.one (.dropRecv 300), .one (.recvNotify 300 400)] ++ List.replicate 4 (.one (.recvNotifyRun 300 false))

/-- Then the future of call 2 is dropped; then the drop of the `RecvRef` goes on. -/
def gapCancel : List It := gapDemo ++ iCancel 2 ++ [.all [.recvNotifyRun 300 false]]

/-- Then call 2 is polled again, or its thread is unparked, for another reason: it sends its message and returns; then the drop of the `RecvRef` goes on. -/
def gapSend : List It := gapDemo ++ iCont 2 22 ++ iRetry 2 102 12 ++ [.all [.recvNotifyRun 300 false]]

/-- The same with the drop of the `Receiver` instead of that of a `RecvRef`: call 2 is polled, or unparked, in the gap, and returns. -/
def gapClose : List It := iSend 1 100 11 ++ iDropSend 1 200 ++ iSend 2 101 12 ++ iStart 2 22 ++ [.one (.dropRx false)] ++
  List.replicate 6 (.one (.rx 400 false)) ++ iCont 2 22 ++ [.all [.rx 400 false]]

/-- Nothing is half way: call 2 waits, is woken by the drop of a `RecvRef`, sends its message, and returns. -/
def calmDemo : List It := iSend 1 100 11 ++ iDropSend 1 200 ++ iSend 2 101 12 ++ iStart 2 22 ++ iTry 300 ++ iDropRecv 300 400 ++ iCont 2 22 ++ iRetry 2 102 12 ++
  iDropSend 2 201 ++ iTry 301 ++ iDropRecv 301 401

end Thingbuf.Chan
