import Verif.WeakDemo
import Verif.WeakOrderInv

/-!
# Concrete executions of the channel on the memory model, whose threads run their code in order

Used beside the theorems to show that hypotheses can be met.
-/

namespace Thingbuf.Chan

section
variable {w : Nat} {V : Type} (o : RA.Orders) (co : RA.CellOrders) (c : Config Nat) (th : Thread → OpId)

/-- The step of `PExec`. -/
def pstep : Stepper w V := fun s act ch =>
  (wstep o co c (s.enter th (who s.ctl act)) act ch).map fun r => (r.1.leave th (who s.ctl act), r.2)

variable {o co c th}

theorem WSteps.pexec {s s' : WState w V} {evs revs} (h : WSteps (pstep o co c th) s evs revs s') : ∀ {tr xtr}, PExec o co c w th tr xtr s →
    nRes (RA.evsOf (xtr ++ revs)) + 2 * c.cap < period w c.cap → PExec o co c w th (tr ++ evs) (xtr ++ revs) s' := by
  induction h with
  | nil => intro tr xtr h _; rw [List.append_nil, List.append_nil]; exact h
  | @step s s1 s2 act ch e1 r1 e2 r2 hs _ ih =>
    intro tr xtr h hn
    rw [← List.append_assoc] at hn
    rw [← List.append_assoc, ← List.append_assoc]
    obtain ⟨⟨s3, e3, r3⟩, h1, h2⟩ := Option.map_eq_some_iff.1 hs
    cases h2
    refine ih (h.step h1 ?_) hn
    intro a _
    have : nRes (RA.evsOf (xtr ++ r1)) ≤ nRes (RA.evsOf ((xtr ++ r1) ++ r2)) := by
      rw [RA.evsOf_append (xtr ++ r1) r2, nRes_append]; omega
    omega
  | sync a b _ ih => intro tr xtr h hn; exact ih (.sync a b h) hn

end

/-- Where the examples keep what the threads know. -/
def thN : Thread → OpId
  | .snd k => 1000 + k
  | .rx => 900
  | .tx => 901

/-- The traces of a script, with 8-bit words. -/
def pTr (o : RA.Orders) (co : RA.CellOrders) (c : Config Nat) (l : List WIt) : Trace Nat Nat × List (RA.REv Nat) :=
  ((wscript (pstep o co c thN) c (WState.init 8 Nat) l).map Prod.snd).getD ([], [])

theorem PExec.of_script {o : RA.Orders} {co : RA.CellOrders} {c : Config Nat} {l : List WIt}
    (h : (wscript (pstep o co c thN) c (WState.init 8 Nat) l).isSome)
    (hn : nRes (RA.evsOf (pTr o co c l).2) + 2 * c.cap < period 8 c.cap) :
    ∃ s : WState 8 Nat, PExec o co c 8 thN (pTr o co c l).1 (pTr o co c l).2 s := by
  obtain ⟨⟨s, e, r⟩, hx⟩ := Option.isSome_iff_exists.1 h
  have h1 := WSteps.script hx
  have h2 : pTr o co c l = (e, r) := by simp [pTr, hx]
  rw [h2] at hn ⊢
  exact ⟨s, by simpa using h1.pexec .init (by simpa using hn)⟩

/-- The receiver pops, and each time it looks at the slot it finds the slot as it was at the beginning. -/
def iStalePop (a : Nat) : List WIt :=
  let n : WIt := .one (.rx 0 false) []
  let st : WIt := .at (.rx 0 false) { rd := 0 }
  [.one (.rx a false) [], n, st, n, n, st, n, n, st, n, n, st, n]

/-- A poll both pops of which miss what has been sent. -/
def iStalePoll (v a : Nat) : List WIt :=
  .one (.poll v) [] :: iStalePop a ++ .one (.rx (a + 1) false) [] :: List.replicate 5 (.one (.rx 0 false) []) ++ iStalePop (a + 2)

/-- Message 11 is sent, but the receiver does not hear of it: the first pop of its poll finds the slot as it was. It registers its waker and pops again, with the same
result. Only then is the receiver notified. -/
def pWakeDemo : List WIt :=
  (iSend 1 100 11).map wOf ++ .one (.dropSend 1) [] :: iStalePoll 31 300 ++ [.one (.sendNotify 1 200) [], .all [.sendNotifyRun 1]]

/-- The same, but the receiver has been notified before the poll. -/
def pLostDemo : List WIt := (iSend 1 100 11 ++ iDropSend 1 200).map wOf ++ iStalePoll 31 300

end Thingbuf.Chan
