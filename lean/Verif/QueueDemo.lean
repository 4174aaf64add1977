import Verif.QueueOrder

/-!
# Concrete executions of the wait queue

Used in `QueueProps` to show that hypotheses can be met, and as counterexamples.
-/

namespace Thingbuf.Queue

theorem ExecM.of_runActs {W : Type} {c : Config W} {tr : Trace W} {s s' : State W} {acts : List (Act W)}
    {evs : Trace W} {bm : Bool} (h : ExecM bm c tr s) (hr : runActs c s acts = some (s', evs)) :
    ExecM bm c (tr ++ evs) s' := by
  induction acts generalizing tr s evs with
  | nil =>
    simp only [runActs, Option.some.injEq, Prod.mk.injEq] at hr
    obtain ⟨rfl, rfl⟩ := hr
    simpa using h
  | cons a as ih =>
    simp only [runActs, Option.bind_eq_bind, Option.bind_eq_some_iff, Option.pure_def,
      Option.some.injEq, Prod.exists, Prod.mk.injEq] at hr
    obtain ⟨s1, e1, h1, s2, e2, h2, rfl, rfl⟩ := hr
    have := ih (h.step h1) h2
    simpa using this

/-- An execution from its trace. -/
theorem Exec.of_trace {W : Type} {c : Config W} {acts : List (Act W)} {tr : Trace W}
    (h : (runActs c State.init acts).map Prod.snd = some tr) : ∃ s, Exec c tr s := by
  simp only [Option.map_eq_some_iff, Prod.exists] at h
  obtain ⟨s, tr', h1, rfl⟩ := h
  exact ⟨s, by simpa using ExecM.init.of_runActs h1⟩

/-- Wakers are numbers; equal numbers wake the same task. -/
def demoC (debug : Bool) : Config Nat := ⟨debug, (· == ·)⟩

def aStart (n v k : Nat) : List (Act Nat) := .start n v :: List.replicate k (.node n false)
def aCont (n v k : Nat) : List (Act Nat) := .cont n v :: List.replicate k (.node n false)
def aNotify (o k : Nat) : List (Act Nat) := .notify o :: List.replicate k (.op o false)
def aOp (o k : Nat) : List (Act Nat) := List.replicate k (.op o false)
def aDrop (n k : Nat) : List (Act Nat) := .drop n :: List.replicate k (.node n false)
def aClose (o k : Nat) : List (Act Nat) := .close o :: List.replicate k (.op o false)

/-- Three senders wait; one is notified; one polls again with another waker; a fourth waits; the
third cancels; the receiver is dropped; the second and a fifth find out. -/
def demoActs : List (Act Nat) :=
  aStart 1 10 6 ++ aStart 2 20 6 ++ aStart 3 30 6 ++ aNotify 0 7 ++ aCont 1 10 1 ++ aCont 2 21 4
    ++ aStart 4 40 6 ++ aDrop 3 5 ++ aClose 9 7 ++ aCont 2 22 1 ++ aStart 5 50 1

def demoTr : Trace Nat :=
  [.callStart 1 10, .touch (.node 1) 1, .enq 1 10, .retStart 1 .wait, .callStart 2 20,
   .touch (.node 2) 2, .touch (.node 2) 1, .enq 2 20, .retStart 2 .wait, .callStart 3 30,
   .touch (.node 3) 3, .touch (.node 3) 2, .enq 3 30, .retStart 3 .wait, .callNotify 0,
   .touch (.op 0) 1, .touch (.op 0) 2, .deq 0 1, .wake 0 1 10, .retNotify 0 true,
   .callCont 1 10, .retCont 1 .notified, .callCont 2 21, .upd 2 21, .retCont 2 .wait,
   .callStart 4 40, .touch (.node 4) 4, .touch (.node 4) 3, .enq 4 40, .retStart 4 .wait,
   .callDrop 3, .touch (.node 3) 3, .touch (.node 3) 4, .touch (.node 3) 2, .rem 3, .free 3,
   .callClose 9, .closing 9, .touch (.op 9) 2, .touch (.op 9) 4, .deq 9 2, .wake 9 2 21,
   .touch (.op 9) 4, .deq 9 4, .wake 9 4 40, .retClose 9, .callCont 2 22, .retCont 2 .closed,
   .callStart 5 50, .retStart 5 .closed]

theorem demo_exec : ∃ s, Exec (demoC true) demoTr s :=
  Exec.of_trace (acts := demoActs) (by decide +kernel)

/-- Two notifications while nobody waits; a sender consumes the stored one and then waits. -/
def demoTr2 : Trace Nat :=
  [.callNotify 0, .store 0, .retNotify 0 false, .callNotify 1, .store 1, .retNotify 1 false,
   .callStart 1 10, .consume 1, .retStart 1 .notified, .callStart 1 11, .touch (.node 1) 1,
   .enq 1 11, .retStart 1 .wait]

theorem demo_exec2 : ∃ s, Exec (demoC true) demoTr2 s :=
  Exec.of_trace (acts := aNotify 0 2 ++ aNotify 1 2 ++ aStart 1 10 1 ++ aStart 1 11 6)
    (by decide +kernel)

/-- Two notifications overlap while one sender waits; afterwards another sender goes to
sleep. -/
def lostTr : Trace Nat :=
  [.callStart 1 10, .touch (.node 1) 1, .enq 1 10, .retStart 1 .wait, .callNotify 0, .callNotify 1,
   .touch (.op 0) 1, .deq 0 1, .wake 0 1 10, .retNotify 0 true, .retNotify 1 false,
   .callStart 2 20, .touch (.node 2) 2, .enq 2 20, .retStart 2 .wait]

theorem lost_exec : ∃ s, Exec (demoC false) lostTr s :=
  Exec.of_trace (acts := aStart 1 10 6 ++ aNotify 0 2 ++ aNotify 1 2 ++ aOp 0 5 ++ aOp 1 4 ++
    aStart 2 20 6) (by decide +kernel)

/-- As `lostTr`, with a third notification that is stored and then overwritten. -/
def overTr : Trace Nat :=
  [.callStart 1 10, .touch (.node 1) 1, .enq 1 10, .retStart 1 .wait, .callNotify 0, .callNotify 1,
   .touch (.op 0) 1, .deq 0 1, .wake 0 1 10, .retNotify 0 true, .callNotify 2, .store 2,
   .retNotify 2 false, .retNotify 1 false, .callStart 2 20, .touch (.node 2) 2, .enq 2 20,
   .retStart 2 .wait]

theorem over_exec : ∃ s, Exec (demoC false) overTr s :=
  Exec.of_trace (acts := aStart 1 10 6 ++ aNotify 0 2 ++ aNotify 1 2 ++ aOp 0 5 ++ aOp 1 2 ++
    aNotify 2 2 ++ aOp 1 2 ++ aStart 2 20 6) (by decide +kernel)

/-- Two notifications overlap and wake in the opposite order. -/
def swapTr : Trace Nat :=
  [.callStart 1 10, .touch (.node 1) 1, .enq 1 10, .retStart 1 .wait, .callStart 2 20,
   .touch (.node 2) 2, .touch (.node 2) 1, .enq 2 20, .retStart 2 .wait, .callNotify 0,
   .touch (.op 0) 1, .touch (.op 0) 2, .deq 0 1, .callNotify 1, .touch (.op 1) 2, .deq 1 2,
   .wake 1 2 20, .retNotify 1 true, .wake 0 1 10, .retNotify 0 true]

theorem swap_exec : ∃ s, Exec (demoC true) swapTr s :=
  Exec.of_trace (acts := aStart 1 10 6 ++ aStart 2 20 6 ++ aNotify 0 6 ++ aNotify 1 7 ++ aOp 0 1)
    (by decide +kernel)

/-- A notification overlaps with another one, in a debug build. -/
def failTr : Trace Nat :=
  [.callStart 1 10, .touch (.node 1) 1, .enq 1 10, .retStart 1 .wait, .callNotify 0, .callNotify 1,
   .touch (.op 0) 1, .deq 0 1, .wake 0 1 10, .retNotify 0 true, .assertFailed (.op 1)]

theorem fail_exec : ∃ s, Exec (demoC true) failTr s :=
  Exec.of_trace (acts := aStart 1 10 6 ++ aNotify 0 2 ++ aNotify 1 2 ++ aOp 0 5 ++ aOp 1 2)
    (by decide +kernel)

/-- A notification overlaps with the cancellation of the only waiting send, in a debug
build. -/
def cancelTr : Trace Nat :=
  [.callStart 1 10, .touch (.node 1) 1, .enq 1 10, .retStart 1 .wait, .callNotify 0, .callDrop 1,
   .touch (.node 1) 1, .rem 1, .free 1, .assertFailed (.op 0)]

theorem cancel_exec : ∃ s, Exec (demoC true) cancelTr s :=
  Exec.of_trace (acts := aStart 1 10 6 ++ aNotify 0 2 ++ aDrop 1 5 ++ aOp 0 2) (by decide +kernel)

/-- The same in a release build, and then another sender goes to sleep. -/
def cancelTr2 : Trace Nat :=
  [.callStart 1 10, .touch (.node 1) 1, .enq 1 10, .retStart 1 .wait, .callNotify 0, .callDrop 1,
   .touch (.node 1) 1, .rem 1, .free 1, .retNotify 0 false, .callStart 2 20, .touch (.node 2) 2,
   .enq 2 20, .retStart 2 .wait]

theorem cancel_exec2 : ∃ s, Exec (demoC false) cancelTr2 s :=
  Exec.of_trace (acts := aStart 1 10 6 ++ aNotify 0 2 ++ aDrop 1 5 ++ aOp 0 4 ++ aStart 2 20 6)
    (by decide +kernel)

/-- A blocking send times out; later a notification is sent. -/
def danglingTr : Trace Nat :=
  [.callStart 1 10, .touch (.node 1) 1, .enq 1 10, .retStart 1 .wait, .giveUp 1, .free 1,
   .callNotify 0, .touch (.op 0) 1, .deq 0 1, .wake 0 1 10, .retNotify 0 true]

theorem dangling_exec : ∃ s, Exec (demoC true) danglingTr s :=
  Exec.of_trace (acts := aStart 1 10 6 ++ [.giveUp 1] ++ aNotify 0 7) (by decide +kernel)

/-- A blocking send is notified and times out before it notices. -/
def lateTr : Trace Nat :=
  [.callStart 1 10, .touch (.node 1) 1, .enq 1 10, .retStart 1 .wait, .callNotify 0,
   .touch (.op 0) 1, .deq 0 1, .wake 0 1 10, .retNotify 0 true, .giveUp 1, .free 1]

theorem late_exec : ∃ s, Exec (demoC true) lateTr s :=
  Exec.of_trace (acts := aStart 1 10 6 ++ aNotify 0 7 ++ [.giveUp 1]) (by decide +kernel)

end Thingbuf.Queue
