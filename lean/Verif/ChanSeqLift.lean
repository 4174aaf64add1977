import Verif.ChanSeqCore
import Verif.ChanSeqCell
import Verif.ChanSeqQueue
/-!
# Sequential use of the channel: from its parts to the channel
-/

namespace Thingbuf.Chan

variable {w : Nat} {V W R : Type}

theorem obs_append (a b : Trace V W) : obs (a ++ b) = obs a ++ obs b := List.filterMap_append ..

/-- The machine runs by `next` from `s`, then what `fin` says happens, and the outcome satisfies `Q`. -/
def Then (c : Config W) (next : State w V W → Nat → Option (Act V W))
    (fin : State w V W → Nat → State w V W → Trace V W → Nat → Prop) (s : State w V W) (i : Nat)
    (Q : State w V W → List (Obs V W) → Nat → Prop) : Prop :=
  ∃ s1 e1 j1 s2 e2 j2, Goes c next s i s1 e1 j1 ∧ fin s1 j1 s2 e2 j2 ∧ Q s2 (obs (e1 ++ e2)) j2

variable {c : Config W} {next : State w V W → Nat → Option (Act V W)}
  {fin : State w V W → Nat → State w V W → Trace V W → Nat → Prop} {s : State w V W} {i : Nat}
  {Q : State w V W → List (Obs V W) → Nat → Prop}

theorem Then.stop {s2 : State w V W} {e2 : Trace V W} {j2 : Nat} (h : next s i = none) (hf : fin s i s2 e2 j2)
    (hq : Q s2 (obs e2) j2) : Then c next fin s i Q :=
  ⟨s, [], i, s2, e2, j2, .stop h, hf, hq⟩

theorem Then.step {act : Act V W} {s1 : State w V W} {e1 : Trace V W} (h : next s i = some act)
    (hs : step c s act = some (s1, e1)) (ht : Then c next fin s1 (i + 1) fun s' o j => Q s' (obs e1 ++ o) j) :
    Then c next fin s i Q := by
  obtain ⟨t1, f1, j1, t2, f2, j2, h1, h2, h3⟩ := ht
  exact ⟨t1, e1 ++ f1, j1, t2, f2, j2, .step h hs h1, h2, by rw [List.append_assoc, obs_append]; exact h3⟩

theorem Then.mono {Q' : State w V W → List (Obs V W) → Nat → Prop} (h : Then c next fin s i Q)
    (hq : ∀ s o j, Q s o j → Q' s o j) : Then c next fin s i Q' := by
  obtain ⟨t1, f1, j1, t2, f2, j2, h1, h2, h3⟩ := h
  exact ⟨t1, f1, j1, t2, f2, j2, h1, h2, hq _ _ _ h3⟩

/-- Part of a call is an operation on the ring buffer. -/
theorem Then.core {act : Thingbuf.State w V → Nat → Thingbuf.Act V} {after : State w V W → Option Ret → Out w V W}
    (hact : ∀ cs j, ∃ A, next { s with core := cs } j = some A ∧
      Chan.step c { s with core := cs } A = onCore c { s with core := cs } (act cs j) after)
    (hnone : ∀ t : State w V W, after t none = (t, [])) {cs cs' : Thingbuf.State w V} {r : Ret} {j : Nat}
    (h : CoreRun c.cap act cs i cs' r j)
    (ht : Then c next fin (after { s with core := cs' } (some r)).1 j
      fun s' o j => Q s' (obs (after { s with core := cs' } (some r)).2 ++ o) j) :
    Then c next fin { s with core := cs } i Q := by
  induction h with
  | @last cs cs' i e r hs hr hq =>
    obtain ⟨A, h1, h2⟩ := hact cs i
    refine Then.step (s1 := (after { s with core := cs' } (some r)).1)
      (e1 := e.map .core ++ (after { s with core := cs' } (some r)).2) h1 ?_ ?_
    · rw [h2]
      simp only [onCore, hs, hr]
    · rw [obs_append, obs_silent hq]
      exact ht
  | @more cs cs1 cs' i j e r hs hr hq _ ih =>
    obtain ⟨A, h1, h2⟩ := hact cs i
    refine Then.step (s1 := { s with core := cs1 }) (e1 := e.map .core) h1 ?_ ?_
    · rw [h2]
      simp only [onCore, hs, hr, hnone, List.append_nil]
    · rw [obs_silent hq]
      exact ih ht

/-- Part of a call is an operation on the wait cell. -/
theorem Then.cell {act : Cell.State W → Cell.Act W} {over : List (Cell.Event W) → Option R}
    {after : State w V W → List (Cell.Event W) → Out w V W} {fin' : State w V W → R → Out w V W}
    (hact : ∀ cs j, ∃ A, next { s with cell := cs } j = some A ∧
      Chan.step c { s with cell := cs } A = onCell c { s with cell := cs } (act cs) after)
    (hnone : ∀ (t : State w V W) e, over e = none → after t e = (t, []))
    (hsome : ∀ (t : State w V W) e r, over e = some r → after t e = fin' t r)
    {cs cs' : Cell.State W} {r : R} {ws : List W} {j : Nat} (h : CellRun c.cell act over cs i cs' ws r j)
    (ht : Then c next fin (fin' { s with cell := cs' } r).1 j
      fun s' o j => Q s' (ws.map .woke ++ (obs (fin' { s with cell := cs' } r).2 ++ o)) j) :
    Then c next fin { s with cell := cs } i Q := by
  induction h with
  | @last cs cs' i e r ws hs hr hq hw =>
    obtain ⟨A, h1, h2⟩ := hact cs i
    refine Then.step (s1 := (fin' { s with cell := cs' } r).1)
      (e1 := e.map .cell ++ (fin' { s with cell := cs' } r).2) h1 ?_ ?_
    · rw [h2]
      simp only [onCell, hs, hsome _ _ _ hr]
    · simp only [obs_append, obs_cell hq, hw, List.append_assoc]
      exact ht
  | @more cs cs1 cs' i j e r ws hs hr hq hw _ ih =>
    obtain ⟨A, h1, h2⟩ := hact cs i
    refine Then.step (s1 := { s with cell := cs1 }) (e1 := e.map .cell) h1 ?_ ?_
    · rw [h2]
      simp only [onCell, hs, hnone _ _ hr, List.append_nil]
    · simp only [obs_cell hq, hw, List.map_nil, List.nil_append]
      exact ih ht

/-- Part of a call is an operation on the wait queue. -/
theorem Then.queue {act : Nat → Queue.Act W} {over : List (Queue.Event W) → Option R}
    {after : State w V W → List (Queue.Event W) → Out w V W} {fin' : State w V W → R → Out w V W}
    (hact : ∀ cs j, ∃ A, next { s with queue := cs } j = some A ∧
      Chan.step c { s with queue := cs } A = onQueue c { s with queue := cs } (act j) after)
    (hnone : ∀ (t : State w V W) e, over e = none → after t e = (t, []))
    (hsome : ∀ (t : State w V W) e r, over e = some r → after t e = fin' t r)
    {cs cs' : Queue.State W} {r : R} {ws : List W} {j : Nat} (h : QRun c.queue act over cs i cs' ws r j)
    (ht : Then c next fin (fin' { s with queue := cs' } r).1 j
      fun s' o j => Q s' (ws.map .woke ++ (obs (fin' { s with queue := cs' } r).2 ++ o)) j) :
    Then c next fin { s with queue := cs } i Q := by
  induction h generalizing Q with
  | @last cs cs' i e r ws hs hr hq hw =>
    obtain ⟨A, h1, h2⟩ := hact cs i
    refine Then.step (s1 := (fin' { s with queue := cs' } r).1)
      (e1 := e.map .queue ++ (fin' { s with queue := cs' } r).2) h1 ?_ ?_
    · rw [h2]
      simp only [onQueue, hs, hsome _ _ _ hr]
    · simp only [obs_append, obs_queue hq, hw, List.append_assoc]
      exact ht
  | @more cs cs1 cs' i j e r ws ws' hs hr hq hw _ ih =>
    obtain ⟨A, h1, h2⟩ := hact cs i
    refine Then.step (s1 := { s with queue := cs1 }) (e1 := e.map .queue) h1 ?_ ?_
    · rw [h2]
      simp only [onQueue, hs, hnone _ _ hr, List.append_nil]
    · simp only [obs_queue hq, hw]
      refine ih (Then.mono ht fun s' o j hq => ?_)
      simpa only [List.map_append, List.append_assoc] using hq

end Thingbuf.Chan
