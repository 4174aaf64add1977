import Verif.Cell

/-!
# Wakers that panic when they are woken: the receiver's wait cell

`Cell.lean` has panics of the closure that makes the waker. This module adds panics of `wake`. With the feature `std` the
wake of line 127 of /repo/src/wait/cell.rs is inside `catch_unwind`; those of lines 75, 134 and 171 are not. Simplification: the
model is of the library with `std`; without it the wake of line 127 and the drop of line 107 may unwind too.
-/

namespace Thingbuf.Cell

variable {W : Type}

/-- What happens: an event of the cell, or a panic out of call `a`. Scaffolding of the model, no counterpart in the source. -/
inductive PEv (W : Type) where
  | ev (e : Event W)
  | panic (a : OpId)
  deriving DecidableEq

/-- Scaffolding of the model, no counterpart in the source. -/
abbrev PTrace (W : Type) := List (PEv W)

/-- The steps that panic; `bad v` says that waking `v` panics. Lines 75, 134 and 171 of /repo/src/wait/cell.rs: unwinding leaves
the function. -/
def panics (c : Config) (bad : W → Bool) (s : State W) : Act W → Option (State W × PTrace W)
  | .mk a v => match s.pc a with
    | .waitSelf => if bad v then some (s.goto a .done, [.ev (.mk a v), .ev (.wake a v), .panic a]) else none
    | _ => none
  | .run a => match s.pc a with
    | .waitWake none panicked (some v) _ =>
      if bad v ∧ ¬ (c.debug ∧ panicked) then some (s.goto a .done, [.ev (.wake a v), .panic a]) else none
    | .notifyWake (some v) => if bad v then some (s.goto a .done, [.ev (.wake a v), .panic a]) else none
    | _ => none
  | _ => none

/-- A step of the cell with wakers that may panic: that of `step`, unless a waker panics. /repo/src/wait/cell.rs lines
65-176. -/
def pstep (c : Config) (bad : W → Bool) (s : State W) (act : Act W) : Option (State W × PTrace W) :=
  match panics c bad s act with
  | some r => some r
  | none => (step c s act).map fun r => (r.1, r.2.map .ev)

/-- Executions of a new cell with wakers that may panic. Scaffolding of the model, no counterpart in the source: the
interleavings of the functions of /repo/src/wait/cell.rs lines 65-176. -/
inductive PExec (c : Config) (bad : W → Bool) : PTrace W → State W → Prop where
  | init : PExec c bad [] (State.init W)
  | step {tr : PTrace W} {s s' : State W} {act : Act W} {evs : PTrace W} :
      PExec c bad tr s → pstep c bad s act = some (s', evs) → PExec c bad (tr ++ evs) s'

/-- Run a list of actions. Scaffolding of the model, no counterpart in the source. -/
def prunActs (c : Config) (bad : W → Bool) (s : State W) : List (Act W) → Option (State W × PTrace W)
  | [] => some (s, [])
  | a :: as => do
    let (s1, e1) ← pstep c bad s a
    let (s2, e2) ← prunActs c bad s1 as
    pure (s2, e1 ++ e2)

theorem PExec.run {c : Config} {bad : W → Bool} {as : List (Act W)} : ∀ {tr : PTrace W} {s s' : State W} {evs : PTrace W},
    PExec c bad tr s → prunActs c bad s as = some (s', evs) → PExec c bad (tr ++ evs) s' := by
  induction as with
  | nil => rintro tr s s' evs h hs; cases hs; simpa using h
  | cons a as ih =>
    intro tr s s' evs h hs
    simp only [prunActs, bind, Option.bind_eq_some_iff, pure] at hs
    obtain ⟨⟨s1, e1⟩, h1, ⟨s2, e2⟩, h2, h3⟩ := hs
    cases h3
    rw [← List.append_assoc]
    exact ih (h.step h1) h2

/-- What an event of a run with panics is in a run in which the panicking calls return instead.
Scaffolding of the model, no counterpart in the source. -/
inductive LikeEv : PEv W → Trace W → Prop where
  | ev (e) : LikeEv (.ev e) [e]
  | notify (a) : LikeEv (.panic a) [.retNotify a true]
  | wait (a r) (hr : r ≠ .wait) : LikeEv (.panic a) [.retWait a r]

/-- Two traces are alike if they differ in this only: where the first has a call that panics, the second has one that returns
(and `wait_with` does not return `Wait`). Scaffolding of the model, no counterpart in the source. -/
inductive Like : PTrace W → Trace W → Prop where
  | nil : Like [] []
  | cons {x p es t} : LikeEv x es → Like p t → Like (x :: p) (es ++ t)

theorem Like.append {p p' : PTrace W} {t t' : Trace W} (h : Like p t) (h' : Like p' t') : Like (p ++ p') (t ++ t') := by
  induction h with
  | nil => simpa using h'
  | cons h1 _ ih => rw [List.cons_append, List.append_assoc]; exact .cons h1 ih

theorem Like.ev (t : Trace W) : Like (t.map .ev) t := by
  induction t with
  | nil => exact .nil
  | cons e t ih => exact .cons (.ev e) ih

/-- An event that is not the return of a call other than `Wait`. -/
def Event.kept : Event W → Bool
  | .retNotify _ _ => false
  | .retWait _ r => r == .wait
  | _ => true

theorem LikeEv.length {x : PEv W} {es : Trace W} (h : LikeEv x es) : ∃ e, es = [e] ∧ (e.kept = true → x = .ev e) := by
  cases h with
  | ev e => exact ⟨e, rfl, fun _ => rfl⟩
  | notify a => exact ⟨_, rfl, by simp [Event.kept]⟩
  | wait a r hr => exact ⟨_, rfl, by simp [Event.kept, hr]⟩

theorem Like.split {p p' : PTrace W} {t : Trace W} {e : Event W} (h : Like (p ++ .ev e :: p') t) :
    ∃ a b, t = a ++ e :: b ∧ Like p a ∧ Like p' b := by
  induction p generalizing t with
  | nil =>
    cases h with
    | cons h1 h2 => cases h1; exact ⟨[], _, rfl, .nil, h2⟩
  | cons x p ih =>
    cases h with
    | cons h1 h2 =>
      obtain ⟨a, b, rfl, h3, h4⟩ := ih h2
      exact ⟨_ ++ a, b, by simp, .cons h1 h3, h4⟩

theorem Like.unsplit {p : PTrace W} {a b : Trace W} {e : Event W} (he : e.kept = true) (h : Like p (a ++ e :: b)) :
    ∃ p1 p2, p = p1 ++ .ev e :: p2 ∧ Like p1 a ∧ Like p2 b := by
  induction p generalizing a with
  | nil => generalize ht : a ++ e :: b = t at h; cases h; simp at ht
  | cons x p ih =>
    generalize ht : a ++ e :: b = t at h
    cases h with
    | @cons _ _ es t h1 h2 =>
      obtain ⟨e', rfl, hx⟩ := h1.length
      cases a with
      | nil =>
        simp at ht
        obtain ⟨rfl, rfl⟩ := ht
        rw [hx he]
        exact ⟨[], p, rfl, .nil, h2⟩
      | cons y a =>
        simp at ht
        obtain ⟨rfl, rfl⟩ := ht
        obtain ⟨p1, p2, rfl, h3, h4⟩ := ih h2
        exact ⟨_ :: p1, p2, rfl, .cons h1 h3, h4⟩

theorem Like.mem {p : PTrace W} {t : Trace W} (h : Like p t) {e : Event W} (he : .ev e ∈ p) : e ∈ t := by
  obtain ⟨a, b, rfl⟩ := List.append_of_mem he
  obtain ⟨a', b', rfl, _⟩ := h.split
  simp

theorem Like.of_mem {p : PTrace W} {t : Trace W} (h : Like p t) {e : Event W} (hk : e.kept = true) (he : e ∈ t) :
    .ev e ∈ p := by
  obtain ⟨a, b, rfl⟩ := List.append_of_mem he
  obtain ⟨a', b', rfl, _⟩ := h.unsplit hk
  simp

/-- A panic corresponds to one or two steps without panics, to the same state. -/
theorem panics_like {c : Config} {bad : W → Bool} {s s' : State W} {act : Act W} {evs : PTrace W} {tr : Trace W} (he : Exec c tr s)
    (h : panics c bad s act = some (s', evs)) : ∃ evs', Exec c (tr ++ evs') s' ∧ Like evs evs' := by
  cases act with
  | mk a v =>
    simp only [panics] at h
    cases hpc : s.pc a <;> rw [hpc] at h <;> try cases h
    simp only at h
    split at h <;> cases h
    refine ⟨[.mk a v, .wake a v, .retWait a .notified], he.step (act := .mk a v) (by simp [Cell.step, hpc]), ?_⟩
    exact .cons (.ev _) (.cons (.ev _) (.cons (.wait a _ (by simp)) .nil))
  | run a =>
    simp only [panics] at h
    split at h
    · rename_i p v cl hpc
      split at h
      · rename_i hb
        cases h
        have h1 : Cell.step c s (.run a) = some (s.goto a (.waitWake none p none cl), [.wake a v]) := by
          simp only [Cell.step, runStep, hpc, waitWake]
          rw [if_neg hb.2]
        have h2 : Cell.step c (s.goto a (.waitWake none p none cl)) (.run a) = some (s.goto a .done,
            [.retWait a (if p then .panicked else if cl then .closed else .notified)]) := by
          simp only [Cell.step, runStep, State.goto, if_true, waitWake]
          congr 2
          simp only [State.mk.injEq, true_and]
          funext b
          split <;> rfl
        refine ⟨_, ?_, .cons (.ev _) (.cons (.wait a (if p then .panicked else if cl then .closed else .notified) ?_) .nil)⟩
        · have := (he.step h1).step h2
          simpa using this
        · cases p <;> cases cl <;> simp
      · cases h
    · rename_i v hpc
      split at h <;> cases h
      refine ⟨[.wake a v, .retNotify a true], he.step (act := .run a) (by simp [Cell.step, runStep, hpc]), ?_⟩
      exact .cons (.ev _) (.cons (.notify a) .nil)
    · cases h
  | _ => cases h

theorem PExec.like {c : Config} {bad : W → Bool} {tr : PTrace W} {s : State W} (h : PExec c bad tr s) :
    ∃ tr', Exec c tr' s ∧ Like tr tr' := by
  induction h with
  | init => exact ⟨[], .init, .nil⟩
  | @step tr s s' act evs h hst ih =>
    obtain ⟨tr', he, hl⟩ := ih
    simp only [pstep] at hst
    split at hst
    · rename_i r hp
      cases hst
      obtain ⟨evs', h1, h2⟩ := panics_like he hp
      exact ⟨_, h1, hl.append h2⟩
    · cases h1 : Cell.step c s act with
      | none => rw [h1] at hst; cases hst
      | some r =>
        rw [h1] at hst
        cases hst
        exact ⟨tr' ++ r.2, he.step h1, hl.append (Like.ev _)⟩

end Thingbuf.Cell
