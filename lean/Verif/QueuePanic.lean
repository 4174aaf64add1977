import Verif.QueueReenter

/-!
# Wakers that panic

`Waker::clone`, `Waker::wake` and the drop of a `Waker` run code of the user, which may panic. `start_wait` and
`continue_wait` clone wakers and drop them, `notify` and `close` wake them. This module adds these panics to the model of
`src/wait/queue.rs`: unwinding leaves the function, and releases the lock if it is held (the guard is dropped).
-/

namespace Thingbuf.Queue

variable {W : Type}

/-- A waker of the user, and which of its operations panic. The argument `waiter: &T` of `start_wait` and `continue_wait`,
/repo/src/wait/queue.rs lines 189 and 301, for `T = Waker`. Simplification: whether an operation panics is fixed for a
waker; the drop of a waker panics only where the queue drops one, at line 352. -/
structure Wk (W : Type) where
  id : W
  clonePanics : Bool := false
  wakePanics : Bool := false
  dropPanics : Bool := false
  deriving DecidableEq

/-- What happens: an event of the queue, or a panic out of the call that thread `t` is in.
Scaffolding of the model, no counterpart in the source. -/
inductive PEv (W : Type) where
  | ev (e : Event (Wk W))
  | panic (t : Tid)
  deriving DecidableEq

/-- Scaffolding of the model, no counterpart in the source. -/
abbrev PTrace (W : Type) := List (PEv W)

/-- Does the drop of the waker that is being replaced panic? /repo/src/wait/queue.rs line 352. -/
def oldPanics : Option (Wk W) → Bool
  | some u => u.dropPanics
  | none => false

/-- Does `continue_wait_slow` keep the waker it has? /repo/src/wait/queue.rs lines 350-351. -/
def keepsOld (c : Config (Wk W)) : Option (Wk W) → Wk W → Bool
  | some u, v => c.same u v
  | none, _ => false

/-- The clone of line 273 of /repo/src/wait/queue.rs panics: the node is as it was, the lock is released, and the state word
remains as lines 220-268 left it. The future is still in its `Start` state (/repo/src/mpsc/async_impl.rs lines 1444-1463), so
the next call is `start_wait` again. -/
def startPanic (s : State (Wk W)) (n : Nat) : State (Wk W) × PTrace W :=
  ((s.goto (.node n) (.idle .startNotified)).unlock, [.panic (.node n)])

/-- Lines 349-358 of /repo/src/wait/queue.rs. If the clone panics nothing was assigned. If the drop of the old waker
panics, the new one is in place: an assignment writes also when the drop of the old value unwinds. -/
def contPanic (c : Config (Wk W)) (s : State (Wk W)) (n : Nat) (v : Wk W) : Option (State (Wk W) × PTrace W) :=
  if keepsOld c (s.list.node n).waiter v then none
  else if v.clonePanics then
    some ((s.goto (.node n) (.idle .waiting)).unlock, [.panic (.node n)])
  else if oldPanics (s.list.node n).waiter then
    some ((contUpd c s n v).1, [.ev (.upd n v), .panic (.node n)])
  else none

/-- The wake of line 428 of /repo/src/wait/queue.rs panics: the lock has been released before. -/
def notifyPanic (s : State (Wk W)) (o n : Nat) (v : Wk W) : State (Wk W) × PTrace W :=
  (s.endNotify o, [.ev (.wake o n v), .panic (.op o)])

/-- The wake of line 450 of /repo/src/wait/queue.rs panics: unwinding leaves the loop of `close` and releases the lock. -/
def closePanic (s : State (Wk W)) (o n : Nat) (v : Wk W) : State (Wk W) × PTrace W :=
  ((s.goto (.op o) .done).unlock, [.ev (.wake o n v), .panic (.op o)])

/-- The steps that panic. /repo/src/wait/queue.rs lines 273, 349-358, 428 and 450. -/
def panics (c : Config (Wk W)) (s : State (Wk W)) : Act (Wk W) → Option (State (Wk W) × PTrace W)
  | .node n _ => match s.pc (.node n) with
    | .startSet v => if v.clonePanics then some (startPanic s n) else none
    | .contUpd v => contPanic c s n v
    | _ => none
  | .op o _ => match s.pc (.op o) with
    | .nWake n v => if v.wakePanics then some (notifyPanic s o n v) else none
    | .cWake n v => if v.wakePanics then some (closePanic s o n v) else none
    | _ => none
  | _ => none

/-- A step of the queue with wakers that may panic: that of `step`, unless a waker panics.
/repo/src/wait/queue.rs lines 189-491. -/
def pstep (c : Config (Wk W)) (s : State (Wk W)) (act : Act (Wk W)) : Option (State (Wk W) × PTrace W) :=
  match panics c s act with
  | some r => some r
  | none => (step c s act).map fun r => (r.1, r.2.map .ev)

/-- Executions of a new queue with wakers that may panic. Scaffolding of the model, no counterpart in the source: the
interleavings of the functions of /repo/src/wait/queue.rs lines 189-491. -/
inductive PExec (c : Config (Wk W)) : PTrace W → State (Wk W) → Prop where
  | init : PExec c [] State.init
  | step {tr : PTrace W} {s s' : State (Wk W)} {act : Act (Wk W)} {evs : PTrace W} :
      PExec c tr s → pstep c s act = some (s', evs) → PExec c (tr ++ evs) s'

/-- Run a list of actions. Scaffolding of the model, no counterpart in the source. -/
def prunActs (c : Config (Wk W)) (s : State (Wk W)) : List (Act (Wk W)) → Option (State (Wk W) × PTrace W)
  | [] => some (s, [])
  | a :: as => do
    let (s1, e1) ← pstep c s a
    let (s2, e2) ← prunActs c s1 as
    pure (s2, e1 ++ e2)

theorem PExec.run {c : Config (Wk W)} {as : List (Act (Wk W))} : ∀ {tr : PTrace W} {s s' : State (Wk W)} {evs : PTrace W},
    PExec c tr s → prunActs c s as = some (s', evs) → PExec c (tr ++ evs) s' := by
  induction as with
  | nil => rintro tr s s' evs h hs; cases hs; simpa using h
  | cons a as ih =>
    intro tr s s' evs h hs
    simp only [prunActs, bind, Option.bind_eq_some_iff, pure] at hs
    obtain ⟨⟨s1, e1⟩, h1, ⟨s2, e2⟩, h2, h3⟩ := hs
    cases h3
    rw [← List.append_assoc]
    exact ih (h.step h1) h2

/-! ## Panics that do no harm -/

/-- The same queue, where a waker whose clone panics passes for the one that is in place: `continue_wait` then keeps the
old waker, as it does when the clone panics. /repo/src/wait/queue.rs line 351. -/
def Config.keep (c : Config (Wk W)) : Config (Wk W) where
  debug := c.debug
  same u v := c.same u v || v.clonePanics

/-- What an event of a run with panics is in a run in which the panicking calls return instead.
Scaffolding of the model, no counterpart in the source. -/
inductive LikeEv : PEv W → Trace (Wk W) → Prop where
  | ev (e) : LikeEv (.ev e) [e]
  | notify (o) : LikeEv (.panic (.op o)) [.retNotify o true]
  | clone (n u) : LikeEv (.panic (.node n)) [.upd n u, .retCont n .wait]
  | drop (n) : LikeEv (.panic (.node n)) [.retCont n .wait]

/-- Two traces are alike if they differ in this only: where the first has a `notify` that panics the second has one that
returns `true`, and where the first has a `continue_wait` that panics the second has one that says `Wait`.
Scaffolding of the model, no counterpart in the source. -/
inductive Like : PTrace W → Trace (Wk W) → Prop where
  | nil : Like [] []
  | cons {x p es t} : LikeEv x es → Like p t → Like (x :: p) (es ++ t)

theorem Like.append {p p' : PTrace W} {t t' : Trace (Wk W)} (h : Like p t) (h' : Like p' t') : Like (p ++ p') (t ++ t') := by
  induction h with
  | nil => simpa using h'
  | cons h1 _ ih => rw [List.cons_append, List.append_assoc]; exact .cons h1 ih

theorem Like.ev (t : Trace (Wk W)) : Like (t.map .ev) t := by
  induction t with
  | nil => exact .nil
  | cons e t ih => exact .cons (.ev e) ih

/-- An event that is not the return of a `notify` or `continue_wait`, nor a replacement of a waker. -/
def Event.kept : Event (Wk W) → Bool
  | .retNotify _ _ | .retCont _ _ | .upd _ _ => false
  | _ => true

theorem Like.split {p p' : PTrace W} {t : Trace (Wk W)} {e : Event (Wk W)} (h : Like (p ++ .ev e :: p') t) :
    ∃ a b, t = a ++ e :: b ∧ Like p a ∧ Like p' b := by
  induction p generalizing t with
  | nil =>
    cases h with
    | cons h1 h2 => cases h1; exact ⟨[], _, rfl, .nil, h2⟩
  | cons x p ih =>
    cases h with
    | cons h1 h2 =>
      obtain ⟨a, b, rfl, h3, h4⟩ := ih h2
      exact ⟨_ ++ a, b, by simp, .cons h1 h3, h4⟩

theorem Like.unsplit {p : PTrace W} {a b : Trace (Wk W)} {e : Event (Wk W)} (he : e.kept = true) (h : Like p (a ++ e :: b)) :
    ∃ p1 p2, p = p1 ++ .ev e :: p2 ∧ Like p1 a ∧ Like p2 b := by
  induction p generalizing a with
  | nil => generalize ht : a ++ e :: b = t at h; cases h; simp at ht
  | cons x p ih =>
    generalize ht : a ++ e :: b = t at h
    cases h with
    | @cons _ _ es t h1 h2 =>
      cases h1 with
      | ev e' =>
        cases a with
        | nil => simp at ht; obtain ⟨rfl, rfl⟩ := ht; exact ⟨[], p, rfl, .nil, h2⟩
        | cons x a =>
          simp at ht; obtain ⟨rfl, rfl⟩ := ht
          obtain ⟨p1, p2, rfl, h3, h4⟩ := ih h2
          exact ⟨_ :: p1, p2, rfl, .cons (.ev x) h3, h4⟩
      | notify o =>
        cases a with
        | nil => simp at ht; obtain ⟨rfl, rfl⟩ := ht; cases he
        | cons x a =>
          simp at ht; obtain ⟨rfl, rfl⟩ := ht
          obtain ⟨p1, p2, rfl, h3, h4⟩ := ih h2
          exact ⟨_ :: p1, p2, rfl, .cons (.notify o) h3, h4⟩
      | drop n =>
        cases a with
        | nil => simp at ht; obtain ⟨rfl, rfl⟩ := ht; cases he
        | cons x a =>
          simp at ht; obtain ⟨rfl, rfl⟩ := ht
          obtain ⟨p1, p2, rfl, h3, h4⟩ := ih h2
          exact ⟨_ :: p1, p2, rfl, .cons (.drop n) h3, h4⟩
      | clone n u =>
        match a with
        | [] => simp at ht; obtain ⟨rfl, rfl⟩ := ht; cases he
        | [x] => simp at ht; obtain ⟨rfl, rfl, rfl⟩ := ht; cases he
        | x :: y :: a =>
          simp at ht; obtain ⟨rfl, rfl, rfl⟩ := ht
          obtain ⟨p1, p2, rfl, h3, h4⟩ := ih h2
          exact ⟨_ :: p1, p2, rfl, .cons (.clone n u) h3, h4⟩

theorem Like.mem {p : PTrace W} {t : Trace (Wk W)} (h : Like p t) {e : Event (Wk W)} (he : .ev e ∈ p) : e ∈ t := by
  obtain ⟨a, b, rfl⟩ := List.append_of_mem he
  obtain ⟨a', b', rfl, _⟩ := h.split
  simp

theorem Like.of_mem {p : PTrace W} {t : Trace (Wk W)} (h : Like p t) {e : Event (Wk W)} (hk : e.kept = true) (he : e ∈ t) :
    .ev e ∈ p := by
  obtain ⟨a, b, rfl⟩ := List.append_of_mem he
  obtain ⟨a', b', rfl, _⟩ := h.unsplit hk
  simp

theorem newWaiter_keep {c : Config (Wk W)} {old : Option (Wk W)} {v : Wk W} (h : keepsOld c old v = true ∨ v.clonePanics = false) :
    newWaiter c.keep old v = newWaiter c old v := by
  cases old with
  | none => rfl
  | some u =>
    simp only [newWaiter, Config.keep, keepsOld] at h ⊢
    rcases h with h | h <;> simp [h]

theorem contPanic_none {c : Config (Wk W)} {s : State (Wk W)} {n : Nat} {v : Wk W} (h : contPanic c s n v = none) :
    keepsOld c (s.list.node n).waiter v = true ∨ v.clonePanics = false := by
  unfold contPanic at h
  split at h
  · exact .inl (by assumption)
  · split at h
    · cases h
    · right; simpa using (by assumption : ¬ v.clonePanics = true)

/-- Without a panic the two queues take the same step. -/
theorem step_keep {c : Config (Wk W)} {s : State (Wk W)} {act : Act (Wk W)} (h : panics c s act = none) :
    Queue.step c.keep s act = Queue.step c s act := by
  cases act
  case node n spur =>
    simp only [Queue.step, nodeStep]
    cases hpc : s.pc (.node n) <;> try rfl
    case contUpd v =>
      simp only [panics, hpc] at h
      simp only [contUpd, newWaiter_keep (contPanic_none h)]
  all_goals rfl

/-- The step of the queue without panics that corresponds to a panic in `continue_wait` or `notify`. -/
theorem panics_like {c : Config (Wk W)} {s s' : State (Wk W)} {act : Act (Wk W)} {evs : PTrace W} {q : List Nat} (hi : SInv s q)
    (h : panics c s act = some (s', evs)) :
    (∃ n v, s.pc (.node n) = .startSet v ∧ v.clonePanics = true ∧ (s', evs) = startPanic s n) ∨
    (∃ o n v, s.pc (.op o) = .cWake n v ∧ v.wakePanics = true ∧ (s', evs) = closePanic s o n v) ∨
    ∃ evs', Queue.step c.keep s act = some (s', evs') ∧ Like evs evs' := by
  cases act
  case node n spur =>
    simp only [panics] at h
    cases hpc : s.pc (.node n) <;> rw [hpc] at h <;> try cases h
    case startSet v =>
      simp only at h
      split at h
      · exact .inl ⟨n, v, hpc, by assumption, (Option.some.inj h).symm⟩
      · cases h
    case contUpd v =>
      right; right
      have hn := hi.node n
      rw [hpc] at hn
      obtain ⟨-, -, hw⟩ := hn
      obtain ⟨u, hu⟩ := Option.isSome_iff_exists.1 hw
      simp only [contPanic, hu, keepsOld] at h
      split at h
      · cases h
      rename_i hs
      simp only [Queue.step, nodeStep, hpc]
      split at h
      · rename_i hc
        cases h
        refine ⟨_, ?_, .cons (.clone n u) .nil⟩
        have hset : (s.list.set n fun nd => { nd with waiter := some u }) = s.list := by
          have : ∀ m, (if m = n then { s.list.node m with waiter := some u } else s.list.node m) = s.list.node m := by
            intro m
            split
            · subst m; rw [← hu]
            · rfl
          simp only [WList.set, this]
        simp only [contUpd, hu, newWaiter, Config.keep, hc, Bool.or_true, if_true, hset, List.append_nil]
      · rename_i hc
        split at h
        · cases h
          have hs' : c.same u v = false := by simpa using hs
          have hc' : v.clonePanics = false := by simpa using hc
          refine ⟨[.upd n v, .retCont n .wait], ?_, .cons (.ev _) (.cons (.drop n) .nil)⟩
          simp [contUpd, newWaiter, hu, Config.keep, hs', hc']
        · cases h
  case op o spur =>
    simp only [panics] at h
    cases hpc : s.pc (.op o) <;> rw [hpc] at h <;> try cases h
    case nWake n v =>
      simp only at h
      split at h <;> cases h
      right; right
      refine ⟨[.wake o n v, .retNotify o true], ?_, .cons (.ev _) (.cons (.notify o) .nil)⟩
      simp [Queue.step, opStep, hpc]
    case cWake n v =>
      simp only at h
      split at h
      · exact .inr (.inl ⟨o, n, v, hpc, by assumption, (Option.some.inj h).symm⟩)
      · cases h
  all_goals cases h

/-- A run in which no waker panics in `start_wait` and none in `close` is, with the calls that panic returning instead, a
run of the queue without panics. -/
theorem PExec.like {c : Config (Wk W)} {tr : PTrace W} {s : State (Wk W)} (h : PExec c tr s)
    (hs : ∀ n v, .ev (.callStart n v) ∈ tr → v.clonePanics = false)
    (hc : ∀ o n v, .ev (.callClose o) ∈ tr → .ev (.wake o n v) ∈ tr → v.wakePanics = false) :
    ∃ tr', Exec c.keep tr' s ∧ Like tr tr' := by
  induction h with
  | init => exact ⟨[], .init, .nil⟩
  | @step tr s s' act evs h hst ih =>
    obtain ⟨tr', he, hl⟩ := ih (fun n v hm => hs n v (by simp [hm])) (fun o n v h1 h2 => hc o n v (by simp [h1]) (by simp [h2]))
    simp only [pstep] at hst
    split at hst
    · rename_i r hp
      cases hst
      rcases panics_like he.inv.toSInv hp with ⟨n, v, hpc, hv, -⟩ | ⟨o, n, v, hpc, hv, he'⟩ | ⟨evs', h1, h2⟩
      · have ha := he.argOk n
        rw [hpc] at ha
        obtain ⟨pre, post, rfl, -⟩ := ha
        have := hs n v (List.mem_append_left _ (hl.of_mem rfl (by simp)))
        rw [hv] at this; cases this
      · have := hc o n v (List.mem_append_left _ (hl.of_mem rfl (he.closed hpc))) (by simp [(Prod.mk.inj he').2])
        rw [hv] at this; cases this
      · exact ⟨tr' ++ evs', he.step h1, hl.append h2⟩
    · rename_i hp
      rw [← step_keep hp] at hst
      cases h1 : Queue.step c.keep s act with
      | none => rw [h1] at hst; cases hst
      | some r =>
        rw [h1] at hst
        cases hst
        exact ⟨tr' ++ r.2, he.step h1, hl.append (Like.ev _)⟩

/-! ## A panic in `close` -/

/-- Program counters of `notify`/`close` calls that are over or have not begun. -/
def PC.over : PC W → Bool
  | .off | .done | .panicked => true
  | _ => false

/-- Program counters of a sender that waits, or has given up. -/
def PC.late : PC W → Bool
  | .idle .waiting | .contLoad _ | .contLock _ | .contReload _ | .contUpd _ | .remCheck | .remLock | .remList | .remCas
  | .remUnlock | .gone | .abandoned | .panicked => true
  | _ => false

/-- Sender `m` waits and nobody is left to wake it. -/
structure Lost (m : Nat) (s : State W) : Prop where
  rx : s.rxGone = true
  ops : ∀ o, (s.pc (.op o)).over = true
  node : (s.list.node m).state = .waiting
  late : (s.pc (.node m)).late = true

theorem remove_data (l : WList W) (n m : Nat) :
    ((l.remove n).list.node m).state = (l.node m).state := by
  have h1 : ∀ (l : WList W) (f : Node W → Node W) (k : Nat), (∀ nd, (f nd).state = nd.state) →
      ((l.set k f).node m).state = (l.node m).state := by
    intro l f k hf
    simp only [WList.set]
    split
    · exact hf _
    · rfl
  have h2 : ∀ (l : WList W) (k : Nat) (p x : Option Nat), ((l.unhookPrev k p x).node m).state = (l.node m).state := by
    intro l k p x
    unfold WList.unhookPrev
    split
    · exact h1 _ _ _ fun _ => rfl
    · split <;> rfl
  have h3 : ∀ (l : WList W) (k : Nat) (p x : Option Nat), ((l.unhookNext k p x).node m).state = (l.node m).state := by
    intro l k p x
    unfold WList.unhookNext
    split
    · exact h1 _ _ _ fun _ => rfl
    · split <;> rfl
  simp only [WList.remove]
  rw [h3, h2]
  exact h1 _ _ _ fun _ => rfl

theorem Lost.after {m : Nat} {s : State W} (h : Lost m s) {n : Nat} {p : PC W} {st : QSt} {lk : Option Tid}
    {l : WList W} {b : List Nat} (hl : (l.node m).state = .waiting) (hp : n = m → p.late = true) :
    Lost m (s.after (.node n) p st lk l b s.rxGone) := by
  refine ⟨h.rx, fun o => by simpa [State.after] using h.ops o, hl, ?_⟩
  simp only [State.after, Tid.node.injEq]
  split
  · exact hp (by simp_all)
  · exact h.late

theorem Lost.tr {c : Config W} {m : Nat} {s : State W} (h : Lost m s) {t : Tid} {p : PC W} {st : QSt} {lk : Option Tid}
    {l : WList W} {b : List Nat} {rx : Bool} {evs : Trace W} (ht : Tr c s t p st lk l b rx evs) :
    Lost m (s.after t p st lk l b rx) ∧ (∀ o n v, .wake o n v ∉ evs) ∧ ∀ r, .retCont m r ∈ evs → r = .wait := by
  have hop : ∀ {o p}, s.pc (.op o) = p → p.over = true := fun {o p} hp => hp ▸ h.ops o
  have hnode : ∀ {p}, s.pc (.node m) = p → p.late = true := fun hp => hp ▸ h.late
  have hrx := h.rx
  have hst := h.node
  cases ht
  case acq hl ha =>
    generalize hx : s.pc t = x at ha
    cases ha
    case notify => have := hop hx; simp [PC.over] at this
    case close => have := hop hx; simp [PC.over] at this
    all_goals
      refine ⟨h.after h.node ?_, by simp, by simp⟩
      rintro rfl
      have := hnode hx
      first | rfl | simp [PC.late] at this
  case callNotify hr => rw [hrx] at hr; cases hr
  case callClose hr => rw [hrx] at hr; cases hr
  case nLoad hpc | nFast hpc | nAgain hpc | nSlow hpc | mFast hpc | mAssert hpc | mForce hpc | force hpc | deqAssert hpc | deq hpc |
      mClosedAssert hpc | mClosed hpc | nStoreEmpty hpc | nStoreSkip hpc | nUnlock hpc | nUnlockNone hpc | nWake hpc | cSwap hpc |
      cRet hpc | cAssert hpc | cDeq hpc | cSkip hpc | cWake hpc =>
    exfalso
    first
      | (have := hop hpc; simp [PC.over] at this; done)
      | (rename_i hpc'; have := hop hpc'; simp [PC.over] at this; done)
      | (rename_i hpc' _; have := hop hpc'; simp [PC.over] at this; done)
      | (rename_i hpc' _ _; have := hop hpc'; simp [PC.over] at this; done)
  all_goals
    refine ⟨h.after ?_ ?_, by simp, ?_⟩
    · first
        | exact h.node
        | (simp only [WList.set_node]; split <;> simp_all; done)
        | (rw [(enqueue_data _ _ _).1]; exact h.node)
        | (rw [remove_data]; exact h.node)
    · rintro rfl
      first
        | rfl
        | (have := hnode (by assumption); simp [PC.late] at this; done)
        | (rename_i l hpc hl; have := hnode hpc; cases l <;> simp_all [PC.late, Last.mayStart]; done)
        | (rename_i hl; rw [hst] at hl; cases hl; done)
    · intro r hr
      simp at hr
      try (obtain ⟨rfl, rfl⟩ := hr; simp_all)

theorem Lost.pstep {c : Config (Wk W)} {m : Nat} {s s' : State (Wk W)} {act : Act (Wk W)} {evs : PTrace W} (h : Lost m s)
    (hs : pstep c s act = some (s', evs)) :
    Lost m s' ∧ (∀ o n v, .ev (.wake o n v) ∉ evs) ∧ ∀ r, .ev (.retCont m r) ∈ evs → r = .wait := by
  simp only [Queue.pstep] at hs
  split at hs
  · rename_i r hp
    cases hs
    have hop : ∀ {o p}, s.pc (.op o) = p → p.over = true := fun {o p} hp => hp ▸ h.ops o
    cases act
    case node n spur =>
      simp only [panics] at hp
      cases hpc : s.pc (.node n) <;> rw [hpc] at hp <;> try cases hp
      case startSet v =>
        simp only at hp
        split at hp <;> cases hp
        refine ⟨h.after (b := s.borrows) (st := s.st) (lk := none) h.node ?_, by simp, by simp⟩
        rintro rfl
        have := h.late
        rw [hpc] at this; cases this
      case contUpd v =>
        simp only [contPanic] at hp
        split at hp
        · cases hp
        split at hp
        · cases hp
          exact ⟨h.after (b := s.borrows) (st := s.st) (lk := none) h.node fun _ => rfl, by simp, by simp⟩
        · split at hp <;> cases hp
          refine ⟨h.after (b := s.borrows) (st := s.st) (lk := none) ?_ fun _ => rfl, by simp, by simp⟩
          have := h.node
          simp only [State.goto, WList.set]
          split <;> simp_all
    case op o spur =>
      simp only [panics] at hp
      cases hpc : s.pc (.op o) <;> rw [hpc] at hp <;> try cases hp
      all_goals (have := hop hpc; simp [PC.over] at this)
    all_goals cases hp
  · cases h1 : Queue.step c s act with
    | none => rw [h1] at hs; cases hs
    | some r =>
      rw [h1] at hs
      cases hs
      obtain ⟨t, p, st, lk, l, b, rx, h2, ht⟩ := step_tr h1
      have := h.tr ht
      rw [← h2] at this
      exact ⟨this.1, by simpa using this.2.1, by simpa using this.2.2⟩

theorem Lost.run {c : Config (Wk W)} {m : Nat} {as : List (Act (Wk W))} : ∀ {s s' : State (Wk W)} {evs : PTrace W}, Lost m s →
    prunActs c s as = some (s', evs) →
    Lost m s' ∧ (∀ o n v, .ev (.wake o n v) ∉ evs) ∧ ∀ r, .ev (.retCont m r) ∈ evs → r = .wait := by
  induction as with
  | nil => rintro s s' evs h hs; cases hs; exact ⟨h, by simp, by simp⟩
  | cons a as ih =>
    intro s s' evs h hs
    simp only [prunActs, bind, Option.bind_eq_some_iff, pure] at hs
    obtain ⟨⟨s1, e1⟩, h1, ⟨s2, e2⟩, h2, h3⟩ := hs
    cases h3
    obtain ⟨h4, h5, h6⟩ := h.pstep h1
    obtain ⟨h7, h8, h9⟩ := ih h4 h2
    refine ⟨h7, fun o n v hm => ?_, fun r hm => ?_⟩
    · rcases List.mem_append.1 hm with hm | hm
      · exact h5 o n v hm
      · exact h8 o n v hm
    · rcases List.mem_append.1 hm with hm | hm
      · exact h6 r hm
      · exact h9 r hm

/-- There is one call of `close`. -/
theorem ExecM.oneClose {c : Config W} {tr : Trace W} {s : State W} (h : Exec c tr s) :
    ∀ t u, (s.pc t).inClose = true → (s.pc u).inClose = true → t = u := by
  induction h with
  | init => intro t u ht; simp [State.init] at ht; cases t <;> simp [PC.inClose] at ht
  | @step tr s s' act evs h hs ih =>
    obtain ⟨t, p, st, lk, l, b, rx, rfl, ht⟩ := step_tr hs
    have key : p.inClose = true → (s.pc t).inClose = true ∨ s.rxGone = false := by
      intro hp
      cases ht <;> try (cases hp; done)
      case acq ha => generalize s.pc t = x at *; cases ha <;> simp_all [PC.inClose]
      case callClose hr => exact .inr hr
      all_goals (left; simp_all [PC.inClose])
    have hno : s.rxGone = false → ∀ u, (s.pc u).inClose ≠ true := by
      intro h1 u h2
      rw [h.inv.clos u h2] at h1; cases h1
    intro u w hu hw
    simp only [State.after] at hu hw
    split at hu <;> split at hw
    · simp_all
    · rename_i h1 h2
      subst h1
      rcases key hu with h3 | h3
      · exact ih _ _ h3 hw
      · exact absurd hw (hno h3 w)
    · rename_i h1 h2
      subst h2
      rcases key hw with h3 | h3
      · exact ih _ _ hu h3
      · exact absurd hu (hno h3 u)
    · exact ih _ _ hu hw
  | stale hb => cases hb

/-- When a waker panics in `close`, everybody who still waits is lost. -/
theorem ExecM.lost {c : Config (Wk W)} {tr : Trace (Wk W)} {s : State (Wk W)} (h : Exec c tr s) {o n m : Nat} {v : Wk W}
    (hpc : s.pc (.op o) = .cWake n v) (hm : m ∈ queueOf tr) : Lost m (closePanic s o n v).1 := by
  have hi := h.inv
  have hrx := hi.clos (.op o) (by rw [hpc]; rfl)
  have hb := hi.rxB hrx
  have hn := hi.node m
  refine ⟨hrx, ?_, ?_, ?_⟩
  · intro o'
    simp only [closePanic, State.unlock, State.goto]
    split
    · rfl
    · rename_i hne
      have h1 : (s.pc (.op o')).inNotify ≠ true := by
        intro h6
        obtain ⟨o2, _, h7⟩ := hi.borrow _ h6
        rw [hb] at h7; cases h7
      have h2 : (s.pc (.op o')).inClose ≠ true := fun h2 => hne (h.oneClose _ _ h2 (by rw [hpc]; rfl))
      have h3 := h.opHist o'
      cases hp : s.pc (.op o') <;> rw [hp] at h1 h2 h3 <;> simp_all [PC.over, PC.inNotify, PC.inClose, OpHist]
  · simp only [closePanic, State.unlock, State.goto]
    rcases hp : s.pc (.node m) with (_ | _ | _ | _ | _) | _ <;> rw [hp] at hn <;> simp_all [NodeOk]
  · simp only [closePanic, State.unlock, State.goto]
    rcases hp : s.pc (.node m) with (_ | _ | _ | _ | _) | _ <;> rw [hp] at hn <;> simp_all [NodeOk, PC.late]

/-! ## A panic in `start_wait` -/

theorem ExecM.rxGone {c : Config W} {tr : Trace W} {s : State W} (h : Exec c tr s) (hr : s.rxGone = true) : ∃ o, Event.callClose o ∈ tr := by
  induction h with
  | init => cases hr
  | @step tr s s' act evs h hs ih =>
    obtain ⟨t, p, st, lk, l, b, rx, rfl, ht⟩ := step_tr hs
    by_cases h1 : s.rxGone = true
    · obtain ⟨o, ho⟩ := ih h1
      exact ⟨o, by simp [ho]⟩
    · cases ht <;> first | exact absurd hr h1 | exact ⟨_, List.mem_append_right _ (List.mem_singleton.2 rfl)⟩
  | stale hb => cases hb

theorem ExecM.off {c : Config W} {tr : Trace W} {s : State W} (h : Exec c tr s) {o : Nat} (ho : opEvs tr o = []) : s.pc (.op o) = .off := by
  have h1 := h.opHist o
  rw [ho] at h1
  cases hp : s.pc (.op o) <;> rw [hp] at h1 <;> simp [OpHist] at h1 ⊢
  all_goals (rename_i w; rcases w with _ | ⟨n, v⟩ <;> simp at h1)

/-- The state after a panic in `start_wait` of the only sender. -/
theorem ExecM.startPanic {c : Config (Wk W)} {tr : Trace (Wk W)} {s : State (Wk W)} (h : Exec c tr s) {n : Nat} {s1 : State (Wk W)}
    {spur : Bool} (hp : pstep c s (.node n spur) = some (s1, [.panic (.node n)])) (hq : queueOf tr = [])
    (hc : ∀ o, .callClose o ∉ tr) :
    s1.st = .waiting ∧ s1.lock = none ∧ s1.list.head = none ∧ s1.list.tail = none ∧ s1.rxGone = false ∧
      ∀ o, s1.pc (.op o) = s.pc (.op o) := by
  have hi := h.inv
  rw [hq] at hi
  have hrx : s.rxGone = false := by
    cases hr : s.rxGone with
    | false => rfl
    | true => obtain ⟨o, ho⟩ := h.rxGone hr; exact absurd ho (hc o)
  simp only [pstep] at hp
  split at hp
  · rename_i r hp'
    cases hp
    simp only [panics] at hp'
    cases hpc : s.pc (.node n) <;> rw [hpc] at hp' <;> try cases hp'
    case startSet v =>
      simp only at hp'
      split at hp' <;> cases hp'
      have h1 := hi.loc (.node n)
      rw [hpc] at h1
      refine ⟨?_, rfl, hi.rep.head, hi.rep.tail, hrx, fun o => by simp [State.unlock, State.goto]⟩
      rcases h1 with h1 | h1
      · exact h1
      · rw [hi.rx h1] at hrx; cases hrx
    case contUpd v =>
      have h1 := hi.node n
      rw [hpc] at h1
      simp [NodeOk] at h1
  · exfalso
    cases h1 : Queue.step c s (.node n spur) with
    | none => rw [h1] at hp; cases hp
    | some r =>
      rw [h1] at hp
      simp only [Option.map_some, Option.some.injEq, Prod.mk.injEq] at hp
      obtain ⟨-, hp⟩ := hp
      cases hr : r.2 with
      | nil => rw [hr] at hp; cases hp
      | cons e l => rw [hr] at hp; cases hp

end Thingbuf.Queue
