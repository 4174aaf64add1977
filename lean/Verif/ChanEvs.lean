import Verif.ChanOwn

/-!
# The events of one step of the three machines

Which events a step of the ring buffer, of the wait cell and of the wait queue can have.
-/

namespace Thingbuf.Chan

variable {w : Nat} {V W : Type} {c : Config W} {tr : Trace V W} {s : State w V W}

@[simp] theorem runAct_invoke (a b : OpId) (spur : Bool) (op : Op) : (runAct a spur : Thingbuf.Act V) ≠ .invoke b op := by
  cases spur <;> simp [runAct]
@[simp] theorem runAct_drop (a b : OpId) (spur : Bool) : (runAct a spur : Thingbuf.Act V) ≠ .dropRef b := by
  cases spur <;> simp [runAct]
@[simp] theorem pushAct_invoke (i : PushIn V) (a b : OpId) (op : Op) : i.act a ≠ .invoke b op := by
  cases i <;> simp [PushIn.act]
@[simp] theorem pushAct_drop (i : PushIn V) (a b : OpId) : i.act a ≠ .dropRef b := by
  cases i <;> simp [PushIn.act]

/-- What is known about the events `evs` of a step `act` of the ring buffer, whose operation was of kind `k`. -/
structure CoreEvs (act : Thingbuf.Act V) (k : Option CK) (evs : List (Event V)) : Prop where
  ret : ∀ a r, .ret a r ∈ evs → a = actOp act ∧ coreRet evs = some r
  ret' : ∀ r, coreRet evs = some r → .ret (actOp act) r ∈ evs
  deq : deqOps evs = if coreRet evs = some .popped then [actOp act] else []
  res : ∀ a i, .reserve a i ∈ evs → k = some .push ∧ a = actOp act ∧ coreRet evs = none
  inv : ∀ a op, .invoke a op ∈ evs ↔ act = .invoke a op
  commit : ∀ a i v, .commit a i v ∈ evs → act = .dropRef a ∧ k = some .pushHeld ∧ evs = [.commit a i v]
  release : ∀ a i v, .release a i v ∈ evs → act = .dropRef a ∧ k = some .popHeld ∧ evs = [.release a i v]
  close : ∀ a, .close a ∈ evs → k = some .close ∧ a = actOp act
  dropPush : ∀ a, act = .dropRef a → k = some .pushHeld → ∃ i v, evs = [.commit a i v]
  dropPop : ∀ a, act = .dropRef a → k = some .popHeld → ∃ i v, evs = [.release a i v]

theorem core_evs {cap : Nat} {s s' : Thingbuf.State w V} {act : Thingbuf.Act V} {evs : List (Event V)}
    (h : Thingbuf.step cap s act = some (s', evs)) : CoreEvs act (coreKind (s.pc (actOp act))) evs := by
  cases act with
  | invoke a op =>
    simp only [Thingbuf.step] at h
    split at h <;> cases h
    rename_i hp
    constructor <;> simp [actOp, hp, coreKind, coreRet, deqOps]
    exact fun _ _ => ⟨fun ⟨h1, h2⟩ => ⟨h1.symm, h2.symm⟩, fun ⟨h1, h2⟩ => ⟨h1.symm, h2.symm⟩⟩
  | run a =>
    simp only [Thingbuf.step, runStep] at h
    split at h <;> try (cases h; done)
    all_goals rename_i hp
    all_goals try simp only [pushLoop, pushCas, pushHead, popLoop, popCas, popTail, closeStep, Option.some.injEq] at h
    all_goals
      repeat' split at h
      all_goals first
        | (cases h; constructor <;> simp [actOp, hp, coreKind, coreRet, deqOps]; done)
  | spurious a =>
    simp only [Thingbuf.step] at h
    split at h <;> try (cases h; done)
    all_goals rename_i hp
    all_goals simp only [pushCas, popCas, Option.some.injEq] at h
    all_goals
      repeat' split at h
      all_goals first
        | (cases h; constructor <;> simp [actOp, hp, coreKind, coreRet, deqOps]; done)
  | elem a v =>
    simp only [Thingbuf.step] at h
    split at h <;> try (cases h; done)
    all_goals rename_i hp
    all_goals simp only [pushElem, Option.some.injEq] at h
    all_goals
      repeat' split at h
      all_goals first
        | (cases h; constructor <;> simp [actOp, hp, coreKind, coreRet, deqOps]; done)
  | elemPanic a v =>
    simp only [Thingbuf.step] at h
    split at h <;> try (cases h; done)
    all_goals rename_i hp
    all_goals simp only [pushElemPanic, Option.some.injEq] at h
    all_goals
      repeat' split at h
      all_goals first
        | (cases h; constructor <;> simp [actOp, hp, coreKind, coreRet, deqOps]; done)
  | read a =>
    simp only [Thingbuf.step] at h
    split at h <;> cases h <;> constructor <;> simp [actOp, coreRet, deqOps]
  | write a v =>
    simp only [Thingbuf.step] at h
    split at h <;> cases h <;> constructor <;> simp [actOp, coreRet, deqOps]
  | dropRef a =>
    simp only [Thingbuf.step] at h
    split at h <;> cases h
    all_goals rename_i hp
    all_goals constructor <;> simp [actOp, hp, coreKind, coreRet, deqOps]
    all_goals
      intros
      subst_vars
      simp

/-- A step of the ring buffer leaves no operation uncalled. -/
theorem core_not_idle {cap : Nat} {s s' : Thingbuf.State w V} {act : Thingbuf.Act V} {evs : List (Event V)}
    (h : Thingbuf.step cap s act = some (s', evs)) {a : OpId} (ha : s.pc a ≠ .idle ∨ a = actOp act) : s'.pc a ≠ .idle := by
  by_cases hb : a = actOp act
  · subst hb
    cases act <;> simp only [Thingbuf.step, Thingbuf.runStep, actOp] at h ⊢
    all_goals try simp only [pushLoop, pushCas, pushHead, popLoop, popCas, popTail, closeStep, pushElem, pushElemPanic, Option.some.injEq] at h
    all_goals
      repeat' split at h
      all_goals first
        | (cases h; done)
        | (cases h; simp [State.goto]; done)
        | (cases h; rename_i hp; simp [hp]; done)
        | skip
    rename_i op _
    cases h
    cases op <;> simp [State.goto, startPC]
  · rw [(core_next h).1 a hb]; exact ha.resolve_right hb

theorem invoke_idle {cap : Nat} {s s' : Thingbuf.State w V} {a : OpId} {op : Op} {evs : List (Event V)}
    (h : Thingbuf.step cap s (.invoke a op) = some (s', evs)) : s.pc a = .idle ∧ evs = [.invoke a op] := by
  simp only [Thingbuf.step] at h
  split at h <;> cases h
  exact ⟨‹_›, rfl⟩

@[simp] theorem waitAct_mkPanic (s : State w V W) (o : OpId) (v : W) (o' : OpId) : waitAct s o v ≠ .mkPanic o' := by
  unfold waitAct; split <;> simp
@[simp] theorem waitAct_callNotify (s : State w V W) (o : OpId) (v : W) (o' : OpId) (b : Bool) : waitAct s o v ≠ .callNotify o' b := by
  unfold waitAct; split <;> simp
@[simp] theorem waitAct_callWait (s : State w V W) (o : OpId) (v : W) (o' : OpId) : waitAct s o v ≠ .callWait o' := by
  unfold waitAct; split <;> simp
@[simp] theorem cellOp_waitAct (s : State w V W) (o : OpId) (v : W) : cellOp (waitAct s o v) = o := by
  unfold waitAct; split <;> rfl

theorem CellMove.not_panic {t : State w V W} {act : Cell.Act W} {evs : List (Cell.Event W)} {es : List (Api W)}
    (hm : CellMove c s act evs t es) (o : OpId) : act ≠ .mkPanic o := by
  cases hm <;> simp

/-- What is known about the events `evs` of a step `act` of the wait cell, whose operation was of kind `k`. -/
structure CellEvs (act : Cell.Act W) (k : Option LK) (evs : List (Cell.Event W)) : Prop where
  make : ∀ o u, .mk o u ∈ evs → act = .mk o u
  panic : ∀ o, .mkPanic o ∉ evs
  wait : ∀ o, .callWait o ∈ evs ↔ act = .callWait o
  notify : ∀ o b, .callNotify o b ∈ evs ↔ act = .callNotify o b
  ret : ∀ o r, .retWait o r ∈ evs → o = cellOp act ∧ (waitRet evs = some r) ∧ k = some .wait
  ret' : ∀ r, waitRet evs = some r → .retWait (cellOp act) r ∈ evs ∨ .assertFailed (cellOp act) ∈ evs
  over : ∀ o b, .retNotify o b ∈ evs → o = cellOp act ∧ k = some .notify ∧ notifyOver evs = true
  fin : waitRet evs = some .wait → evs.getLast? = some (.retWait (cellOp act) .wait) ∨ .assertFailed (cellOp act) ∈ evs
  one : ∀ o r, .retWait o r ∈ evs → ∃ l, evs = l ++ [.retWait o r] ∧ ∀ o' r', .retWait o' r' ∉ l

theorem cell_evs {cf : Cell.Config} {s s' : Cell.State W} {act : Cell.Act W} {evs : List (Cell.Event W)}
    (h : Cell.step cf s act = some (s', evs)) (hn : ∀ o, act ≠ .mkPanic o) : CellEvs act (cellKind (s.pc (cellOp act))) evs := by
  have aux : ∀ (e : Cell.Event W), (∃ o r, e = .retWait o r) → ∀ (l : List (Cell.Event W)), (∀ o' r', .retWait o' r' ∉ l) →
      evs = l ++ [e] → ∀ o r, .retWait o r ∈ evs → ∃ l, evs = l ++ [.retWait o r] ∧ ∀ o' r', .retWait o' r' ∉ l := by
    rintro e ⟨o, r, rfl⟩ l hl rfl o' r' h
    simp only [List.mem_append, List.mem_singleton, Cell.Event.retWait.injEq] at h
    rcases h with h | ⟨rfl, rfl⟩
    · exact absurd h (hl _ _)
    · exact ⟨l, rfl, hl⟩
  cases act with
  | callWait a =>
    simp only [Cell.step] at h
    split at h <;> cases h
    rename_i hp
    constructor <;> simp [cellOp, hp, cellKind, waitRet, notifyOver]
    exact fun _ => eq_comm
  | callNotify a x =>
    simp only [Cell.step] at h
    split at h <;> cases h
    rename_i hp
    constructor <;> simp [cellOp, hp, cellKind, waitRet, notifyOver]
    exact fun _ => ⟨fun _ => eq_comm, fun _ => eq_comm⟩
  | run a =>
    simp only [Cell.step, Cell.runStep] at h
    split at h <;> try (cases h; done)
    all_goals rename_i hp
    all_goals try simp only [Cell.waitStart, Cell.waitUnlock, Cell.waitReset, Cell.waitWake, Cell.notifyStart, Option.some.injEq] at h
    all_goals
      repeat' split at h
      all_goals first
        | (cases h; constructor <;> first
            | (simp [cellOp, hp, cellKind, waitRet, notifyOver]; done)
            | exact aux _ ⟨_, _, rfl⟩ [] (by simp) rfl
            | exact aux _ ⟨_, _, rfl⟩ [_] (by simp) rfl)
        | (cases h
           split
           · constructor <;> first
              | (simp [cellOp, hp, cellKind, waitRet, notifyOver]; done)
              | exact aux _ ⟨_, _, rfl⟩ [] (by simp) rfl
              | exact aux _ ⟨_, _, rfl⟩ [_] (by simp) rfl
           · split <;> constructor <;> first
              | (simp [cellOp, hp, cellKind, waitRet, notifyOver]; done)
              | exact aux _ ⟨_, _, rfl⟩ [] (by simp) rfl
              | exact aux _ ⟨_, _, rfl⟩ [_] (by simp) rfl)
  | mk a v =>
    simp only [Cell.step] at h
    split at h <;> cases h
    all_goals rename_i hp
    all_goals constructor <;> first
      | (simp [cellOp, hp, cellKind, waitRet, notifyOver]; done)
      | exact aux _ ⟨_, _, rfl⟩ [_, _] (by simp) rfl
  | mkPanic a =>
    exact absurd rfl (hn a)

/-- What is known about the events `evs` of a step `act` of the wait queue, by a thread with program counter `p`. -/
structure QueueEvs (act : Queue.Act W) (p : Queue.PC W) (evs : List (Queue.Event W)) : Prop where
  close : ∀ o, .callClose o ∈ evs ↔ act = .close o
  notify : ∀ o, .callNotify o ∈ evs ↔ act = .notify o
  callCont : ∀ n v, .callCont n v ∈ evs ↔ act = .cont n v
  callStart : ∀ n v, .callStart n v ∈ evs ↔ act = .start n v
  rem : ∀ n, .rem n ∈ evs → (∃ spur, act = .node n spur) ∧ NodeNext.remPC p = true
  enq : ∀ n v, .enq n v ∈ evs → (∃ spur, act = .node n spur) ∧ NodeNext.startPC p = true
  start : ∀ n r, .retStart n r ∈ evs → (∃ spur, act = .node n spur) ∧ NodeNext.startPC p = true ∧ nodeRet evs = some (.ret r)
  cont : ∀ n r, .retCont n r ∈ evs → (∃ spur, act = .node n spur) ∧ NodeNext.contPC p = true ∧ nodeRet evs = some (.ret r)
  start' : ∀ n spur r, act = .node n spur → NodeNext.startPC p = true → nodeRet evs = some (.ret r) → .retStart n r ∈ evs
  fail : ∀ t, .assertFailed t ∈ evs → t = queueTid act
  giveUp : ∀ n, .giveUp n ∈ evs → act = .giveUp n
  deq : ∀ o n, .deq o n ∈ evs → ∃ spur, act = .op o spur
  cont' : ∀ n spur r, act = .node n spur → NodeNext.contPC p = true → nodeRet evs = some (.ret r) → .retCont n r ∈ evs

theorem mem_deqEvents {o : Nat} {v : Option (Nat × Option W)} {e : Queue.Event W} :
    e ∈ Queue.deqEvents o v ↔ ∃ n u, v = some (n, u) ∧ e = .deq o n := by
  unfold Queue.deqEvents
  split
  · simp
  · simp

theorem queue_evs {cf : Queue.Config W} {s s' : Queue.State W} {act : Queue.Act W} {evs : List (Queue.Event W)}
    (h : Queue.step cf s act = some (s', evs)) : QueueEvs act (s.pc (queueTid act)) evs := by
  cases act with
  | start n v =>
    simp only [Queue.step] at h
    repeat' split at h
    all_goals cases h
    rename_i l hp hl
    constructor <;> simp [queueTid, hp, NodeNext.startPC, NodeNext.contPC, NodeNext.remPC] <;> intros <;> constructor <;> (rintro ⟨h1, h2⟩; exact ⟨h1.symm, h2.symm⟩)
  | cont n v =>
    simp only [Queue.step] at h
    repeat' split at h
    all_goals cases h
    rename_i l hp hl
    constructor <;> simp [queueTid, hp, NodeNext.startPC, NodeNext.contPC, NodeNext.remPC] <;> intros <;> constructor <;> (rintro ⟨h1, h2⟩; exact ⟨h1.symm, h2.symm⟩)
  | drop n =>
    simp only [Queue.step] at h
    repeat' split at h
    all_goals cases h
    all_goals rename_i hp
    all_goals constructor <;> simp [queueTid, NodeNext.startPC, NodeNext.contPC, NodeNext.remPC]
  | giveUp n =>
    simp only [Queue.step] at h
    repeat' split at h
    all_goals cases h
    all_goals constructor <;> simp [queueTid, NodeNext.startPC, NodeNext.contPC, NodeNext.remPC]
  | notify o =>
    simp only [Queue.step] at h
    repeat' split at h
    all_goals cases h
    constructor <;> simp [queueTid, NodeNext.startPC, NodeNext.contPC, NodeNext.remPC] <;> intros <;> constructor <;> (intro h; exact h.symm)
  | close o =>
    simp only [Queue.step] at h
    repeat' split at h
    all_goals cases h
    constructor <;> simp [queueTid, NodeNext.startPC, NodeNext.contPC, NodeNext.remPC] <;> intros <;> constructor <;> (intro h; exact h.symm)
  | node n spur =>
    simp only [Queue.step, Queue.nodeStep] at h
    split at h <;> try (cases h; done)
    all_goals rename_i hp
    all_goals try simp only [Queue.startCas, Queue.acquire, Queue.startLoop, Queue.startSet, Queue.startEnq, Queue.contLoad,
      Queue.contReload, Queue.contUpd, Queue.remCheck, Queue.remList, Queue.remCas, Queue.fail, Option.some.injEq] at h
    all_goals
      repeat' split at h
      all_goals first
        | (cases h; done)
        | (cases h
           constructor <;> simp [queueTid, hp, NodeNext.startPC, NodeNext.contPC, NodeNext.remPC, nodeRet_touch, List.append_assoc, -List.map_append] <;>
            (try simp [nodeRet, eq_comm]) <;>
            (try (intros; constructor <;> (intros; subst_vars; simp)))
           done)
  | op o spur =>
    simp only [Queue.step, Queue.opStep] at h
    split at h <;> try (cases h; done)
    all_goals rename_i hp
    all_goals try simp only [Queue.nLoop, Queue.acquire, Queue.nMatch, Queue.nStore, Queue.nUnlock, Queue.cLoop,
      Queue.fail, Option.some.injEq] at h
    all_goals
      repeat' split at h
      all_goals first
        | (cases h; done)
        | (cases h
           constructor <;> simp [queueTid, hp, NodeNext.startPC, NodeNext.contPC, NodeNext.remPC, mem_deqEvents]
           try exact fun _ _ _ _ h => h.symm
           done)

end Thingbuf.Chan
