import Verif.WeakChan
import Verif.ChanEnds
import Verif.WeakProto

/-!
# The components of the channel on the memory model

Helper lemmas for `WeakProps`. An execution of `WeakChan` has executions of its components: of the ring buffer and the
wait cell (`WExec.mem`), and of the wait queue (`WExec.loads`). Its calls are those of an execution of the channel whose
memory may hold anything (`WExec.ctl`).
-/

namespace Thingbuf.Chan

variable {w : Nat} {V W : Type} {c : Config W} {s : State w V W} {act : Act V W}

theorem waitAct_congr {s s' : State w V W} (h : s'.cell.pc = s.cell.pc) (o : OpId) (v : W) : waitAct s' o v = waitAct s o v := by
  unfold waitAct; rw [h]

theorem plan_core {a : Thingbuf.Act V} {k} (h : plan c s act = .core a k) (core : Thingbuf.State w V) : plan c { s with core := core } act = .core a k := by
  cases act <;> simp only [plan, rxPlan, closerPlan] at h ⊢ <;> first
    | exact h
    | (repeat' split at h) <;> first | cases h; done | simp_all

theorem plan_cell {a : Cell.Act W} {k} (h : plan c s act = .cell a k) (cell : Cell.State W) (hc : cell.pc = s.cell.pc) :
    plan c { s with cell := cell } act = .cell a k := by
  have hw := fun o v => waitAct_congr (s := s) (s' := { s with cell := cell }) hc o v
  cases act <;> simp only [plan, rxPlan, closerPlan] at h ⊢ <;> first
    | exact h
    | simp only [hw]; exact h
    | (repeat' split at h) <;> first | cases h; done | simp_all

theorem plan_queue {a : Queue.Act W} {k} (h : plan c s act = .queue a k) (queue : Queue.State W) : plan c { s with queue := queue } act = .queue a k := by
  cases act <;> simp only [plan, rxPlan, closerPlan] at h ⊢ <;> first
    | exact h
    | (repeat' split at h) <;> first | cases h; done | simp_all

/-- The channel goes on without a look at the component. -/
theorem core_nat {a : Thingbuf.Act V} {k} (h : plan c s act = .core a k) (u : State w V W) (core : Thingbuf.State w V) (r : Option Ret) :
    k { u with core := core } r = ({ (k u r).1 with core := core }, (k u r).2) := by
  cases act <;> simp only [plan, rxPlan, closerPlan] at h <;> (repeat' split at h) <;> first
    | cases h; done
    | cases h
      first
      | rfl
      | simp only [afterPop, afterPop2, afterLast, afterTry, afterRxClose, afterTxClose, afterPush, gotMessage]
        (repeat' split) <;> rfl

theorem cell_nat {a : Cell.Act W} {k} (h : plan c s act = .cell a k) (u : State w V W) (cell : Cell.State W) (r : List (Cell.Event W)) :
    k { u with cell := cell } r = ({ (k u r).1 with cell := cell }, (k u r).2) := by
  cases act <;> simp only [plan, rxPlan, closerPlan] at h <;> (repeat' split at h) <;> first
    | cases h; done
    | cases h
      first
      | rfl
      | simp only [afterWait, afterSendNotify]
        (repeat' split) <;> rfl

theorem queue_nat {a : Queue.Act W} {k} (h : plan c s act = .queue a k) (u : State w V W) (queue : Queue.State W) (r : List (Queue.Event W)) :
    k { u with queue := queue } r = ({ (k u r).1 with queue := queue }, (k u r).2) := by
  cases act <;> simp only [plan, rxPlan, closerPlan] at h <;> (repeat' split at h) <;> first
    | cases h; done
    | cases h
      first
      | rfl
      | simp only [afterStart, afterCont, afterDrop, afterRecvNotify]
        (repeat' split) <;> rfl

theorem core_keep {a : Thingbuf.Act V} {k} (h : plan c s act = .core a k) (u : State w V W) (r : Option Ret) :
    (k u r).1.cell = u.cell ∧ (k u r).1.queue = u.queue := by
  cases act <;> simp only [plan, rxPlan, closerPlan] at h <;> (repeat' split at h) <;> first
    | cases h; done
    | cases h
      first
      | exact ⟨rfl, rfl⟩
      | simp only [afterPop, afterPop2, afterLast, afterTry, afterRxClose, afterTxClose, afterPush, gotMessage]
        (repeat' split) <;> exact ⟨rfl, rfl⟩

theorem cell_keep {a : Cell.Act W} {k} (h : plan c s act = .cell a k) (u : State w V W) (r : List (Cell.Event W)) :
    (k u r).1.core = u.core ∧ (k u r).1.queue = u.queue := by
  cases act <;> simp only [plan, rxPlan, closerPlan] at h <;> (repeat' split at h) <;> first
    | cases h; done
    | cases h
      first
      | exact ⟨rfl, rfl⟩
      | simp only [afterWait, afterSendNotify]
        (repeat' split) <;> exact ⟨rfl, rfl⟩

theorem queue_keep {a : Queue.Act W} {k} (h : plan c s act = .queue a k) (u : State w V W) (r : List (Queue.Event W)) :
    (k u r).1.core = u.core ∧ (k u r).1.cell = u.cell := by
  cases act <;> simp only [plan, rxPlan, closerPlan] at h <;> (repeat' split at h) <;> first
    | cases h; done
    | cases h
      first
      | exact ⟨rfl, rfl⟩
      | simp only [afterStart, afterCont, afterDrop, afterRecvNotify]
        (repeat' split) <;> exact ⟨rfl, rfl⟩

/-- The channel's own events are no events of a component. -/
def ApiOnly (tr : Trace V W) : Prop := coreOf tr = [] ∧ cellOf tr = [] ∧ queueOf tr = []

theorem core_api {a : Thingbuf.Act V} {k} (h : plan c s act = .core a k) (u : State w V W) (r : Option Ret) : ApiOnly (k u r).2 := by
  cases act <;> simp only [plan, rxPlan, closerPlan] at h <;> (repeat' split at h) <;> first
    | cases h; done
    | cases h
      first
      | exact ⟨rfl, rfl, rfl⟩
      | simp only [afterPop, afterPop2, afterLast, afterTry, afterRxClose, afterTxClose, afterPush, gotMessage]
        (repeat' split) <;> exact ⟨rfl, rfl, rfl⟩

theorem cell_api {a : Cell.Act W} {k} (h : plan c s act = .cell a k) (u : State w V W) (r : List (Cell.Event W)) : ApiOnly (k u r).2 := by
  cases act <;> simp only [plan, rxPlan, closerPlan] at h <;> (repeat' split at h) <;> first
    | cases h; done
    | cases h
      first
      | exact ⟨rfl, rfl, rfl⟩
      | simp only [afterWait, afterSendNotify]
        (repeat' split) <;> exact ⟨rfl, rfl, rfl⟩

theorem queue_api {a : Queue.Act W} {k} (h : plan c s act = .queue a k) (u : State w V W) (r : List (Queue.Event W)) : ApiOnly (k u r).2 := by
  cases act <;> simp only [plan, rxPlan, closerPlan] at h <;> (repeat' split at h) <;> first
    | cases h; done
    | cases h
      first
      | exact ⟨rfl, rfl, rfl⟩
      | simp only [afterStart, afterCont, afterDrop, afterRecvNotify]
        (repeat' split) <;> exact ⟨rfl, rfl, rfl⟩

theorem plan_api {r : Out w V W} (h : plan c s act = .api r) : ApiOnly r.2 ∧ r.1.core = s.core ∧ r.1.cell = s.cell ∧ r.1.queue = s.queue := by
  cases act <;> simp only [plan, rxPlan, closerPlan] at h <;> (repeat' split at h) <;> first
    | cases h; done
    | cases h
      exact ⟨⟨rfl, rfl, rfl⟩, rfl, rfl, rfl⟩

/-- Without an event of the wait queue the call goes on. -/
theorem queue_none {a : Queue.Act W} {k} (h : plan c s act = .queue a k) {q q' : Queue.State W} (hq : Queue.step c.queue q a = some (q', []))
    (u : State w V W) : k u [] = (u, []) := by
  cases act <;> simp only [plan, rxPlan, closerPlan] at h <;> (repeat' split at h) <;> first
    | cases h; done
    | cases h
      first
      | rfl
      | exfalso
        simp only [Queue.step] at hq
        (repeat' split at hq) <;> cases hq

end Thingbuf.Chan

namespace Thingbuf.RA

variable {w cap : Nat} {V : Type} {o : Orders} {co : CellOrders} {cc : Cell.Config}

/-- A step of the ring buffer is one of its code on some memory. -/
theorem rstep_code {s s' : RState w V} {ch : Chan.Choice} {a : Act V} {revs : List (REv V)} (h : rstep o cap s (ch.core a) = some (s', revs)) :
    ∃ st st' : State w V, st.pc = s.pc ∧ st'.pc = s'.pc ∧ step cap st a = some (st', evsOf revs) := by
  have fin : ∀ (st : State w V) (k : State w V × List (Event V)), st.pc = s.pc → step cap st a = some k → s'.pc = upd s.pc (Chan.actOp a) (k.1.pc (Chan.actOp a)) → evsOf revs = k.2 →
      ∃ st st' : State w V, st.pc = s.pc ∧ st'.pc = s'.pc ∧ step cap st a = some (st', evsOf revs) := by
    intro st k h1 h2 h3 h4
    refine ⟨st, k.1, h1, ?_, by rw [h2, h4]⟩
    rw [h3]
    funext b
    by_cases hb : b = Chan.actOp a
    · subst hb; rw [upd_self]
    · rw [upd_ne _ _ hb, (Chan.core_next h2).1 b hb, h1]
  cases a <;> simp only [Chan.Choice.core, rstep, RState.run] at h <;> (repeat' split at h) <;> first
    | cases h; done
    | obtain ⟨k, hk, he⟩ := Option.map_eq_some_iff.1 h
      refine fin _ k ?_ hk ?_ ?_
      · rfl
      · refine (congrArg (fun x => x.1.pc) he).symm.trans ?_
        first | rfl | (split <;> rfl)
      · exact (congrArg (fun x => evsOf x.2) he).symm.trans (evsOf_stamp ..)

theorem cellOf_stamp (hb : List Nat) (n : Nat) (evs : List (Cell.Event Nat)) : cellOf (stamp hb n (evs.map (.cell : _ → XEv V))) = evs := by
  induction evs generalizing hb n with
  | nil => rfl
  | cons e evs ih => simp only [List.map_cons, stamp, cellOf, List.filterMap_cons, XEv.cell?]; exact congrArg _ (ih ..)

/-- A step of the wait cell is one of its code on some memory. -/
theorem cellStep_code {s s' : XState w V} {n : Nat} {a : Cell.Act Nat} {revs : List (REv V)} (h : s.cellStep co cc a n = some (s', revs)) :
    s'.core.pc = s.core.pc ∧ evsOf revs = [] ∧
    ∃ st st' : Cell.State Nat, st.pc = s.cpc ∧ st'.pc = s'.cpc ∧ Cell.step cc st a = some (st', cellOf revs) := by
  have fin : ∀ (st : Cell.State Nat) (k : Cell.State Nat × List (Cell.Event Nat)), st.pc = s.cpc → Cell.step cc st a = some k →
      s'.cpc = upd s.cpc (cellActOp a) (k.1.pc (cellActOp a)) → cellOf revs = k.2 →
      ∃ st st' : Cell.State Nat, st.pc = s.cpc ∧ st'.pc = s'.cpc ∧ Cell.step cc st a = some (st', cellOf revs) := by
    intro st k h1 h2 h3 h4
    refine ⟨st, k.1, h1, ?_, by rw [h2, h4]⟩
    rw [h3]
    funext b
    by_cases hb : b = cellActOp a
    · subst hb; rw [upd_self]
    · rw [upd_ne _ _ hb, (Chan.cell_next h2).1 b ?_, h1]
      cases a <;> exact hb
  have h1 : ∀ (x : XState w V) a k, (x.doNone a k).1.core.pc = x.core.pc ∧ evsOf (x.doNone a k).2 = [] ∧ (x.doNone a k).1.cpc = upd x.cpc a (k.1.pc a) ∧ cellOf (x.doNone a k).2 = k.2 :=
    fun x a k => ⟨rfl, (CellEvs.stamp _ _ _).evsOf, rfl, cellOf_stamp ..⟩
  have h2 : ∀ (x : XState w V) a k, (x.doWaker a k).1.core.pc = x.core.pc ∧ evsOf (x.doWaker a k).2 = [] ∧ (x.doWaker a k).1.cpc = upd x.cpc a (k.1.pc a) ∧ cellOf (x.doWaker a k).2 = k.2 :=
    fun x a k => ⟨rfl, (CellEvs.stamp _ _ _).evsOf, rfl, cellOf_stamp ..⟩
  have h3 : ∀ (x : XState w V) a n m od k, (x.doLoad a n m od k).1.core.pc = x.core.pc ∧ evsOf (x.doLoad a n m od k).2 = [] ∧
      (x.doLoad a n m od k).1.cpc = upd x.cpc a (k.1.pc a) ∧ cellOf (x.doLoad a n m od k).2 = k.2 :=
    fun x a n m od k => ⟨rfl, (CellEvs.stamp _ _ _).evsOf, rfl, cellOf_stamp ..⟩
  have h4 : ∀ (x : XState w V) a n m od k, (x.doRmw a n m od k).1.core.pc = x.core.pc ∧ evsOf (x.doRmw a n m od k).2 = [] ∧
      (x.doRmw a n m od k).1.cpc = upd x.cpc a (k.1.pc a) ∧ cellOf (x.doRmw a n m od k).2 = k.2 := by
    intro x a n m od k
    refine ⟨rfl, ((CellEvs.stamp _ _ _).append (CellEvs.stamp _ _ _)).evsOf, rfl, ?_⟩
    unfold XState.doRmw
    simp only [cellOf_append, XState.emit]
    rw [cellOf_stamp, cellOf_stamp, List.takeWhile_append_dropWhile]
  simp only [XState.cellStep] at h
  (repeat' split at h) <;> first
    | cases h; done
    | obtain ⟨k, hk, he⟩ := Option.map_eq_some_iff.1 h
      have hg : ∀ r : XState w V × List (REv V), r = (s', revs) → (r.1.core.pc = s.core.pc ∧ evsOf r.2 = [] ∧ r.1.cpc = upd s.cpc (cellActOp a) (k.1.pc (cellActOp a)) ∧ cellOf r.2 = k.2) →
          s'.core.pc = s.core.pc ∧ evsOf revs = [] ∧ s'.cpc = upd s.cpc (cellActOp a) (k.1.pc (cellActOp a)) ∧ cellOf revs = k.2 := by
        rintro r rfl hr; exact hr
      have hh := hg _ he (by first | exact h1 .. | exact h2 .. | exact h3 .. | exact h4 ..)
      exact ⟨hh.1, hh.2.1, fin _ k rfl hk hh.2.2.1 hh.2.2.2⟩

theorem XExec.timely {tr : List (REv V)} {s : XState w V} (h : XExec o co cc w cap tr s) : Timely w cap tr s.core := by
  cases h with
  | init => exact (RExec.init (o := .source)).timely
  | step _ _ h => exact h

end Thingbuf.RA

namespace Thingbuf.Queue

variable {W : Type} {c : Config W} {tr : Trace W} {l l' : LState W} {a : Act W} {ch : Chan.Choice} {evs : Trace W}

/-- A step of the wait queue is one with the last values, or one of `Stale`. -/
theorem LExec.step_or (h : LExec c tr l) (hs : lstep c l (ch.queue a) = some (l', evs)) :
    Queue.step c l.q a = some (l'.q, evs) ∨ (evs = [] ∧ (∃ q q', Queue.step c q a = some (q', [])) ∧ ∃ t p, Stale l.q t p ∧ l'.q = l.q.goto t p) := by
  obtain ⟨hx, hl⟩ := h.sim
  cases a with
  | notify o =>
    simp only [Chan.Choice.queue, lstep] at hs
    split at hs
    · obtain ⟨r, h1, h2⟩ := Option.map_eq_some_iff.1 hs
      cases h2; exact .inl h1
    · cases hs
  | _ =>
    simp only [Chan.Choice.queue, lstep] at hs
    split at hs
    · rename_i hp
      split at hs
      · rename_i hi
        obtain ⟨r, h1, h2⟩ := Option.map_eq_some_iff.1 hs
        cases h2
        rcases (hl.load_sim hx hp hi.1 hi.2 h1).1 with h2 | ⟨h2, p, h3, h4⟩
        · exact .inl h2
        · exact .inr ⟨h2, ⟨_, _, by rw [h1, ← h2]⟩, _, p, h3, h4⟩
      · cases hs
    · obtain ⟨r, h1, h2⟩ := Option.map_eq_some_iff.1 hs
      cases h2; exact .inl h1

end Thingbuf.Queue

namespace Thingbuf.Chan

variable {w : Nat} {V : Type} {o : RA.Orders} {co : RA.CellOrders} {c : Config Nat} {tr : Trace V Nat} {xtr : List (RA.REv V)} {s : WState w V}

/-- The events of the ring buffer and of the wait cell are the same in both traces. -/
theorem WExec.evs (h : WExec o co c w tr xtr s) : coreOf tr = RA.evsOf xtr ∧ cellOf tr = RA.cellOf xtr := by
  induction h with
  | init => exact ⟨rfl, rfl⟩
  | sync _ _ _ ih => exact ih
  | step h hs ht ih =>
    clear ht
    simp only [coreOf_append, cellOf_append, RA.evsOf_append, RA.cellOf_append, ih.1, ih.2, List.append_cancel_left_eq]
    unfold wstep at hs
    split at hs
    · cases hs
    · cases hs
      exact ⟨(plan_api ‹_›).1.1, (plan_api ‹_›).1.2.1⟩
    · split at hs <;> cases hs
      rename_i a k hp _ m hr
      simp only [coreOf_append, cellOf_append, coreOf_core, cellOf_core, (core_api hp _ _).1, (core_api hp _ _).2.1, RA.cellOf_rstep hr, List.append_nil, and_self]
    · split at hs <;> cases hs
      rename_i a k hp _ x hr
      simp only [coreOf_append, cellOf_append, coreOf_cell, cellOf_cell, (cell_api hp _ _).1, (cell_api hp _ _).2.1, (RA.cellStep_code hr).2.1, List.append_nil, and_self]
    · split at hs <;> cases hs
      rename_i a k hp _ l evs hr
      simp only [coreOf_append, cellOf_append, coreOf_queue, cellOf_queue, (queue_api hp _ _).1, (queue_api hp _ _).2.1, List.append_nil]
      exact ⟨rfl, rfl⟩

/-- The ring buffer and the wait cell of a channel. -/
theorem WExec.mem (h : WExec o co c w tr xtr s) : RA.XExec o co c.cell w c.cap xtr s.mem := by
  induction h with
  | init => exact .init
  | @sync tr xtr s a b _ ih =>
    have := ih.step (act := .core (.sync a b)) (s' := (s.sync a b).mem) (evs := []) rfl (by rw [List.append_nil]; exact ih.timely)
    rwa [List.append_nil] at this
  | @step tr xtr s s' act ch evs revs h hs ht ih =>
    unfold wstep at hs
    split at hs
    · cases hs
    · cases hs; rw [List.append_nil]; exact ih
    · split at hs <;> cases hs
      rename_i a k hp _ m hr
      refine ih.step (act := .core (ch.core a)) ?_ ht
      simp only [RA.xstep, hr, Option.map_some]
    · split at hs <;> cases hs
      exact ih.step (act := .cell _ _) ‹_› ht
    · split at hs <;> cases hs
      rw [List.append_nil]; exact ih

/-- The wait queue of a channel. -/
theorem WExec.loads (h : WExec o co c w tr xtr s) : Queue.LExec c.queue (queueOf tr) s.queue := by
  induction h with
  | init => exact .init
  | sync a b _ ih => exact ih
  | step h hs ht ih =>
    rw [queueOf_append]
    unfold wstep at hs
    split at hs
    · cases hs
    · cases hs; rw [(plan_api ‹_›).1.2.2, List.append_nil]; exact ih
    · split at hs <;> cases hs
      rw [queueOf_append, (core_api ‹_› _ _).2.2, queueOf_core, List.append_nil, List.append_nil]; exact ih
    · split at hs <;> cases hs
      rw [queueOf_append, (cell_api ‹_› _ _).2.2, queueOf_cell, List.append_nil, List.append_nil]; exact ih
    · split at hs <;> cases hs
      rw [queueOf_append, (queue_api ‹_› _ _).2.2, queueOf_queue, List.append_nil]
      exact ih.step ‹_›

/-- The calls of a channel are those of some execution in which its memory may hold anything. -/
theorem WExec.ctl (h : WExec o co c w tr xtr s) :
    ExecM true c tr s.ctl ∧ s.ctl.core.pc = s.mem.core.pc ∧ s.ctl.cell.pc = s.mem.cpc ∧ s.ctl.queue = s.queue.q := by
  induction h with
  | init => exact ⟨.init, rfl, rfl, rfl⟩
  | sync a b _ ih => exact ih
  | @step tr xtr s s' act ch evs revs h hs ht ih =>
    obtain ⟨hx, h1, h2, h3⟩ := ih
    have hl := h.loads
    unfold wstep at hs
    split at hs
    · cases hs
    · rename_i r hp
      cases hs
      have ha := plan_api hp
      refine ⟨hx.step (act := act) ?_, by rw [← h1]; exact congrArg _ ha.2.1, by rw [← h2]; exact congrArg _ ha.2.2.1, by rw [← h3]; exact ha.2.2.2⟩
      rw [step_eq_plan, hp]; rfl
    · rename_i a k hp
      split at hs
      · cases hs
      rename_i m revs hr
      cases hs
      obtain ⟨st, st', e1, e2, e3⟩ := RA.rstep_code hr
      have hp' := plan_core hp st
      have hx1 : ExecM true c tr { s.ctl with core := st } := .mem st s.ctl.cell rfl hx (e1.trans h1.symm) rfl
      have hs1 : Chan.step c { s.ctl with core := st } act = some ((k { s.ctl with core := st' } (coreRet (RA.evsOf revs))).1,
          (RA.evsOf revs).map .core ++ (k { s.ctl with core := st' } (coreRet (RA.evsOf revs))).2) := by
        rw [step_eq_plan, hp']
        simp only [Plan.run, onCore, e3]
      have hx2 := hx1.step hs1
      have hn := core_nat hp s.ctl st' (coreRet (RA.evsOf revs))
      have hn' := core_nat hp s.ctl { s.ctl.core with pc := m.pc } (coreRet (RA.evsOf revs))
      have hc : ∀ r, (k s.ctl r).1.cell = s.ctl.cell ∧ (k s.ctl r).1.queue = s.ctl.queue := core_keep hp s.ctl
      rw [hn] at hx2
      simp only [hn']
      have hx3 := ExecM.mem { s.ctl.core with pc := m.pc } (k s.ctl (coreRet (RA.evsOf revs))).1.cell rfl hx2 e2.symm rfl
      refine ⟨hx3, trivial, ?_, ?_⟩
      · rw [← h2]; exact congrArg _ (hc _).1
      · rw [← h3]; exact (hc _).2
    · rename_i a k hp
      split at hs
      · cases hs
      rename_i x revs hr
      cases hs
      obtain ⟨e0, -, st, st', e1, e2, e3⟩ := RA.cellStep_code hr
      have hp' := plan_cell hp st (e1.trans h2.symm)
      have hx1 : ExecM true c tr { s.ctl with cell := st } := .mem s.ctl.core st rfl hx rfl (e1.trans h2.symm)
      have hs1 : Chan.step c { s.ctl with cell := st } act = some ((k { s.ctl with cell := st' } (RA.cellOf revs)).1,
          (RA.cellOf revs).map .cell ++ (k { s.ctl with cell := st' } (RA.cellOf revs)).2) := by
        rw [step_eq_plan, hp']
        simp only [Plan.run, onCell, e3]
      have hx2 := hx1.step hs1
      have hn := cell_nat hp s.ctl st' (RA.cellOf revs)
      have hn' := cell_nat hp s.ctl { s.ctl.cell with pc := x.cpc } (RA.cellOf revs)
      have hc : ∀ r, (k s.ctl r).1.core = s.ctl.core ∧ (k s.ctl r).1.queue = s.ctl.queue := cell_keep hp s.ctl
      rw [hn] at hx2
      simp only [hn']
      have hx3 := ExecM.mem (k s.ctl (RA.cellOf revs)).1.core { s.ctl.cell with pc := x.cpc } rfl hx2 rfl e2.symm
      refine ⟨hx3, ?_, trivial, ?_⟩
      · rw [e0, ← h1]; exact congrArg _ (hc _).1
      · rw [← h3]; exact (hc _).2
    · rename_i a k hp
      split at hs
      · cases hs
      rename_i l evs hr
      cases hs
      have hc : ∀ r, (k s.ctl r).1.core = s.ctl.core ∧ (k s.ctl r).1.cell = s.ctl.cell := queue_keep hp s.ctl
      have hn := queue_nat hp s.ctl l.q evs
      refine ⟨?_, ?_, ?_, ?_⟩
      · rcases hl.step_or hr with e1 | ⟨rfl, ⟨q, q', e1⟩, t, p, e2, e3⟩
        · refine hx.step (act := act) ?_
          rw [step_eq_plan, hp]
          simp only [Plan.run, onQueue, h3, e1]
        · rw [queue_none hp e1]
          have := hx.stale (t := t) (p := p) rfl (by rw [h3]; exact e2)
          rw [h3, ← e3] at this
          simpa using this
      · simp only [hn]; rw [← h1]; exact congrArg _ (hc _).1
      · simp only [hn]; rw [← h2]; exact congrArg _ (hc _).2
      · simp only [hn]

end Thingbuf.Chan
