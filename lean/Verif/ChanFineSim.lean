import Verif.ChanFine
import Verif.ChanRun
import Verif.QueueFineRun

/-!
# The channel with the two-step dequeue refines the channel with the one-step dequeue, helpers
-/

namespace Thingbuf.Queue

variable {W : Type} {c : Config W}

/-- A step of the fine queue is an access to memory, or matches a step of the coarse queue by the same action. -/
theorem FExec.match_step {tr : Trace W} {f f' : FState W} (h : FExec c tr f) {act : Act W} {evs : Trace W}
    (hs : fstep c f act = some (f', evs)) :
    (f'.abs = f.abs ∧ quiet evs = [] ∧ ∃ o spur, act = .op o spur) ∨
      ∃ evs', Queue.step c f.abs act = some (f'.abs, evs') ∧ quiet evs' = quiet evs := by
  obtain ⟨tr', hsim⟩ := h.sim
  have lift : ∀ act : Act W, (∀ o t spur, f.half = some (o, t) → act ≠ .op o spur) →
      (Queue.step c f.q act).map (fun r => ((⟨r.1, f.half⟩ : FState W), r.2)) = some (f', evs) →
      ∃ evs', Queue.step c f.abs act = some (f'.abs, evs') ∧ quiet evs' = quiet evs := by
    intro act ha hm
    cases hq : Queue.step c f.q act with
    | none => rw [hq] at hm; cases hm
    | some r =>
      rw [hq] at hm
      cases hm
      exact ⟨_, (hsim.other ha hq).1, rfl⟩
  cases act with
  | op o spur =>
    simp only [fstep] at hs
    split at hs
    · rename_i o' t hh
      split at hs
      · rename_i ho
        subst ho
        have g := hsim.gap _ _ hh
        rw [g.rest] at hs
        cases hs
        have he : f.abs = deqDone f.q o' t := by unfold FState.abs; rw [hh]
        refine .inl ⟨?_, quiet_touch (.op o') (t :: (f.q.list.node t).prev.toList), _, _, rfl⟩
        exact he.symm
      · rename_i ho
        refine .inr (lift (.op o spur) ?_ hs)
        intro o2 t2 sp h2 h3
        rw [hh] at h2
        cases h2; cases h3
        exact ho rfl
    · rename_i hh
      split at hs
      · rename_i ns t hp ht
        simp only [Option.some.injEq] at hs
        obtain ⟨_, _, evs', h1, h2, _, _⟩ := hsim.swap hh hp ht hs
        have he : f.abs = f.q := by unfold FState.abs; rw [hh]
        have hspur : Queue.step c f.abs (.op o spur) = Queue.step c f.abs (.op o false) := by
          rw [he]
          rcases PC.deqState_cases (p := f.q.pc (.op o)) (by rw [hp]; rfl) with hpc | hpc <;>
            simp only [Queue.step, opStep, hpc]
        exact .inr ⟨evs', by rw [hspur]; exact h1, h2⟩
      · exact .inr (lift (.op o spur) (fun o t sp h2 => by rw [hh] at h2; cases h2) hs)
  | start n v => exact .inr (lift (.start n v) (fun _ _ _ _ h3 => by cases h3) hs)
  | cont n v => exact .inr (lift (.cont n v) (fun _ _ _ _ h3 => by cases h3) hs)
  | drop n => exact .inr (lift (.drop n) (fun _ _ _ _ h3 => by cases h3) hs)
  | giveUp n => exact .inr (lift (.giveUp n) (fun _ _ _ _ h3 => by cases h3) hs)
  | notify o => exact .inr (lift (.notify o) (fun _ _ _ _ h3 => by cases h3) hs)
  | close o => exact .inr (lift (.close o) (fun _ _ _ _ h3 => by cases h3) hs)
  | node n spur => exact .inr (lift (.node n spur) (fun _ _ _ _ h3 => by cases h3) hs)

end Thingbuf.Queue

namespace Thingbuf.Chan

variable {w : Nat} {V W : Type} {c : Config W}

theorem quiet_append (a b : Trace V W) : quiet (a ++ b) = quiet a ++ quiet b := by simp [quiet]

theorem quiet_queue (evs : Queue.Trace W) : quiet (evs.map .queue : Trace V W) = (Queue.quiet evs).map .queue := by
  induction evs with
  | nil => rfl
  | cons e evs ih => cases e <;> simpa [quiet, Queue.quiet] using ih

/-! ## Replacing the wait queue of a state -/

/-- Scaffolding of the proof, no counterpart in the source. -/
def State.setQueue (s : State w V W) (q : Queue.State W) : State w V W := { s with queue := q }

theorem State.setQueue_core (s : State w V W) (q : Queue.State W) : (s.setQueue q).core = s.core := rfl
theorem State.setQueue_cell (s : State w V W) (q : Queue.State W) : (s.setQueue q).cell = s.cell := rfl
theorem State.setQueue_txCount (s : State w V W) (q : Queue.State W) : (s.setQueue q).txCount = s.txCount := rfl
theorem State.setQueue_handles (s : State w V W) (q : Queue.State W) : (s.setQueue q).handles = s.handles := rfl
theorem State.setQueue_calls (s : State w V W) (q : Queue.State W) : (s.setQueue q).calls = s.calls := rfl
theorem State.setQueue_snd (s : State w V W) (q : Queue.State W) : (s.setQueue q).snd = s.snd := rfl
theorem State.setQueue_closer (s : State w V W) (q : Queue.State W) : (s.setQueue q).closer = s.closer := rfl
theorem State.setQueue_rx (s : State w V W) (q : Queue.State W) : (s.setQueue q).rx = s.rx := rfl
theorem State.setQueue_ref (s : State w V W) (q : Queue.State W) : (s.setQueue q).ref = s.ref := rfl
theorem State.setQueue_refs (s : State w V W) (q : Queue.State W) : (s.setQueue q).refs = s.refs := rfl

theorem queueCall_queue (s : State w V W) (q : Queue.State W) (act : Act V W) :
    queueCall c (s.setQueue q) act = queueCall c s act := by
  cases act <;> rfl

theorem step_queueCall {s : State w V W} {act : Act V W} {qact : Queue.Act W}
    {k : State w V W → List (Queue.Event W) → Out w V W} (h : queueCall c s act = some (qact, k)) :
    step c s act = onQueue c s qact k := by
  cases act <;> simp only [queueCall] at h <;> try (cases h; done)
  all_goals
    split at h <;> first
      | (cases h; done)
      | (rename_i h1; cases h; simp only [step, rxStep, h1]; done)
      | skip
  all_goals
    rename_i h1
    split at h
    all_goals first
      | (cases h; done)
      | (rename_i h2
         cases h
         simp only [step, h1]
         first | rw [if_neg h2] | rw [if_pos h2])

theorem onCore_queue (s : State w V W) (q : Queue.State W) (act : Thingbuf.Act V)
    (k : State w V W → Option Ret → Out w V W)
    (hk : ∀ s r, k (s.setQueue q) r = ((k s r).1.setQueue q, (k s r).2)) :
    onCore c (s.setQueue q) act k = (onCore c s act k).map fun r => (r.1.setQueue q, r.2) := by
  unfold onCore
  rw [show (s.setQueue q).core = s.core from rfl]
  cases h : Thingbuf.step c.cap s.core act with
  | none => rfl
  | some r =>
    simp only [Option.map_some]
    rw [show { s.setQueue q with core := r.1 } = ({ s with core := r.1 } : State w V W).setQueue q from rfl, hk]

theorem onCell_queue (s : State w V W) (q : Queue.State W) (act : Cell.Act W)
    (k : State w V W → List (Cell.Event W) → Out w V W)
    (hk : ∀ s r, k (s.setQueue q) r = ((k s r).1.setQueue q, (k s r).2)) :
    onCell c (s.setQueue q) act k = (onCell c s act k).map fun r => (r.1.setQueue q, r.2) := by
  unfold onCell
  rw [show (s.setQueue q).cell = s.cell from rfl]
  cases h : Cell.step c.cell s.cell act with
  | none => rfl
  | some r =>
    simp only [Option.map_some]
    rw [show { s.setQueue q with cell := r.1 } = ({ s with cell := r.1 } : State w V W).setQueue q from rfl, hk]

theorem afterPush_queue (q : Queue.State W) (k : Nat) (a : OpId) (att : Att) (s : State w V W) (r : Option Ret) :
    afterPush c k a att (s.setQueue q) r =
      ((afterPush c k a att s r).1.setQueue q, (afterPush c k a att s r).2) := by
  rcases r with _ | r
  · rfl
  · cases r <;> try rfl
    cases att <;> simp only [afterPush] <;> (try split) <;> rfl

theorem afterPop_queue (q : Queue.State W) (a : OpId) (v : W) (s : State w V W) (r : Option Ret) :
    afterPop a v (s.setQueue q) r = ((afterPop a v s r).1.setQueue q, (afterPop a v s r).2) := by
  rcases r with _ | r
  · rfl
  · cases r <;> rfl

theorem afterPop2_queue (q : Queue.State W) (a : OpId) (v : W) (s : State w V W) (r : Option Ret) :
    afterPop2 a v (s.setQueue q) r = ((afterPop2 a v s r).1.setQueue q, (afterPop2 a v s r).2) := by
  rcases r with _ | r
  · rfl
  · cases r <;> rfl

theorem afterLast_queue (q : Queue.State W) (a : OpId) (s : State w V W) (r : Option Ret) :
    afterLast a (s.setQueue q) r = ((afterLast a s r).1.setQueue q, (afterLast a s r).2) := by
  rcases r with _ | r
  · rfl
  · cases r <;> rfl

theorem afterTry_queue (q : Queue.State W) (a : OpId) (p : Option W) (s : State w V W) (r : Option Ret) :
    afterTry a p (s.setQueue q) r = ((afterTry a p s r).1.setQueue q, (afterTry a p s r).2) := by
  rcases r with _ | r
  · rfl
  · cases r <;> rfl

theorem afterRxClose_queue (q : Queue.State W) (s : State w V W) (r : Option Ret) :
    afterRxClose (s.setQueue q) r = ((afterRxClose s r).1.setQueue q, (afterRxClose s r).2) := by
  rcases r with _ | r
  · rfl
  · cases r <;> try rfl
    rename_i b; cases b <;> rfl

theorem afterTxClose_queue (q : Queue.State W) (s : State w V W) (r : Option Ret) :
    afterTxClose c (s.setQueue q) r = ((afterTxClose c s r).1.setQueue q, (afterTxClose c s r).2) := by
  rcases r with _ | r
  · rfl
  · cases r <;> simp only [afterTxClose] <;> (try split) <;> (try rfl)
    rename_i b
    cases b <;> (try split) <;> rfl

theorem afterWait_queue (q : Queue.State W) (v : W) (s : State w V W) (evs : List (Cell.Event W)) :
    afterWait v (s.setQueue q) evs = ((afterWait v s evs).1.setQueue q, (afterWait v s evs).2) := by
  unfold afterWait
  cases waitRet evs with
  | none => rfl
  | some r => cases r <;> rfl

theorem afterSendNotify_queue (q : Queue.State W) (k : Nat) (s : State w V W) (evs : List (Cell.Event W)) :
    afterSendNotify k (s.setQueue q) evs =
      ((afterSendNotify k s evs).1.setQueue q, (afterSendNotify k s evs).2) := by
  unfold afterSendNotify
  split <;> rfl

/-- A step of the `Receiver` that is not one of the wait queue does not depend on it. -/
theorem rxStep_queue (s : State w V W) {o : Nat} {spur : Bool}
    (h : queueCall c s (.rx o spur : Act V W) = none) (q : Queue.State W) :
    rxStep c (s.setQueue q) o spur = (rxStep c s o spur).map fun r => (r.1.setQueue q, r.2) := by
  simp only [queueCall] at h
  unfold rxStep
  rw [show (s.setQueue q).rx = s.rx from rfl]
  generalize s.rx = rx at h ⊢
  cases rx
  case idle => rfl
  case gone => rfl
  case toPop v => exact onCore_queue s q _ _ fun _ _ => rfl
  case pop a v => exact onCore_queue s q _ _ (afterPop_queue q a v)
  case toWait v => exact onCell_queue s q _ _ fun _ _ => rfl
  case wait o v => exact onCell_queue s q _ _ (afterWait_queue q v)
  case toPop2 v => exact onCore_queue s q _ _ fun _ _ => rfl
  case pop2 a v => exact onCore_queue s q _ _ (afterPop2_queue q a v)
  case toLast => exact onCore_queue s q _ _ fun _ _ => rfl
  case last a => exact onCore_queue s q _ _ (afterLast_queue q a)
  case tryPop a p => exact onCore_queue s q _ _ (afterTry_queue q a p)
  case toClose pan => exact onCore_queue s q _ _ fun _ _ => rfl
  case closing a => exact onCore_queue s q _ _ (afterRxClose_queue q)
  all_goals cases h

theorem closerStep_queue (s : State w V W) (o : Nat) (q : Queue.State W) :
    closerStep c (s.setQueue q) o = (closerStep c s o).map fun r => (r.1.setQueue q, r.2) := by
  unfold closerStep
  rw [show (s.setQueue q).closer = s.closer from rfl]
  generalize s.closer = p
  cases p
  case none => rfl
  case done => rfl
  case toClose pan => exact onCore_queue s q _ _ fun _ _ => rfl
  case closing a => exact onCore_queue s q _ _ (afterTxClose_queue q)
  case toCloseTx => exact onCell_queue s q _ _ fun _ _ => rfl
  case closeTx o =>
    refine onCell_queue s q _ _ fun s r => ?_
    by_cases hn : notifyOver r = true
    · rw [if_pos hn, if_pos hn]; rfl
    · rw [if_neg hn, if_neg hn]

theorem ite_map {α β : Type} {p : Prop} {i j : Decidable p} {a b : Option α} {a' b' : Option β} {f : α → β}
    (h1 : a' = a.map f) (h2 : b' = b.map f) : @ite _ p i a' b' = (@ite _ p j a b).map f := by
  by_cases hp : p
  · rw [if_pos hp, if_pos hp, h1]
  · rw [if_neg hp, if_neg hp, h2]

/-- A step that is not one of the wait queue does not depend on it. -/
theorem step_queue {s : State w V W} {act : Act V W} (hq : queueCall c s act = none) (q : Queue.State W) :
    step c (s.setQueue q) act = (step c s act).map fun r => (r.1.setQueue q, r.2) := by
  cases act with
  | clone h h' => exact ite_map (p := h ∈ s.handles ∧ h' ∉ s.handles) rfl rfl
  | dropTx h pan =>
    refine ite_map (p := h ∈ s.handles ∧ ∀ x ∈ s.calls, x.2 ≠ h) ?_ rfl
    exact ite_map (p := s.txCount > 1) rfl rfl
  | closer o => exact closerStep_queue s o q
  | send k h wait a =>
    simp only [step, State.setQueue_snd, State.setQueue_rx, State.setQueue_ref]
    split
    · refine ite_map (p := h ∈ s.handles) ?_ rfl
      exact onCore_queue s q _ _ fun _ _ => rfl
    · rfl
  | push k i =>
    simp only [step, State.setQueue_snd, State.setQueue_rx, State.setQueue_ref]
    split
    · exact onCore_queue s q _ _ (afterPush_queue q _ _ _)
    · rfl
  | retry k a =>
    simp only [step, State.setQueue_snd, State.setQueue_rx, State.setQueue_ref]
    split
    · exact onCore_queue s q _ _ fun _ _ => rfl
    · rfl
  | start k v =>
    simp only [queueCall] at hq
    simp only [step, State.setQueue_snd, State.setQueue_rx, State.setQueue_ref]
    generalize s.snd k = p at hq ⊢
    cases p <;> first | rfl | cases hq
  | cont k v =>
    simp only [queueCall] at hq
    simp only [step, State.setQueue_snd, State.setQueue_rx, State.setQueue_ref]
    generalize s.snd k = p at hq ⊢
    cases p <;> first | rfl | cases hq
  | node k spur =>
    simp only [queueCall] at hq
    simp only [step, State.setQueue_snd, State.setQueue_rx, State.setQueue_ref]
    generalize s.snd k = p at hq ⊢
    cases p <;> first | rfl | cases hq
  | cancel k =>
    simp only [queueCall] at hq
    simp only [step, State.setQueue_snd, State.setQueue_rx, State.setQueue_ref]
    generalize s.snd k = p at hq ⊢
    cases p <;> try rfl
    by_cases hb : c.blocking = true
    · simp only [if_pos hb]; rfl
    · simp only [if_neg hb] at hq; cases hq
  | timeout k =>
    simp only [queueCall] at hq
    simp only [step, State.setQueue_snd, State.setQueue_rx, State.setQueue_ref]
    generalize s.snd k = p at hq ⊢
    cases p <;> try rfl
    by_cases hb : c.blocking = true
    · simp only [if_pos hb] at hq; cases hq
    · simp only [if_neg hb]; rfl
  | sendRead k =>
    simp only [step, State.setQueue_snd, State.setQueue_rx, State.setQueue_ref]
    split
    · exact onCore_queue s q _ _ fun _ _ => rfl
    · rfl
  | sendWrite k v =>
    simp only [step, State.setQueue_snd, State.setQueue_rx, State.setQueue_ref]
    split
    · exact onCore_queue s q _ _ fun _ _ => rfl
    · rfl
  | dropSend k =>
    simp only [step, State.setQueue_snd, State.setQueue_rx, State.setQueue_ref]
    split
    · exact onCore_queue s q _ _ fun _ _ => rfl
    · rfl
  | sendNotify k o =>
    simp only [step, State.setQueue_snd, State.setQueue_rx, State.setQueue_ref]
    split
    · exact onCell_queue s q _ _ fun _ _ => rfl
    · rfl
  | sendNotifyRun k =>
    simp only [step, State.setQueue_snd, State.setQueue_rx, State.setQueue_ref]
    split
    · exact onCell_queue s q _ _ (afterSendNotify_queue q k)
    · rfl
  | forgetSend k => simp only [step, State.setQueue_snd, State.setQueue_rx, State.setQueue_ref]; split <;> rfl
  | poll v => simp only [step, State.setQueue_snd, State.setQueue_rx, State.setQueue_ref]; split <;> rfl
  | tryRecv a =>
    simp only [step, State.setQueue_snd, State.setQueue_rx, State.setQueue_ref]
    split
    · exact onCore_queue s q _ _ fun _ _ => rfl
    · rfl
  | rx o spur => exact rxStep_queue s hq q
  | recvRead a =>
    simp only [step, State.setQueue_snd, State.setQueue_rx, State.setQueue_ref]
    split
    · exact onCore_queue s q _ _ fun _ _ => rfl
    · rfl
  | recvWrite a v =>
    simp only [step, State.setQueue_snd, State.setQueue_rx, State.setQueue_ref]
    split
    · exact onCore_queue s q _ _ fun _ _ => rfl
    · rfl
  | dropRecv a =>
    simp only [step, State.setQueue_snd, State.setQueue_rx, State.setQueue_ref]
    split
    · exact onCore_queue s q _ _ fun _ _ => rfl
    · rfl
  | recvNotify a o =>
    simp only [queueCall] at hq
    simp only [step, State.setQueue_snd, State.setQueue_rx, State.setQueue_ref]
    generalize s.ref a = p at hq ⊢
    cases p <;> first | rfl | cases hq
  | recvNotifyRun a spur =>
    simp only [queueCall] at hq
    simp only [step, State.setQueue_snd, State.setQueue_rx, State.setQueue_ref]
    generalize s.ref a = p at hq ⊢
    cases p <;> first | rfl | cases hq
  | forgetRecv a => simp only [step, State.setQueue_snd, State.setQueue_rx, State.setQueue_ref]; split <;> rfl
  | dropRx pan =>
    simp only [step, State.setQueue_snd, State.setQueue_rx, State.setQueue_ref]
    split
    · exact ite_map (p := s.refs = []) rfl rfl
    · rfl

theorem State.setQueue_self (s : State w V W) : s.setQueue s.queue = s := rfl

/-- A step that is not one of the wait queue leaves it as it is. -/
theorem step_queue_eq {s s' : State w V W} {act : Act V W} {evs : Trace V W} (hq : queueCall c s act = none)
    (hs : step c s act = some (s', evs)) : s'.queue = s.queue := by
  have h := step_queue hq s.queue
  rw [State.setQueue_self, hs] at h
  simp only [Option.map_some, Option.some.injEq, Prod.mk.injEq, and_true] at h
  rw [h]
  rfl

/-- A queue that nobody can use. -/
def stuckQueue : Queue.State W := { Queue.State.init with pc := fun _ => .gone }

theorem stuckQueue_step (c : Queue.Config W) (act : Queue.Act W) : Queue.step c stuckQueue act = none := by
  cases act <;> rfl

/-- A step that is not one of the wait queue has no event of it. -/
theorem step_queueOf {s s' : State w V W} {act : Act V W} {evs : Trace V W} (hq : queueCall c s act = none)
    (hs : step c s act = some (s', evs)) : queueOf evs = [] := by
  have h := step_queue hq stuckQueue
  rw [hs] at h
  have ht := step_tr h
  dsimp only at ht
  generalize hx : s'.setQueue stuckQueue = s2 at ht
  clear hx h hs
  cases ht with
  | api _ => rfl
  | core _ _ => simp
  | cell _ _ => simp
  | queue h1 _ => exact absurd (h1.symm.trans (stuckQueue_step _ _)) (by simp)

/-! ## What the caller does after a step of the wait queue -/

theorem findSome_quiet {α : Type} (g : Queue.Event W → Option α) (hg : ∀ t n, g (.touch t n) = none)
    (evs : Queue.Trace W) : (Queue.quiet evs).findSome? g = evs.findSome? g := by
  induction evs with
  | nil => rfl
  | cons e l ih =>
    cases e with
    | touch t n => rw [List.findSome?_cons, hg]; exact ih
    | _ => simp only [Queue.quiet, List.filter_cons, if_true, List.findSome?_cons] at ih ⊢; rw [ih]

theorem any_quiet (g : Queue.Event W → Bool) (hg : ∀ t n, g (.touch t n) = false)
    (evs : Queue.Trace W) : (Queue.quiet evs).any g = evs.any g := by
  induction evs with
  | nil => rfl
  | cons e l ih =>
    cases e with
    | touch t n => rw [List.any_cons, hg, Bool.false_or]; exact ih
    | _ => simp only [Queue.quiet, List.filter_cons, if_true, List.any_cons] at ih ⊢; rw [ih]

theorem nodeRet_quiet (evs : Queue.Trace W) : nodeRet (Queue.quiet evs) = nodeRet evs :=
  findSome_quiet _ (fun _ _ => rfl) evs

theorem opOver_quiet (evs : Queue.Trace W) : opOver (Queue.quiet evs) = opOver evs :=
  any_quiet _ (fun _ _ => rfl) evs

/-- What the caller does next depends on the queue's state not at all, and on its events only as far as they are
not accesses to memory; it does not change the queue, and only API events occur. -/
structure KOk (qact : Queue.Act W) (k : State w V W → List (Queue.Event W) → Out w V W) : Prop where
  set : ∀ s q evs, k (s.setQueue q) evs = ((k s evs).1.setQueue q, (k s evs).2)
  quiet : ∀ s evs, k s (Queue.quiet evs) = k s evs
  stay : ∀ o spur, qact = .op o spur → ∀ s evs, opOver evs = false → k s evs = (s, [])
  queue : ∀ s evs, (k s evs).1.queue = s.queue
  api : ∀ s evs, ∃ es : List (Api W), (k s evs).2 = es.map .api

theorem KOk.const {qact : Queue.Act W} (g : State w V W → State w V W) (es : List (Api W))
    (hg : ∀ s q, g (s.setQueue q) = (g s).setQueue q) (hq : ∀ s, (g s).queue = s.queue)
    (hn : ∀ o spur, qact ≠ .op o spur) : KOk qact (fun s _ => (g s, es.map .api)) :=
  ⟨fun s q _ => by rw [hg], fun _ _ => rfl, fun o spur h => absurd h (hn o spur), fun s _ => hq s, fun _ _ => ⟨es, rfl⟩⟩

theorem KOk.start (k : Nat) (spur : Bool) : KOk (.node k spur) (afterStart (w := w) (V := V) (W := W) k) := by
  constructor
  · intro s q evs
    unfold afterStart
    generalize nodeRet evs = r
    rcases r with _ | (r | _ | _)
    · rfl
    · cases r <;> rfl
    · rfl
    · rfl
  · intro s evs
    unfold afterStart
    rw [nodeRet_quiet]
  · intro o spur h; cases h
  · intro s evs
    unfold afterStart
    generalize nodeRet evs = r
    rcases r with _ | (r | _ | _)
    · rfl
    · cases r <;> rfl
    · rfl
    · rfl
  · intro s evs
    unfold afterStart
    generalize nodeRet evs = r
    rcases r with _ | (r | _ | _)
    · exact ⟨[], rfl⟩
    · cases r
      · exact ⟨[_], rfl⟩
      · exact ⟨[_], rfl⟩
      · exact ⟨[], rfl⟩
    · exact ⟨[_], rfl⟩
    · exact ⟨[_], rfl⟩

theorem KOk.cont (k : Nat) (spur : Bool) : KOk (.node k spur) (afterCont (w := w) (V := V) (W := W) k) := by
  constructor
  · intro s q evs
    unfold afterCont
    generalize nodeRet evs = r
    rcases r with _ | (r | _ | _)
    · rfl
    · cases r <;> rfl
    · rfl
    · rfl
  · intro s evs
    unfold afterCont
    rw [nodeRet_quiet]
  · intro o spur h; cases h
  · intro s evs
    unfold afterCont
    generalize nodeRet evs = r
    rcases r with _ | (r | _ | _)
    · rfl
    · cases r <;> rfl
    · rfl
    · rfl
  · intro s evs
    unfold afterCont
    generalize nodeRet evs = r
    rcases r with _ | (r | _ | _)
    · exact ⟨[], rfl⟩
    · cases r
      · exact ⟨[_], rfl⟩
      · exact ⟨[_], rfl⟩
      · exact ⟨[], rfl⟩
    · exact ⟨[_], rfl⟩
    · exact ⟨[_], rfl⟩

theorem KOk.drop (k : Nat) (spur : Bool) : KOk (.node k spur) (afterDrop (w := w) (V := V) (W := W) k) := by
  constructor
  · intro s q evs
    unfold afterDrop
    cases nodeRet evs <;> rfl
  · intro s evs
    unfold afterDrop
    rw [nodeRet_quiet]
  · intro o spur h; cases h
  · intro s evs
    unfold afterDrop
    cases nodeRet evs <;> rfl
  · intro s evs
    unfold afterDrop
    cases nodeRet evs
    · exact ⟨[], rfl⟩
    · exact ⟨[_], rfl⟩

theorem KOk.over (o : Nat) (spur : Bool) (g : State w V W → State w V W) (e : Api W)
    (hg : ∀ s q, g (s.setQueue q) = (g s).setQueue q) (hq : ∀ s, (g s).queue = s.queue) :
    KOk (.op o spur) (fun s evs => if opOver evs then (g s, [.api e]) else (s, [])) := by
  constructor
  · intro s q evs
    cases opOver evs
    · rfl
    · exact congrArg (·, _) (hg s q)
  · intro s evs
    rw [opOver_quiet]
  · intro _ _ _ s evs h; rw [h]; rfl
  · intro s evs
    cases opOver evs
    · rfl
    · exact hq s
  · intro s evs
    cases opOver evs
    · exact ⟨[], rfl⟩
    · exact ⟨[e], rfl⟩

theorem queueCall_ok {s : State w V W} {act : Act V W} {qact : Queue.Act W}
    {k : State w V W → List (Queue.Event W) → Out w V W} (h : queueCall c s act = some (qact, k)) : KOk qact k := by
  cases act <;> simp only [queueCall] at h <;> try cases h
  case start n v =>
    split at h <;> cases h
    exact .const (fun s => s.sgoto n .starting) [] (fun _ _ => rfl) (fun _ => rfl) (fun _ _ h => by cases h)
  case cont n v =>
    split at h <;> cases h <;>
      exact .const (fun s => s.sgoto n .conting) [] (fun _ _ => rfl) (fun _ => rfl) (fun _ _ h => by cases h)
  case node n spur =>
    split at h <;> cases h
    · exact .start _ _
    · exact .cont _ _
    · exact .drop _ _
  case cancel n =>
    split at h
    · split at h <;> cases h
      exact .const (fun s => s.sgoto n .dropping) [.cancel n] (fun _ _ => rfl) (fun _ => rfl) (fun _ _ h => by cases h)
    · cases h
  case timeout n =>
    split at h
    · split at h <;> cases h
      exact .const (fun s => s.sendEnd n) [.retSend n .timeout] (fun _ _ => rfl) (fun _ => rfl) (fun _ _ h => by cases h)
    · cases h
  case recvNotify a o =>
    split at h <;> cases h
    exact .const (fun s => s.refgoto a (.notifying o)) [] (fun _ _ => rfl) (fun _ => rfl) (fun _ _ h => by cases h)
  case recvNotifyRun a spur =>
    split at h <;> cases h
    exact .over _ _ (fun s => s.refEnd a) (.dropRecvEnd a) (fun _ _ => rfl) (fun _ => rfl)
  case rx o spur =>
    split at h <;> cases h
    · exact .const (fun s => s.rgoto (.qclose o)) [] (fun _ _ => rfl) (fun _ => rfl) (fun _ _ h => by cases h)
    · exact .over _ _ (fun s => s.rgoto .gone) .rxDropped (fun _ _ => rfl) (fun _ => rfl)

theorem queueCall_op {s : State w V W} {act : Act V W} {o : Nat} {spur : Bool}
    {k : State w V W → List (Queue.Event W) → Out w V W} (h : queueCall c s act = some (.op o spur, k)) :
    (∃ o spur, act = .rx o spur) ∨ ∃ a spur, act = .recvNotifyRun a spur := by
  cases act <;> simp only [queueCall] at h <;> try cases h
  case start => split at h <;> cases h
  case cont => split at h <;> cases h
  case node => split at h <;> cases h
  case cancel | timeout =>
    split at h
    · split at h <;> cases h
    · cases h
  case recvNotify => split at h <;> cases h
  case recvNotifyRun => exact .inr ⟨_, _, rfl⟩
  case rx => exact .inl ⟨_, _, rfl⟩

/-! ## The simulation -/

theorem setQueue_setQueue (s : State w V W) (q q' : Queue.State W) : (s.setQueue q).setQueue q' = s.setQueue q' := rfl

theorem FState.abs_eq (f : FState w V W) : f.abs = f.ch.setQueue f.queue.abs := rfl

/-- The step of the channel, with the step of its wait queue. -/
theorem fstep_cases {f f' : FState w V W} {act : Act V W} {evs : Trace V W} (hs : fstep c f act = some (f', evs)) :
    (queueCall c f.ch act = none ∧ step c f.ch act = some (f'.ch, evs) ∧ f'.half = f.half ∧ f'.queue = f.queue ∧
        queueOf evs = []) ∨
      ∃ qact k qevs, queueCall c f.ch act = some (qact, k) ∧
        Queue.fstep c.queue f.queue qact = some (f'.queue, qevs) ∧ queueOf evs = qevs ∧
        f'.ch = (k (f.ch.setQueue f'.queue.q) qevs).1 ∧ evs = qevs.map .queue ++ (k (f.ch.setQueue f'.queue.q) qevs).2 := by
  unfold fstep at hs
  cases hq : queueCall c f.ch act with
  | none =>
    rw [hq] at hs
    cases hst : step c f.ch act with
    | none => simp [hst] at hs
    | some r =>
      simp only [hst, Option.map_some, Option.some.injEq, Prod.mk.injEq] at hs
      obtain ⟨rfl, rfl⟩ := hs
      refine .inl ⟨rfl, rfl, rfl, ?_, step_queueOf hq hst⟩
      unfold FState.queue
      rw [step_queue_eq hq hst]
  | some r =>
    obtain ⟨qact, k⟩ := r
    rw [hq] at hs
    have ok := queueCall_ok hq
    cases hst : Queue.fstep c.queue f.queue qact with
    | none => simp [hst] at hs
    | some r =>
      simp only [hst, Option.map_some, Option.some.injEq, Prod.mk.injEq] at hs
      obtain ⟨rfl, rfl⟩ := hs
      have he : (FState.queue ⟨(k (f.ch.setQueue r.1.q) r.2).1, r.1.half⟩ : Queue.FState W) = r.1 := by
        unfold FState.queue
        rw [ok.queue]
        rfl
      refine .inr ⟨qact, k, r.2, rfl, ?_, ?_, ?_, ?_⟩
      · exact hst.trans (congrArg (fun x => some (x, r.2)) he.symm)
      · obtain ⟨es, h1⟩ := ok.api { f.ch with queue := r.1.q } r.2
        rw [h1]
        simp
      · exact congrArg (fun x : Queue.FState W => (k (f.ch.setQueue x.q) r.2).1) he.symm
      · exact congrArg (fun x : Queue.FState W => r.2.map Ev.queue ++ (k (f.ch.setQueue x.q) r.2).2) he.symm

/-- The wait queue of the channel is the wait queue with the two-step dequeue. -/
theorem FExec.queue {tr : Trace V W} {f : FState w V W} (h : FExec c tr f) :
    Queue.FExec c.queue (queueOf tr) f.queue := by
  induction h with
  | init => exact .init
  | step h hs ih =>
    rw [queueOf_append]
    rcases fstep_cases hs with ⟨_, _, _, h1, h2⟩ | ⟨qact, k, qevs, _, h1, h2, _⟩
    · rw [h1, h2, List.append_nil]; exact ih
    · rw [h2]; exact ih.step h1

/-- A step of the fine channel is an access to memory, or matches a step of the coarse channel. -/
theorem FExec.match_step {tr : Trace V W} {f f' : FState w V W} (h : FExec c tr f) {act : Act V W} {evs : Trace V W}
    (hs : fstep c f act = some (f', evs)) :
    (f'.abs = f.abs ∧ quiet evs = [] ∧ ((∃ o spur, act = .rx o spur) ∨ ∃ a spur, act = .recvNotifyRun a spur)) ∨
      ∃ evs', Chan.step c f.abs act = some (f'.abs, evs') ∧ quiet evs' = quiet evs := by
  rcases fstep_cases hs with ⟨hq, hst, _, h1, h2⟩ | ⟨qact, k, qevs, hq, hst, h2, h3, h4⟩
  · right
    refine ⟨evs, ?_, rfl⟩
    rw [FState.abs_eq, step_queue hq, hst, FState.abs_eq, h1]
    rfl
  · have ok := queueCall_ok hq
    have hab : ∀ evs', Queue.quiet evs' = Queue.quiet qevs →
        (k (f.ch.setQueue f'.queue.abs) evs') = (f'.abs, (k (f.ch.setQueue f'.queue.q) qevs).2) := by
      intro evs' he
      rw [← ok.quiet, he, ok.quiet, FState.abs_eq, h3]
      have e1 := ok.set (f.ch.setQueue f'.queue.q) f'.queue.abs qevs
      rw [setQueue_setQueue] at e1
      exact e1
    rcases h.queue.match_step hst with ⟨h5, h6, o, spur, h7⟩ | ⟨evs', h5, h6⟩
    · left
      have e2 := hab [] h6.symm
      rw [ok.stay o spur h7 _ [] rfl] at e2
      simp only [Prod.mk.injEq] at e2
      refine ⟨?_, ?_, ?_⟩
      · rw [← e2.1, h5]; rfl
      · rw [h4, quiet_append, quiet_queue, h6, ← e2.2]; rfl
      · exact queueCall_op (h7 ▸ hq)
    · right
      have e2 := hab evs' h6
      refine ⟨evs'.map .queue ++ (k (f.ch.setQueue f'.queue.q) qevs).2, ?_, ?_⟩
      · have hq' : queueCall c f.abs act = some (qact, k) := by rw [FState.abs_eq, queueCall_queue, hq]
        rw [step_queueCall hq', onQueue]
        have h5' : Queue.step c.queue f.abs.queue qact = some (f'.queue.abs, evs') := h5
        rw [h5']
        simp only
        rw [show { f.abs with queue := f'.queue.abs } = f.ch.setQueue f'.queue.abs from rfl, e2]
      · rw [h4, quiet_append, quiet_append, quiet_queue, quiet_queue, h6]

/-- The channel with the two-step dequeue refines the channel with the one-step dequeue. -/
theorem FExec.sim {tr : Trace V W} {f : FState w V W} (h : FExec c tr f) :
    ∃ tr', Exec c tr' f.abs ∧ quiet tr' = quiet tr := by
  induction h with
  | init => exact ⟨[], .init, rfl⟩
  | step h hs ih =>
    obtain ⟨tr', h1, h2⟩ := ih
    rcases h.match_step hs with ⟨h3, h4, _⟩ | ⟨evs', h3, h4⟩
    · exact ⟨tr', by rw [h3]; exact h1, by rw [quiet_append, h4, List.append_nil, h2]⟩
    · exact ⟨tr' ++ evs', h1.step h3, by rw [quiet_append, quiet_append, h2, h4]⟩

end Thingbuf.Chan
