import Verif.QueueReenter
import Verif.ChanFineMem
import Verif.ChanQEnds
import Verif.ChanHist

/-!
# Calls made while a waker runs

Helper lemmas for `ChanReenterProps`.
-/

namespace Thingbuf.Chan

variable {w : Nat} {V W : Type} {c : Config W}

/-- Is this a step of a call of the `Receiver`, or of its drop? -/
def Act.isRx : Act V W → Bool
  | .rx _ _ => true
  | _ => false

/-- Is this a step of the drop of `RecvRef` `a`? -/
def Act.isDropOf (a : OpId) : Act V W → Bool
  | .recvNotifyRun b _ => b == a
  | _ => false

/-- The drop of the `Receiver` is in the middle of calling the waker `v` of send call `k`: that is its next step. -/
def RxWaking (c : Config W) (s : State w V W) (k : Nat) (v : W) : Prop :=
  ∃ o spur s' evs o', Chan.step c s (.rx o spur) = some (s', evs) ∧ .queue (.wake o' k v) ∈ evs

/-- The drop of `RecvRef` `a` is in the middle of calling the waker `v` of send call `k`: that is its next step. -/
def RefWaking (c : Config W) (s : State w V W) (a : OpId) (k : Nat) (v : W) : Prop :=
  ∃ spur s' evs o, Chan.step c s (.recvNotifyRun a spur) = some (s', evs) ∧ .queue (.wake o k v) ∈ evs

/-- A step of the channel is a step of the wait queue, or is none of its business. -/
theorem step_split {s s' : State w V W} {act : Act V W} {evs : Trace V W} (hs : Chan.step c s act = some (s', evs)) :
    (queueCall c s act = none ∧ s'.queue = s.queue ∧ queueOf evs = []) ∨
      ∃ qact k, queueCall c s act = some (qact, k) ∧ Queue.step c.queue s.queue qact = some (s'.queue, queueOf evs) := by
  cases hq : queueCall c s act with
  | none => exact .inl ⟨rfl, step_queue_eq hq hs, step_queueOf hq hs⟩
  | some r =>
    obtain ⟨qact, k⟩ := r
    refine .inr ⟨qact, k, rfl, ?_⟩
    have ok := queueCall_ok hq
    rw [step_queueCall hq, onQueue] at hs
    cases hst : Queue.step c.queue s.queue qact with
    | none => rw [hst] at hs; cases hs
    | some r =>
      obtain ⟨q', qevs⟩ := r
      rw [hst] at hs
      simp only [Option.some.injEq, Prod.mk.injEq] at hs
      obtain ⟨h1, h2⟩ := hs
      obtain ⟨es, h3⟩ := ok.api { s with queue := q' } qevs
      have h4 : queueOf evs = qevs := by rw [← h2, h3]; simp
      have h5 : s'.queue = q' := by rw [← h1, ok.queue]
      rw [h4, h5]

/-- A step of the wait queue that the channel makes. -/
theorem step_of_queueCall {s : State w V W} {act : Act V W} {qact : Queue.Act W} {k : State w V W → List (Queue.Event W) → Out w V W}
    (hq : queueCall c s act = some (qact, k)) {q : Queue.State W} {qevs : Queue.Trace W} (hs : Queue.step c.queue s.queue qact = some (q, qevs)) :
    ∃ s' evs, Chan.step c s act = some (s', evs) ∧ ∀ e ∈ qevs, .queue e ∈ evs := by
  refine ⟨(k { s with queue := q } qevs).1, qevs.map .queue ++ (k { s with queue := q } qevs).2, ?_, fun e he => ?_⟩
  · rw [step_queueCall hq, onQueue, hs]
  · exact List.mem_append.2 (.inl (List.mem_map.2 ⟨e, he, rfl⟩))

section
variable {tr : Trace V W} {s s' : State w V W} {evs : Trace V W}

theorem ExecM.rx_pc (h : Exec c tr s) {k : Nat} {v : W} (hw : RxWaking c s k v) : ∃ o, s.rx = .qclose o ∧ s.queue.pc (.op o) = .cWake k v := by
  obtain ⟨o, spur, s', evs, o', hs, hm⟩ := hw
  rw [← mem_queueOf] at hm
  rcases step_split hs with ⟨-, -, h1⟩ | ⟨qact, kk, hq, h1⟩
  · rw [h1] at hm; cases hm
  · have hby := h.queue.wake_by h1 hm
    have hpc := h.queue.wake_pc h1 hm
    simp only [queueCall] at hq
    split at hq
    · cases hq
      rw [show Queue.Act.by (.close o : Queue.Act W) = .op o from rfl] at hby
      cases hby
      rcases hpc with hpc | hpc <;> simp [Queue.step, hpc] at h1
    · rename_i o1 hr
      cases hq
      rw [show Queue.Act.by (.op o1 spur : Queue.Act W) = .op o1 from rfl] at hby
      cases hby
      refine ⟨o', hr, hpc.resolve_left fun hpc => ?_⟩
      have := h.queueOwns.sat .rx o' .close (by simp [queueClaim, claimOf, hr, rxQueue])
      simp [hpc, queueKind] at this
    · cases hq

theorem rx_waking {o k : Nat} {v : W} (hr : s.rx = .qclose o) (hp : s.queue.pc (.op o) = .cWake k v) : RxWaking c s k v := by
  have hs : Queue.step c.queue s.queue (.op o false) = some (s.queue.goto (.op o) .cLoop, [.wake o k v]) := by
    simp only [Queue.step, Queue.opStep, hp]
  obtain ⟨s', evs, h1, h2⟩ := step_of_queueCall (s := s) (c := c) (act := .rx 0 false) (by simp only [queueCall, hr]; rfl) hs
  exact ⟨0, false, s', evs, o, h1, h2 _ (by simp)⟩

theorem ExecM.ref_pc (h : Exec c tr s) {a : OpId} {k : Nat} {v : W} (hw : RefWaking c s a k v) :
    ∃ o, s.ref a = .notifying o ∧ s.queue.pc (.op o) = .nWake k v := by
  obtain ⟨spur, s', evs, o', hs, hm⟩ := hw
  rw [← mem_queueOf] at hm
  rcases step_split hs with ⟨-, -, h1⟩ | ⟨qact, kk, hq, h1⟩
  · rw [h1] at hm; cases hm
  · have hby := h.queue.wake_by h1 hm
    have hpc := h.queue.wake_pc h1 hm
    simp only [queueCall] at hq
    split at hq
    · rename_i o1 hr
      cases hq
      rw [show Queue.Act.by (.op o1 spur : Queue.Act W) = .op o1 from rfl] at hby
      cases hby
      refine ⟨o', hr, hpc.resolve_right fun hpc => ?_⟩
      have := h.queueOwns.sat (.ref a) o' .notify (by simp [queueClaim, claimOf, hr, refQueue])
      simp [hpc, queueKind] at this
    · cases hq

theorem ref_waking {a : OpId} {o k : Nat} {v : W} (hr : s.ref a = .notifying o) (hp : s.queue.pc (.op o) = .nWake k v) : RefWaking c s a k v := by
  have hs : Queue.step c.queue s.queue (.op o false) = some (s.queue.endNotify o, [.wake o k v, .retNotify o true]) := by
    simp only [Queue.step, Queue.opStep, hp]
  obtain ⟨s', evs, h1, h2⟩ := step_of_queueCall (s := s) (c := c) (act := .recvNotifyRun a false) (by simp only [queueCall, hr]; rfl) hs
  exact ⟨false, s', evs, o, h1, h2 _ (by simp)⟩

/-- A step of the channel that is not one of the receiver is none of its drop. -/
theorem ExecM.not_by_rx (h : Exec c tr s) {o k : Nat} {v : W} (hp : s.queue.pc (.op o) = .cWake k v) {act : Act V W} (ha : act.isRx = false)
    {qact : Queue.Act W} {kk : State w V W → List (Queue.Event W) → Out w V W} (hq : queueCall c s act = some (qact, kk))
    {q' : Queue.State W} {qevs : Queue.Trace W} (hs : Queue.step c.queue s.queue qact = some (q', qevs)) : qact.by ≠ .op o := by
  intro hby
  cases act <;> simp only [queueCall] at hq <;> try (cases hq; done)
  case rx => cases ha
  case recvNotify a o1 =>
    split at hq <;> cases hq
    cases hby
    simp [Queue.step, hp] at hs
  case recvNotifyRun a spur =>
    split at hq <;> cases hq
    rename_i o1 hr
    cases hby
    have := h.queueOwns.sat (.ref a) o .notify (by simp [queueClaim, claimOf, hr, refQueue])
    simp [hp, queueKind] at this
  all_goals
    split at hq <;> first
      | (cases hq; done)
      | (cases hq; cases hby; done)
      | (split at hq <;> cases hq <;> cases hby)

/-- A step of the channel that is not one of the drop of a `RecvRef`. -/
theorem ExecM.not_by_ref (h : Exec c tr s) {a : OpId} {o k : Nat} {v : W} (hr : s.ref a = .notifying o) (hp : s.queue.pc (.op o) = .nWake k v)
    {act : Act V W} (ha : act.isDropOf a = false)
    {qact : Queue.Act W} {kk : State w V W → List (Queue.Event W) → Out w V W} (hq : queueCall c s act = some (qact, kk))
    {q' : Queue.State W} {qevs : Queue.Trace W} (hs : Queue.step c.queue s.queue qact = some (q', qevs)) : qact.by ≠ .op o := by
  intro hby
  have hcl : queueClaim s (.ref a) = some (o, .notify) := by simp [queueClaim, claimOf, hr, refQueue]
  cases act <;> simp only [queueCall] at hq <;> try (cases hq; done)
  case rx o0 spur =>
    split at hq <;> cases hq
    · cases hby
      simp [Queue.step, hp] at hs
    · rename_i hr'
      cases hby
      have := h.queueOwns.sat .rx o .close (by simp [queueClaim, claimOf, hr', rxQueue])
      simp [hp, queueKind] at this
  case recvNotify a o1 =>
    split at hq <;> cases hq
    cases hby
    simp [Queue.step, hp] at hs
  case recvNotifyRun b spur =>
    split at hq <;> cases hq
    rename_i o1 hr'
    cases hby
    have := h.queueOwns.inj _ _ _ _ _ hcl (show queueClaim s (.ref b) = some (o, .notify) by simp [queueClaim, claimOf, hr', refQueue])
    cases this
    simp [Act.isDropOf] at ha
  all_goals
    split at hq <;> first
      | (cases hq; done)
      | (cases hq; cases hby; done)
      | (split at hq <;> cases hq <;> cases hby)

theorem ExecM.ref_stays (h : Exec c tr s) {act : Act V W} (hs : Chan.step c s act = some (s', evs)) {a : OpId} {o k : Nat} {v : W}
    (hr : s.ref a = .notifying o) (hp : s.queue.pc (.op o) = .nWake k v) (hp' : s'.queue.pc (.op o) = .nWake k v) : s'.ref a = .notifying o := by
  have ht := step_tr hs
  have hoff : ∀ b, rxCore s.rx = some (b, .pop) → b ≠ a := fun b hb e => by
    have := ref_off_of_pop h.rinv h.coreOwns hb
    rw [e, hr] at this; cases this
  dsimp only at ht
  clear hs
  cases ht with
  | api hm =>
    cases hm <;> first
      | exact hr
      | (rename_i b hb
         have : a ≠ b := by rintro rfl; rw [hr] at hb; cases hb
         simp [State.refEnd, State.refgoto, upd, this, hr])
  | core h1 hm =>
    clear h1
    rename_i act s1 evs1 t es
    generalize coreRet evs1 = r at hm
    have hnew : ∀ b, rxCore s.rx = some (b, .pop) → (s.newRef b).ref a = .notifying o := fun b hb => by
      have : a ≠ b := fun e => hoff b hb e.symm
      simp [State.newRef, State.refgoto, upd, this, hr]
    cases hm <;> first
      | exact hr
      | (refine hnew _ ?_; rename_i hx; rw [hx]; rfl)
      | (rename_i b hb
         have : a ≠ b := by rintro rfl; rw [hr] at hb; cases hb
         simp [State.refgoto, upd, this, hr])
  | cell h1 hm => cases hm <;> exact hr
  | queue h1 hm =>
    cases hm <;> first
      | exact hr
      | skip
    case notify b o1 hb =>
      have : a ≠ b := by rintro rfl; rw [hr] at hb; cases hb
      simp [State.refgoto, upd, this, hr]
    case notifyEnd b o1 spur hb h2 =>
      by_cases hab : a = b
      · subst hab
        rw [hr] at hb
        cases hb
        simp only [Queue.step, Queue.opStep, hp, Option.some.injEq, Prod.mk.injEq] at h1
        rw [← h1.1] at hp'
        simp [Queue.State.endNotify, Queue.State.goto] at hp'
      · simp [State.refEnd, State.refgoto, upd, hab, hr]

/-- A run of the channel in which the drop of the `Receiver` takes no step. -/
theorem ExecM.run_without_rx {o k : Nat} {v : W} {as : List (Act V W)} : ∀ {tr : Trace V W} {s s' : State w V W} {evs : Trace V W}, Exec c tr s →
    s.queue.pc (.op o) = .cWake k v → (∀ a ∈ as, a.isRx = false) → runActs c s as = some (s', evs) →
    ∃ qas : List (Queue.Act W), (∀ a ∈ qas, a.by ≠ .op o) ∧ Queue.runActs c.queue s.queue qas = some (s'.queue, queueOf evs) := by
  induction as with
  | nil =>
    intro tr s s' evs h hp ha hr
    simp only [runActs, Option.some.injEq, Prod.mk.injEq] at hr
    obtain ⟨rfl, rfl⟩ := hr
    exact ⟨[], by simp, rfl⟩
  | cons a as ih =>
    intro tr s s' evs h hp ha hr
    simp only [runActs, Option.bind_eq_bind, Option.bind_eq_some_iff, Option.pure_def, Option.some.injEq, Prod.mk.injEq] at hr
    obtain ⟨⟨s1, e1⟩, h1, ⟨s2, e2⟩, h2, rfl, rfl⟩ := hr
    have ha' := fun b hb => ha b (List.mem_cons_of_mem _ hb)
    rw [queueOf_append]
    rcases step_split h1 with ⟨-, h3, h4⟩ | ⟨qact, kk, h3, h4⟩
    · obtain ⟨qas, h5, h6⟩ := ih (h.step h1) (by rw [h3]; exact hp) ha' h2
      rw [h3] at h6
      exact ⟨qas, h5, by rw [h4]; exact h6⟩
    · have hby := h.not_by_rx hp (ha a (by simp)) h3 h4
      obtain ⟨qas, h5, h6⟩ := ih (h.step h1) (by rw [Queue.step_by h4 hby]; exact hp) ha' h2
      exact ⟨qact :: qas, by simpa using ⟨hby, h5⟩, Queue.runActs_cons h4 h6⟩

/-- A run of the channel in which the drop of the `RecvRef` `a` takes no step. -/
theorem ExecM.run_without_ref {a : OpId} {o k : Nat} {v : W} {as : List (Act V W)} : ∀ {tr : Trace V W} {s s' : State w V W} {evs : Trace V W}, Exec c tr s →
    s.ref a = .notifying o → s.queue.pc (.op o) = .nWake k v → (∀ x ∈ as, x.isDropOf a = false) → runActs c s as = some (s', evs) →
    s'.ref a = .notifying o ∧ s'.queue.pc (.op o) = .nWake k v := by
  induction as with
  | nil =>
    intro tr s s' evs h hr hp ha hs
    simp only [runActs, Option.some.injEq, Prod.mk.injEq] at hs
    obtain ⟨rfl, rfl⟩ := hs
    exact ⟨hr, hp⟩
  | cons x as ih =>
    intro tr s s' evs h hr hp ha hs
    simp only [runActs, Option.bind_eq_bind, Option.bind_eq_some_iff, Option.pure_def, Option.some.injEq, Prod.mk.injEq] at hs
    obtain ⟨⟨s1, e1⟩, h1, ⟨s2, e2⟩, h2, rfl, rfl⟩ := hs
    have hp1 : s1.queue.pc (.op o) = .nWake k v := by
      rcases step_split h1 with ⟨-, h3, h4⟩ | ⟨qact, kk, h3, h4⟩
      · rw [h3]; exact hp
      · rw [Queue.step_by h4 (h.not_by_ref hr hp (ha x (by simp)) h3 h4)]; exact hp
    exact ih (h.step h1) (h.ref_stays h1 hr hp hp1) hp1 (fun b hb => ha b (List.mem_cons_of_mem _ hb)) h2

/-- The calls `ts` on the wait queue go on, without a step of the drop of the `RecvRef` `a`. -/
theorem ExecM.follows_without {a : OpId} {o k : Nat} {v : W} (ts : List Queue.Tid) (hts : ∀ t ∈ ts, t ≠ .op o) :
    ∀ {tr : Trace V W} {s : State w V W}, Exec c tr s → s.ref a = .notifying o → s.queue.pc (.op o) = .nWake k v →
    ∀ {q : Queue.State W} {evs : List (Queue.Event W)}, Queue.runActs c.queue s.queue (ts.map Queue.Tid.act) = some (q, evs) →
    ∃ (acts : List (Act V W)) (s' : State w V W) (es : Trace V W), acts.all Act.goesOn = true ∧ (∀ x ∈ acts, x.isDropOf a = false) ∧
      runActs c s acts = some (s', es) ∧ s'.queue = q := by
  induction ts with
  | nil =>
    intro tr s h hr hp q evs hq
    simp only [List.map_nil, Queue.runActs, Option.some.injEq, Prod.mk.injEq] at hq
    exact ⟨[], s, [], rfl, by simp, rfl, hq.1⟩
  | cons t ts ih =>
    intro tr s h hr hp q evs hq
    simp only [List.map_cons, Queue.runActs, Option.bind_eq_bind, Option.bind_eq_some_iff, Option.pure_def, Option.some.injEq, Prod.exists, Prod.mk.injEq] at hq
    obtain ⟨q1, e1, h1, q2, e2, h2, rfl, -⟩ := hq
    obtain ⟨x, s1, es1, hx, h3, rfl, h4⟩ := h.follow h1
    have hno : x.isDropOf a = false := by
      cases x <;> try rfl
      case recvNotifyRun b spur =>
        simp only [Act.isDropOf, beq_eq_false_iff_ne]
        rintro rfl
        exact hts t (by simp) (h4 b spur o rfl hr)
    obtain ⟨hr1, hp1⟩ := h.run_without_ref (as := [x]) hr hp (by simpa using hno) (runActs_cons h3 rfl)
    obtain ⟨acts, s2, es2, hall, hno2, h5, hq⟩ := ih (fun t ht => hts t (List.mem_cons_of_mem _ ht)) (h.step h3) hr1 hp1 h2
    exact ⟨x :: acts, s2, es1 ++ es2, by simp [hx, hall], by simpa using ⟨hno, hno2⟩, runActs_cons h3 h5, hq⟩

theorem ExecM.over_idle (h : Exec c tr s) {k : Nat} (hc : .api (.cancelled k) ∈ tr) : (s.queue.pc (.node k)).busy = false := by
  have hl := (h.lives k).over (.inr ((mem_life (k := k) rfl).2 hc))
  have h1 := h.nodesOk k
  have h2 := h.queue.inv.node k
  generalize s.queue.pc (.node k) = q at h1 h2
  cases hp : s.snd k <;> rw [hp] at hl h1 <;> simp [SPC.over] at hl <;> simp only [nodeOk] at h1 <;>
    cases q <;> simp_all [NodeNext.startPC, NodeNext.contPC, NodeNext.remPC, Queue.PC.busy, Queue.NodeOk]

/-- Dropping a waiting send future is dropping its node. -/
theorem step_cancel {act : Act V W} (hs : Chan.step c s act = some (s', evs)) {k : Nat} (hc : .api (.cancel k) ∈ evs) : .queue (.callDrop k) ∈ evs := by
  have ht := step_tr hs
  dsimp only at ht
  clear hs
  cases ht with
  | api hm => cases hm <;> simp at hc
  | core h1 hm =>
    rename_i act s1 evs1 t es
    generalize coreRet evs1 = r at hm
    cases hm <;> simp at hc
  | cell h1 hm => cases hm <;> simp at hc
  | queue h1 hm =>
    cases hm <;> simp at hc
    subst hc
    simp only [Queue.step] at h1
    split at h1 <;> cases h1 <;> simp

theorem run_cancel {as : List (Act V W)} : ∀ {s s' : State w V W} {evs : Trace V W}, runActs c s as = some (s', evs) → ∀ {k : Nat},
    .api (.cancel k) ∈ evs → .queue (.callDrop k) ∈ evs := by
  induction as with
  | nil =>
    intro s s' evs hs k hc
    simp only [runActs, Option.some.injEq, Prod.mk.injEq] at hs
    rw [← hs.2] at hc; cases hc
  | cons x as ih =>
    intro s s' evs hs k hc
    simp only [runActs, Option.bind_eq_bind, Option.bind_eq_some_iff, Option.pure_def, Option.some.injEq, Prod.mk.injEq] at hs
    obtain ⟨⟨s1, e1⟩, h1, ⟨s2, e2⟩, h2, rfl, rfl⟩ := hs
    rw [List.mem_append] at hc ⊢
    exact hc.imp (step_cancel h1) (ih h2)
end

end Thingbuf.Chan
