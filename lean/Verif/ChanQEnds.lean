import Verif.ChanEnds
import Verif.ChanSleep
import Verif.QueueSolo

/-!
# How the drops that notify senders end

The drop of a `RecvRef` and that of the `Receiver` take the lock of the wait queue, so they may have to wait; but not forever.
-/

namespace Thingbuf.Chan

variable {w : Nat} {V W : Type} {c : Config W} {tr : Trace V W} {s : State w V W}

theorem runActs_cons {s s1 s2 : State w V W} {a : Act V W} {as : List (Act V W)} {e1 e2 : Trace V W} (h1 : Chan.step c s a = some (s1, e1))
    (h2 : runActs c s1 as = some (s2, e2)) : runActs c s (a :: as) = some (s2, e1 ++ e2) := by
  simp [runActs, h1, h2]

theorem onQueue_some {act : Queue.Act W} {q : Queue.State W} {evs : List (Queue.Event W)} {k : State w V W → List (Queue.Event W) → Out w V W}
    (h : Queue.step c.queue s.queue act = some (q, evs)) (hk : ∀ t : State w V W, (k t evs).1.queue = t.queue) :
    ∃ (s' : State w V W) (es : Trace V W), onQueue c s act k = some (s', es) ∧ s'.queue = q := by
  refine ⟨(k { s with queue := q } evs).1, evs.map .queue ++ (k { s with queue := q } evs).2, ?_, ?_⟩
  · simp [onQueue, h]
  · rw [hk]

theorem afterStart_queue (k : Nat) (evs : List (Queue.Event W)) (t : State w V W) : (afterStart k t evs).1.queue = t.queue := by
  unfold afterStart; split <;> rfl
theorem afterCont_queue (k : Nat) (evs : List (Queue.Event W)) (t : State w V W) : (afterCont k t evs).1.queue = t.queue := by
  unfold afterCont; split <;> rfl
theorem afterDrop_queue (k : Nat) (evs : List (Queue.Event W)) (t : State w V W) : (afterDrop k t evs).1.queue = t.queue := by
  unfold afterDrop; split <;> rfl
theorem afterRecvNotify_queue (a : OpId) (evs : List (Queue.Event W)) (t : State w V W) : (afterRecvNotify a t evs).1.queue = t.queue := by
  unfold afterRecvNotify; split <;> rfl

/-- A step of a call on the wait queue is a step of the channel. -/
theorem ExecM.follow (h : Exec c tr s) {t : Queue.Tid} {q : Queue.State W} {evs : List (Queue.Event W)}
    (hs : Queue.step c.queue s.queue t.act = some (q, evs)) :
    ∃ (act : Act V W) (s' : State w V W) (es : Trace V W), act.goesOn = true ∧ Chan.step c s act = some (s', es) ∧ s'.queue = q ∧
      ∀ a spur o, act = .recvNotifyRun a spur → s.ref a = .notifying o → t = .op o := by
  cases t with
  | node k =>
    have hn := h.nodesOk k
    have hb : NodeNext.startPC (s.queue.pc (.node k)) = true ∨ NodeNext.contPC (s.queue.pc (.node k)) = true ∨
        NodeNext.remPC (s.queue.pc (.node k)) = true := by
      simp only [Queue.Tid.act, Queue.step, Queue.nodeStep] at hs
      split at hs <;> first
        | cases hs; done
        | (rename_i hp; rw [hp]; simp [NodeNext.startPC, NodeNext.contPC, NodeNext.remPC])
    have no : ∀ l, s.queue.pc (.node k) ≠ .idle l := by
      intro l hl
      rw [hl] at hb
      simp [NodeNext.startPC, NodeNext.contPC, NodeNext.remPC] at hb
    cases hp : s.snd k <;> rw [hp] at hn
    case starting =>
      obtain ⟨s', es, h1, h2⟩ := onQueue_some (k := afterStart (V := V) (w := w) k) hs (afterStart_queue k evs)
      exact ⟨.node k false, s', es, rfl, by simpa [Chan.step, hp, Queue.Tid.act] using h1, h2, by simp⟩
    case conting =>
      obtain ⟨s', es, h1, h2⟩ := onQueue_some (k := afterCont (V := V) (w := w) k) hs (afterCont_queue k evs)
      exact ⟨.node k false, s', es, rfl, by simpa [Chan.step, hp, Queue.Tid.act] using h1, h2, by simp⟩
    case dropping =>
      obtain ⟨s', es, h1, h2⟩ := onQueue_some (k := afterDrop (V := V) (w := w) k) hs (afterDrop_queue k evs)
      exact ⟨.node k false, s', es, rfl, by simpa [Chan.step, hp, Queue.Tid.act] using h1, h2, by simp⟩
    case push a att => cases att <;> simp only [nodeOk] at hn <;> first | exact absurd hn (no _) | exact absurd hn.choose_spec.1 (no _)
    case retry att => cases att <;> simp only [nodeOk] at hn <;> first | exact absurd hn (no _) | exact absurd hn.choose_spec.1 (no _)
    all_goals
      simp only [nodeOk] at hn
      first
      | exact absurd hn (no _)
      | exact absurd hn.choose_spec.1 (no _)
      | (rw [hn.2.1, hn.2.2.1, hn.2.2.2] at hb; simp at hb)
  | op o =>
    have hb : ∃ k, queueKind (s.queue.pc (.op o)) = some k := by
      simp only [Queue.Tid.act, Queue.step, Queue.opStep] at hs
      split at hs <;> first
        | cases hs; done
        | (rename_i hp; rw [hp]; exact ⟨_, rfl⟩)
    obtain ⟨k, hk⟩ := hb
    obtain ⟨x, hx⟩ := h.queueOwns.cov o k hk
    cases x with
    | snd j => cases hx
    | closer => cases hx
    | rx =>
      simp only [queueClaim, claimOf] at hx
      cases hp : s.rx <;> rw [hp] at hx <;> cases hx
      obtain ⟨s', es, h1, h2⟩ := onQueue_some (s := s) (k := fun (s : State w V W) evs => if opOver evs then (s.rgoto .gone, [.api .rxDropped]) else (s, [])) hs
        (fun t => by split <;> rfl)
      exact ⟨.rx 0 false, s', es, rfl, by simpa [Chan.step, rxStep, hp, Queue.Tid.act] using h1, h2, by simp⟩
    | ref a =>
      simp only [queueClaim, claimOf] at hx
      cases hp : s.ref a <;> rw [hp] at hx <;> cases hx
      obtain ⟨s', es, h1, h2⟩ := onQueue_some (k := afterRecvNotify (V := V) (w := w) a) hs (afterRecvNotify_queue a evs)
      refine ⟨.recvNotifyRun a false, s', es, rfl, by simpa [Chan.step, hp, Queue.Tid.act] using h1, h2, fun a' spur o' e1 e2 => ?_⟩
      cases e1
      rw [hp] at e2
      cases e2
      rfl

theorem ExecM.of_runActs {acts : List (Act V W)} : ∀ {tr : Trace V W} {s s' : State w V W} {evs : Trace V W}, Exec c tr s →
    runActs c s acts = some (s', evs) → Exec c (tr ++ evs) s' := by
  induction acts with
  | nil =>
    intro tr s s' evs h hr
    simp only [runActs, Option.some.injEq, Prod.mk.injEq] at hr
    obtain ⟨rfl, rfl⟩ := hr
    simpa using h
  | cons a l ih =>
    intro tr s s' evs h hr
    simp only [runActs, Option.bind_eq_bind, Option.bind_eq_some_iff, Option.pure_def, Option.some.injEq, Prod.exists, Prod.mk.injEq] at hr
    obtain ⟨s1, e1, h1, s2, e2, h2, rfl, rfl⟩ := hr
    rw [← List.append_assoc]
    exact ih (h.step h1) h2

theorem ExecM.follows (ts : List Queue.Tid) : ∀ {tr : Trace V W} {s : State w V W}, Exec c tr s → ∀ {q : Queue.State W} {evs : List (Queue.Event W)},
    Queue.runActs c.queue s.queue (ts.map Queue.Tid.act) = some (q, evs) →
    ∃ (acts : List (Act V W)) (s' : State w V W) (es : Trace V W), acts.all Act.goesOn = true ∧ runActs c s acts = some (s', es) ∧ s'.queue = q := by
  induction ts with
  | nil =>
    intro tr s h q evs hr
    simp only [List.map_nil, Queue.runActs, Option.some.injEq, Prod.mk.injEq] at hr
    exact ⟨[], s, [], rfl, rfl, hr.1⟩
  | cons t ts ih =>
    intro tr s h q evs hr
    simp only [List.map_cons, Queue.runActs, Option.bind_eq_bind, Option.bind_eq_some_iff, Option.pure_def, Option.some.injEq, Prod.exists, Prod.mk.injEq] at hr
    obtain ⟨q1, e1, h1, q2, e2, h2, rfl, -⟩ := hr
    obtain ⟨a, s1, es1, ha, h3, rfl, -⟩ := h.follow h1
    obtain ⟨acts, s2, es2, hall, h4, hq⟩ := ih (h.step h3) h2
    exact ⟨a :: acts, s2, es1 ++ es2, by simp [ha, hall], runActs_cons h3 h4, hq⟩

/-- The channel can go on until the call `t` on the wait queue is over. -/
theorem ExecM.queue_end (h : Exec c tr s) {t : Queue.Tid} (hb : (s.queue.pc t).busy = true) :
    ∃ (acts : List (Act V W)) (s' : State w V W) (es : Trace V W), acts.all Act.goesOn = true ∧ runActs c s acts = some (s', es) ∧
      (s'.queue.pc t).busy = false := by
  obtain ⟨u, m, n, q, evs, -, -, hr, hq⟩ := h.queue.canEnd hb
  obtain ⟨acts, s', es, h1, h2, h3⟩ := h.follows (List.replicate m u ++ List.replicate n t) (q := q) (evs := evs) (by simpa using hr)
  exact ⟨acts, s', es, h1, h2, by rw [h3]; exact hq⟩

/-! ### `RecvRef` -/

theorem Tr.ref_goes {s' : State w V W} {evs : Trace V W} {a : OpId} {o : Nat} (he : Exec c tr s) (ht : Tr c s s' evs)
    (ha : s.ref a = .notifying o ∨ s.ref a = .done) : s'.ref a = .notifying o ∨ s'.ref a = .done := by
  have keep : ∀ {b : OpId} {p : RefPC}, (b = a → s.ref b ≠ .notifying o ∧ s.ref b ≠ .done) → upd s.ref b p a = .notifying o ∨ upd s.ref b p a = .done := by
    intro b p hb
    by_cases e : a = b
    · obtain ⟨h1, h2⟩ := hb e.symm
      rw [e] at ha
      exact (ha.elim h1 h2).elim
    · rw [upd_ne _ _ e]; exact ha
  have got : ∀ {b : OpId}, rxCore s.rx = some (b, .pop) → upd s.ref b .held a = .notifying o ∨ upd s.ref b .held a = .done := by
    intro b hb
    refine keep fun _ => ?_
    rw [ref_off_of_pop he.rinv he.coreOwns hb]
    simp
  cases ht with
  | api hm =>
    cases hm with
    | forgetRecv b hp => exact keep fun _ => by rw [hp]; simp
    | _ => exact ha
  | core h1 hm =>
    generalize coreRet _ = ret at hm
    cases hm with
    | tryOk b p spur hp => exact got (by rw [hp]; rfl)
    | popSome b v spur hp => exact got (by rw [hp]; rfl)
    | pop2Some b v spur hp => exact got (by rw [hp]; rfl)
    | lastSome b spur hp => exact got (by rw [hp]; rfl)
    | dropRecv b r hp => exact keep fun _ => by rw [hp]; simp
    | _ => exact ha
  | cell h1 hm => cases hm <;> exact ha
  | queue h1 hm =>
    cases hm with
    | notify b x evs hp => exact keep fun _ => by rw [hp]; simp
    | notifyEnd b x sp evs hp hr =>
      by_cases e : a = b
      · subst e; exact .inr (upd_self ..)
      · simp only [State.refEnd, State.refgoto]; rw [upd_ne _ _ e]; exact ha
    | _ => exact ha

theorem ExecM.ref_goes {acts : List (Act V W)} {a : OpId} {o : Nat} : ∀ {tr : Trace V W} {s s' : State w V W} {evs : Trace V W}, Exec c tr s →
    runActs c s acts = some (s', evs) → s.ref a = .notifying o ∨ s.ref a = .done → s'.ref a = .notifying o ∨ s'.ref a = .done := by
  induction acts with
  | nil =>
    intro tr s s' evs h hr ha
    simp only [runActs, Option.some.injEq, Prod.mk.injEq] at hr
    obtain ⟨rfl, rfl⟩ := hr
    exact ha
  | cons x l ih =>
    intro tr s s' evs h hr ha
    simp only [runActs, Option.bind_eq_bind, Option.bind_eq_some_iff, Option.pure_def, Option.some.injEq, Prod.exists, Prod.mk.injEq] at hr
    obtain ⟨s1, e1, h1, s2, e2, h2, rfl, rfl⟩ := hr
    exact ih (h.step h1) h2 ((step_tr h1).ref_goes h ha)

theorem busy_of_kind {p : Queue.PC W} {k : QK} (h : queueKind p = some k) : p.busy = true := by
  cases p <;> simp [queueKind, Queue.PC.busy] at h ⊢

theorem ExecM.notifying_end (h : Exec c tr s) {a : OpId} {o : Nat} (ha : s.ref a = .notifying o) :
    ∃ (acts : List (Act V W)) (s' : State w V W) (es : Trace V W), acts.all Act.goesOn = true ∧ runActs c s acts = some (s', es) ∧
      .api (.dropRecvEnd a) ∈ es := by
  obtain ⟨acts, s', es, h1, h2, h3⟩ := h.queue_end (t := .op o)
    (busy_of_kind (h.queueOwns.sat (.ref a) o .notify (by simp [queueClaim, claimOf, ha, refQueue])))
  refine ⟨acts, s', es, h1, h2, ?_⟩
  have h' := h.of_runActs h2
  have hd : s'.ref a = .done := (h.ref_goes h2 (.inl ha)).resolve_left fun hn => by
    rw [busy_of_kind (h'.queueOwns.sat (.ref a) o .notify (by simp [queueClaim, claimOf, hn, refQueue]))] at h3
    cases h3
  have h4 := h'.refHist a
  have h5 := h.refHist a
  rw [hd] at h4
  rw [ha] at h5
  exact (List.mem_append.1 h4.2).resolve_left h5.2

theorem ExecM.queue_off (h : Exec c tr s) : ∃ o, s.queue.pc (.op o) = .off := by
  obtain ⟨o, ho⟩ := exists_not_called ((queueOf tr).filterMap Queue.Event.byOp)
  refine ⟨o, ?_⟩
  have hn : Queue.opEvs (queueOf tr) o = [] := by
    rw [Queue.opEvs, List.filter_eq_nil_iff]
    intro e he hb
    exact ho (List.mem_filterMap.2 ⟨e, he, by simpa using hb⟩)
  have hh := h.queue.opHist o
  rw [hn] at hh
  cases hp : s.queue.pc (.op o) <;> rw [hp] at hh <;> simp [Queue.OpHist] at hh ⊢
  all_goals (rename_i x; cases x <;> simp [Queue.OpHist] at hh)

theorem Tr.rx_goes {s' : State w V W} {evs : Trace V W} {o : Nat} (ht : Tr c s s' evs)
    (ha : s.rx = .qclose o ∨ s.rx = .gone) : s'.rx = .qclose o ∨ s'.rx = .gone := by
  cases ht with
  | api hm => cases hm <;> first | exact ha | (rename_i hp; rw [hp] at ha; simp at ha; done) | (rename_i hp _; rw [hp] at ha; simp at ha; done)
  | core h1 hm =>
    generalize coreRet _ = ret at hm
    cases hm <;> first
      | exact ha
      | exact .inr rfl
      | (rename_i hp; rw [hp] at ha; simp at ha; done)
      | (rename_i hp _; rw [hp] at ha; simp at ha; done)
      | (rename_i hp _ _; rw [hp] at ha; simp at ha; done)
  | cell h1 hm =>
    cases hm <;> first
      | exact ha
      | (rename_i hp; rw [hp] at ha; simp at ha; done)
      | (rename_i hp _; rw [hp] at ha; simp at ha; done)
  | queue h1 hm =>
    cases hm <;> first
      | exact ha
      | exact .inr rfl
      | (rename_i hp; rw [hp] at ha; simp at ha; done)
      | (rename_i hp _; rw [hp] at ha; simp at ha; done)

theorem ExecM.rx_goes {acts : List (Act V W)} {o : Nat} : ∀ {tr : Trace V W} {s s' : State w V W} {evs : Trace V W}, Exec c tr s →
    runActs c s acts = some (s', evs) → s.rx = .qclose o ∨ s.rx = .gone → s'.rx = .qclose o ∨ s'.rx = .gone := by
  induction acts with
  | nil =>
    intro tr s s' evs h hr ha
    simp only [runActs, Option.some.injEq, Prod.mk.injEq] at hr
    obtain ⟨rfl, rfl⟩ := hr
    exact ha
  | cons x l ih =>
    intro tr s s' evs h hr ha
    simp only [runActs, Option.bind_eq_bind, Option.bind_eq_some_iff, Option.pure_def, Option.some.injEq, Prod.exists, Prod.mk.injEq] at hr
    obtain ⟨s1, e1, h1, s2, e2, h2, rfl, rfl⟩ := hr
    exact ih (h.step h1) h2 ((step_tr h1).rx_goes ha)

/-- Only `close` says that the `Receiver` is gone. -/
theorem rxGone_step {cf : Queue.Config W} {s s' : Queue.State W} {act : Queue.Act W} {evs : List (Queue.Event W)}
    (h : Queue.step cf s act = some (s', evs)) : s'.rxGone = s.rxGone ∨ ∃ o, act = .close o := by
  cases act with
  | close o => exact .inr ⟨o, rfl⟩
  | node n spur =>
    left
    simp only [Queue.step, Queue.nodeStep] at h
    split at h <;> try (cases h; done)
    all_goals try simp only [Queue.startCas, Queue.acquire, Queue.startLoop, Queue.startSet, Queue.startEnq, Queue.contLoad,
      Queue.contReload, Queue.contUpd, Queue.remCheck, Queue.remList, Queue.remCas, Queue.fail, Option.some.injEq] at h
    all_goals
      repeat' split at h
      all_goals first
        | (cases h; done)
        | (cases h; rfl)
  | op o spur =>
    left
    simp only [Queue.step, Queue.opStep] at h
    split at h <;> try (cases h; done)
    all_goals try simp only [Queue.nLoop, Queue.acquire, Queue.nMatch, Queue.nStore, Queue.nUnlock, Queue.cLoop,
      Queue.fail, Option.some.injEq] at h
    all_goals
      repeat' split at h
      all_goals first
        | (cases h; done)
        | (cases h; rfl)
  | _ =>
    left
    simp only [Queue.step] at h
    repeat' split at h
    all_goals first
      | (cases h; done)
      | (cases h; rfl)

/-- The wait queue knows whether the `Receiver` is closing it. -/
theorem ExecM.rxGone (h : Exec c tr s) : s.queue.rxGone = true → (∃ o, s.rx = .qclose o) ∨ s.rx = .gone := by
  have keep : ∀ {s t : State w V W} {evs : Trace V W}, Tr c s t evs → ((∃ o, s.rx = .qclose o) ∨ s.rx = .gone) → (∃ o, t.rx = .qclose o) ∨ t.rx = .gone := by
    intro s t evs ht hs
    rcases hs with ⟨o, hs⟩ | hs
    · exact (ht.rx_goes (.inl hs)).imp (fun h => ⟨o, h⟩) id
    · exact (ht.rx_goes (o := 0) (.inr hs)).imp (fun h => ⟨0, h⟩) id
  refine Exec.ind (P := fun tr s => s.queue.rxGone = true → (∃ o, s.rx = .qclose o) ∨ s.rx = .gone) ?_ ?_ ?_ ?_ ?_ tr s h
  · intro h; cases h
  · intro tr s t e he ih hm hd
    rw [hm.frame.2.2] at hd
    exact keep (.api hm) (ih hd)
  · intro tr s act s1 evs r t es he ih h1 hr hm hd
    subst hr
    refine keep (.core h1 hm) (ih ?_)
    rw [← hm.frame.2]; exact hd
  · intro tr s act s1 evs t es he ih h1 hm hd
    refine keep (.cell h1 hm) (ih ?_)
    rw [← hm.frame.2]; exact hd
  · intro tr s act s1 evs t es he ih h1 hm hd
    rcases rxGone_step h1 with h2 | ⟨o, rfl⟩
    · exact keep (.queue h1 hm) (ih (by rw [← h2]; exact hd))
    · cases hm
      exact .inl ⟨o, rfl⟩

theorem RecvEnding.can_end (h : Exec c tr s) {a : OpId} (ha : RecvEnding tr a) :
    ∃ (acts : List (Act V W)) (s' : State w V W) (es : Trace V W), acts.all Act.goesOn = true ∧ runActs c s acts = some (s', es) ∧
      .api (.dropRecvEnd a) ∈ es := by
  have hr := h.refHist a
  cases hp : s.ref a <;> rw [hp] at hr <;> simp only [RefOk, ha.1, ha.2, not_true, not_false_iff, and_true, and_false, false_and] at hr
  case notifying o => exact h.notifying_end hp
  case toNotify =>
    obtain ⟨o, ho⟩ := h.queue_off
    have hg : s.queue.rxGone = false := by
      cases hg : s.queue.rxGone with
      | false => rfl
      | true =>
        have := h.rinv.closing (by rcases h.rxGone hg with ⟨o, h⟩ | h <;> rw [h] <;> rfl)
        have hm := (h.rinv.refs a).2 (by rw [hp]; rfl)
        rw [this] at hm; cases hm
    obtain ⟨s1, e1, h1, h2⟩ : ∃ (s1 : State w V W) (e1 : Trace V W), Chan.step c s (.recvNotify a o) = some (s1, e1) ∧ s1.ref a = .notifying o := by
      simp only [Chan.step, hp, onQueue, Queue.step, ho, hg]
      exact ⟨_, _, rfl, upd_self ..⟩
    obtain ⟨acts, s', es, h3, h4, h5⟩ := (h.step h1).notifying_end h2
    exact ⟨.recvNotify a o :: acts, s', e1 ++ es, by simp [Act.goesOn, h3], runActs_cons h1 h4, by simp [h5]⟩

/-! ### The `Receiver` -/

theorem ExecM.rx_gone (h : Exec c tr s) : s.rx = .gone → .api .rxDropped ∈ tr := by
  refine Exec.ind (P := fun tr s => s.rx = .gone → .api .rxDropped ∈ tr) ?_ ?_ ?_ ?_ ?_ tr s h
  · intro h; cases h
  · intro tr s t e he ih hm hd
    cases hm <;> first
      | exact List.mem_append_left _ (ih hd)
      | cases hd
  · intro tr s act s1 evs r t es he ih h1 hr hm hd
    cases hm <;> first
      | exact List.mem_append_left _ (ih hd)
      | (simp; done)
      | cases hd
  · intro tr s act s1 evs t es he ih h1 hm hd
    cases hm <;> first
      | exact List.mem_append_left _ (ih hd)
      | cases hd
  · intro tr s act s1 evs t es he ih h1 hm hd
    cases hm <;> first
      | exact List.mem_append_left _ (ih hd)
      | (simp; done)
      | cases hd

theorem ExecM.qclose_end (h : Exec c tr s) {o : Nat} (ha : s.rx = .qclose o) (hn : .api .rxDropped ∉ tr) :
    ∃ (acts : List (Act V W)) (s' : State w V W) (es : Trace V W), acts.all Act.goesOn = true ∧ runActs c s acts = some (s', es) ∧
      .api .rxDropped ∈ es := by
  obtain ⟨acts, s', es, h1, h2, h3⟩ := h.queue_end (t := .op o)
    (busy_of_kind (h.queueOwns.sat .rx o .close (by simp [queueClaim, claimOf, ha, rxQueue])))
  refine ⟨acts, s', es, h1, h2, ?_⟩
  have h' := h.of_runActs h2
  have hd : s'.rx = .gone := (h.rx_goes h2 (.inl ha)).resolve_left fun hn => by
    rw [busy_of_kind (h'.queueOwns.sat .rx o .close (by simp [queueClaim, claimOf, hn, rxQueue]))] at h3
    cases h3
  exact (List.mem_append.1 (h'.rx_gone hd)).resolve_left hn

theorem ExecM.toQClose_end (h : Exec c tr s) (ha : s.rx = .toQClose) (hn : .api .rxDropped ∉ tr) :
    ∃ (acts : List (Act V W)) (s' : State w V W) (es : Trace V W), acts.all Act.goesOn = true ∧ runActs c s acts = some (s', es) ∧
      .api .rxDropped ∈ es := by
  obtain ⟨o, ho⟩ := h.queue_off
  have hg : s.queue.rxGone = false := by
    cases hg : s.queue.rxGone with
    | false => rfl
    | true => rcases h.rxGone hg with ⟨o, h⟩ | h <;> rw [ha] at h <;> cases h
  have hb : s.queue.borrows = [] := by
    rw [List.eq_nil_iff_forall_not_mem]
    intro o' ho'
    have hk : queueKind (s.queue.pc (.op o')) = some .notify := by
      have := h.queue.borrows.2 o' ho'
      revert this
      cases s.queue.pc (.op o') <;> simp [Queue.PC.inNotify, queueKind]
    obtain ⟨x, hx⟩ := h.queueOwns.cov o' _ hk
    cases x with
    | snd j => cases hx
    | closer => cases hx
    | rx => simp only [queueClaim, claimOf, ha] at hx; cases hx
    | ref a =>
      have hm := (h.rinv.refs a).2 (by
        simp only [queueClaim, claimOf] at hx
        cases hp : s.ref a <;> rw [hp] at hx <;> first | rfl | cases hx)
      rw [h.rinv.closing (by rw [ha]; rfl)] at hm
      cases hm
  obtain ⟨s1, e1, h1, h2, h2'⟩ : ∃ (s1 : State w V W) (e1 : Trace V W), Chan.step c s (.rx o false) = some (s1, e1) ∧ s1.rx = .qclose o ∧
      .api .rxDropped ∉ e1 := by
    simp only [Chan.step, rxStep, ha, onQueue, Queue.step, ho, hg, hb]
    exact ⟨_, _, rfl, rfl, by simp⟩
  obtain ⟨acts, s', es, h3, h4, h5⟩ := (h.step h1).qclose_end h2 (by simp [hn, h2'])
  exact ⟨.rx o false :: acts, s', e1 ++ es, by simp [Act.goesOn, h3], runActs_cons h1 h4, by simp [h5]⟩

theorem ExecM.closing_end (h : Exec c tr s) {a : OpId} (ha : s.rx = .closing a) (hn : .api .rxDropped ∉ tr) :
    ∃ (acts : List (Act V W)) (s' : State w V W) (es : Trace V W), acts.all Act.goesOn = true ∧ runActs c s acts = some (s', es) ∧
      .api .rxDropped ∈ es := by
  have hk := h.coreOwns.sat .rx a .close (by simp [coreClaim, claimOf, ha, rxCore])
  obtain ⟨s1, e1, h1⟩ : ∃ (s1 : State w V W) (e1 : Trace V W), Chan.step c s (.rx 0 false) = some (s1, e1) := by
    cases hq : s.core.pc a <;> rw [hq] at hk <;> simp [coreKind] at hk
    simp [Chan.step, rxStep, ha, onCore, Thingbuf.step, runStep, hq]
  have hs := h1
  simp only [Chan.step, rxStep, ha] at h1
  obtain ⟨c1, ce, h2, h3, h4⟩ := onCore_eq h1
  obtain ⟨b, hb⟩ := ((next_run (core_next h2).2).2.2 hk).2
  rw [hb] at h3 h4
  cases b with
  | true =>
    simp only [afterRxClose] at h3 h4
    obtain ⟨acts, s', es, h5, h6, h7⟩ := (h.step hs).toQClose_end (by rw [h3]; rfl) (by simp [hn, h4])
    exact ⟨.rx 0 false :: acts, s', e1 ++ es, by simp [Act.goesOn, h5], runActs_cons hs h6, by simp [h7]⟩
  | false =>
    simp only [afterRxClose] at h3 h4
    exact ⟨[.rx 0 false], s1, e1 ++ [], rfl, runActs_cons hs rfl, by simp [h4]⟩

theorem ExecM.rx_closing (h : Exec c tr s) {pan : Bool} (hd : .api (.dropRx pan) ∈ tr) : s.rx.closing? = true := by
  have hh := h.rxInv.hist
  cases hp : s.rx <;> rw [hp] at hh <;> first
    | rfl
    | exact absurd hd (hh pan)

theorem Run.dropRx_end (h : Run c tr s) {pan : Bool} (hd : .api (.dropRx pan) ∈ tr) (hn : .api .rxDropped ∉ tr) :
    ∃ (acts : List (Act V W)) (s' : State w V W) (es : Trace V W), acts.all Act.goesOn = true ∧ runActs c s acts = some (s', es) ∧
      .api .rxDropped ∈ es := by
  have hc := h.exec.rx_closing hd
  cases hp : s.rx <;> rw [hp] at hc <;> simp [RPC.closing?] at hc
  case gone => exact absurd (h.exec.rx_gone hp) hn
  case closing a => exact h.exec.closing_end hp hn
  case toQClose => exact h.exec.toQClose_end hp hn
  case qclose o => exact h.exec.qclose_end hp hn
  case toClose p =>
    obtain ⟨o, ho⟩ := h.core_idle
    obtain ⟨s1, e1, h1, h2, h3⟩ : ∃ (s1 : State w V W) (e1 : Trace V W), Chan.step c s (.rx o false) = some (s1, e1) ∧ s1.rx = .closing o ∧
        .api .rxDropped ∉ e1 := by
      simp only [Chan.step, rxStep, hp, onCore, Thingbuf.step, ho]
      exact ⟨_, _, rfl, rfl, by simp⟩
    obtain ⟨acts, s', es, h4, h5, h6⟩ := (h.exec.step h1).closing_end h2 (by simp [hn, h3])
    exact ⟨.rx o false :: acts, s', e1 ++ es, by simp [Act.goesOn, h4], runActs_cons h1 h5, by simp [h6]⟩

/-! ### Cancelled send futures -/

theorem Tr.snd_goes {s' : State w V W} {evs : Trace V W} {k : Nat} (ht : Tr c s s' evs)
    (ha : s.snd k = .dropping ∨ s.snd k = .done) : s'.snd k = .dropping ∨ s'.snd k = .done := by
  have keep : ∀ {j : Nat} {p : SPC}, (s.snd j ≠ .dropping ∧ s.snd j ≠ .done) → upd s.snd j p k = .dropping ∨ upd s.snd j p k = .done := by
    intro j p hb
    by_cases e : k = j
    · rw [e] at ha; exact (ha.elim hb.1 hb.2).elim
    · rw [upd_ne _ _ e]; exact ha
  cases ht with
  | api hm =>
    cases hm with
    | forgetSend b a hp => exact keep (by rw [hp]; simp)
    | _ => exact ha
  | core h1 hm =>
    generalize coreRet _ = ret at hm
    cases hm <;> first
      | exact ha
      | (refine keep ?_; rename_i hp; rw [hp]; simp; done)
      | (refine keep ?_; rename_i hp _; rw [hp]; simp; done)
      | (refine keep ?_; rename_i hp _ _; rw [hp]; simp; done)
      | (refine keep ?_; rename_i hp _ _ _; rw [hp]; simp; done)
  | cell h1 hm =>
    cases hm <;> first
      | exact ha
      | (refine keep ?_; rename_i hp; rw [hp]; simp; done)
      | (refine keep ?_; rename_i hp _; rw [hp]; simp; done)
  | queue h1 hm =>
    cases hm with
    | cont j v evs hp => exact keep (by rcases hp with hp | hp <;> rw [hp] <;> simp)
    | dropEnd j sp evs r hp hr =>
      by_cases e : k = j
      · subst e; exact .inr (upd_self ..)
      · simp only [State.sendEnd, State.sgoto]; rw [upd_ne _ _ e]; exact ha
    | start j v evs hp => exact keep (by rw [hp]; simp)
    | startClosed j sp evs hp => exact keep (by rw [hp]; simp)
    | startWait j sp evs hp => exact keep (by rw [hp]; simp)
    | startNotified j sp evs hp => exact keep (by rw [hp]; simp)
    | startPanic j sp evs r hp => exact keep (by rw [hp]; simp)
    | contClosed j sp evs hp => exact keep (by rw [hp]; simp)
    | contWait j sp evs hp => exact keep (by rw [hp]; simp)
    | contNotified j sp evs hp => exact keep (by rw [hp]; simp)
    | contPanic j sp evs r hp => exact keep (by rw [hp]; simp)
    | cancel j evs hp => exact keep (by rw [hp]; simp)
    | timeout j evs hp => exact keep (by rw [hp]; simp)
    | _ => exact ha

theorem ExecM.snd_goes {acts : List (Act V W)} {k : Nat} : ∀ {tr : Trace V W} {s s' : State w V W} {evs : Trace V W}, Exec c tr s →
    runActs c s acts = some (s', evs) → s.snd k = .dropping ∨ s.snd k = .done → s'.snd k = .dropping ∨ s'.snd k = .done := by
  induction acts with
  | nil =>
    intro tr s s' evs h hr ha
    simp only [runActs, Option.some.injEq, Prod.mk.injEq] at hr
    obtain ⟨rfl, rfl⟩ := hr
    exact ha
  | cons x l ih =>
    intro tr s s' evs h hr ha
    simp only [runActs, Option.bind_eq_bind, Option.bind_eq_some_iff, Option.pure_def, Option.some.injEq, Prod.exists, Prod.mk.injEq] at hr
    obtain ⟨s1, e1, h1, s2, e2, h2, rfl, rfl⟩ := hr
    exact ih (h.step h1) h2 ((step_tr h1).snd_goes ha)

theorem busy_of_rem {p : Queue.PC W} (h : NodeNext.remPC p = true) : p.busy = true := by
  cases p <;> simp [NodeNext.remPC, Queue.PC.busy] at h ⊢

theorem ExecM.cancel_end (h : Exec c tr s) {k : Nat} (hc : .api (.cancel k) ∈ tr) (hn : .api (.cancelled k) ∉ tr) :
    ∃ (acts : List (Act V W)) (s' : State w V W) (es : Trace V W), acts.all Act.goesOn = true ∧ runActs c s acts = some (s', es) ∧
      .api (.cancelled k) ∈ es := by
  have hl := h.life k
  have h1 : .cancel k ∈ Chan.life k (apiOf tr) := (mem_life rfl).2 hc
  have h2 : .cancelled k ∉ Chan.life k (apiOf tr) := fun hm => hn ((mem_life rfl).1 hm)
  have hp : s.snd k = .dropping := by
    cases hp : s.snd k <;> rw [hp] at hl <;> simp only [LifeOk] at hl
    case off => rw [hl] at h1; cases h1
    case done =>
      obtain ⟨_, _, ⟨r, hr, hl⟩ | hl | ⟨a, hl⟩⟩ := hl <;> rw [hl] at h1 h2 <;> simp at h1 h2
    case toNotify => obtain ⟨_, _, _, hl⟩ := hl; rw [hl] at h1; simp at h1
    case notifying => obtain ⟨_, _, _, hl⟩ := hl; rw [hl] at h1; simp at h1
    all_goals (obtain ⟨_, _, hl⟩ := hl; rw [hl] at h1; simp at h1)
  have hk := h.nodesOk k
  rw [hp] at hk
  obtain ⟨acts, s', es, h3, h4, h5⟩ := h.queue_end (t := .node k) (busy_of_rem hk)
  refine ⟨acts, s', es, h3, h4, ?_⟩
  have h' := h.of_runActs h4
  have hd : s'.snd k = .done := (h.snd_goes h4 (.inl hp)).resolve_left fun hn => by
    have := h'.nodesOk k
    rw [hn] at this
    rw [busy_of_rem this] at h5
    cases h5
  have hl' := h'.life k
  rw [hd] at hl'
  have h6 : .cancel k ∈ Chan.life k (apiOf (tr ++ es)) := (mem_life rfl).2 (by simp [hc])
  have h7 : .cancelled k ∈ Chan.life k (apiOf (tr ++ es)) := by
    simp only [LifeOk] at hl'
    obtain ⟨_, _, ⟨r, hr, hl'⟩ | hl' | ⟨a, hl'⟩⟩ := hl' <;> rw [hl'] at h6 ⊢ <;> simp at h6 ⊢
  exact (List.mem_append.1 ((mem_life rfl).1 h7)).resolve_left hn

end Thingbuf.Chan
