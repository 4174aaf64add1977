import Verif.ChanSpin
import Verif.ChanLast
import Verif.QueueSignal

/-!
# Senders that sleep

Helper lemmas for `ChanSleepProps`: while nothing is lost, some message is in the channel or some notification is on its way.
-/

namespace Thingbuf.Chan

variable {w : Nat} {V W : Type} {c : Config W} {tr : Trace V W} {s : State w V W}

/-! ### The history of a `RecvRef` -/

/-- What happened to the `RecvRef` of pop operation `b`, by its state. -/
def RefOk (tr : Trace V W) (b : OpId) : RefPC → Prop
  | .off => .api (.dropRecv b) ∉ tr ∧ .api (.dropRecvEnd b) ∉ tr
  | .held | .forgotten => .api (.dropRecv b) ∉ tr ∧ .api (.dropRecvEnd b) ∉ tr
  | .toNotify | .notifying _ => .api (.dropRecv b) ∈ tr ∧ .api (.dropRecvEnd b) ∉ tr
  | .done => .api (.dropRecv b) ∈ tr ∧ .api (.dropRecvEnd b) ∈ tr

theorem RefOk.mono {b : OpId} {p : RefPC} {evs : Trace V W} (h : RefOk tr b p) (h1 : .api (.dropRecv b) ∉ evs) (h2 : .api (.dropRecvEnd b) ∉ evs) :
    RefOk (tr ++ evs) b p := by
  cases p <;> simp only [RefOk, List.mem_append, h1, h2, or_false] at h ⊢ <;> exact h

theorem refOk_upd {ref : OpId → RefPC} {a b : OpId} {p : RefPC} {evs : Trace V W} (h : RefOk tr b (ref b))
    (h1 : a ≠ b → .api (.dropRecv b) ∉ evs ∧ .api (.dropRecvEnd b) ∉ evs) (h2 : a = b → RefOk (tr ++ evs) b p) :
    RefOk (tr ++ evs) b (upd ref a p b) := by
  rw [upd_apply]
  split
  · rename_i e; exact h2 e.symm
  · rename_i e; exact h.mono (h1 (Ne.symm e)).1 (h1 (Ne.symm e)).2

theorem ExecM.refHist {m : Bool} (h : ExecM m c tr s) (b : OpId) : RefOk tr b (s.ref b) := by
  refine ExecM.ind (P := fun tr s => RefOk tr b (s.ref b)) ?_ (fun _ _ _ _ _ ih _ => ih) (fun _ _ _ _ _ ih _ _ => ih) ?_ ?_ ?_ ?_ tr s h
  · simp [RefOk, State.init]
  · intro tr s t e he ih hm
    cases hm
    case forgetRecv a ha =>
      refine refOk_upd ih (by simp) ?_
      rintro rfl
      rw [ha] at ih
      simpa [RefOk] using ih
    all_goals exact ih.mono (by simp) (by simp)
  · intro tr s act s1 evs r t es he ih h1 hr hm
    have got : ∀ {a : OpId} {es : Trace V W}, rxCore s.rx = some (a, .pop) → .api (.dropRecv b) ∉ es → .api (.dropRecvEnd b) ∉ es →
        RefOk (tr ++ es) b (upd s.ref a .held b) := by
      intro a es hx h2 h3
      refine refOk_upd ih (fun _ => ⟨h2, h3⟩) ?_
      rintro rfl
      rw [ref_off_of_pop he.rinv he.coreOwns hx] at ih
      simp only [RefOk] at ih
      exact ⟨by simp [ih.1, h2], by simp [ih.2, h3]⟩
    cases hm
    case dropRecv a ha =>
      refine refOk_upd ih (by simp; exact fun h => Ne.symm h) ?_
      rintro rfl
      rw [ha] at ih
      simp only [RefOk] at ih
      exact ⟨by simp, by simp [ih.2]⟩
    case tryOk a p spur hp => exact got (by rw [hp]; rfl) (by simp) (by simp)
    case popSome a p spur hp => exact got (by rw [hp]; rfl) (by simp) (by simp)
    case pop2Some a p spur hp => exact got (by rw [hp]; rfl) (by simp) (by simp)
    case lastSome a spur hp => exact got (by rw [hp]; rfl) (by simp) (by simp)
    all_goals exact ih.mono (by simp) (by simp)
  · intro tr s act s1 evs t es he ih h1 hm
    cases hm
    all_goals exact ih.mono (by simp) (by simp)
  · intro tr s act s1 evs t es he ih h1 hm
    cases hm
    case notify a o ha =>
      refine refOk_upd ih (by simp) ?_
      rintro rfl
      rw [ha] at ih
      simpa [RefOk] using ih
    case notifyEnd a o spur ha hov =>
      refine refOk_upd ih (by simp; exact fun h => Ne.symm h) ?_
      rintro rfl
      rw [ha] at ih
      simp only [RefOk] at ih
      exact ⟨by simp [ih.1], by simp⟩
    all_goals exact ih.mono (by simp) (by simp)

def GotOk (tr : Trace V W) (b : OpId) (p : RefPC) : Prop := p = .off ↔ b ∉ received tr

theorem GotOk.mono {b : OpId} {p : RefPC} {evs : Trace V W} (h : GotOk tr b p) (h1 : received evs = []) : GotOk (tr ++ evs) b p := by
  rw [GotOk, received_append, h1, List.append_nil]; exact h

theorem gotOk_upd {ref : OpId → RefPC} {a b : OpId} {p : RefPC} {evs : Trace V W} (h : GotOk tr b (ref b)) (h1 : received evs = [])
    (h2 : ref a ≠ .off) (h3 : p ≠ .off) : GotOk (tr ++ evs) b (upd ref a p b) := by
  rw [upd_apply]
  split
  · rename_i e
    subst e
    rw [GotOk, received_append, h1, List.append_nil]
    have h' : ref b = .off ↔ b ∉ received tr := h
    simp only [h3, false_iff]
    exact fun hn => h2 (h'.2 hn)
  · exact h.mono h1

theorem gotOk_new {ref : OpId → RefPC} {a b : OpId} {evs : Trace V W} (h : GotOk tr b (ref b)) (h1 : received evs = [a]) :
    GotOk (tr ++ evs) b (upd ref a .held b) := by
  have h' : ref b = .off ↔ b ∉ received tr := h
  rw [upd_apply, GotOk, received_append, h1]
  split
  · rename_i e; subst e; simp
  · rename_i e; rw [h']; simp [e]

/-- There is a `RecvRef` exactly for the pop operations that received something. -/
theorem ExecM.refGot {m : Bool} (h : ExecM m c tr s) (b : OpId) : GotOk tr b (s.ref b) := by
  refine ExecM.ind (P := fun tr s => GotOk tr b (s.ref b)) ?_ (fun _ _ _ _ _ ih _ => ih) (fun _ _ _ _ _ ih _ _ => ih) ?_ ?_ ?_ ?_ tr s h
  · simp [State.init, Chan.received, GotOk]
  · intro tr s t e he ih hm
    cases hm
    case forgetRecv a ha => exact gotOk_upd ih rfl (by rw [ha]; simp) (by simp)
    all_goals exact ih.mono rfl
  · intro tr s act s1 evs r t es he ih h1 hr hm
    have hn : Chan.received (es.map Ev.api : Trace V W) = [] → Chan.received (evs.map .core ++ es.map .api : Trace V W) = [] := fun h => by
      rw [received_append, received_core, h]; rfl
    have hg : ∀ a, Chan.received (es.map Ev.api : Trace V W) = [a] → Chan.received (evs.map .core ++ es.map .api : Trace V W) = [a] := fun a h => by
      rw [received_append, received_core, h]; rfl
    cases hm
    case dropRecv a ha => exact gotOk_upd ih (hn rfl) (by rw [ha]; simp) (by simp)
    case tryOk | popSome | pop2Some | lastSome => exact gotOk_new ih (hg _ rfl)
    all_goals exact ih.mono (hn rfl)
  · intro tr s act s1 evs t es he ih h1 hm
    have hn : Chan.received (es.map Ev.api : Trace V W) = [] → Chan.received (evs.map .cell ++ es.map .api : Trace V W) = [] := fun h => by
      rw [received_append, received_cell, h]; rfl
    cases hm
    all_goals exact ih.mono (hn rfl)
  · intro tr s act s1 evs t es he ih h1 hm
    have hn : Chan.received (es.map Ev.api : Trace V W) = [] → Chan.received (evs.map .queue ++ es.map .api : Trace V W) = [] := fun h => by
      rw [received_append, received_queue, h]; rfl
    cases hm
    case notify a o ha => exact gotOk_upd ih (hn rfl) (by rw [ha]; simp) (by simp)
    case notifyEnd a o spur ha hov => exact gotOk_upd ih (hn rfl) (by rw [ha]; simp) (by simp)
    all_goals exact ih.mono (hn rfl)

/-! ### What is in the channel -/

/-- A message that is in the channel stays there until a `RecvRef` is dropped. -/
theorem ExecM.inChannel_step {evs : Trace V W} {s' : State w V W} {a : OpId} (h : Exec c tr s) (h' : Exec c (tr ++ evs) s') (hw : Run c (tr ++ evs) s')
    (ha : InChannel tr a) : InChannel (tr ++ evs) a ∨ ∃ b, .api (.dropRecv b) ∈ evs := by
  by_cases hd : ∃ b, .api (.dropRecv b) ∈ evs
  · exact .inr hd
  left
  obtain ⟨i, h1, h2⟩ := ha
  refine ⟨i, ?_, ?_⟩
  · exact getElem?_prefix (resOps_prefix ⟨_, (coreOf_append ..).symm⟩) h1
  · intro b hb hm
    have hm := (List.mem_append.1 hm).resolve_right (fun h => hd ⟨b, h⟩)
    have hg : b ∈ Chan.received tr := by
      apply Classical.byContradiction
      intro hn
      have := (h.refGot b).2 hn
      have hr := h.refHist b
      rw [this] at hr
      exact hr.1 hm
    obtain ⟨j, hj⟩ := List.mem_iff_getElem?.1 hg
    have hj' : (Chan.received (tr ++ evs))[j]? = some b := by
      rw [received_append, List.getElem?_append_left (List.getElem?_eq_some_iff.1 hj).1]; exact hj
    have hnd : (Chan.received (tr ++ evs)).Nodup := by rw [h'.received]; exact hw.core.nodup_deq
    have := (List.getElem?_inj (List.getElem?_eq_some_iff.1 hb).1 hnd).1 (hb.trans hj'.symm)
    subst this
    exact h2 b hj hm

/-- A message that was not received is in the channel. -/
theorem ExecM.inChannel_of_lt (h : Exec c tr s) (hlt : nDeq (coreOf tr) < nRes (coreOf tr)) : ∃ a, InChannel tr a := by
  refine ⟨_, nDeq (coreOf tr), List.getElem?_eq_getElem hlt, fun b hb => ?_⟩
  rw [h.received] at hb
  exact absurd (List.getElem?_eq_some_iff.1 hb).1 (Nat.lt_irrefl _)

/-- A message that was not sent completely is in the channel. -/
theorem Run.inChannel_of_uncommitted (h : Run c tr s) {a : OpId} (ha : a ∈ resOps (coreOf tr)) (hn : ¬ Committed (coreOf tr) a) : InChannel tr a := by
  obtain ⟨i, hi⟩ := List.mem_iff_getElem?.1 ha
  refine ⟨i, hi, fun b hb => ?_⟩
  rw [h.exec.received] at hb
  exact absurd (h.core.dequeued_committed (List.prefix_refl _) hi (List.getElem?_eq_some_iff.1 hb).1) hn

/-! ### Something is on its way -/

/-- A `notify` took the node of call `k` out of the wait queue, and `k` has not learned of it. -/
def Woken (tr : Trace V W) (k : Nat) : Prop :=
  ∃ a o b, tr = a ++ .queue (.deq o k) :: b ∧ .queue (.retCont k .notified) ∉ b

theorem Woken.mono {k : Nat} {evs : Trace V W} (h : Woken tr k) (hn : .queue (.retCont k .notified) ∉ evs) : Woken (tr ++ evs) k := by
  obtain ⟨a, o, b, rfl, h1⟩ := h
  exact ⟨a, o, b ++ evs, by simp, by simp [h1, hn]⟩

theorem WakeWasted.mono {evs : Trace V W} (h : WakeWasted tr) : WakeWasted (tr ++ evs) := by
  obtain ⟨pre, o, k, mid, post, rfl, h1, h2⟩ := h
  exact ⟨pre, o, k, mid, post ++ evs, by simp, h1, h2⟩

theorem Woken.wasted {k : Nat} (h : Woken tr k) (hc : .api (.cancel k) ∈ tr ∨ .api (.retSend k .timeout) ∈ tr) : WakeWasted tr := by
  obtain ⟨a, o, b, rfl, h1⟩ := h
  exact ⟨a, o, k, b, [], by simp, by simpa using hc, h1⟩

/-- What keeps the senders going: a message in the channel, whose receipt will cause a notification; a notification that is stored, or about to be given, or was given to a
call that has not learned of it; or an attempt to send. -/
inductive Alive (tr : Trace V W) (s : State w V W) : Prop where
  | msg (a : OpId) (h : InChannel tr a)
  | stored (h : s.queue.st = .waking)
  | ref (b : OpId) (h : s.ref b = .toNotify)
  | notify (b : OpId) (o : Nat) (h : s.ref b = .notifying o) (h1 : (s.queue.pc (.op o)).early = true)
  | att (k : Nat) (h : (∃ a att, s.snd k = .push a att) ∨ ∃ att, s.snd k = .retry att)
  | woken (k : Nat) (h : s.snd k = .waiting ∨ s.snd k = .conting) (h1 : (s.queue.list.node k).state = .waking) (h2 : Woken tr k)

/-- What is assumed. -/
structure Sound (tr : Trace V W) : Prop where
  rx : ∀ pan, .api (.dropRx pan) ∉ tr
  alone : ∀ o, ¬ Queue.Overlapped (queueOf tr) o
  kept : ¬ WakeWasted tr

theorem Sound.before {evs : Trace V W} (h : Sound (tr ++ evs)) : Sound tr :=
  ⟨fun p hp => h.rx p (by simp [hp]), fun o ho => h.alone o (by rw [queueOf_append]; exact ho.append), fun hw => h.kept hw.mono⟩

theorem _root_.Thingbuf.Run.reserved_invoked {cap : Nat} {tr : Thingbuf.Trace V} {s : Thingbuf.State w V} (h : Thingbuf.Run w cap tr s) {a : OpId}
    (ha : a ∈ resOps tr) : Event.invoke a .push ∈ tr := by
  obtain ⟨i, hi⟩ := mem_resOps.1 ha
  obtain ⟨x, y, hx⟩ := mem_split hi
  have := (h.evOk hx).1.inv
  rw [hx]; simp [this]

/-- The results of a push operation. -/
theorem Run.push_ret (h : Run c tr s) {a : OpId} {r : Ret} (hr : .core (.ret a r) ∈ tr) (hi : .core (.invoke a .push) ∈ tr) :
    r = .pushed ∨ r = .full ∨ r = .closed ∨ r = .panicked := by
  have hi := mem_coreOf.2 hi
  obtain ⟨x, y, hxy⟩ := List.append_of_mem (mem_coreOf.2 hr)
  obtain ⟨-, -, h1⟩ := h.core.evOk hxy
  have key : ∀ op, Event.invoke a op ∈ x → op = .push := fun op ho =>
    h.core.invoke_unique (show Event.invoke a op ∈ coreOf tr by rw [hxy]; simp [ho]) hi
  cases r with
  | pushed => simp
  | full => simp
  | closed => simp
  | panicked => simp
  | popped => cases key _ h1.2
  | empty => cases key _ h1.2.2.1
  | len n => cases key _ h1.2.2.1
  | closeRet b =>
    rcases h1 with h1 | h1
    · cases key _ h1.1
    · cases key _ h1.1
  | crash x => exact h1.2.2.elim

/-- After a push operation that found the channel full there is a message in the channel. -/
theorem Run.full_inChannel {evs : List (Event V)} {es : List (Api W)} (h : Run c (tr ++ (evs.map .core ++ es.map .api)) s)
    {act : Thingbuf.Act V} {k : Option CK} (hev : CoreEvs act k evs) {a : OpId} (hr : .ret a .full ∈ evs) :
    ∃ x, InChannel (tr ++ (evs.map .core ++ es.map .api)) x := by
  apply h.exec.inChannel_of_lt
  have hc : coreOf (tr ++ (evs.map .core ++ es.map .api) : Trace V W) = coreOf tr ++ evs := by simp
  obtain ⟨x, y, hxy⟩ := List.append_of_mem hr
  have h1 := (C03_full_truthful h.core (pre := coreOf tr ++ x) (post := y) (a := a) (by rw [hc, hxy]; simp)).2.2
  have h2 : deqOps evs = [] := by rw [hev.deq, (hev.ret _ _ hr).2]; rfl
  have h3 : nDeq (coreOf tr ++ evs) = nDeq (coreOf tr) := by simp only [nDeq, deqOps_append, h2, List.append_nil]
  have h4 : nDeq (coreOf tr) ≤ nDeq (coreOf tr ++ x) := (deqOps_prefix ⟨x, rfl⟩).length_le
  have h5 : nRes (coreOf tr ++ x) ≤ nRes (coreOf tr ++ evs) := (resOps_prefix ⟨.ret a .full :: y, by rw [hxy]; simp⟩).length_le
  have h6 := h.sized.1
  rw [hc]
  omega

/-- After a push operation that reserved a slot there is a message in the channel. -/
theorem Run.pushed_inChannel {evs : List (Event V)} {es : List (Api W)} (h : Run c (tr ++ (evs.map .core ++ es.map .api)) s)
    {act : Thingbuf.Act V} {k : Option CK} (hev : CoreEvs act k evs) {a : OpId} {r : Ret} (hr : .ret a r ∈ evs) (h1 : r = .pushed ∨ r = .panicked) :
    InChannel (tr ++ (evs.map .core ++ es.map .api)) a := by
  have hc : coreOf (tr ++ (evs.map .core ++ es.map .api) : Trace V W) = coreOf tr ++ evs := by simp
  have hm : .ret a r ∈ coreOf (tr ++ (evs.map .core ++ es.map .api)) := by rw [hc]; simp [hr]
  refine h.inChannel_of_uncommitted ((h.core.ret_reserved hm).2 h1) ?_
  rintro ⟨i, v, hm'⟩
  rw [hc] at hm'
  rcases List.mem_append.1 hm' with hm' | hm'
  · obtain ⟨x, y, hxy⟩ := List.append_of_mem hm'
    obtain ⟨-, ⟨r', h3⟩, -⟩ := h.core.evOk (pre := x) (e := .commit a i v) (post := y ++ evs) (by rw [hc, hxy]; simp)
    obtain ⟨x', y', hxy'⟩ := List.append_of_mem hr
    obtain ⟨-, h4, -⟩ := h.core.evOk (pre := coreOf tr ++ x') (e := .ret a r) (post := y') (by rw [hc, hxy']; simp)
    exact h4 ⟨r', by rw [hxy]; simp [h3]⟩
  · rw [(hev.commit a i v hm').2.2] at hr
    simp at hr

theorem QueueNext.early {act : Queue.Act W} {o : Nat} {spur : Bool} {p p' : Queue.PC W} {evs : List (Queue.Event W)} (h : QueueNext act p evs p')
    (ha : act = .op o spur) (hp : p'.early = true) : opOver evs = false := by
  subst ha
  cases hov : opOver evs
  · rfl
  · have := h.2 hov
    cases p' <;> simp [Queue.PC.early, queueKind] at hp this

theorem fam_of_nodeOk {p : SPC} {q : Queue.PC W} (h : nodeOk p q) (hp : p = .waiting ∨ p = .conting) : q.fam = true := by
  rcases hp with rfl | rfl
  · cases h; rfl
  · cases q <;> simp [nodeOk, NodeNext.contPC] at h <;> rfl

/-- Only a call that times out leaves its node behind. -/
theorem ExecM.giveUp_timeout {m : Bool} (h : ExecM m c tr s) {k : Nat} (hk : .queue (.giveUp k) ∈ tr) : .api (.retSend k .timeout) ∈ tr := by
  revert hk
  refine ExecM.ind (P := fun tr _ => .queue (.giveUp k) ∈ tr → .api (.retSend k .timeout) ∈ tr) ?_ (fun _ _ _ _ _ ih _ => ih) (fun _ _ _ _ _ ih _ _ => ih) ?_ ?_ ?_ ?_ tr s h
  · simp
  · intro tr s t e _ ih _ hk; simp at hk; simp [ih hk]
  · intro tr s act s1 evs r t es _ ih _ _ _ hk; simp at hk; simp [ih hk]
  · intro tr s act s1 evs t es _ ih _ _ hk; simp at hk; simp [ih hk]
  · intro tr s act s1 evs t es _ ih h1 hm hk
    rcases List.mem_append.1 hk with hk | hk
    · simp [ih hk]
    · obtain rfl := (queue_evs h1).giveUp k (by simpa using hk)
      cases hm
      simp

theorem ExecM.abandoned {m : Bool} (h : ExecM m c tr s) {k : Nat} (hp : s.queue.pc (.node k) = .abandoned) : .api (.retSend k .timeout) ∈ tr := by
  have := h.queue.nodeLife k
  rw [hp] at this
  exact h.giveUp_timeout (mem_queueOf.1 this.2.2.1)

/-- A node in the wait queue belongs to a call that is asleep, or being polled or dropped, or that timed out. -/
theorem ExecM.queued_call {m : Bool} (h : ExecM m c tr s) {k : Nat} (hk : k ∈ Queue.queueOf (queueOf tr)) :
    s.snd k = .waiting ∨ s.snd k = .conting ∨ s.snd k = .dropping ∨ .api (.retSend k .timeout) ∈ tr := by
  by_cases hab : s.queue.pc (.node k) = .abandoned
  · exact .inr (.inr (.inr (h.abandoned hab)))
  have h1 := h.nodesOk k
  have h2 := h.queue.inv.node k
  generalize s.snd k = p at h1
  generalize s.queue.pc (.node k) = q at h1 h2 hab
  cases p <;> simp only [nodeOk] at h1
  all_goals first
    | (left; rfl)
    | (right; left; rfl)
    | (right; right; left; rfl)
    | (rename_i a; cases a <;> simp only [nodeOk] at h1)
    | (rename_i a b; cases b <;> simp only [nodeOk] at h1)
    | skip
  all_goals exfalso
  all_goals first
    | (subst h1; simp [Queue.NodeOk, hk] at h2; done)
    | (obtain ⟨l, rfl, h3⟩ := h1; cases l <;> simp [Queue.NodeOk, hk, Queue.Last.mayStart] at h2 h3; done)
    | (cases q <;> simp [NodeNext.startPC, NodeNext.contPC, NodeNext.remPC] at h1 <;> simp [Queue.NodeOk, hk] at h2; done)
    | skip
  all_goals
    obtain ⟨h4, h5, h6, h7⟩ := h1
    cases q
    all_goals first
      | (simp [NodeNext.startPC, NodeNext.contPC, NodeNext.remPC] at h5 h6 h7; done)
      | (simp [Queue.NodeOk, hk] at h2; done)
      | exact hab rfl
      | (rename_i l; cases l <;> simp [Queue.NodeOk, hk] at h2 h4; done)

/-- A call that attempts to send. -/
def SPC.trying : SPC → Prop := fun p => (∃ a att, p = .push a att) ∨ ∃ att, p = .retry att

def SPC.sleeping : SPC → Prop := fun p => p = .waiting ∨ p = .conting

/-- A step that does not involve the wait queue. -/
theorem Alive.other {t : State w V W} {evs : Trace V W} (ha : Alive tr s) (h : Exec c tr s) (h' : Run c (tr ++ evs) t) (hq : t.queue = s.queue)
    (href : ∀ b, s.ref b = .toNotify → t.ref b = .toNotify) (hno : ∀ b o, s.ref b = .notifying o → t.ref b = .notifying o)
    (hd : ∀ b, .api (.dropRecv b) ∉ evs) (hatt : ∀ k, (s.snd k).trying → (t.snd k).trying) (hw : ∀ k, (s.snd k).sleeping → (t.snd k).sleeping)
    (hret : ∀ k, .queue (.retCont k .notified) ∉ evs) : Alive (tr ++ evs) t := by
  cases ha with
  | msg a ha =>
    rcases h.inChannel_step h'.exec h' ha with h1 | ⟨b, h1⟩
    · exact .msg a h1
    · exact absurd h1 (hd b)
  | stored h1 => exact .stored (by rw [hq]; exact h1)
  | ref b h1 => exact .ref b (href b h1)
  | notify b o h1 h2 => exact .notify b o (hno b o h1) (by rw [hq]; exact h2)
  | att k h1 => exact .att k (hatt k h1)
  | woken k h1 h2 h3 => exact .woken k (hw k h1) (by rw [hq]; exact h2) (h3.mono (hret k))

/-- A step of the wait queue. -/
theorem Alive.queue {t : State w V W} {s1 : Queue.State W} {act : Queue.Act W} {evs : List (Queue.Event W)} {es : List (Api W)} (ha : Alive tr s)
    (h : Exec c tr s) (h' : Run c (tr ++ (evs.map .queue ++ es.map .api)) { t with queue := s1 })
    (hs : Sound (tr ++ (evs.map .queue ++ es.map .api))) (h1 : Queue.step c.queue s.queue act = some (s1, evs))
    (hr1 : ∀ n, .retStart n .notified ∉ evs) (hr2 : ∀ n, .retCont n .notified ∉ evs) (href : ∀ b, s.ref b = .toNotify → t.ref b = .toNotify)
    (hno : ∀ b o, s.ref b = .notifying o → t.ref b = .notifying o ∨ (s1.pc (.op o)).early = false)
    (hd : ∀ b, .dropRecv b ∉ es) (hatt : ∀ k, (s.snd k).trying → (t.snd k).trying)
    (hw : ∀ k, (s.snd k).sleeping → (s.queue.list.node k).state = .waking → Woken tr k → (t.snd k).sleeping)
    (hop : ∀ o spur, act = .op o spur → t.snd = s.snd) : Alive (tr ++ (evs.map .queue ++ es.map .api)) { t with queue := s1 } := by
  cases ha with
  | msg a ha =>
    rcases h.inChannel_step h'.exec h' ha with h1 | ⟨b, h1⟩
    · exact .msg a h1
    · exact absurd (by simpa using h1) (hd b)
  | stored h2 =>
    rcases h.queue.stored_stays h1 hs.before.alone (fun o ho => by
      obtain ⟨pan, hp⟩ := h.rxInv.call o (mem_queueOf.1 ho)
      exact hs.before.rx pan hp) h2 with h3 | ⟨n, h3⟩
    · exact .stored h3
    · exact absurd h3 (hr1 n)
  | ref b h1 => exact .ref b (href b h1)
  | notify b o h2 h3 =>
    rcases h.queue.early_step h1 (fun o => by
      have := hs.alone o
      simpa [queueOf_append] using this) h3 with h4 | h4 | ⟨n, h4, h5, h6⟩
    · rcases hno b o h2 with h5 | h5
      · exact .notify b o h5 h4
      · rw [h5] at h4; cases h4
    · exact .stored h4
    · obtain ⟨x, y, hxy⟩ := List.append_of_mem h4
      have hwk : Woken (tr ++ (evs.map .queue ++ es.map .api)) n :=
        ⟨tr ++ x.map .queue, o, y.map .queue ++ es.map .api, by rw [hxy]; simp, by
          have := hr2 n
          rw [hxy] at this
          simp at this ⊢
          exact this.2⟩
      obtain ⟨spur, hact⟩ := (queue_evs h1).deq o n h4
      have hsnd := hop _ _ hact
      rcases h.queued_call h5 with h7 | h7 | h7 | h7
      · exact .woken n (.inl (by rw [← h7]; exact congrFun hsnd n)) h6 hwk
      · exact .woken n (.inr (by rw [← h7]; exact congrFun hsnd n)) h6 hwk
      · refine absurd (hwk.wasted (.inl (List.mem_append_left _ ?_))) hs.kept
        have := h.life n
        rw [h7] at this
        obtain ⟨_, _, this⟩ := this
        exact (mem_life rfl).1 (by rw [this]; simp)
      · exact absurd (hwk.wasted (.inr (List.mem_append_left _ h7))) hs.kept
  | att k h2 => exact .att k (hatt k h2)
  | woken k h2 h3 h4 =>
    exact .woken k (hw k h2 h3 h4) (h.queue.waking_stays h1 (fam_of_nodeOk (h.nodesOk k) h2) h3) (h4.mono (by simp [hr2 k]))

theorem trying_upd {f : Nat → SPC} {j k : Nat} {p : SPC} (hj : ¬ (f j).trying) (h : (f k).trying) : (upd f j p k).trying := by
  rw [upd_apply]
  split
  · rename_i e; subst e; exact absurd h hj
  · exact h

theorem sleeping_upd {f : Nat → SPC} {j k : Nat} {p : SPC} (hj : ¬ (f j).sleeping) (h : (f k).sleeping) : (upd f j p k).sleeping := by
  rw [upd_apply]
  split
  · rename_i e; subst e; exact absurd h hj
  · exact h

theorem not_trying {p : SPC} (h : p.over = true ∨ p = .starting ∨ p = .waiting ∨ p = .conting ∨ p = .dropping ∨ p = .toStart ∨ p = .toCont ∨ p = .off) : ¬ p.trying := by
  rintro (⟨_, _, h'⟩ | ⟨_, h'⟩) <;> subst h' <;> simp [SPC.over] at h

theorem not_sleeping {p : SPC} (h : p ≠ .waiting) (h' : p ≠ .conting) : ¬ p.sleeping := fun x => x.elim h h'

theorem ref_upd {f : OpId → RefPC} {a b : OpId} {p q : RefPC} (ha : f a ≠ p) (hb : f b = p) : upd f a q b = p := by
  rw [upd_apply]
  split
  · rename_i e; subst e; exact absurd hb ha
  · exact hb

theorem Alive.api {t : State w V W} {e : Api W} (ih : Alive tr s) (hm : ApiMove c s t e) (he : Exec c tr s) (hrun : Run c (tr ++ [.api e]) t) :
    Alive (tr ++ [.api e]) t := by
  cases hm with
  | forgetSend k a hk =>
    exact ih.other he hrun rfl (fun _ h => h) (fun _ _ h => h) (by simp) (fun j => trying_upd (not_trying (by simp [hk, SPC.over])))
      (fun j => sleeping_upd (not_sleeping (by simp [hk]) (by simp [hk]))) (by simp)
  | forgetRecv a hk =>
    exact ih.other he hrun rfl (fun b => ref_upd (by simp [hk])) (fun b o => ref_upd (by simp [hk])) (by simp) (fun _ h => h) (fun _ h => h) (by simp)
  | _ => exact ih.other he hrun rfl (fun _ h => h) (fun _ _ h => h) (by simp) (fun _ h => h) (fun _ h => h) (by simp)

theorem Alive.cell {t : State w V W} {s1 : Cell.State W} {act : Cell.Act W} {evs : List (Cell.Event W)} {es : List (Api W)} (ih : Alive tr s)
    (hm : CellMove c s act evs t es) (he : Exec c tr s) (hrun : Run c (tr ++ (evs.map .cell ++ es.map .api)) { t with cell := s1 }) :
    Alive (tr ++ (evs.map .cell ++ es.map .api)) { t with cell := s1 } := by
  cases hm with
  | notify k o evs hk =>
    exact ih.other he hrun rfl (fun _ h => h) (fun _ _ h => h) (by simp) (fun j => trying_upd (not_trying (by simp [hk, SPC.over])))
      (fun j => sleeping_upd (not_sleeping (by simp [hk]) (by simp [hk]))) (by simp)
  | notifyEnd k o evs hk =>
    exact ih.other he hrun rfl (fun _ h => h) (fun _ _ h => h) (by simp) (fun j => trying_upd (not_trying (by simp [hk, SPC.over])))
      (fun j => sleeping_upd (not_sleeping (by simp [hk]) (by simp [hk]))) (by simp)
  | _ => exact ih.other he hrun rfl (fun _ h => h) (fun _ _ h => h) (by simp) (fun _ h => h) (fun _ h => h) (by simp)

theorem Alive.core {t : State w V W} {s1 : Thingbuf.State w V} {act : Thingbuf.Act V} {evs : List (Event V)} {r : Option Ret} {es : List (Api W)}
    (ih : (∀ k a, .attempt k a ∉ es) → Alive tr s) (h1 : Thingbuf.step c.cap s.core act = some (s1, evs)) (hr : coreRet evs = r)
    (hm : CoreMove c s act r t es) (he : Exec c tr s) (hrun : Run c (tr ++ (evs.map .core ++ es.map .api)) { t with core := s1 })
    (hs : Sound (tr ++ (evs.map .core ++ es.map .api))) : Alive (tr ++ (evs.map .core ++ es.map .api)) { t with core := s1 } := by
  have hev := core_evs h1
  have hfull : ∀ {i : PushIn V} {a : OpId}, act = i.act a → r = some .full → Alive (tr ++ (evs.map .core ++ es.map .api)) { t with core := s1 } := by
    rintro i a rfl rfl
    have := hev.ret' _ hr
    rw [actOp_push] at this
    obtain ⟨x, hx⟩ := hrun.full_inChannel hev this
    exact .msg x hx
  have hnew : ∀ {a : OpId} {p : RPC W} {es' : List (Api W)}, rxCore s.rx = some (a, .pop) → es' = es → t = (s.newRef a).rgoto p → (∀ k a, .attempt k a ∉ es) →
      (∀ b, .dropRecv b ∉ es) → Alive (tr ++ (evs.map .core ++ es.map .api)) { t with core := s1 } := by
    rintro a p es' hx rfl rfl hn hd
    have hoff := ref_off_of_pop he.rinv he.coreOwns hx
    exact (ih hn).other he hrun rfl (fun b => ref_upd (by simp [hoff])) (fun b o => ref_upd (by simp [hoff])) (by simp [hd]) (fun _ h => h) (fun _ h => h) (by simp)
  cases hm with
  | send k h wait a r h2 h3 => exact .att k (.inl ⟨a, _, upd_self ..⟩)
  | retry k att a r h2 => exact .att k (.inl ⟨a, _, upd_self ..⟩)
  | pushOk k a att i h2 =>
    have := hev.ret' _ hr
    rw [actOp_push] at this
    exact .msg a (hrun.pushed_inChannel hev this (.inl rfl))
  | fullOnly k a i h2 => exact hfull rfl rfl
  | fullStart k a i h2 => exact hfull rfl rfl
  | fullBlocking k a i h2 => exact hfull rfl rfl
  | fullAsync k a i h2 => exact hfull rfl rfl
  | pushClosed k a att i h2 =>
    exfalso
    have h3 := hev.ret' _ hr
    obtain ⟨x, y, hxy⟩ := List.append_of_mem h3
    have hc : coreOf (tr ++ (evs.map .core ++ [Api.retSend k .closed].map .api) : Trace V W) = coreOf tr ++ evs := by simp
    obtain ⟨-, -, h4⟩ := hrun.core.evOk (pre := coreOf tr ++ x) (e := .ret (actOp (i.act a)) .closed) (post := y) (by rw [hc, hxy]; simp)
    obtain ⟨b, h5⟩ := h4.2.2.1
    rcases hrun.closed_by ⟨b, by rw [hc, hxy]; simp at h5 ⊢; rcases h5 with h5 | h5 <;> simp [h5]⟩ with h6 | h6
    · exact hs.rx _ h6
    · exact he.no_lastDrop (he.active_handles (k := k) (by rw [h2]; rfl)) false (h6.of_append (by simp))
  | pushPanic k a att i r h2 h3 h4 h5 =>
    have h6 := hev.ret' _ hr
    rw [actOp_push] at h6
    have h7 : .core (.invoke a .push) ∈ tr := by
      have h8 := (ret_push he.coreOwns h1 h2).1
      have h9 := (hrun.before he).core.inv.pcs a
      refine mem_coreOf.1 ?_
      cases hp : s.core.pc a <;> simp only [hp, coreKind, reduceCtorEq, Option.some.injEq] at h8 <;> simp only [hp, pcInv] at h9
      case pushStart | pushReload => exact h9.inv
      all_goals first
        | exact h9.1.inv
        | (obtain ⟨p, h9, -⟩ := h9
           exact (hrun.before he).core.reserved_invoked (List.mem_of_getElem? h9.res))
    rcases hrun.push_ret (a := a) (r := r) (by simp [h6]) (by simp [h7]) with h8 | h8 | h8 | h8
    · exact absurd h8 h3
    · exact absurd h8 h5
    · exact absurd h8 h4
    · exact .msg a (hrun.pushed_inChannel hev h6 (.inr h8))
  | dropSend k a r h2 =>
    exact (ih (by simp)).other he hrun rfl (fun _ h => h) (fun _ _ h => h) (by simp) (fun j => trying_upd (not_trying (by simp [h2, SPC.over])))
      (fun j => sleeping_upd (not_sleeping (by simp [h2]) (by simp [h2]))) (by simp)
  | dropRecv a r h2 => exact .ref a (upd_self ..)
  | tryOk a p spur hp => exact hnew (by rw [hp]; rfl) rfl rfl (by simp) (by simp)
  | popSome a p spur hp => exact hnew (by rw [hp]; rfl) rfl rfl (by simp) (by simp)
  | pop2Some a p spur hp => exact hnew (by rw [hp]; rfl) rfl rfl (by simp) (by simp)
  | lastSome a spur hp => exact hnew (by rw [hp]; rfl) rfl rfl (by simp) (by simp)
  | _ => exact (ih (by simp)).other he hrun rfl (fun _ h => h) (fun _ _ h => h) (by simp) (fun _ h => h) (fun _ h => h) (by simp)

theorem Alive.queueMove {t : State w V W} {s1 : Queue.State W} {act : Queue.Act W} {evs : List (Queue.Event W)} {es : List (Api W)} (ih : Alive tr s)
    (h1 : Queue.step c.queue s.queue act = some (s1, evs)) (hm : QueueMove c s act evs t es) (he : Exec c tr s)
    (hrun : Run c (tr ++ (evs.map .queue ++ es.map .api)) { t with queue := s1 }) (hs : Sound (tr ++ (evs.map .queue ++ es.map .api))) :
    Alive (tr ++ (evs.map .queue ++ es.map .api)) { t with queue := s1 } := by
  have hev := queue_evs h1
  have hnx := (queue_next h1).2
  have hr : (∀ n spur, act ≠ .node n spur) ∨ nodeRet evs ≠ some (.ret .notified) →
      (∀ n, .retStart n .notified ∉ evs) ∧ ∀ n, .retCont n .notified ∉ evs := by
    intro h
    refine ⟨fun n hn => ?_, fun n hn => ?_⟩
    · obtain ⟨⟨spur, h2⟩, -, h3⟩ := hev.start n _ hn
      exact h.elim (fun h => h n spur h2) (fun h => h h3)
    · obtain ⟨⟨spur, h2⟩, -, h3⟩ := hev.cont n _ hn
      exact h.elim (fun h => h n spur h2) (fun h => h h3)
  -- `k` does not look at a notification
  have hcont : ∀ {k : Nat} {spur : Bool} {r : Queue.Res3}, act = .node k spur → s.snd k = .conting → nodeRet evs = some (.ret r) →
      (s.queue.list.node k).state = .waking → r = .notified := by
    rintro k spur r rfl hk hn hw
    have := he.nodesOk k
    rw [hk] at this
    exact he.queue.waking_cont h1 hw (hev.cont' k spur r rfl this hn)
  -- a step of call `k`, which was not trying
  have hsnd : ∀ {k : Nat} {p : SPC}, ((∀ n spur, act ≠ .node n spur) ∨ nodeRet evs ≠ some (.ret .notified)) → t.snd = upd s.snd k p → t.ref = s.ref →
      (∀ b, .dropRecv b ∉ es) → (∀ o spur, act ≠ .op o spur) → ¬ (s.snd k).trying →
      ((s.snd k).sleeping → (s.queue.list.node k).state = .waking → Woken tr k → p.sleeping) →
      Alive (tr ++ (evs.map .queue ++ es.map .api)) { t with queue := s1 } := by
    intro k p h2 h3 h4 h5 h6 h7 h8
    refine ih.queue he hrun hs h1 (hr h2).1 (hr h2).2 (by rw [h4]; exact fun _ h => h) (by rw [h4]; exact fun _ _ h => .inl h) h5
      (by rw [h3]; exact fun j => trying_upd h7) ?_ (fun o spur h => absurd h (h6 o spur))
    intro j hj1 hj2 hj3
    rw [h3, upd_apply]
    split
    · rename_i e; subst e; exact h8 hj1 hj2 hj3
    · exact hj1
  have hsame : ((∀ n spur, act ≠ .node n spur) ∨ nodeRet evs ≠ some (.ret .notified)) → t.snd = s.snd → t.ref = s.ref → (∀ b, .dropRecv b ∉ es) →
      Alive (tr ++ (evs.map .queue ++ es.map .api)) { t with queue := s1 } := by
    intro h2 h3 h4 h5
    exact ih.queue he hrun hs h1 (hr h2).1 (hr h2).2 (by rw [h4]; exact fun _ h => h) (by rw [h4]; exact fun _ _ h => .inl h) h5
      (by rw [h3]; exact fun _ h => h) (by rw [h3]; exact fun _ h _ _ => h) (fun _ _ _ => h3)
  cases hm with
  | start k v evs hk => exact hsnd (.inl (by simp)) rfl rfl (by simp) (by simp) (not_trying (by simp [hk])) (by simp [hk, SPC.sleeping])
  | cont k v evs hk =>
    exact hsnd (.inl (by simp)) rfl rfl (by simp) (by simp) (not_trying (by rcases hk with hk | hk <;> simp [hk])) (fun _ _ _ => .inr rfl)
  | startStay k spur evs hk h2 => exact hsame (.inr (by simp [h2])) rfl rfl (by simp)
  | startClosed k spur evs hk h2 =>
    exact hsnd (.inr (by simp [h2])) rfl rfl (by simp) (by simp) (not_trying (by simp [hk])) (by simp [hk, SPC.sleeping])
  | startWait k spur evs hk h2 =>
    exact hsnd (.inr (by simp [h2])) rfl rfl (by simp) (by simp) (not_trying (by simp [hk])) (by simp [hk, SPC.sleeping])
  | startNotified k spur evs hk h2 => exact .att k (.inr ⟨_, upd_self ..⟩)
  | startPanic k spur evs r hk h2 h3 =>
    obtain ⟨r', rfl⟩ := he.node_ret h1 (.inl hk) h2
    exact absurd rfl (h3 r')
  | contStay k spur evs hk h2 => exact hsame (.inr (by simp [h2])) rfl rfl (by simp)
  | contClosed k spur evs hk h2 =>
    exact hsnd (.inr (by simp [h2])) rfl rfl (by simp) (by simp) (not_trying (by simp [hk])) fun _ h _ => by cases hcont rfl hk h2 h
  | contWait k spur evs hk h2 =>
    exact hsnd (.inr (by simp [h2])) rfl rfl (by simp) (by simp) (not_trying (by simp [hk])) fun _ h _ => .inl rfl
  | contNotified k spur evs hk h2 => exact .att k (.inr ⟨_, upd_self ..⟩)
  | contPanic k spur evs r hk h2 h3 =>
    obtain ⟨r', rfl⟩ := he.node_ret h1 (.inr hk) h2
    exact absurd rfl (h3 r')
  | cancel k evs hk hb =>
    refine hsnd (.inl (by simp)) rfl rfl (by simp) (by simp) (not_trying (by simp [hk])) fun _ _ h => ?_
    have h2 := (hr (.inl (by simp))).2 k
    exact absurd ((h.mono (evs := evs.map .queue ++ [Api.cancel k].map .api) (by simp [h2])).wasted (.inl (by simp))) hs.kept
  | timeout k evs hk hb =>
    refine hsnd (.inl (by simp)) rfl rfl (by simp) (by simp) (not_trying (by simp [hk])) fun _ _ h => ?_
    have h2 := (hr (.inl (by simp))).2 k
    exact absurd ((h.mono (evs := evs.map .queue ++ [Api.retSend k .timeout].map .api) (by simp [h2])).wasted (.inr (by simp))) hs.kept
  | dropStay k spur evs hk h2 => exact hsame (.inr (by simp [h2])) rfl rfl (by simp)
  | dropEnd k spur evs r hk h2 =>
    have h3 := he.nodesOk k
    rw [hk] at h3
    refine hsnd (.inr fun h => ?_) rfl rfl (by simp) (by simp) (not_trying (by simp [hk])) (by simp [hk, SPC.sleeping])
    have := hnx.2.2 h3
    rw [h] at this
    exact this
  | notify a o evs ha =>
    refine .notify a o (upd_self ..) ?_
    simp only [Queue.step] at h1
    repeat' split at h1
    all_goals cases h1
    simp [Queue.State.goto, Queue.PC.early]
  | notifyStay a o spur evs ha h2 => exact hsame (.inl (by simp)) rfl rfl (by simp)
  | notifyEnd a o spur evs ha h2 =>
    refine ih.queue he hrun hs h1 (hr (.inl (by simp))).1 (hr (.inl (by simp))).2 (fun b => ref_upd (by simp [ha])) ?_ (by simp) (fun _ h => h)
      (fun _ h _ _ => h) (fun _ _ _ => rfl)
    intro b o' hb
    by_cases hba : a = b
    · subst hba
      rw [ha] at hb
      cases hb
      right
      cases hp : (s1.pc (.op o)).early
      · rfl
      · have := hnx.early rfl hp
        rw [h2] at this; cases this
    · left
      simpa [State.refEnd, State.refgoto, upd_apply, Ne.symm hba] using hb
  | close o evs ha => exact hsame (.inl (by simp)) rfl rfl (by simp)
  | closeStay o spur evs ha h2 => exact hsame (.inl (by simp)) rfl rfl (by simp)
  | closeEnd o spur evs ha h2 => exact hsame (.inl (by simp)) rfl rfl (by simp)

/-- Once there was an attempt to send, something is on its way. -/
theorem Run.alive (h : Run c tr s) (hs : Sound tr) (ha : ∃ k a, .api (.attempt k a) ∈ tr) : Alive tr s := by
  refine Steps.ind (pre := []) .init (P := fun tr s => Run c tr s → Sound tr → (∃ k a, .api (.attempt k a) ∈ tr) → Alive tr s) ?_ ?_ ?_ ?_ ?_ tr s
    h.exec.steps h hs ha
  · rintro - - ⟨k, a, hm⟩; cases hm
  all_goals intro tr s
  · intro t e he ih hm _ hrun hs ha
    have he : Exec c tr s := he
    refine Alive.api (ih (hrun.before he) hs.before ?_) hm he hrun
    obtain ⟨k, a, ha⟩ := ha
    refine ⟨k, a, (List.mem_append.1 ha).resolve_right ?_⟩
    cases hm <;> simp
  · intro act s1 evs r t es he ih h1 hr hm _ hrun hs ha
    have he : Exec c tr s := he
    refine Alive.core (fun hn => ih (hrun.before he) hs.before ?_) h1 hr hm he hrun hs
    obtain ⟨k, a, ha⟩ := ha
    exact ⟨k, a, (List.mem_append.1 ha).resolve_right (by simp [hn])⟩
  · intro act s1 evs t es he ih h1 hm _ hrun hs ha
    have he : Exec c tr s := he
    refine Alive.cell (ih (hrun.before he) hs.before ?_) hm he hrun
    obtain ⟨k, a, ha⟩ := ha
    refine ⟨k, a, (List.mem_append.1 ha).resolve_right ?_⟩
    cases hm <;> simp
  · intro act s1 evs t es he ih h1 hm _ hrun hs ha
    have he : Exec c tr s := he
    refine Alive.queueMove (ih (hrun.before he) hs.before ?_) h1 hm he hrun hs
    obtain ⟨k, a, ha⟩ := ha
    refine ⟨k, a, (List.mem_append.1 ha).resolve_right ?_⟩
    cases hm <;> simp

/-! ### Who is asleep -/

theorem fold_gone {n : Nat} {t : Queue.Trace W} : ∀ {q : List Nat}, n ∈ q → n ∉ t.foldl Queue.qstep q → (∃ o, .deq o n ∈ t) ∨ .rem n ∈ t := by
  induction t with
  | nil => exact fun h h' => absurd h h'
  | cons e t ih =>
    intro q h h'
    by_cases hq : n ∈ Queue.qstep q e
    · rcases ih hq h' with ⟨o, h1⟩ | h1
      · exact .inl ⟨o, by simp [h1]⟩
      · exact .inr (by simp [h1])
    · cases e with
      | enq m v => exact absurd (List.mem_cons_of_mem _ h) hq
      | deq o m =>
        by_cases hm : n = m
        · subst hm; exact .inl ⟨o, by simp⟩
        · exact absurd ((List.mem_erase_of_ne hm).2 h) hq
      | rem m =>
        by_cases hm : n = m
        · subst hm; exact .inr (by simp)
        · exact absurd ((List.mem_erase_of_ne hm).2 h) hq
      | _ => exact absurd h hq

/-- Without `RecvRef`s half dropped, every operation on the wait queue is over. -/
theorem ExecM.op_over {m : Bool} (h : ExecM m c tr s) (hrx : ∀ pan, .api (.dropRx pan) ∉ tr) (hre : ∀ a, ¬ RecvEnding tr a) (o : Nat) :
    queueKind (s.queue.pc (.op o)) = none := by
  cases hk : queueKind (s.queue.pc (.op o)) with
  | none => rfl
  | some q =>
    exfalso
    obtain ⟨x, hx⟩ := h.queueOwns.cov o q hk
    cases x <;> simp [queueClaim, claimOf, sndQueue, closerQueue] at hx
    case rx =>
      have := h.rxInv.hist
      revert hx this
      cases s.rx <;> simp [rxQueue]
      rintro - - ⟨pan, _, h1, -⟩
      exact hrx pan h1.1
    case ref b =>
      have := h.refHist b
      revert hx this
      cases s.ref b <;> simp [refQueue]
      rintro - - h1
      exact hre b h1

/-- What a `notify` call did. -/
theorem ExecM.notify_over {m : Bool} (h : ExecM m c tr s) (hrx : ∀ pan, .api (.dropRx pan) ∉ tr) (hre : ∀ a, ¬ RecvEnding tr a) {o : Nat}
    (ho : Queue.opEvs (queueOf tr) o ≠ []) :
    Queue.opEvs (queueOf tr) o = [.callNotify o, .store o, .retNotify o false] ∨
      (∃ n v, Queue.opEvs (queueOf tr) o = [.callNotify o, .deq o n, .wake o n v, .retNotify o true]) ∨
      Queue.opEvs (queueOf tr) o = [.callNotify o, .retNotify o false] ∧ c.queue.debug = false ∨
      Queue.opEvs (queueOf tr) o = [.callNotify o, .assertFailed (.op o)] := by
  have hcl : .callClose o ∉ Queue.opEvs (queueOf tr) o := fun ho => by
    obtain ⟨pan, hp⟩ := h.rxInv.call o (mem_queueOf.1 ((Queue.mem_opEvs rfl).1 ho))
    exact hrx pan hp
  have hkind := h.op_over hrx hre o
  have hh := h.queue.opHist o
  generalize s.queue.pc (.op o) = q at hh hkind
  cases q <;> simp [queueKind] at hkind <;> simp only [Queue.OpHist] at hh
  case off => exact absurd hh ho
  case panicked => exact .inr (.inr (.inr hh.1))
  case done =>
    rcases hh with hh | ⟨n, v, hh⟩ | ⟨hh, hh'⟩ | ⟨l, hh⟩
    · exact .inl hh
    · exact .inr (.inl ⟨n, v, hh⟩)
    · exact .inr (.inr (.inl ⟨hh, hh'⟩))
    · rw [hh] at hcl; simp at hcl

/-- The `notify` call that took a node out of the list wakes its owner before it is over. -/
theorem ExecM.deq_wakes {m : Bool} (h : ExecM m c tr s) (hrx : ∀ pan, .api (.dropRx pan) ∉ tr) (hre : ∀ a, ¬ RecvEnding tr a) {pre post : Trace V W} {o k : Nat}
    (htr : tr = pre ++ post) (hd : .queue (.deq o k) ∈ post) : ∃ v, .queue (.wake o k v) ∈ post := by
  have hm : .deq o k ∈ Queue.opEvs (queueOf tr) o := (Queue.mem_opEvs rfl).2 (mem_queueOf.2 (by rw [htr]; simp [hd]))
  have hh := h.notify_over hrx hre (List.ne_nil_of_mem hm)
  have hd' : .deq o k ∈ Queue.opEvs (queueOf post) o := (Queue.mem_opEvs rfl).2 (mem_queueOf.2 hd)
  have hsplit : Queue.opEvs (queueOf tr) o = Queue.opEvs (queueOf pre) o ++ Queue.opEvs (queueOf post) o := by
    rw [htr, queueOf_append, Queue.opEvs_append]
  rcases hh with hh | ⟨n, v, hh⟩ | ⟨hh, -⟩ | hh
  · rw [hh] at hm; simp at hm
  · rw [hh] at hm hsplit
    simp at hm
    subst hm
    refine ⟨v, mem_queueOf.1 ((Queue.mem_opEvs (o := o) rfl).1 ?_)⟩
    revert hsplit hd'
    generalize Queue.opEvs (queueOf pre) o = p
    generalize Queue.opEvs (queueOf post) o = q
    intro hd' hsplit
    rcases p with _ | ⟨x, _ | ⟨y, p⟩⟩
    · simp at hsplit; simp [← hsplit]
    · simp at hsplit; simp [← hsplit.2]
    · exfalso
      simp at hsplit
      have : Queue.Event.deq o k ∈ p ++ q := by simp [hd']
      rw [← hsplit.2.2] at this
      simp at this
  · rw [hh] at hm; simp at hm
  · rw [hh] at hm; simp at hm

/-- The drop of a `RecvRef` notifies the senders. -/
theorem ExecM.recv_notifies {m : Bool} (h : ExecM m c tr s) (hre : ∀ a, ¬ RecvEnding tr a) {pre post : Trace V W} {b : OpId}
    (htr : tr = pre ++ .api (.dropRecv b) :: post) : ∃ o, .queue (.callNotify o) ∈ post := by
  obtain ⟨tr0, l, s0, s1, h0, hl, h1, h2, h3⟩ := h.at_api htr (by simp)
  have hs1 : s1.ref b = .toNotify := by
    cases h1 with
    | api hm hl hr hs => cases hm
    | core es1 es2 h1 hm hl hr hs =>
      generalize hes : es1 ++ Api.dropRecv b :: es2 = es at hm
      generalize hret : coreRet _ = ret at hm
      have : Api.dropRecv b ∈ es := by rw [← hes]; simp
      cases hm <;> simp at this
      subst this hs
      exact upd_self ..
    | cell es1 es2 h1 hm hl hr hs =>
      generalize hes : es1 ++ Api.dropRecv b :: es2 = es at hm
      have : Api.dropRecv b ∈ es := by rw [← hes]; simp
      cases hm <;> simp at this
    | queue es1 es2 h1 hm hl hr hs =>
      generalize hes : es1 ++ Api.dropRecv b :: es2 = es at hm
      have : Api.dropRecv b ∈ es := by rw [← hes]; simp
      cases hm <;> simp at this
  have key : s.ref b = .toNotify ∨ ∃ o, .queue (.callNotify o) ∈ post := by
    refine StepsM.ind h2 (P := fun post s => s.ref b = .toNotify ∨ ∃ o, Ev.queue (.callNotify o) ∈ post) (.inl hs1) (fun _ _ _ _ _ ih _ => ih) (fun _ _ _ _ _ ih _ _ => ih) ?_ ?_ ?_ ?_ post s h3
    all_goals
      intros
    · rename_i tr s t e he ih hm he'
      rcases ih with ih | ⟨o, ih⟩
      · refine .inl ?_
        cases hm <;> first | exact ih | exact ref_upd (by simp [*]) ih
      · exact .inr ⟨o, by simp [ih]⟩
    · rename_i tr s act s1 evs r t es he ih h1 hr hm he'
      rcases ih with ih | ⟨o, ih⟩
      · refine .inl ?_
        have got : ∀ {a : OpId}, rxCore s.rx = some (a, .pop) → s.ref a ≠ .toNotify := fun hx => by
          rw [ref_off_of_pop he.rinv he.coreOwns hx]; simp
        cases hm <;> first | exact ih | exact ref_upd (by first | (simp [*]; done) | exact got (by rw [‹s.rx = _›]; rfl)) ih
      · exact .inr ⟨o, by simp [ih]⟩
    · rename_i tr s act s1 evs t es he ih h1 hm he'
      rcases ih with ih | ⟨o, ih⟩
      · refine .inl ?_
        cases hm <;> first | exact ih | exact ref_upd (by simp [*]) ih
      · exact .inr ⟨o, by simp [ih]⟩
    · rename_i tr s act s1 evs t es he ih h1 hm he'
      rcases ih with ih | ⟨o, ih⟩
      · cases hm with
        | notify a o _ ha =>
          have := ((queue_evs h1).notify o).2 rfl
          exact .inr ⟨o, by simp [this]⟩
        | _ => refine .inl ?_; first | exact ih | exact ref_upd (by simp [*]) ih
      · exact .inr ⟨o, by simp [ih]⟩
  refine key.resolve_left fun hx => ?_
  have := h.refHist b
  rw [hx] at this
  exact hre b this

/-- A sender that is asleep when a `RecvRef` is dropped, or one that was waiting longer, is woken. -/
theorem ExecM.receipt_wakes (h : Exec c tr s) (hrx : ∀ pan, .api (.dropRx pan) ∉ tr) (hre : ∀ a, ¬ RecvEnding tr a)
    (hov : ∀ o, ¬ Queue.Overlapped (queueOf tr) o) {pre post : Trace V W} {b : OpId} {k : Nat} (htr : tr = pre ++ .api (.dropRecv b) :: post)
    (hk : Asleep pre k) (hc : .api (.cancel k) ∉ post) : ∃ o n v, .queue (.wake o n v) ∈ post := by
  obtain ⟨o, ho⟩ := h.recv_notifies hre htr
  have hm : .callNotify o ∈ Queue.opEvs (queueOf post) o := (Queue.mem_opEvs rfl).2 (mem_queueOf.2 ho)
  have hsplit : Queue.opEvs (queueOf tr) o = Queue.opEvs (queueOf pre) o ++ Queue.opEvs (queueOf post) o := by
    rw [htr, queueOf_append, Queue.opEvs_append]; rfl
  have hmt : .callNotify o ∈ Queue.opEvs (queueOf tr) o := by rw [hsplit]; simp [hm]
  -- the events of the `notify` call are all in `post`
  have hall : ∀ l, Queue.opEvs (queueOf tr) o = .callNotify o :: l → .callNotify o ∉ l → Queue.opEvs (queueOf post) o = .callNotify o :: l := by
    intro l hl hn
    rw [hl] at hsplit
    cases hp : Queue.opEvs (queueOf pre) o with
    | nil => rw [hp] at hsplit; exact hsplit.symm
    | cons x p =>
      rw [hp] at hsplit
      simp at hsplit
      exact absurd (by rw [hsplit.2]; simp [hm]) hn
  have hover : ∀ (e : Queue.Event W) (P : Prop), e ∈ queueOf tr → (∀ p, (∀ x ∈ p, x ∈ queueOf tr) → Queue.EvOk c.queue p e → P ∨ ∃ o, Queue.Overlapped p o) → P := by
    intro e P he hP
    obtain ⟨p1, p2, hpp⟩ := List.append_of_mem he
    rcases hP p1 (by rw [hpp]; intro x hx; simp [hx]) (h.queue.evOk _ _ _ hpp) with h1 | ⟨o, h1⟩
    · exact h1
    · exact absurd (by rw [hpp]; exact h1.append) (hov o)
  rcases h.notify_over hrx hre (List.ne_nil_of_mem hmt) with hh | ⟨n, v, hh⟩ | ⟨hh, -⟩ | hh
  · have hst : .store o ∈ queueOf post := (Queue.mem_opEvs (o := o) rfl).1 (by rw [hall _ hh (by simp)]; simp)
    obtain ⟨m, p2, hpp⟩ := List.append_of_mem hst
    obtain ⟨p, q, hpre, h1, h2, h3, -⟩ := hk
    have htr' : tr = p ++ .api (.sleep k) :: (q ++ .api (.dropRecv b) :: post) := by rw [htr, hpre]; simp
    have hq := h.sleep_queued htr'
    have hst' : Queue.queueOf (queueOf p ++ (queueOf q ++ m)) = [] := by
      refine (h.queue.evOk (queueOf p ++ (queueOf q ++ m)) (.store o) p2 ?_).1
      rw [htr', queueOf_append, show queueOf (.api (.sleep k) :: (q ++ .api (.dropRecv b) :: post)) = queueOf (q ++ .api (.dropRecv b) :: post) from rfl,
        queueOf_append, show queueOf (.api (.dropRecv b) :: post) = queueOf post from rfl, hpp]
      simp
    have hgone : k ∉ (queueOf q ++ m).foldl Queue.qstep (Queue.queueOf (queueOf p)) := by
      rw [Queue.queueOf, ← List.foldl_append]
      show k ∉ Queue.queueOf _
      rw [hst']; simp
    rcases fold_gone hq hgone with ⟨o', h4⟩ | h4
    · have h5 : .queue (.deq o' k) ∈ q ++ .api (.dropRecv b) :: post := by
        rcases List.mem_append.1 h4 with h4 | h4
        · simp [mem_queueOf.1 h4]
        · have : .deq o' k ∈ queueOf post := by rw [hpp]; simp [h4]
          simp [mem_queueOf.1 this]
      obtain ⟨v, h6⟩ := h.deq_wakes hrx hre (pre := p ++ [.api (.sleep k)]) (by rw [htr']; simp) h5
      rcases List.mem_append.1 h6 with h6 | h6
      · exact absurd h6 (h1 o' v)
      · exact ⟨o', k, v, by simpa using h6⟩
    · exfalso
      have h5 : .api (.cancel k) ∈ tr := h.rem_cancel (k := k) <| by
        rw [htr']
        rcases List.mem_append.1 h4 with h4 | h4
        · simp [mem_queueOf.1 h4]
        · have : .rem k ∈ queueOf post := by rw [hpp]; simp [h4]
          simp [mem_queueOf.1 this]
      rw [htr'] at h5
      simp [hc, h3] at h5
      obtain ⟨tr0, l, s0, s1, h0, hl, h6, h7, h8⟩ := h.at_api htr' (by simp)
      have h9 := h7.asleep (k := k) (post := []) rfl (by simp) (by simp) (by simp)
      have h10 := h7.life k
      rw [h9] at h10
      obtain ⟨_, _, h10⟩ := h10
      have h11 := (mem_life (tr := p ++ [.api (.sleep k)]) (e := .cancel k) rfl).2 (by simp [h5])
      rw [h10] at h11
      simp at h11
  · refine ⟨o, n, v, mem_queueOf.1 ((Queue.mem_opEvs (o := o) rfl).1 ?_)⟩
    rw [hall _ hh (by simp)]; simp
  · refine hover (.retNotify o false) _ ((Queue.mem_opEvs (o := o) rfl).1 (by rw [hh]; simp)) ?_
    rintro p hp (h1 | ⟨-, h1⟩)
    · have := (Queue.mem_opEvs (o := o) rfl).2 (hp _ h1)
      rw [hh] at this
      simp at this
    · exact .inr ⟨o, h1⟩
  · refine hover (.assertFailed (.op o)) _ ((Queue.mem_opEvs (o := o) rfl).1 (by rw [hh]; simp)) ?_
    rintro p - ⟨o', -, -, h1⟩
    exact .inr ⟨o', h1⟩

/-- When nothing is half way through, a call that is asleep is in the wait queue. -/
theorem ExecM.asleep_queued {m : Bool} (h : ExecM m c tr s) (hrx : ∀ pan, .api (.dropRx pan) ∉ tr) (hre : ∀ a, ¬ RecvEnding tr a) {k : Nat} (hk : Asleep tr k) :
    k ∈ Queue.queueOf (queueOf tr) ∧ s.snd k = .waiting := by
  obtain ⟨pre, post, htr, h1, h2, h3, h3'⟩ := hk
  have hsn := h.asleep htr h3 h2 h3'
  refine ⟨?_, hsn⟩
  have hq := h.sleep_queued htr
  apply Classical.byContradiction
  intro hn
  rw [htr, queueOf_append, show queueOf (.api (.sleep k) :: post) = queueOf post from rfl, Queue.queueOf, List.foldl_append] at hn
  rcases fold_gone hq hn with ⟨o, h4⟩ | h4
  · obtain ⟨v, h5⟩ := h.deq_wakes hrx hre (pre := pre ++ [.api (.sleep k)]) (post := post) (by rw [htr]; simp) (mem_queueOf.1 h4)
    exact h1 o v h5
  · have h5 := h.rem_cancel (k := k) (by rw [htr]; simp [mem_queueOf.1 h4])
    have h6 := h.life k
    rw [hsn] at h6
    obtain ⟨_, _, h6⟩ := h6
    have h7 := (mem_life (tr := tr) (e := .cancel k) rfl).2 h5
    rw [h6] at h7
    simp at h7

theorem called_upd {t : State w V W} {k j : Nat} {p : SPC} (ht : t.snd = Thingbuf.upd s.snd j p) (hj : s.snd j ≠ .off) (hk : t.snd k ≠ .off) :
    s.snd k ≠ .off := by
  rw [ht, upd_apply] at hk
  split at hk
  · rename_i e; exact e ▸ hj
  · exact hk

/-- Every send call begins with an attempt. -/
theorem ExecM.called_attempt {m : Bool} (h : ExecM m c tr s) : ∀ k, s.snd k ≠ .off → ∃ a, .api (.attempt k a) ∈ tr := by
  refine ExecM.ind (P := fun tr s => ∀ k, s.snd k ≠ .off → ∃ a, Ev.api (.attempt k a) ∈ tr) ?_ (fun _ _ _ _ _ ih _ => ih) (fun _ _ _ _ _ ih _ _ => ih) ?_ ?_ ?_ ?_ tr s h
  · intro k a; exact absurd rfl a
  · intro tr s t e he ih hm k hk
    have : s.snd k ≠ .off := by
      cases hm <;> first | exact hk | exact called_upd rfl (by simp [*]) hk
    obtain ⟨a, ha⟩ := ih k this
    exact ⟨a, by simp [ha]⟩
  · intro tr s act s1 evs r t es he ih h1 hr hm k hk
    by_cases h0 : s.snd k = .off
    · cases hm with
      | send j x wait a r hp hx =>
        by_cases e : k = j
        · subst e; exact ⟨a, by simp⟩
        · exact absurd ((upd_ne _ _ e).trans h0) hk
      | _ => exact absurd h0 (by first | exact hk | exact called_upd rfl (by simp [*]) hk)
    · obtain ⟨a, ha⟩ := ih k h0
      exact ⟨a, by simp [ha]⟩
  · intro tr s act s1 evs t es he ih h1 hm k hk
    have : s.snd k ≠ .off := by
      cases hm <;> first | exact hk | exact called_upd rfl (by first | (simp [*]; done) | (rename_i h; rcases h with h | h <;> simp [h])) hk
    obtain ⟨a, ha⟩ := ih k this
    exact ⟨a, by simp [ha]⟩
  · intro tr s act s1 evs t es he ih h1 hm k hk
    have : s.snd k ≠ .off := by
      cases hm <;> first | exact hk | exact called_upd rfl (by first | (simp [*]; done) | (rename_i h; rcases h with h | h <;> simp [h])) hk
    obtain ⟨a, ha⟩ := ih k this
    exact ⟨a, by simp [ha]⟩

theorem Run.sleeper (h : Run c tr s) (hs : Sound tr) (hset : Settled tr) {k : Nat} (hk : Asleep tr k) : ∃ a, InChannel tr a := by
  have hq := h.exec.asleep_queued hs.rx hset.2 hk
  obtain ⟨a, ha⟩ := h.exec.called_attempt k (by simp [hq.2])
  have hi := h.exec.queue.inv
  have busy : ∀ j, (∃ x wt, life j (apiOf tr) = [.callSend j x wt]) → j ∈ Queue.queueOf (queueOf tr) ∧ s.snd j = .waiting := by
    rintro j ⟨x, wt, hl⟩
    rcases hset.1 j x wt ((mem_life rfl).1 (by rw [hl]; simp)) with ⟨r, h1⟩ | h1 | h1
    · have := (mem_life (tr := tr) (e := .retSend j r) rfl).2 h1
      rw [hl] at this; simp at this
    · have := (mem_life (tr := tr) (e := .cancelled j) rfl).2 h1
      rw [hl] at this; simp at this
    · exact h.exec.asleep_queued hs.rx hset.2 h1
  cases h.alive hs ⟨k, a, ha⟩ with
  | msg a ha => exact ⟨a, ha⟩
  | stored h1 =>
    rcases hi.full (List.ne_nil_of_mem hq.1) with h2 | h2 <;> rw [h1] at h2 <;> cases h2
  | ref b h1 =>
    have := h.exec.refHist b
    rw [h1] at this
    exact absurd this (hset.2 b)
  | notify b o h1 h2 =>
    have := h.exec.refHist b
    rw [h1] at this
    exact absurd this (hset.2 b)
  | att j h1 =>
    have hl := h.exec.life j
    have : ∃ x wt, life j (apiOf tr) = [.callSend j x wt] := by
      rcases h1 with ⟨_, _, h1⟩ | ⟨_, h1⟩ <;> rw [h1] at hl <;> exact hl
    have := (busy j this).2
    rcases h1 with ⟨_, _, h1⟩ | ⟨_, h1⟩ <;> rw [h1] at this <;> cases this
  | woken j h1 h2 h3 =>
    have hl := h.exec.life j
    have : ∃ x wt, life j (apiOf tr) = [.callSend j x wt] := by
      rcases h1 with h1 | h1 <;> rw [h1] at hl <;> exact hl
    have hb := busy j this
    have hn := hi.node j
    have hp := h.exec.nodesOk j
    rw [hb.2] at hp
    rw [show s.queue.pc (.node j) = .idle .waiting from hp] at hn
    simp [Queue.NodeOk, hb.1, h2] at hn

/-! ### `RecvRef`s dropped one at a time -/

theorem OneDrop.before {evs : Trace V W} (h : OneDrop (tr ++ evs)) : OneDrop tr := fun pre b post b' htr hb =>
  h pre b (post ++ evs) b' (by rw [htr]; simp) hb

theorem OneDrop.one (h : OneDrop tr) {a b : OpId} (ha : RecvEnding tr a) (hb : RecvEnding tr b) : a = b := by
  obtain ⟨p, q, hp⟩ := List.append_of_mem ha.1
  have h1 := hb.1
  rw [hp] at h1
  simp at h1
  rcases h1 with h1 | h1 | h1
  · exact absurd (by rw [hp]; simp [h p a q b hp h1]) hb.2
  · exact h1.symm
  · obtain ⟨q1, q2, hq⟩ := List.append_of_mem h1
    have := h (p ++ .api (.dropRecv a) :: q1) b q2 a (by rw [hp, hq]; simp) (by simp)
    exact absurd (by rw [hp, hq]; simp at this; rcases this with h | h <;> simp [h]) ha.2

theorem rem_none (h : Exec c tr s) (hn : ∀ k, .api (.cancel k) ∉ tr) (k : Nat) : .rem k ∉ queueOf tr := fun hr =>
  hn k (h.rem_cancel (mem_queueOf.1 hr))

theorem ExecM.serial (h : Exec c tr s) (h1 : OneDrop tr) (hn : ∀ k, .api (.cancel k) ∉ tr) (hrx : ∀ pan, .api (.dropRx pan) ∉ tr) :
    Queue.SerialNotify (queueOf tr) := by
  refine Exec.ind (P := fun tr s => OneDrop tr → (∀ k, .api (.cancel k) ∉ tr) → (∀ pan, .api (.dropRx pan) ∉ tr) → Queue.SerialNotify (queueOf tr))
    ?_ ?_ ?_ ?_ ?_ tr s h h1 hn hrx
  · intro _ _ _ pre o post o' h
    simp [queueOf] at h
  · intro tr s t e he ih hm h1 hn hrx
    rw [queueOf_append, queueOf_api1, queueOf_nil, List.append_nil]
    exact ih h1.before (fun k h => hn k (by simp [h])) (fun k h => hrx k (by simp [h]))
  · intro tr s act s1 evs r t es he ih _ hr hm h1 hn hrx
    rw [queueOf_append, queueOf_append, queueOf_core, queueOf_api, List.append_nil, List.append_nil]
    exact ih h1.before (fun k h => hn k (by simp [h])) (fun k h => hrx k (by simp [h]))
  · intro tr s act s1 evs t es he ih _ hm h1 hn hrx
    rw [queueOf_append, queueOf_append, queueOf_cell, queueOf_api, List.append_nil, List.append_nil]
    exact ih h1.before (fun k h => hn k (by simp [h])) (fun k h => hrx k (by simp [h]))
  · intro tr s act s1 evs t es he ih hs hm h1 hn hrx
    have hn' : ∀ k, .api (.cancel k) ∉ tr := fun k h => hn k (by simp [h])
    have hrx' : ∀ pan, .api (.dropRx pan) ∉ tr := fun k h => hrx k (by simp [h])
    have ih := ih h1.before hn' hrx'
    have hov := Queue.OneAtATime.not_overlapped he.queue ⟨ih, fun n _ => rem_none he hn' n⟩
    rw [queueOf_append, queueOf_append, queueOf_queue, queueOf_api, List.append_nil]
    intro pre o post o' htr ho'
    have key : ∀ a', pre = queueOf tr ++ a' → evs = a' ++ .callNotify o :: post → ∃ b, .retNotify o' b ∈ pre := by
      intro a' hpre hevs
      have hact : act = .notify o := ((queue_evs hs).notify o).1 (by rw [hevs]; simp)
      subst hact
      have ha' : a' = [] := by
        simp only [Queue.step] at hs
        repeat' split at hs
        all_goals cases hs
        cases a' with
        | nil => rfl
        | cons x l => simp at hevs
      subst ha'
      rw [hpre, List.append_nil] at ho' ⊢
      have hcl : .callClose o' ∉ Queue.opEvs (queueOf tr) o' := fun ho => by
        obtain ⟨pan, hp⟩ := he.rxInv.call o' (mem_queueOf.1 ((Queue.mem_opEvs rfl).1 ho))
        exact hrx' pan hp
      have hm' : .callNotify o' ∈ Queue.opEvs (queueOf tr) o' := (Queue.mem_opEvs rfl).2 ho'
      have hkind : queueKind (s.queue.pc (.op o')) = none := by
        cases hk : queueKind (s.queue.pc (.op o')) with
        | none => rfl
        | some q =>
          exfalso
          obtain ⟨x, hx⟩ := he.queueOwns.cov o' q hk
          cases x <;> simp [queueClaim, claimOf, sndQueue, closerQueue] at hx
          case rx =>
            have := he.rxInv.hist
            revert hx this
            cases s.rx <;> simp [rxQueue]
            rintro - - ⟨pan, _, h1, -⟩
            exact hrx' pan h1.1
          case ref b =>
            have h2 := he.refHist b
            cases hm with
            | notify a _ _ ha =>
              have h3 := he.refHist a
              rw [ha] at h3
              have : s.ref b ≠ .toNotify := by intro h; rw [h] at hx; simp [refQueue] at hx
              have hb : RecvEnding tr b := by
                revert hx h2
                cases s.ref b <;> simp [refQueue]
                rintro - - h1
                exact h1
              have := h1.before.one hb h3
              subst this
              exact absurd ha this
      have hh := he.queue.opHist o'
      generalize s.queue.pc (.op o') = q at hh hkind
      cases q <;> simp [queueKind] at hkind <;> simp only [Queue.OpHist] at hh
      case off => rw [hh] at hm'; cases hm'
      case panicked =>
        exfalso
        have h2 : .assertFailed (.op o') ∈ queueOf tr := (Queue.mem_opEvs (o := o') rfl).1 (by rw [hh.1]; simp)
        obtain ⟨p1, p2, hpp⟩ := List.append_of_mem h2
        obtain ⟨o2, -, -, h3⟩ := he.queue.evOk _ _ _ hpp
        exact hov o2 (by rw [hpp]; exact h3.append)
      case done =>
        rcases hh with hh | ⟨n, v, hh⟩ | ⟨hh, hh'⟩ | ⟨l, hh⟩
        · exact ⟨false, (Queue.mem_opEvs (o := o') rfl).1 (by rw [hh]; simp)⟩
        · exact ⟨true, (Queue.mem_opEvs (o := o') rfl).1 (by rw [hh]; simp)⟩
        · exact ⟨false, (Queue.mem_opEvs (o := o') rfl).1 (by rw [hh]; simp)⟩
        · rw [hh] at hcl; simp at hcl
    rcases List.append_eq_append_iff.1 htr with ⟨a', h2, h3⟩ | ⟨c', h2, h3⟩
    · exact key a' h2 h3
    · cases c' with
      | nil => exact key [] (by simpa using h2.symm) (by simpa using h3.symm)
      | cons x c' =>
        simp at h3
        exact ih pre o c' o' (by rw [h2, h3.1]) ho'

/-- With no cancelled sends, none that timed out, and `RecvRef`s dropped one at a time, no wake-up is lost. -/
theorem ExecM.sound (h : Exec c tr s) (h1 : OneDrop tr) (hn : ∀ k, .api (.cancel k) ∉ tr) (ht : ∀ k, .api (.retSend k .timeout) ∉ tr)
    (hrx : ∀ pan, .api (.dropRx pan) ∉ tr) : Sound tr where
  rx := hrx
  alone := Queue.OneAtATime.not_overlapped h.queue ⟨h.serial h1 hn hrx, fun n _ => rem_none h hn n⟩
  kept := by
    rintro ⟨pre, o, k, mid, post, htr, h2, -⟩
    rcases h2 with h2 | h2
    · refine hn k ?_
      rw [htr]
      rcases List.mem_append.1 h2 with h2 | h2 <;> simp [h2]
    · refine ht k ?_
      rw [htr]
      rcases List.mem_append.1 h2 with h2 | h2 <;> simp [h2]

/-- The future of a blocking send is never dropped half way. -/
theorem ExecM.no_cancel {m : Bool} (h : ExecM m c tr s) (hb : c.blocking = true) (k : Nat) : .api (.cancel k) ∉ tr := by
  refine ExecM.ind (P := fun tr s => .api (.cancel k) ∉ tr) ?_ (fun _ _ _ _ _ ih _ => ih) (fun _ _ _ _ _ ih _ _ => ih) ?_ ?_ ?_ ?_ tr s h
  · simp
  · intro tr s t e he ih hm
    cases hm <;> simp [ih]
  · intro tr s act s1 evs r t es he ih h1 hr hm
    cases hm <;> simp [ih]
  · intro tr s act s1 evs t es he ih h1 hm
    cases hm <;> simp [ih]
  · intro tr s act s1 evs t es he ih h1 hm
    cases hm
    case cancel => simp_all
    all_goals simp [ih]

end Thingbuf.Chan
