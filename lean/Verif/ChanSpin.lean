import Verif.ChanCloseProps
import Verif.Solo

/-!
# The attempts of a blocking send call: history
-/

namespace Thingbuf.Chan

variable {w : Nat} {V W : Type} {c : Config W} {tr : Trace V W} {s : State w V W}

/-- What happened before the last attempt (`p`) and since (`m`). -/
def AttPhase (k : Nat) (p m : Trace V W) : SPC → Prop
  | .retry .start => .queue (.retStart k .notified) ∈ m
  | .retry .queued => .queue (.retCont k .notified) ∈ m ∧
      (.queue (.retCont k .notified) ∈ p ∨ (.api (.sleep k) ∈ m ∧ ∃ o, .queue (.deq o k) ∈ m ∧ .queue (.callNotify o) ∈ p ++ m))
  | .waiting | .conting => .queue (.retCont k .notified) ∈ p ∨ (.api (.sleep k) ∈ m ∧ ∃ v, .queue (.enq k v) ∈ m)
  | .toCont | .push _ .queued => .queue (.retCont k .notified) ∈ p
  | .retry .only => False
  | _ => True

/-- The history of the attempts of call `k` in control state `pc`. -/
def AttHist (tr : Trace V W) (k : Nat) (pc : SPC) : Prop :=
  match pc with
  | .off => ∀ a, .api (.attempt k a) ∉ tr
  | pc => ∃ p a m, tr = p ++ .api (.attempt k a) :: m ∧ (∀ b, .api (.attempt k b) ∉ m) ∧ AttPhase k p m pc

theorem AttPhase.mono {k : Nat} {p m evs : Trace V W} {pc : SPC} (h : AttPhase k p m pc) : AttPhase k p (m ++ evs) pc := by
  cases pc
  case retry att =>
    cases att
    case queued =>
      rcases h with ⟨h0, h | ⟨h1, o, h2, h3⟩⟩
      · exact ⟨by simp [h0], .inl h⟩
      · refine ⟨by simp [h0], .inr ⟨by simp [h1], o, by simp [h2], ?_⟩⟩
        simp only [List.mem_append] at h3 ⊢
        exact h3.elim .inl fun h => .inr (.inl h)
    case start => exact List.mem_append_left _ h
    case only => exact h
  case push a att =>
    cases att <;> exact h
  case waiting | conting =>
    rcases h with h | ⟨h1, v, h2⟩
    · exact .inl h
    · exact .inr ⟨by simp [h1], v, by simp [h2]⟩
  all_goals exact h

theorem AttHist.mono {k : Nat} {evs : Trace V W} {pc : SPC} (h : AttHist tr k pc) (hn : ∀ a, .api (.attempt k a) ∉ evs) : AttHist (tr ++ evs) k pc := by
  have hx : ∀ pc', (∃ p a m, tr = p ++ .api (.attempt k a) :: m ∧ (∀ b, .api (.attempt k b) ∉ m) ∧ AttPhase k p m pc') →
      ∃ p a m, tr ++ evs = p ++ .api (.attempt k a) :: m ∧ (∀ b, .api (.attempt k b) ∉ m) ∧ AttPhase k p m pc' := by
    rintro pc' ⟨p, a, m, rfl, h1, h2⟩
    exact ⟨p, a, m ++ evs, by simp, fun b hb => (List.mem_append.1 hb).elim (h1 b) (hn b), h2.mono⟩
  cases pc
  case off => exact fun a ha => (List.mem_append.1 ha).elim (h a) (hn a)
  all_goals exact hx _ h

/-- A move of call `k` without an attempt. -/
theorem AttHist.move {k : Nat} {evs : Trace V W} {pc pc' : SPC} (h : AttHist tr k pc) (h0 : pc ≠ .off) (h0' : pc' ≠ .off)
    (hn : ∀ a, .api (.attempt k a) ∉ evs) (hp : ∀ p a m, tr = p ++ .api (.attempt k a) :: m → AttPhase k p m pc → AttPhase k p (m ++ evs) pc') :
    AttHist (tr ++ evs) k pc' := by
  have h : ∃ p a m, tr = p ++ .api (.attempt k a) :: m ∧ (∀ b, .api (.attempt k b) ∉ m) ∧ AttPhase k p m pc := by
    cases pc
    case off => exact absurd rfl h0
    all_goals exact h
  have : ∃ p a m, tr ++ evs = p ++ .api (.attempt k a) :: m ∧ (∀ b, .api (.attempt k b) ∉ m) ∧ AttPhase k p m pc' := by
    obtain ⟨p, a, m, h1, h2, h3⟩ := h
    exact ⟨p, a, m ++ evs, by simp [h1], fun b hb => (List.mem_append.1 hb).elim (h2 b) (hn b), hp p a m h1 h3⟩
  cases pc'
  case off => exact absurd rfl h0'
  all_goals exact this

theorem AttHist.upd {t : State w V W} {evs : Trace V W} (h : ∀ k, AttHist tr k (s.snd k)) (k : Nat) {pc : SPC}
    (ht : t.snd = Thingbuf.upd s.snd k pc) (hn : ∀ j a, j ≠ k → .api (.attempt j a) ∉ evs) (hk : AttHist (tr ++ evs) k pc) :
    ∀ j, AttHist (tr ++ evs) j (t.snd j) := by
  intro j
  rw [ht, upd_apply]
  split
  · rename_i e; subst e; exact hk
  · rename_i e
    exact (h j).mono fun a => hn j a e

theorem AttHist.same {t : State w V W} {evs : Trace V W} (h : ∀ k, AttHist tr k (s.snd k)) (ht : t.snd = s.snd)
    (hn : ∀ j a, .api (.attempt j a) ∉ evs) : ∀ j, AttHist (tr ++ evs) j (t.snd j) := by
  intro j
  rw [ht]
  exact (h j).mono (hn j)

/-- An enqueueing step returns `Wait`. -/
theorem enq_of_startWait {cf : Queue.Config W} {q q1 : Queue.State W} {act : Queue.Act W} {evs : List (Queue.Event W)} {n : Nat}
    (h : Queue.step cf q act = some (q1, evs)) (hm : .retStart n .wait ∈ evs) : ∃ v, .enq n v ∈ evs := by
  obtain ⟨t, p, st, lk, l, b, rx, -, htr⟩ := Queue.step_tr h
  cases htr <;> simp [mem_deqEvents] at hm
  case enq v _ => exact ⟨v, by simp [hm]⟩

theorem ExecM.attHist (h : Exec c tr s) (hb : c.blocking = true) : ∀ k, AttHist tr k (s.snd k) := by
  refine Exec.ind (P := fun tr s => ∀ k, AttHist tr k (s.snd k)) ?_ ?_ ?_ ?_ ?_ tr s h
  · intro k a; simp
  · intro tr s t e he ih hm
    cases hm with
    | forgetSend k a hp =>
      have ihk := ih k
      rw [hp] at ihk
      exact AttHist.upd ih k rfl (by simp) (ihk.move (by simp) (by simp) (by simp) fun _ _ _ _ _ => trivial)
    | _ => exact AttHist.same ih rfl (by simp)
  · intro tr s act s1 evs r t es he ih h1 hr hm
    cases hm with
    | send k x wait a r hp hx =>
      refine AttHist.upd ih k rfl (by intro j b hj; simp [hj]) ?_
      refine ⟨tr ++ evs.map .core ++ [.api (.callSend k x wait)], a, [], by simp, by simp, ?_⟩
      cases wait <;> trivial
    | retry k att a r hp =>
      have ihk := ih k
      rw [hp] at ihk
      refine AttHist.upd ih k rfl (by intro j b hj; simp [hj]) ?_
      refine ⟨tr ++ evs.map .core, a, [], by simp, by simp, ?_⟩
      cases att
      case queued =>
        obtain ⟨p, b, m, rfl, h2, h3, h4⟩ := ihk
        simp [AttPhase, h3]
      all_goals trivial
    | pushOk k a att i hp =>
      have ihk := ih k
      rw [hp] at ihk
      exact AttHist.upd ih k rfl (by simp) (ihk.move (by simp) (by simp) (by simp) fun _ _ _ _ _ => trivial)
    | pushClosed k a att i hp =>
      have ihk := ih k
      rw [hp] at ihk
      exact AttHist.upd ih k rfl (by simp) (ihk.move (by simp) (by simp) (by simp) fun _ _ _ _ _ => trivial)
    | fullOnly k a i hp =>
      have ihk := ih k
      rw [hp] at ihk
      exact AttHist.upd ih k rfl (by simp) (ihk.move (by simp) (by simp) (by simp) fun _ _ _ _ _ => trivial)
    | fullStart k a i hp =>
      have ihk := ih k
      rw [hp] at ihk
      exact AttHist.upd ih k rfl (by simp) (ihk.move (by simp) (by simp) (by simp) fun _ _ _ _ _ => trivial)
    | fullBlocking k a i hp =>
      have ihk := ih k
      rw [hp] at ihk
      exact AttHist.upd ih k rfl (by simp) (ihk.move (by simp) (by simp) (by simp) fun _ _ _ _ h => h)
    | fullAsync k a i hp h2 => rw [hb] at h2; cases h2
    | pushPanic k a att i r hp =>
      have ihk := ih k
      rw [hp] at ihk
      exact AttHist.upd ih k rfl (by simp) (ihk.move (by simp) (by simp) (by simp) fun _ _ _ _ _ => trivial)
    | dropSend k a r hp =>
      have ihk := ih k
      rw [hp] at ihk
      exact AttHist.upd ih k rfl (by simp) (ihk.move (by simp) (by simp) (by simp) fun _ _ _ _ _ => trivial)
    | _ => exact AttHist.same ih rfl (by simp)
  · intro tr s act s1 evs t es he ih h1 hm
    cases hm with
    | notify k o evs hp =>
      have ihk := ih k
      rw [hp] at ihk
      exact AttHist.upd ih k rfl (by simp) (ihk.move (by simp) (by simp) (by simp) fun _ _ _ _ _ => trivial)
    | notifyEnd k o evs hp =>
      have ihk := ih k
      rw [hp] at ihk
      exact AttHist.upd ih k rfl (by simp) (ihk.move (by simp) (by simp) (by simp) fun _ _ _ _ _ => trivial)
    | _ => exact AttHist.same ih rfl (by simp)
  · intro tr s act s1 evs t es he ih h1 hm
    have hev := queue_evs h1
    have hq := he.queue
    cases hm with
    | start k v evs hp =>
      have ihk := ih k
      rw [hp] at ihk
      exact AttHist.upd ih k rfl (by simp) (ihk.move (by simp) (by simp) (by simp) fun _ _ _ _ _ => trivial)
    | cont k v evs hp =>
      have ihk := ih k
      refine AttHist.upd ih k rfl (by simp) ?_
      rcases hp with hp | hp <;> rw [hp] at ihk
      · exact ihk.move (by simp) (by simp) (by simp) fun _ _ _ _ h => h.mono
      · exact ihk.move (by simp) (by simp) (by simp) fun _ _ _ _ h => .inl h
    | startClosed k _ evs hp =>
      have ihk := ih k
      rw [hp] at ihk
      exact AttHist.upd ih k rfl (by simp) (ihk.move (by simp) (by simp) (by simp) fun _ _ _ _ _ => trivial)
    | startWait k spur evs hp hr =>
      have ihk := ih k
      rw [hp] at ihk
      refine AttHist.upd ih k rfl (by simp) (ihk.move (by simp) (by simp) (by simp) fun p a m _ _ => .inr ⟨by simp, ?_⟩)
      have hn := he.nodesOk k
      rw [hp] at hn
      obtain ⟨v, hv⟩ := enq_of_startWait h1 (hev.start' _ _ _ rfl hn hr)
      exact ⟨v, by simp [hv]⟩
    | startNotified k spur evs hp hr =>
      have ihk := ih k
      rw [hp] at ihk
      refine AttHist.upd ih k rfl (by simp) (ihk.move (by simp) (by simp) (by simp) fun p a m _ _ => ?_)
      have hn := he.nodesOk k
      rw [hp] at hn
      have := hev.start' _ _ _ rfl hn hr
      simp [AttPhase, this]
    | startPanic k _ evs _ hp =>
      have ihk := ih k
      rw [hp] at ihk
      exact AttHist.upd ih k rfl (by simp) (ihk.move (by simp) (by simp) (by simp) fun _ _ _ _ _ => trivial)
    | contClosed k _ evs hp =>
      have ihk := ih k
      rw [hp] at ihk
      exact AttHist.upd ih k rfl (by simp) (ihk.move (by simp) (by simp) (by simp) fun _ _ _ _ _ => trivial)
    | contWait k spur evs hp hr =>
      have ihk := ih k
      rw [hp] at ihk
      exact AttHist.upd ih k rfl (by simp) (ihk.move (by simp) (by simp) (by simp) fun p a m _ h => h.mono)
    | contNotified k spur evs hp hr =>
      have ihk := ih k
      rw [hp] at ihk
      have hn := he.nodesOk k
      rw [hp] at hn
      have hret := hev.cont' _ _ _ rfl hn hr
      refine AttHist.upd ih k rfl (by simp) (ihk.move (by simp) (by simp) (by simp) fun p a m hpm h => ⟨by simp [hret], ?_⟩)
      rcases h with h | ⟨h2, v, h3⟩
      · exact .inl h
      refine .inr ⟨by simp [h2], ?_⟩
      obtain ⟨l1, l2, hl⟩ := List.append_of_mem hret
      obtain ⟨x, o, y, h4, h5, h6⟩ := Queue.C26_cont_notified (hq.step h1) (n := k) (pre := queueOf tr ++ l1) (post := l2) (by rw [hl]; simp)
      have hm1 : queueOf tr ++ l1 = queueOf p ++ (queueOf m ++ l1) := by rw [hpm]; simp
      have h3' : Queue.Event.enq k v ∈ queueOf m := mem_queueOf.2 h3
      have hl1 : ∀ e, e ∈ l1 → (.queue e : Ev V W) ∈ evs.map .queue ++ ([] : List (Api W)).map .api := fun e hm => by
        rw [hl]; simp [hm]
      have hd : Queue.Event.deq o k ∈ queueOf m ++ l1 := by
        rw [h4] at hm1
        rcases List.append_eq_append_iff.1 hm1 with ⟨z, h7, h8⟩ | ⟨z, h7, h8⟩
        · cases z with
          | nil => simp at h8; rw [← h8]; simp
          | cons e z =>
            have h8 := (List.cons.inj h8).2
            exact absurd (by rw [h8]; simp [h3']) (h5 v)
        · rw [h8]; simp
      refine ⟨o, ?_, ?_⟩
      · rcases List.mem_append.1 hd with h7 | h7
        · exact List.mem_append_left _ (mem_queueOf.1 h7)
        · exact List.mem_append_right _ (hl1 _ h7)
      · rw [hm1] at h6
        simp only [List.mem_append] at h6
        rcases h6 with h6 | h6 | h6
        · exact List.mem_append_left _ (mem_queueOf.1 h6)
        · exact List.mem_append_right _ (List.mem_append_left _ (mem_queueOf.1 h6))
        · exact List.mem_append_right _ (List.mem_append_right _ (hl1 _ h6))
    | contPanic k _ evs _ hp =>
      have ihk := ih k
      rw [hp] at ihk
      exact AttHist.upd ih k rfl (by simp) (ihk.move (by simp) (by simp) (by simp) fun _ _ _ _ _ => trivial)
    | cancel k evs hp h2 => rw [hb] at h2; cases h2
    | timeout k evs hp =>
      have ihk := ih k
      rw [hp] at ihk
      exact AttHist.upd ih k rfl (by simp) (ihk.move (by simp) (by simp) (by simp) fun _ _ _ _ _ => trivial)
    | dropEnd k _ evs _ hp =>
      have ihk := ih k
      rw [hp] at ihk
      exact AttHist.upd ih k rfl (by simp) (ihk.move (by simp) (by simp) (by simp) fun _ _ _ _ _ => trivial)
    | _ => exact AttHist.same ih rfl (by simp)

/-- What happens between two successive attempts. -/
theorem ExecM.between (h : Exec c tr s) (hb : c.blocking = true) {k : Nat} {a b : OpId} {pre mid post : Trace V W}
    (htr : tr = pre ++ .api (.attempt k a) :: (mid ++ .api (.attempt k b) :: post)) (hm : ∀ x, .api (.attempt k x) ∉ mid) :
    AttPhase k pre mid (.retry .start) ∨ AttPhase k pre mid (.retry .queued) := by
  obtain ⟨tr0, l, s0, s1, h0, hl, h1, h2, h3⟩ := h.at_api (pre := pre ++ .api (.attempt k a) :: mid) (e := .attempt k b) (post := post)
    (by rw [htr]; simp) (by simp)
  have hist := h0.attHist hb k
  -- what is known before the step that makes the second attempt
  have key : ∀ att, s0.snd k = .retry att → (∀ x, .api (.attempt k x) ∉ l) → AttPhase k pre mid (.retry att) := by
    intro att ha hl'
    rw [ha] at hist
    have hist := hist.mono (evs := l) hl'
    rw [← hl] at hist
    obtain ⟨p, a', m, h4, h5, h6⟩ := hist
    rcases List.append_eq_append_iff.1 h4 with ⟨z, h7, h8⟩ | ⟨z, h7, h8⟩
    · cases z with
      | nil => simp at h8 h7; obtain ⟨-, h8⟩ := h8; subst h7 h8; exact h6
      | cons e z =>
        have h8 := (List.cons.inj h8).2
        exact absurd (by rw [h8]; simp) (hm a')
    · cases z with
      | nil => simp at h8 h7; obtain ⟨-, h8⟩ := h8; subst h7 h8; exact h6
      | cons e z =>
        have h8 := (List.cons.inj h8).2
        exact absurd (by rw [h8]; simp) (h5 a)
  cases h1 with
  | api hm' hl hr hs => cases hm'
  | @core act s2 evs t es1 es2 h1 hm' hl' hr hs =>
    generalize hes : es1 ++ Api.attempt k b :: es2 = es at hm'
    generalize hret : coreRet _ = ret at hm'
    have hmem : Api.attempt k b ∈ es := by rw [← hes]; simp
    cases hm' <;> simp at hmem
    case send h5 h6 =>
      obtain ⟨rfl, rfl⟩ := hmem
      rw [h5] at hist
      have : (.api (.attempt k a) : Ev V W) ∈ tr0 := by
        have : (.api (.attempt k a) : Ev V W) ∈ tr0 ++ l := by rw [← hl]; simp
        rcases List.mem_append.1 this with h7 | h7
        · exact h7
        rw [hl'] at h7
        simp at h7
        cases es1 with
        | nil => simp at h7
        | cons e es1 =>
          cases es1 with
          | nil => simp at hes h7; rw [hes.1] at h7; cases h7
          | cons e' es1 => simp at hes
      exact absurd this (hist a)
    case retry h5 =>
      obtain ⟨rfl, rfl⟩ := hmem
      obtain ⟨att, h5⟩ : ∃ att, s0.snd k = .retry att := ⟨_, h5⟩
      have he1 : es1 = [] := by
        cases es1 with
        | nil => rfl
        | cons e es1 => simp at hes
      have hk := key att h5 (by rw [hl', he1]; simp)
      cases att
      · exact hk.elim
      · exact .inl hk
      · exact .inr hk
  | cell es1 es2 h1 hm' hl hr hs =>
    generalize hes : es1 ++ Api.attempt k b :: es2 = es at hm'
    have : Api.attempt k b ∈ es := by rw [← hes]; simp
    cases hm' <;> simp at this
  | queue es1 es2 h1 hm' hl hr hs =>
    generalize hes : es1 ++ Api.attempt k b :: es2 = es at hm'
    have : Api.attempt k b ∈ es := by rw [← hes]; simp
    cases hm' <;> simp at this

/-- The states of a blocking send call once it was notified. -/
def SPC.spin : SPC → Bool
  | .retry .queued | .push _ .queued | .toCont | .conting | .waiting | .held _ | .toNotify | .notifying _ | .forgotten _ | .done => true
  | _ => false

theorem spin_upd {f : Nat → SPC} {k j : Nat} {p : SPC} (h : (f k).spin = true) (hp : k = j → p.spin = true) : (Thingbuf.upd f j p k).spin = true := by
  rw [upd_apply]; split
  · exact hp ‹_›
  · exact h

/-- After `continue_wait` has returned `Notified`, `start_wait` is not called again and the node is never enqueued again. -/
theorem ExecM.spinning (h : Exec c tr s) (hb : c.blocking = true) {k : Nat} {pre post : Trace V W}
    (htr : tr = pre ++ .queue (.retCont k .notified) :: post) : (s.snd k).spin = true ∧ ∀ v, .queue (.enq k v) ∉ post := by
  obtain ⟨tr0, s0, s1, l, r, rest, h0, h1, h2, h3, h4, h5⟩ := h.at' htr
  have hstart : (s1.snd k).spin = true ∧ ∀ v, .queue (.enq k v) ∉ r := by
    generalize hx : l ++ Ev.queue (Queue.Event.retCont k .notified) :: r = x at h1
    have hmem : .queue (.retCont k .notified) ∈ x := by rw [← hx]; simp
    cases h1 with
    | api hm => simp at hmem
    | core hm => simp at hmem
    | cell hm => simp at hmem
    | @queue act q1 evs t es h1 hm =>
      simp at hmem
      have hev := queue_evs h1
      obtain ⟨⟨spur, rfl⟩, hp, hret⟩ := hev.cont _ _ hmem
      have hn := h0.nodesOk k
      have hne : ∀ v, .queue (.enq k v) ∉ l ++ Ev.queue (Queue.Event.retCont k .notified) :: r := by
        intro v hv
        rw [hx] at hv
        simp at hv
        have := (hev.enq _ _ hv).2
        revert hp this
        generalize s0.queue.pc _ = p
        cases p <;> simp [NodeNext.startPC, NodeNext.contPC]
      refine ⟨?_, fun v hv => hne v (by simp [hv])⟩
      generalize hact : Queue.Act.node (W := W) k spur = act at hm
      cases hm with
      | contNotified k' spur' evs hs hr => cases hact; simp [State.sgoto, SPC.spin]
      | startStay k' spur' evs hs hr => cases hact; rw [hret] at hr; cases hr
      | startClosed k' spur' evs hs hr => cases hact; rw [hret] at hr; cases hr
      | startWait k' spur' evs hs hr => cases hact; rw [hret] at hr; cases hr
      | startPanic k' spur' evs r hs hr hr' => cases hact; rw [hret] at hr; cases hr; exact absurd rfl (hr' _)
      | contStay k' spur' evs hs hr => cases hact; rw [hret] at hr; cases hr
      | contClosed k' spur' evs hs hr => cases hact; rw [hret] at hr; cases hr
      | contWait k' spur' evs hs hr => cases hact; rw [hret] at hr; cases hr
      | contPanic k' spur' evs r hs hr hr' => cases hact; rw [hret] at hr; cases hr; exact absurd rfl (hr' _)
      | dropStay k' spur' evs hs hr => cases hact; rw [hret] at hr; cases hr
      | startNotified k' spur' evs hs hr =>
        cases hact
        rw [hs] at hn
        revert hn hp
        rw [show queueTid (Queue.Act.node (W := W) k spur) = .node k from rfl]
        unfold nodeOk
        generalize s0.queue.pc _ = p
        cases p <;> simp [NodeNext.startPC, NodeNext.contPC]
      | dropEnd k' spur' evs r hs hr =>
        cases hact
        simp [State.sendEnd, State.sgoto, SPC.spin]
      | _ => cases hact
  have := Steps.ind (c := c) h2 (P := fun tr s => (s.snd k).spin = true ∧ ∀ v, .queue (.enq k v) ∉ tr) ⟨hstart.1, by simp⟩ ?_ ?_ ?_ ?_ rest s h5
  · refine ⟨this.1, fun v hv => ?_⟩
    rw [h4] at hv
    exact (List.mem_append.1 hv).elim (hstart.2 v) (this.2 v)
  · intro tr s t e he ih hm _
    refine ⟨?_, by simpa using ih.2⟩
    cases hm <;> first | exact ih.1 | exact spin_upd ih.1 fun _ => rfl
  · intro tr s act s1 evs r t es he ih h1 hr hm _
    refine ⟨?_, by simpa using ih.2⟩
    have ih := ih.1
    cases hm with
    | send k' x wait a r hp hx => exact spin_upd ih fun e => by subst e; rw [hp] at ih; cases ih
    | retry k' att a r hp => exact spin_upd ih fun e => by subst e; rw [hp] at ih; cases att <;> first | rfl | cases ih
    | fullStart k' a i hp => exact spin_upd ih fun e => by subst e; rw [hp] at ih; cases ih
    | fullAsync k' a i hp h2 => rw [hb] at h2; cases h2
    | _ => first | exact ih | exact spin_upd ih fun _ => rfl
  · intro tr s act s1 evs t es he ih h1 hm _
    refine ⟨?_, by simpa using ih.2⟩
    have ih := ih.1
    cases hm <;> first | exact ih | exact spin_upd ih fun _ => rfl
  · intro tr s act s1 evs t es he ih h1 hm _
    have hn := he.nodesOk k
    constructor
    · have ih := ih.1
      cases hm with
      | start k' v evs hp => exact spin_upd ih fun e => by subst e; rw [hp] at ih; cases ih
      | startNotified k' spur evs hp => exact spin_upd ih fun e => by subst e; rw [hp] at ih; cases ih
      | cancel k' evs hp h2 => rw [hb] at h2; cases h2
      | _ => first | exact ih | exact spin_upd ih fun _ => rfl
    · intro v hv
      rcases List.mem_append.1 hv with hv | hv
      · exact ih.2 v hv
      · simp at hv
        obtain ⟨⟨spur, rfl⟩, hp⟩ := (queue_evs h1).enq _ _ hv
        have ih := ih.1
        rw [show queueTid (Queue.Act.node (W := W) k spur) = .node k from rfl] at hp
        revert ih hn hp
        generalize s.queue.pc _ = q
        generalize s.snd k = p
        intro hn hp ih
        cases p <;> first | cases ih; done | skip
        all_goals first
          | (rename_i a; cases a <;> first | cases ih; done | skip)
          | (rename_i a b; cases b <;> first | cases ih; done | skip)
          | skip
        all_goals simp only [nodeOk] at hn
        all_goals first
          | (subst hn; cases hp; done)
          | (rw [hn.2.1] at hp; cases hp; done)
          | (revert hn hp; cases q <;> simp [NodeNext.startPC, NodeNext.contPC])

theorem fold_enq {n : Nat} {t : Queue.Trace W} : ∀ {q : List Nat}, n ∈ t.foldl Queue.qstep q → n ∈ q ∨ ∃ v, .enq n v ∈ t := by
  induction t with
  | nil => exact fun h => .inl h
  | cons e t ih =>
    intro q h
    rcases ih h with h1 | ⟨v, h1⟩
    · cases e with
      | enq m v =>
        rcases List.mem_cons.1 h1 with rfl | h1
        · exact .inr ⟨v, by simp⟩
        · exact .inl h1
      | deq o m => exact .inl (List.mem_of_mem_erase h1)
      | rem m => exact .inl (List.mem_of_mem_erase h1)
      | _ => exact .inl h1
    · exact .inr ⟨v, by simp [h1]⟩

theorem queueOf_enq {n : Nat} {t1 t2 : Queue.Trace W} (h : n ∈ Queue.queueOf (t1 ++ t2)) : n ∈ Queue.queueOf t1 ∨ ∃ v, .enq n v ∈ t2 := by
  rw [Queue.queueOf, List.foldl_append] at h
  exact fold_enq h

/-- After `continue_wait` has returned `Notified`, the call never sleeps again. -/
theorem ExecM.never_sleeps (h : Exec c tr s) (hb : c.blocking = true) {k : Nat} {pre post : Trace V W}
    (htr : tr = pre ++ .queue (.retCont k .notified) :: post) : .api (.sleep k) ∉ post := by
  intro hm
  obtain ⟨p1, p2, rfl⟩ := List.append_of_mem hm
  have h1 := h.sleep_queued (k := k) (pre := pre ++ .queue (.retCont k .notified) :: p1) (post := p2) (by rw [htr]; simp)
  rw [queueOf_append] at h1
  have h2 := (h.queue.evOk (queueOf pre) (.retCont k .notified) (queueOf (p1 ++ .api (.sleep k) :: p2)) (by rw [htr, queueOf_append]; rfl)).1
  rcases queueOf_enq h1 with h3 | ⟨v, h3⟩
  · exact h2 h3
  · have := mem_queueOf.1 h3
    simp at this
    exact (h.spinning hb htr).2 v (by simp [this])

/-! ### One round of the busy loop -/

theorem exists_fresh (t : Thingbuf.Trace V) : ∃ a, ¬ Invoked t a := by
  have : ∃ N, ∀ a, N ≤ a → ¬ Invoked t a := by
    induction t with
    | nil => exact ⟨0, fun a _ => by simp [Invoked]⟩
    | cons e t ih =>
      obtain ⟨N, ih⟩ := ih
      have hx : ∀ b op, e = .invoke b op → ∃ N, ∀ a, N ≤ a → ¬ Invoked (e :: t) a := by
        rintro b op rfl
        refine ⟨max N (b + 1), fun a ha => ?_⟩
        rintro ⟨op', h⟩
        rcases List.mem_cons.1 h with h | h
        · cases h
          exact absurd (Nat.le_trans (Nat.le_max_right N (b + 1)) ha) (Nat.not_succ_le_self b)
        · exact ih a (Nat.le_trans (Nat.le_max_left ..) ha) ⟨_, h⟩
      by_cases he : ∃ b op, e = .invoke b op
      · obtain ⟨b, op, he⟩ := he
        exact hx b op he
      · refine ⟨N, fun a ha => ?_⟩
        rintro ⟨op', h⟩
        rcases List.mem_cons.1 h with h | h
        · exact he ⟨_, _, h.symm⟩
        · exact ih a ha ⟨_, h⟩
  obtain ⟨N, h⟩ := this
  exact ⟨N, h N (Nat.le_refl _)⟩

/-- A failed attempt leaves no call stalled. -/
theorem noStall_full {cap : Nat} {t : Thingbuf.Trace V} (hw : WellSized w cap) (h : NoStall w cap t) {a : OpId} (ha : ¬ Invoked t a) :
    NoStall w cap (t ++ [.invoke a .push, .ret a .full]) := by
  intro pre hp
  have hper := period_ge hw
  have hpos := hw.1
  have h1 : Fresh w cap (t ++ [.invoke a .push]) := by
    intro b hb
    have e1 : nRes (t ++ [Event.invoke a .push]) = nRes t := by simp [nRes, resOps]
    rw [e1]
    by_cases e : b = a
    · subst e; rw [born_invoke ha]; omega
    · have hb' : Pending t b := by
        obtain ⟨⟨op, h1⟩, h2⟩ := hb
        refine ⟨⟨op, ?_⟩, fun ⟨r, h3⟩ => h2 ⟨r, by simp [h3]⟩⟩
        simpa [e] using h1
      rw [born_append hb'.1]
      exact h.fresh b hb'
  have h2 : Fresh w cap (t ++ [.invoke a .push, .ret a .full]) := by
    intro b hb
    have e1 : nRes (t ++ [Event.invoke a .push, .ret a .full]) = nRes t := by simp [nRes, resOps]
    rw [e1]
    have hne : b ≠ a := by
      rintro rfl
      exact hb.2 ⟨.full, by simp⟩
    have hb' : Pending t b := by
      obtain ⟨⟨op, h1⟩, h2⟩ := hb
      refine ⟨⟨op, ?_⟩, fun ⟨r, h3⟩ => h2 ⟨r, by simp [h3]⟩⟩
      simpa [hne] using h1
    rw [born_append hb'.1]
    exact h.fresh b hb'
  obtain ⟨q, hq⟩ := hp
  rcases List.append_eq_append_iff.1 hq with ⟨l, h3, h4⟩ | ⟨l, h3, h4⟩
  · exact h pre ⟨l, h3.symm⟩
  · match l, h4 with
    | [], _ => rw [h3, List.append_nil]; exact h.fresh
    | [x], h4 => simp at h4; rw [h3, ← h4.1]; exact h1
    | [x, y], h4 => simp at h4; rw [h3, ← h4.1, ← h4.2.1]; exact h2
    | x :: y :: z :: l, h4 => simp at h4

/-- `Full` comes from a push. -/
theorem full_push {cap : Nat} {q q1 : Thingbuf.State w V} {act : Thingbuf.Act V} {evs : List (Event V)} {a : OpId}
    (h : Thingbuf.step cap q act = some (q1, evs)) (hm : .ret a .full ∈ evs) : act = .run a ∧ coreKind (q.pc a) = some .push := by
  cases act with
  | run b =>
    simp only [Thingbuf.step, runStep] at h
    split at h <;> try (cases h; done)
    all_goals rename_i hp
    all_goals try simp only [pushLoop, pushCas, pushHead, popLoop, popCas, popTail, closeStep, Option.some.injEq] at h
    all_goals
      repeat' split at h
      all_goals first
        | (cases h; simp at hm; done)
        | (cases h; simp at hm; subst hm; simp [hp, coreKind])
  | spurious b =>
    simp only [Thingbuf.step] at h
    split at h <;> try (cases h; done)
    all_goals simp only [pushCas, popCas, Option.some.injEq] at h
    all_goals
      repeat' split at h
      all_goals (cases h; simp at hm)
  | invoke b op => simp only [Thingbuf.step] at h; split at h <;> cases h; simp at hm
  | elem b v =>
    simp only [Thingbuf.step] at h
    split at h <;> try (cases h; done)
    all_goals simp only [pushElem, Option.some.injEq] at h
    all_goals
      repeat' split at h
      all_goals (cases h; simp at hm)
  | elemPanic b v =>
    simp only [Thingbuf.step] at h
    split at h <;> try (cases h; done)
    all_goals simp only [pushElemPanic, Option.some.injEq] at h
    all_goals
      repeat' split at h
      all_goals (cases h; simp at hm)
  | read b =>
    simp only [Thingbuf.step] at h
    split at h <;> try (cases h; done)
    all_goals (cases h; simp at hm)
  | write b v =>
    simp only [Thingbuf.step] at h
    split at h <;> try (cases h; done)
    all_goals (cases h; simp at hm)
  | dropRef b =>
    simp only [Thingbuf.step] at h
    split at h <;> try (cases h; done)
    all_goals (cases h; simp at hm)

/-- A blocking send call that was notified and finds the channel full. -/
theorem ExecM.full_toCont {a : OpId} (h : Exec c (tr ++ [.core (.ret a .full)]) s) (hb : c.blocking = true) {k : Nat}
    (ha : .api (.attempt k a) ∈ tr) (hn : .queue (.retCont k .notified) ∈ tr) : s.snd k = .toCont := by
  obtain ⟨tr0, s0, s1, l, r, rest, h0, h1, h2, h3, h4, h5⟩ := h.at' (pre := tr) (e := .core (.ret a .full)) (post := []) rfl
  have hr : r = [] := by cases r with | nil => rfl | cons _ _ => simp at h4
  have hrest : rest = [] := by subst hr; simpa using h4.symm
  subst hr hrest
  have hend : s1.snd k = .toCont := by
    generalize hx : l ++ [(Ev.core (.ret a .full) : Ev V W)] = x at h1
    have hmem : .core (.ret a .full) ∈ x := by rw [← hx]; simp
    cases h1 with
    | api hm => simp at hmem
    | cell hm => simp at hmem
    | queue hm => simp at hmem
    | @core act q1 evs t es h1 hm =>
      simp at hmem
      obtain ⟨rfl, hk⟩ := full_push h1 hmem
      have hes : es = [] := by
        cases hes : es.reverse with
        | nil => simpa using hes
        | cons e es' =>
          have he : es = es'.reverse ++ [e] := by rw [← List.reverse_reverse es, hes]; simp
          rw [he, List.map_append, ← List.append_assoc] at hx
          have := List.append_inj' hx (by simp)
          simp at this
      subst hes
      have hl : ∀ e, e ∈ l → ∃ e', e = Ev.core e' := fun e he => by
        have : e ∈ l ++ [(Ev.core (.ret a .full) : Ev V W)] := by simp [he]
        rw [hx] at this
        simp at this
        obtain ⟨e', -, h⟩ := this
        exact ⟨e', h.symm⟩
      have hatt : .api (.attempt k a) ∈ tr0 := by
        rw [h3] at ha
        rcases List.mem_append.1 ha with h | h
        · exact h
        · obtain ⟨e', h⟩ := hl _ h; cases h
      have hn0 : .queue (.retCont k .notified) ∈ tr0 := by
        rw [h3] at hn
        rcases List.mem_append.1 hn with h | h
        · exact h
        · obtain ⟨e', h⟩ := hl _ h; cases h
      obtain ⟨p1, p2, hp⟩ := List.append_of_mem hn0
      have hspin := (h0.spinning hb hp).1
      have hret := ((core_evs h1).ret _ _ hmem).2
      rw [hret] at hm
      have hown := h0.coreOwns
      generalize hact : Thingbuf.Act.run (V := V) a = act at hm
      generalize hess : ([] : List (Api W)) = es at hm
      have huniq : ∀ k' att (i : PushIn V), s0.snd k' = .push a att → k' = k := fun k' att i hp' => by
        have := h0.attInv.att k'
        rw [hp'] at this
        exact h0.attInv.uniq _ _ _ this.1 hatt
      have hop : actOp act = a := by rw [← hact]; rfl
      have hpop : ∀ b v, (s0.rx = .pop b v ∨ s0.rx = .pop2 b v ∨ s0.rx = .last b ∨ (∃ p, s0.rx = .tryPop b p)) → b ≠ a := by
        rintro b v hrx rfl
        have : coreKind (s0.core.pc b) = some .pop := hown.sat .rx b .pop (by
          rcases hrx with h | h | h | ⟨p, h⟩ <;> simp [coreClaim, claimOf, h, rxCore])
        rw [hk] at this; cases this
      have hcl : ∀ b, (s0.rx = .closing b ∨ s0.closer = .closing b) → b ≠ a := by
        rintro b hrx rfl
        have : coreKind (s0.core.pc b) = some .close := by
          rcases hrx with h | h
          · exact hown.sat .rx b .close (by simp [coreClaim, claimOf, h, rxCore])
          · exact hown.sat .closer b .close (by simp [coreClaim, claimOf, h, closerCore])
        rw [hk] at this; cases this
      generalize hfull : some Ret.full = ret at hm
      cases hm with
      | fullBlocking k' b i hp' _ =>
        simp at hop; subst hop
        have := huniq k' _ i hp'
        subst this
        simp [State.sgoto]
      | fullStart k' b i hp' =>
        simp at hop; subst hop
        have := huniq k' _ i hp'
        subst this
        rw [hp'] at hspin; cases hspin
      | fullOnly k' b i hp' => cases hess
      | fullAsync k' b i hp' h => rw [hb] at h; cases h
      | cNext b r hp' _ => simp at hop; exact absurd hop (hcl _ (.inr hp'))
      | rxClosed b hp' => cases hfull
      | popEmpty b v spur r hp' => simp at hop; exact absurd hop (hpop _ v (.inl hp'))
      | cCall => cases hact
      | toPop => cases hact
      | toPop2 => cases hact
      | toLast => cases hact
      | rxClose => cases hact
      | recvRead => cases hact
      | recvWrite => cases hact
      | sendRead => cases hact
      | sendWrite => cases hact
      | _ => first | (cases hess; done) | (cases hfull; done)
  have := Steps.ind (c := c) h2 (P := fun tr s => tr = [] → s.snd k = .toCont) (fun _ => hend) ?_ ?_ ?_ ?_ [] s h5
  · exact this rfl
  · intro tr s t e he ih hm _ hnil; simp at hnil
  · intro tr s act s1 evs r t es he ih h1 hr hm _ hnil
    simp at hnil
    obtain ⟨rfl, rfl, rfl⟩ := hnil
    have ih := ih rfl
    generalize hess : ([] : List (Api W)) = es at hm
    have hx : ∀ k' p, s.snd k' ≠ .toCont → upd s.snd k' p k = .toCont := fun k' p hne => by
      rw [upd_ne _ _ (by rintro rfl; exact hne ih)]; exact ih
    cases hm with
    | fullStart k' a i hp' => exact hx _ _ (by rw [hp']; simp)
    | fullBlocking k' a i hp' => exact hx _ _ (by rw [hp']; simp)
    | fullAsync k' a i hp' => exact hx _ _ (by rw [hp']; simp)
    | _ => first | exact ih | cases hess
  · intro tr s act s1 evs t es he ih h1 hm _ hnil
    simp at hnil
    obtain ⟨rfl, rfl, rfl⟩ := hnil
    have ih := ih rfl
    generalize hess : ([] : List (Api W)) = es at hm
    cases hm with
    | notify k' o evs hp' =>
      show upd s.snd k' _ k = .toCont
      rw [upd_ne _ _ (by rintro rfl; rw [hp'] at ih; cases ih)]; exact ih
    | _ => first | exact ih | cases hess
  · intro tr s act s1 evs t es he ih h1 hm _ hnil
    simp at hnil
    obtain ⟨rfl, rfl, rfl⟩ := hnil
    have ih := ih rfl
    have hev := queue_evs h1
    generalize hess : ([] : List (Api W)) = es at hm
    cases hm with
    | start k' v evs hp' => exact absurd ((hev.callStart _ _).2 rfl) (by simp)
    | cont k' v evs hp' => exact absurd ((hev.callCont _ _).2 rfl) (by simp)
    | startNotified k' spur evs hp' hr => cases hr
    | contNotified k' spur evs hp' hr => cases hr
    | _ => first | exact ih | cases hess

/-- One round of the busy loop. -/
theorem Run.round (h : Run c tr s) (hb : c.blocking = true) {k : Nat} (hk : s.snd k = .toCont) (hc : ¬ Closed (coreOf tr))
    (hf : nRes (coreOf tr) = nDeq (coreOf tr) + c.cap) (hh : ¬ ∃ b, Holds (coreOf tr) b (nRes (coreOf tr) % c.cap)) (v : W) :
    ∃ (a : OpId) (s' : State w V W), Run c (tr ++ spinRound k v a) s' ∧ s'.snd k = .toCont ∧ ¬ Invoked (coreOf tr) a := by
  obtain ⟨a, ha⟩ := exists_fresh (coreOf tr)
  have hn := h.exec.nodesOk k
  rw [hk] at hn
  have hn : s.queue.pc (.node k) = .idle .contNotified := hn
  have hw : (s.queue.list.node k).state = .waking := by
    have := h.exec.queue.inv.node k
    rw [hn] at this
    exact this.2.1
  have hcore := h.core
  have hidle := hcore.idle ha
  have hm : nRes (coreOf tr) % c.cap = nDeq (coreOf tr) % c.cap := by rw [hf]; simp
  have hpos := h.sized.1
  have hst : s.core.st (nRes (coreOf tr) % c.cap) = enc w c.cap (nDeq (coreOf tr)) + 1#w := by
    rcases hcore.slot_queued (p := nDeq (coreOf tr)) (Nat.le_refl _) (by omega) with ⟨_, h1⟩ | ⟨h1, _⟩
    · rw [hm, h1]
    · rw [← hm] at h1; exact absurd h1 hh
  -- the states on the way
  let s1 : State w V W := { s with queue := s.queue.goto (.node k) (.contLoad v) }.sgoto k .conting
  let s2 : State w V W := { s1 with queue := s1.queue.goto (.node k) (.idle .contNotified) }.sgoto k (.retry .queued)
  let s3 : State w V W := { s2 with core := s2.core.goto a .pushStart }.sgoto k (.push a .queued)
  let s4 : State w V W := { s3 with core := s3.core.goto a (.pushLoop .new s3.core.tail) }
  let s5 : State w V W := { s4 with core := s4.core.goto a (.pushHead .new s4.core.tail) }
  let s6 : State w V W := { s5 with core := s5.core.goto a .done }.sgoto k .toCont
  have e1 : Chan.step c s (.cont k v) = some (s1, [.queue (.callCont k v)]) := by
    simp [Chan.step, hk, onQueue, Queue.step, hn, Queue.Last.mayCont, s1]
  have e2 : Chan.step c s1 (.node k false) = some (s2, [.queue (.retCont k .notified)]) := by
    simp [Chan.step, s1, State.sgoto, onQueue, Queue.step, Queue.nodeStep, Queue.State.goto, Queue.contLoad, hw, afterCont, nodeRet, s2]
  have hret : ∀ x, coreRet [(.ret x .full : Event V)] = some .full := fun _ => rfl
  have ht := hcore.tail_open hc
  have hh' := hcore.inv.head
  have e3 : Chan.step c s2 (.retry k a) = some (s3, [.core (.invoke a .push), .api (.attempt k a)]) := by
    simp [Chan.step, s2, s1, State.sgoto, onCore, Thingbuf.step, hidle, startPC, s3]
  have e4 : Chan.step c s3 (.push k (.run false)) = some (s4, []) := by
    simp [Chan.step, s3, State.sgoto, onCore, PushIn.act, runAct, Thingbuf.step, runStep, Thingbuf.State.goto, afterPush, coreRet, s4]
  have e5 : Chan.step c s4 (.push k (.run false)) = some (s5, []) := by
    have : Thingbuf.step c.cap s4.core (.run a) = some (s5.core, []) := by
      have := pushLoop_prev h.sized (s := s4.core) (a := a) (b := .new) hf hst
      rw [← ht] at this
      have hpc : s4.core.pc a = .pushLoop .new s.core.tail := upd_self ..
      simp only [Thingbuf.step, runStep, hpc]
      exact congrArg some this
    simp only [Chan.step, show s4.snd k = .push a .queued by simp [s4, s3, State.sgoto], onCore, PushIn.act, runAct]
    simp only [Bool.false_eq_true, if_false, this]
    rfl
  have e6 : Chan.step c s5 (.push k (.run false)) = some (s6, [.core (.ret a .full)]) := by
    have : Thingbuf.step c.cap s5.core (.run a) = some (s5.core.goto a .done, [.ret a .full]) := by
      have := pushHead_full h.sized (s := s5.core) (a := a) (b := .new) hh' hf
      rw [← ht] at this
      have hpc : s5.core.pc a = .pushHead .new s.core.tail := upd_self ..
      simp only [Thingbuf.step, runStep, hpc]
      exact congrArg some this
    simp only [Chan.step, show s5.snd k = .push a .queued by simp [s5, s4, s3, State.sgoto], onCore, PushIn.act, runAct]
    simp only [Bool.false_eq_true, if_false, this, hret, afterPush, hb, if_true]
    rfl
  have hx := (((((h.exec.step e1).step e2).step e3).step e4).step e5).step e6
  refine ⟨a, s6, ⟨h.sized, by simpa [spinRound] using hx, ?_⟩, by simp [s6, State.sgoto], ha⟩
  have := noStall_full h.sized h.noStall ha
  rw [coreOf_append]
  exact this

end Thingbuf.Chan
