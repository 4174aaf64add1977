import Verif.WeakLast
import Verif.ChanTry

/-!
# Receive calls on the memory model

Helper lemmas for `WeakRecvProps`.
-/

namespace Thingbuf.Chan

section
variable {w : Nat} {V W : Type} {c : Config W} {tr : Trace V W} {s : State w V W} {m : Bool}

/-! ### The pop operations of a receive call -/

/-- The part of the trace since the poll was called. -/
def Polled (tr : Trace V W) (P : Trace V W → Prop) : Prop :=
  ∃ v pre post, tr = pre ++ .api (.callPoll v) :: post ∧ (∀ u, .api (.callPoll u) ∉ post) ∧ (∀ r, .api (.retPoll r) ∉ post) ∧ (∀ r, .api (.retTry r) ∉ post) ∧ P post

/-- Where a poll stands. -/
def PollPop (tr : Trace V W) : RPC W → Prop
  | .toPop _ | .toWait _ | .wait _ _ | .toPop2 _ | .toLast => Polled tr fun _ => True
  | .pop a _ | .pop2 a _ | .last a => Polled tr fun post => .core (.invoke a .pop) ∈ post
  | _ => True

/-- Events that are no events of receive calls. -/
structure NoRecv (evs : Trace V W) : Prop where
  call : ∀ u, .api (.callPoll u) ∉ evs
  poll : ∀ r, .api (.retPoll r) ∉ evs
  tryr : ∀ r, .api (.retTry r) ∉ evs

theorem Polled.append {P Q : Trace V W → Prop} {evs : Trace V W} (h : Polled tr P) (hn : NoRecv evs) (hq : ∀ post, P post → Q (post ++ evs)) : Polled (tr ++ evs) Q := by
  obtain ⟨v, pre, post, rfl, h1, h2, h3, h4⟩ := h
  refine ⟨v, pre, post ++ evs, by simp, ?_, ?_, ?_, hq _ h4⟩
  · intro u hu; exact (List.mem_append.1 hu).elim (h1 u) (hn.call u)
  · intro u hu; exact (List.mem_append.1 hu).elim (h2 u) (hn.poll u)
  · intro u hu; exact (List.mem_append.1 hu).elim (h3 u) (hn.tryr u)

theorem PollPop.append {p : RPC W} {evs : Trace V W} (h : PollPop tr p) (hn : NoRecv evs) : PollPop (tr ++ evs) p := by
  cases p <;> simp only [PollPop] at h ⊢ <;> first
    | exact h.append hn fun _ _ => trivial
    | exact h.append hn fun _ h => List.mem_append_left _ h

theorem noRecv_core (evs : List (Event V)) : NoRecv (evs.map (.core : _ → Ev V W)) := ⟨by simp, by simp, by simp⟩
theorem noRecv_cell (evs : List (Cell.Event W)) : NoRecv (evs.map (.cell : _ → Ev V W)) := ⟨by simp, by simp, by simp⟩

theorem ExecM.pollPop (h : ExecM m c tr s) : PollPop tr s.rx := by
  refine ExecM.ind (P := fun tr s => PollPop tr s.rx) ?_ (fun _ _ _ _ _ ih _ => ih) (fun _ _ _ _ _ ih _ _ => ih) ?_ ?_ ?_ ?_ tr s h
  · trivial
  · intro tr s t e he ih hm
    cases hm
    case poll v p hp => exact ⟨_, tr, [], rfl, by simp, by simp, by simp, trivial⟩
    case dropRx => trivial
    all_goals exact ih.append ⟨by simp, by simp, by simp⟩
  · intro tr s act s1 evs r t es he ih h1 hr hm
    cases hm
    case toPop v o hp | toPop2 v o hp | toLast o hp =>
      obtain ⟨-, rfl⟩ := invoke_idle h1
      rw [hp] at ih
      exact Polled.append ih ⟨by simp, by simp, by simp⟩ fun _ _ => by simp
    case popEmpty a v spur r hp h2 h3 =>
      rw [hp] at ih
      exact Polled.append ih ⟨by simp, by simp, by simp⟩ fun _ _ => trivial
    all_goals first
      | exact ih.append ⟨by simp, by simp, by simp⟩
      | trivial
  · intro tr s act s1 evs t es he ih h1 hm
    cases hm
    all_goals first
      | exact ih.append ⟨by simp, by simp, by simp⟩
      | (rename_i hp _; rw [hp] at ih; exact Polled.append ih ⟨by simp, by simp, by simp⟩ fun _ _ => trivial)
      | (rename_i hp; rw [hp] at ih; exact Polled.append ih ⟨by simp, by simp, by simp⟩ fun _ _ => trivial)
      | trivial
  · intro tr s act s1 evs t es he ih h1 hm
    cases hm <;> first
      | exact ih.append ⟨by simp, by simp, by simp⟩
      | trivial

/-- The pop operation of a poll that returns no message. -/
theorem ExecM.poll_pop (h : ExecM m c tr s) {pre mid post : Trace V W} {v : W} {r : PollRes} (htr : tr = pre ++ .api (.callPoll v) :: mid ++ .api (.retPoll r) :: post)
    (hm : ∀ u, .api (.callPoll u) ∉ mid) (hr : ∀ a, r ≠ .some a) : ∃ a ret, .core (.invoke a .pop) ∈ mid ∧ .core (.ret a ret) ∈ mid ∧ ret ≠ .popped ∧
      (∀ r, .api (.retPoll r) ∉ mid) ∧ (∀ r, .api (.retTry r) ∉ mid) := by
  obtain ⟨tr0, l, s0, s1, h0, hl, h1, h2, -⟩ := h.at_api htr (by simp)
  have key : ∃ a ret, (∃ v, s0.rx = .pop a v ∨ s0.rx = .pop2 a v ∨ s0.rx = .last a) ∧ .core (.ret a ret) ∈ l ∧ ret ≠ .popped ∧ NoRecv l := by
    cases h1 with
    | api hm hl hr hs => cases hm
    | @core act u evs t es1 es2 h1 hm hl _ hs =>
      have hes : Api.retPoll r ∈ es1 ++ Api.retPoll r :: es2 := by simp
      generalize hes' : es1 ++ Api.retPoll r :: es2 = es at hm hes
      generalize hret : coreRet _ = ret at hm
      have hev := core_evs h1
      have fin : ∀ {a : OpId} {spur : Bool} {q : Ret} {x : Api W}, [x] = es → q ≠ .popped → (∃ v, s0.rx = .pop a v ∨ s0.rx = .pop2 a v ∨ s0.rx = .last a) →
          actOp (V := V) (runAct a spur) = a → Event.ret a q ∈ evs →
          ∃ a ret, (∃ v, s0.rx = .pop a v ∨ s0.rx = .pop2 a v ∨ s0.rx = .last a) ∧ .core (.ret a ret) ∈ l ∧ ret ≠ .popped ∧ NoRecv l := by
        intro a spur q x hx hq hp _ hmem
        subst hx
        have : es1 = [] := by cases es1 <;> simp at hes' ⊢
        subst this
        exact ⟨a, q, hp, by rw [hl]; exact List.mem_append_left _ (List.mem_map_of_mem hmem), hq, by rw [hl]; exact ⟨by simp, by simp, by simp⟩⟩
      cases hm
      case popNone a v spur hp =>
        exact fin (q := .closed) (x := .retPoll .none) rfl (by simp) ⟨v, .inl hp⟩ (actOp_runAct a spur) (by have := hev.ret' _ hret; rwa [actOp_runAct] at this)
      case pop2None a v spur hp =>
        exact fin (q := .closed) (x := .retPoll .none) rfl (by simp) ⟨v, .inr (.inl hp)⟩ (actOp_runAct a spur) (by have := hev.ret' _ hret; rwa [actOp_runAct] at this)
      case pop2Pending a v spur q hp h3 h4 =>
        exact fin rfl h3 ⟨v, .inr (.inl hp)⟩ (actOp_runAct a spur) (by have := hev.ret' _ hret; rwa [actOp_runAct] at this)
      case lastNone a spur q hp h3 =>
        exact fin rfl h3 ⟨v, .inr (.inr hp)⟩ (actOp_runAct a spur) (by have := hev.ret' _ hret; rwa [actOp_runAct] at this)
      all_goals first
        | (simp at hes; done)
        | (simp at hes; exact absurd hes (hr _))
    | cell es1 es2 h1 hm hl _ hs =>
      have hes : Api.retPoll r ∈ es1 ++ Api.retPoll r :: es2 := by simp
      generalize es1 ++ Api.retPoll r :: es2 = es at hm hes
      cases hm <;> simp at hes
    | queue es1 es2 h1 hm hl _ hs =>
      have hes : Api.retPoll r ∈ es1 ++ Api.retPoll r :: es2 := by simp
      generalize es1 ++ Api.retPoll r :: es2 = es at hm hes
      cases hm <;> simp at hes
  obtain ⟨a, ret, ⟨v', hrx⟩, hra, hne, hn⟩ := key
  have hh := h0.pollPop
  have hh : Polled tr0 fun post => .core (.invoke a .pop) ∈ post := by
    rcases hrx with hrx | hrx | hrx <;> rw [hrx] at hh <;> exact hh
  obtain ⟨v2, p, q, rfl, h3, h4, h5, h6⟩ := hh
  have hT : pre ++ .api (.callPoll v) :: mid = p ++ .api (.callPoll v2) :: (q ++ l) := by rw [hl]; simp
  have hs1 : Since (pre ++ .api (.callPoll v) :: mid) v mid := ⟨⟨pre, rfl⟩, hm⟩
  obtain ⟨-, hmid⟩ := hs1.uniq (post' := q ++ l) (v' := v2) ⟨⟨p, hT⟩, fun u hu => (List.mem_append.1 hu).elim (h3 u) (hn.call u)⟩
  subst hmid
  exact ⟨a, ret, by simp [h6], by simp [hra], hne, fun r hr => (List.mem_append.1 hr).elim (h4 r) (hn.poll r), fun r hr => (List.mem_append.1 hr).elim (h5 r) (hn.tryr r)⟩

/-- The pop operation of a call of `try_recv`. -/
theorem ExecM.try_pop (h : ExecM m c tr s) {pre mid post : Trace V W} {r : TryRes} (htr : tr = pre ++ .api .callTry :: (mid ++ .api (.retTry r) :: post))
    (hm : .api .callTry ∉ mid) : ∃ a x ret, pre = x ++ [.core (.invoke a .pop)] ∧ .core (.ret a ret) ∈ mid ∧
      ((r = .ok a ∧ ret = .popped) ∨ (r = .closed ∧ ret = .closed) ∨ (r = .empty ∧ ret ≠ .popped ∧ ret ≠ .closed)) := by
  obtain ⟨tr0, l, s0, s1, h0, hl, h1, h2, -⟩ := h.at_api (pre := pre ++ .api .callTry :: mid) (e := .retTry r) (post := post) (by rw [htr]; simp) (by simp)
  have key : ∃ a p ret, s0.rx = .tryPop a p ∧ .core (.ret a ret) ∈ l ∧ .api .callTry ∉ l ∧
      ((r = .ok a ∧ ret = .popped) ∨ (r = .closed ∧ ret = .closed) ∨ (r = .empty ∧ ret ≠ .popped ∧ ret ≠ .closed)) := by
    cases h1 with
    | api hm hl hr hs => cases hm
    | @core act u evs t es1 es2 h1 hm hl _ hs =>
      have hes : Api.retTry r ∈ es1 ++ Api.retTry r :: es2 := by simp
      generalize hes' : es1 ++ Api.retTry r :: es2 = es at hm hes
      generalize hret : coreRet _ = ret at hm
      have hev := core_evs h1
      have fin : ∀ {x : Api W}, [x] = es → .api .callTry ∉ l ∧ ∀ {e : Event V}, e ∈ evs → .core e ∈ l := by
        intro x hx
        subst hx
        have : es1 = [] := by cases es1 <;> simp at hes' ⊢
        subst this
        exact ⟨by rw [hl]; simp, fun he => by rw [hl]; simpa using he⟩
      cases hm
      case tryOk a p spur hp =>
        have hq := hev.ret' _ hret
        rw [actOp_runAct] at hq
        obtain ⟨h3, h4⟩ := fin rfl
        exact ⟨a, p, _, hp, h4 hq, h3, .inl ⟨by simpa using hes, rfl⟩⟩
      case tryClosed a p spur hp =>
        have hq := hev.ret' _ hret
        rw [actOp_runAct] at hq
        obtain ⟨h3, h4⟩ := fin rfl
        exact ⟨a, p, _, hp, h4 hq, h3, .inr (.inl ⟨by simpa using hes, rfl⟩)⟩
      case tryEmpty a p spur q hp h5 h6 =>
        have hq := hev.ret' _ hret
        rw [actOp_runAct] at hq
        obtain ⟨h3, h4⟩ := fin rfl
        exact ⟨a, p, _, hp, h4 hq, h3, .inr (.inr ⟨by simpa using hes, h5, h6⟩)⟩
      all_goals (simp at hes; done)
    | cell es1 es2 h1 hm hl _ hs =>
      have hes : Api.retTry r ∈ es1 ++ Api.retTry r :: es2 := by simp
      generalize es1 ++ Api.retTry r :: es2 = es at hm hes
      cases hm <;> simp at hes
    | queue es1 es2 h1 hm hl _ hs =>
      have hes : Api.retTry r ∈ es1 ++ Api.retTry r :: es2 := by simp
      generalize es1 ++ Api.retTry r :: es2 = es at hm hes
      cases hm <;> simp at hes
  obtain ⟨a, p, ret, hrx, hra, hnt, hfin⟩ := key
  have hh := h0.tryHist
  rw [hrx] at hh
  obtain ⟨x, q, rfl, hq⟩ := hh
  have hT : pre ++ .api .callTry :: mid = (x ++ [.core (.invoke a .pop)]) ++ .api .callTry :: (q ++ l) := by rw [hl]; simp
  obtain ⟨rfl, rfl⟩ := Chan.last_unique hT hm (by simp [hq, hnt])
  exact ⟨a, x, ret, rfl, by simp [hra], hfin⟩

end

section
variable {w : Nat} {V : Type} {c : Config Nat} {th : Thread → OpId} {tr : Trace V Nat} {xtr : List (RA.REv V)} {s : WState w V}

open RA (XEv AtX HB)

/-- An operation is called once. -/
theorem _root_.Thingbuf.RA.invoke_pos {m : Prop} {cap : Nat} (hf : Facts m w cap (RA.evsOf xtr)) {i j : Nat} {a : OpId} {op op' : Op} (hi : RA.At xtr i (.invoke a op))
    (hj : RA.At xtr j (.invoke a op')) : i = j := by
  rcases Nat.lt_trichotomy i j with h | h | h
  · exact absurd ⟨op, RA.At.mem_take hi h⟩ (hf.evOk (RA.At.split hj)).1
  · exact h
  · exact absurd ⟨op', RA.At.mem_take hj h⟩ (hf.evOk (RA.At.split hi)).1

/-- A pop operation called when the dequeues so far are those of `pre` finds the next message, if it knows of it. -/
theorem PRun.pop_finds (h : PRun c w th tr xtr s) {p q : Trace V Nat} {a b : OpId} {j l n : Nat} {x : Option V} {r : Ret} (htr : tr = p ++ .core (.invoke a .pop) :: q)
    (hr : .core (.ret a r) ∈ q) (hl : nDeq (coreOf p) = l) (hb : (resOps (coreOf tr))[l]? = some b) (hn : RA.At xtr n (.commit b j x))
    (hk : ∃ i, RA.At xtr i (.invoke a .pop) ∧ HB xtr n i) : r = .popped := by
  obtain ⟨x', y', hxy⟩ := List.append_of_mem hr
  have hi := h.wrun.exec.at_pos htr rfl
  have hj := h.wrun.exec.at_pos (pre := p ++ .core (.invoke a .pop) :: x') (e := .core (.ret a r)) (post := y') (by rw [htr, hxy]; simp) rfl
  have hb0 := h.wrun.mem.inv.base.hb
  obtain ⟨i, h1, h2⟩ := hk
  have hii : i = (memOf p).length := RA.invoke_pos h.wrun.mem.facts h1 hi
  subst hii
  refine RA.popped_known h.wrun.mem.facts h.wrun.mem.inv.base.ktr hb0 hi hj (h.deq_known hi hj) ?_ hn h2
  rw [h.wrun.exec.evs_take htr, ← h.wrun.exec.evs.1, hl]
  exact hb

/-- The drop of the last `Sender`, unless its thread is panicking, closes the ring buffer. -/
theorem ExecM.closed_by_last {W : Type} {c : Config W} {tr : Trace V W} {s : State w V W} {m : Bool} {mm : Prop} (h : ExecM m c tr s) (hf : Facts mm w c.cap (coreOf tr))
    (hd : .api .lastTxDropped ∈ tr) (hp : LastDrop tr false) : Closed (coreOf tr) := by
  have hdone := h.clInv.fin hd
  have hh := h.clInv.hist
  rw [hdone] at hh
  obtain ⟨pan, a, b, h1, h2, h3, h4, h5⟩ := hh
  have := h1.2 _ hp
  subst this
  obtain ⟨x, y, hxy⟩ := List.append_of_mem (mem_coreOf.2 h4)
  obtain ⟨-, -, h6⟩ := hf.evOk hxy
  have h7 : Event.invoke a (.close true) ∉ x := fun hm => by
    have := hf.invoke_unique (a := a) (op := .close true) (op' := .close false) (by rw [hxy]; simp [hm]) (mem_coreOf.2 h3)
    cases this
  rcases h6 with ⟨h6, -⟩ | ⟨-, x0, rfl, h8⟩
  · exact absurd h6 h7
  exact ⟨a, by rw [hxy]; simp⟩

/-- After the drop of the last `Sender`, a `try_recv` that says `Empty` has left a message. -/
theorem PRun.try_left (h : PRun c w th tr xtr s) {pre mid post : Trace V Nat} {a : OpId} (htr : tr = pre ++ .core (.invoke a .pop) :: .api .callTry :: (mid ++ .api (.retTry .empty) :: post))
    (hm : .api .callTry ∉ mid) (hl : .api .lastTxDropped ∈ pre) (hb : LastDrop tr false) : nDeq (coreOf pre) < nRes (coreOf tr) := by
  have hE := h.wrun.exec.ctl.1
  have hf := h.wrun.facts
  obtain ⟨a', x, ret, h1, h2, h3⟩ := hE.try_pop (pre := pre ++ [.core (.invoke a .pop)]) (mid := mid) (post := post) (r := .empty) (by rw [htr]; simp) hm
  obtain ⟨rfl, h4⟩ := List.append_inj' h1 rfl
  have : a = a' := by simpa using h4
  subst this
  have hi := h.wrun.exec.at_pos htr rfl
  obtain ⟨x', y', hxy⟩ := List.append_of_mem h2
  have hj := h.wrun.exec.at_pos (pre := pre ++ .core (.invoke a .pop) :: .api .callTry :: x') (e := .core (.ret a ret)) (post := y' ++ .api (.retTry .empty) :: post)
    (by rw [htr, hxy]; simp) rfl
  have hret : ret = .empty := by
    rcases h3 with ⟨h3, -⟩ | ⟨h3, -⟩ | ⟨-, h3, h4⟩
    · cases h3
    · cases h3
    · have hin : Event.invoke a .pop ∈ coreOf tr := mem_coreOf.2 (by rw [htr]; simp)
      have hre : Event.ret a ret ∈ coreOf tr := mem_coreOf.2 (by rw [htr]; simp [h2])
      rcases hf.pop_ret hre hin with h | h | h
      · exact (h3 h).elim
      · exact h
      · exact (h4 h).elim
  subst hret
  -- the ring buffer was closed before the call
  obtain ⟨xtr1, s1, hr1⟩ := h.at_api (pre := pre ++ [.core (.invoke a .pop)]) (e := .callTry) (post := mid ++ .api (.retTry .empty) :: post) (by rw [htr]; simp) (by simp)
  have hE1 := hr1.wrun.exec.ctl.1
  have hlast : LastDrop (pre ++ [.core (.invoke a .pop)] ++ [.api .callTry]) false := by
    have hh := hE1.clInv.hist
    rw [hE1.clInv.fin (by simp [hl])] at hh
    obtain ⟨pan, _, _, h5, _⟩ := hh
    have hh' := hE.clInv.hist
    rw [hE.clInv.fin (by rw [htr]; simp [hl])] at hh'
    obtain ⟨pan', _, _, h6, _⟩ := hh'
    have e1 := h6.2 _ hb
    have e2 := h6.2 pan (by
      have := h5.1.mono (mid ++ .api (.retTry .empty) :: post)
      rw [htr]; simpa using this)
    rw [e1, ← e2]; exact h5.1
  obtain ⟨d, hd⟩ := hE1.closed_by_last hr1.wrun.facts (by simp [hl]) hlast
  have hd : .core (.close d) ∈ pre := by simpa using mem_coreOf.1 hd
  obtain ⟨u, v, huv⟩ := List.append_of_mem hd
  have hc := h.wrun.exec.at_pos (pre := u) (e := .core (.close d)) (post := v ++ .core (.invoke a .pop) :: .api .callTry :: (mid ++ .api (.retTry .empty) :: post))
    (by rw [htr, huv]; simp) rfl
  have := RA.closed_if_drained h.wrun.mem.facts h.wrun.mem.inv.base.ktr h.wrun.mem.inv.base.hb hi hj (h.deq_known hi hj) hc (by
    rw [huv, memOf_append, memOf_cons (x := .core (.close d)) rfl]; simp)
  rw [h.wrun.exec.evs_take htr] at this
  have hle : ∀ n, nRes (RA.evsOf (xtr.take n)) ≤ nRes (RA.evsOf xtr) := fun n =>
    (resOps_prefix ⟨RA.evsOf (xtr.drop n), by rw [← RA.evsOf_append, List.take_append_drop]⟩).length_le
  rw [h.wrun.exec.evs.1]
  exact Nat.lt_of_lt_of_le this (hle _)

end

end Thingbuf.Chan
