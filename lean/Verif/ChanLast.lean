import Verif.ChanWake

/-!
# The end of the messages
-/

namespace Thingbuf.Chan

variable {w : Nat} {V W : Type} {c : Config W} {tr : Trace V W} {s : State w V W}

/-- The pop operation of the receiver has been called. -/
def PopHist (tr : Trace V W) : RPC W → Prop
  | .pop a _ | .pop2 a _ | .last a | .tryPop a _ => .core (.invoke a .pop) ∈ tr
  | _ => True

theorem PopHist.mono {p : RPC W} {evs : Trace V W} (h : PopHist tr p) : PopHist (tr ++ evs) p := by
  cases p <;> first | trivial | exact List.mem_append_left _ h

theorem ExecM.popHist {m : Bool} (h : ExecM m c tr s) : PopHist tr s.rx := by
  refine ExecM.ind (P := fun tr s => PopHist tr s.rx) trivial (fun _ _ _ _ _ ih _ => ih) (fun _ _ _ _ _ ih _ _ => ih) ?_ ?_ ?_ ?_ tr s h
  · intro tr s t e he ih hm
    cases hm
    case poll | dropRx => trivial
    all_goals exact ih.mono
  · intro tr s act s1 evs r t es he ih h1 hr hm
    have hev := core_evs h1
    have hin : ∀ o, act = .invoke o .pop → .core (.invoke o .pop) ∈ tr ++ (evs.map .core ++ es.map .api) := by
      rintro o rfl
      simp [(hev.inv _ _).2 rfl]
    cases hm
    all_goals first | exact ih.mono | trivial | exact hin _ rfl
  · intro tr s act s1 evs t es he ih h1 hm
    cases hm
    all_goals first | exact ih.mono | trivial
  · intro tr s act s1 evs t es he ih h1 hm
    cases hm
    all_goals first | exact ih.mono | trivial

/-- The pop operation of the receiver. -/
theorem ExecM.rx_pop {m : Bool} (h : ExecM m c tr s) {a : OpId} (hx : rxCore s.rx = some (a, .pop)) : .invoke a .pop ∈ coreOf tr := by
  have := h.popHist
  rw [mem_coreOf]
  cases hr : s.rx <;> simp only [hr, rxCore, reduceCtorEq, Option.some.injEq, Prod.mk.injEq, and_false, and_true] at hx <;> rw [hr] at this <;> subst hx <;> exact this

/-- The receiver has not been dropped while it is in a call. -/
theorem ExecM.rx_alive {m : Bool} (h : ExecM m c tr s) {a : OpId} (hx : rxCore s.rx = some (a, .pop)) (b : Bool) : .api (.dropRx b) ∉ tr := by
  have := h.rxInv.hist
  cases hr : s.rx <;> simp only [hr, rxCore, reduceCtorEq, Option.some.injEq, Prod.mk.injEq, and_false] at hx <;> rw [hr] at this <;> exact this b

theorem ExecM.lastDrop_handles {m : Bool} (h : ExecM m c tr s) {pan : Bool} (hl : LastDrop tr pan) : s.handles = [] := by
  apply Classical.byContradiction
  intro hn
  exact h.no_lastDrop hn pan hl

/-- Before the last pop operation of a poll, the receiver was told that there are no more senders. -/
def LastHist (tr : Trace V W) : RPC W → Prop
  | .toLast => ∃ o, .cell (.retWait o .closed) ∈ tr
  | .last a => ∃ p o q, tr = p ++ .cell (.retWait o .closed) :: q ∧ .core (.invoke a .pop) ∈ q
  | _ => True

theorem LastHist.mono {p : RPC W} {evs : Trace V W} (h : LastHist tr p) : LastHist (tr ++ evs) p := by
  cases p <;> try trivial
  case toLast => obtain ⟨o, h1⟩ := h; exact ⟨o, List.mem_append_left _ h1⟩
  case last =>
    obtain ⟨p, o, q, rfl, h2⟩ := h
    exact ⟨p, o, q ++ evs, by simp, by simp [h2]⟩

theorem ExecM.lastHist {m : Bool} (h : ExecM m c tr s) : LastHist tr s.rx := by
  refine ExecM.ind (P := fun tr s => LastHist tr s.rx) trivial (fun _ _ _ _ _ ih _ => ih) (fun _ _ _ _ _ ih _ _ => ih) ?_ ?_ ?_ ?_ tr s h
  · intro tr s t e he ih hm
    cases hm
    case poll | dropRx => trivial
    all_goals exact ih.mono
  · intro tr s act s1 evs r t es he ih h1 hr hm
    have hev := core_evs h1
    cases hm
    case toLast hp =>
      rw [hp] at ih
      obtain ⟨o', h2⟩ := ih
      obtain ⟨x, y, rfl⟩ := List.append_of_mem h2
      exact ⟨x, o', y ++ evs.map .core, by simp, by simp [(hev.inv _ _).2 rfl]⟩
    all_goals first | exact ih.mono | trivial
  · intro tr s act s1 evs t es he ih h1 hm
    cases hm
    case waitClosed o v hp h2 =>
      obtain ⟨o', h7⟩ : ∃ o', .retWait o' .closed ∈ evs := by
        unfold waitRet at h2
        obtain ⟨e, he, h1⟩ := List.exists_of_findSome?_eq_some h2
        cases e <;> simp at h1
        subst h1
        exact ⟨_, he⟩
      exact ⟨o', by simp [h7]⟩
    all_goals first | exact ih.mono | trivial
  · intro tr s act s1 evs t es he ih h1 hm
    cases hm
    all_goals first | exact ih.mono | trivial

/-- The receiver is told that there are no more senders only if the wait cell has been closed. -/
def ClosedTold (tr : Trace V W) : Prop := ∀ pre o post, tr = pre ++ .cell (.retWait o .closed) :: post → ∃ b, .cell (.callNotify b true) ∈ pre

theorem ClosedTold.before {p q : Trace V W} (h : ClosedTold (p ++ q)) : ClosedTold p := fun pre o post hp => h pre o (post ++ q) (by rw [hp]; simp)

/-- An execution as steps from the new channel. -/
theorem ExecM.steps (h : Exec c tr s) : Steps c (State.init w V W) tr s := by
  induction h with
  | stale hm => cases hm
  | mem _ _ hm => cases hm
  | init => exact .refl
  | step _ hs ih => exact ih.step hs

theorem ExecM.closedTold (h : Exec c tr s) : ClosedTold tr := by
  intro pre o post htr
  obtain ⟨b, hb⟩ := Cell.C21_closed_truthful rfl h.cell_std (pre := cellOf pre) (a := o) (post := cellOf post) (by rw [htr, cellOf_append]; rfl)
  exact ⟨b, mem_cellOf.1 hb⟩

/-- The wait cell is closed after the drop of the last `Sender`. -/
theorem ExecM.notify_last {m : Bool} (h : ExecM m c tr s) {pre post : Trace V W} {b : OpId} (htr : tr = pre ++ .cell (.callNotify b true) :: post) :
    ∃ pan, LastDrop pre pan := by
  obtain ⟨tr0, s0, s1, l, r, rest, h0, ht, h1, rfl, rfl⟩ := h.at htr
  obtain ⟨pan, hl⟩ := h1.clInv.call b (by simp)
  generalize hev : l ++ Ev.cell (Cell.Event.callNotify b true) :: r = evs at ht hl
  have hmem : Ev.cell (Cell.Event.callNotify b true) ∈ evs := by rw [← hev]; simp
  refine ⟨pan, LastDrop.mono (hl.of_append ?_) l⟩
  cases ht with
  | api hm => simp at hmem
  | core h2 hm => simp at hmem
  | queue h2 hm => simp at hmem
  | cell h2 hm => intro x p; cases hm <;> simp

/-- The receiver was told that there are no more senders. -/
theorem ExecM.wait_closed {m : Bool} (h : ExecM m c tr s) (hw : ClosedTold tr) {pre post : Trace V W} {o : OpId} (htr : tr = pre ++ .cell (.retWait o .closed) :: post) :
    ∃ pan, LastDrop pre pan := by
  obtain ⟨b, hb⟩ := hw pre o post htr
  obtain ⟨x, y, rfl⟩ := List.append_of_mem hb
  obtain ⟨pan, h1⟩ := h.notify_last (pre := x) (b := b) (post := y ++ .cell (.retWait o .closed) :: post) (by rw [htr]; simp)
  exact ⟨pan, h1.mono _⟩

/-- The drop of a `SendRef` sends the message. -/
theorem ExecM.drop_commits {m : Bool} (h : ExecM m c tr s) {k : Nat} {a : OpId} (hd : .api (.dropSend k) ∈ tr) (hr : .api (.retSend k (.ok a)) ∈ tr) :
    Committed (coreOf tr) a := by
  obtain ⟨pre, post, htr⟩ := List.append_of_mem hd
  obtain ⟨tr0, l, s0, s1, h0, rfl, h1, h2, h3⟩ := h.at_api htr (by simp)
  cases h1 with
  | api hm hl hr hs => cases hm
  | core es1 es2 h1 hm hl hr' hs =>
    generalize hes : es1 ++ Api.dropSend k :: es2 = es at hm
    generalize hret : coreRet _ = ret at hm
    have : Api.dropSend k ∈ es := by rw [← hes]; simp
    cases hm <;> simp at this
    case dropSend j b hj =>
      subst this
      have hlife := h0.life k
      rw [hj] at hlife
      obtain ⟨x, wt, hlife⟩ := hlife
      have hb : .api (.retSend k (.ok b)) ∈ tr := by
        have : .api (.retSend k (.ok b)) ∈ tr0 := (mem_life rfl).1 (by rw [hlife]; simp)
        rw [htr]; simp [this]
      have := (h.life k).ret_uniq ((mem_life rfl).2 hr) ((mem_life rfl).2 hb)
      cases this
      obtain ⟨i, v, hev⟩ := (core_evs h1).dropPush a rfl (by
        rw [actOp_drop]; exact h0.coreOwns.sat (.snd k) a .pushHeld (by simp [coreClaim, claimOf, hj, sndCore]))
      refine ⟨i, v, ?_⟩
      rw [mem_coreOf, htr, hl, hev]
      simp
  | cell es1 es2 h1 hm hl hr hs =>
    generalize hes : es1 ++ Api.dropSend k :: es2 = es at hm
    have : Api.dropSend k ∈ es := by rw [← hes]; simp
    cases hm <;> simp at this
  | queue es1 es2 h1 hm hl hr hs =>
    generalize hes : es1 ++ Api.dropSend k :: es2 = es at hm
    have : Api.dropSend k ∈ es := by rw [← hes]; simp
    cases hm <;> simp at this

/-- A reserved message is sent completely once there are no senders, if nothing was lost. -/
theorem ExecM.all_committed {m : Bool} {mm : Prop} (h : ExecM m c tr s) (hf : Facts mm w c.cap (coreOf tr)) (hl : NoLoss tr) {p q : Trace V W} {pan : Bool} (htr : tr = p ++ q) (hd : LastDrop p pan) {a : OpId}
    (ha : a ∈ resOps (coreOf tr)) : Committed (coreOf p) a := by
  have hno := h.lastDrop_handles (htr ▸ hd.mono q)
  have hact : ∀ k, (s.snd k).active = false := fun k => by
    rw [← Bool.not_eq_true]
    exact fun hk => h.active_handles hk hno
  -- committed by now
  have hc : Committed (coreOf tr) a := by
    obtain ⟨k, h1, h2, -⟩ := h.sender hf ha
    rcases h2 with ⟨att, h2⟩ | h2 | h2
    · have := hact k; rw [h2] at this; cases this
    · refine h.drop_commits (k := k) ?_ h2
      have hlife := h.life k
      have h3 := hact k
      have h2' := (mem_life (tr := tr) (e := .retSend k (.ok a)) rfl).2 h2
      cases hp : s.snd k <;> rw [hp] at hlife h3 <;> simp [SPC.active] at h3
      case off => rw [show Chan.life k (apiOf tr) = [] from hlife] at h2'; cases h2'
      case forgotten b =>
        obtain ⟨x, wt, hlife⟩ := hlife
        exact absurd ((mem_life rfl).1 (by rw [hlife]; simp)) (hl k).1
      case done =>
        obtain ⟨x, wt, ⟨r, hr, hlife⟩ | hlife | ⟨b, hlife⟩⟩ := hlife
        · rw [hlife] at h2'; simp at h2'; exact absurd h2'.symm (hr a)
        · rw [hlife] at h2'; simp at h2'
        · exact (mem_life rfl).1 (by rw [hlife]; simp)
    · exact absurd h2 (hl k).2
  obtain ⟨i, v, hm⟩ := hc
  have hm := mem_coreOf.1 hm
  rw [htr] at hm
  rcases List.mem_append.1 hm with hm | hm
  · exact ⟨i, v, mem_coreOf.2 hm⟩
  · obtain ⟨x, y, hxy⟩ := List.append_of_mem hm
    obtain ⟨k, s0, post', h1, h2, -⟩ := h.commit_at (a := a) (i := i) (v := v) (pre := p ++ x) (post := y) (by rw [htr, hxy]; simp)
    exact absurd (h1.lastDrop_handles (hd.mono x)) (h1.active_handles (k := k) (by rw [h2]; rfl))

/-- A pop operation that finds the ring buffer closed. -/
theorem ExecM.closed_pop {m : Bool} {mm : Prop} (h : ExecM m c tr s) (hf : Facts mm w c.cap (coreOf tr)) {a : OpId} (hr : .ret a .closed ∈ coreOf tr) (hp : .invoke a .pop ∈ coreOf tr)
    (hrx : ∀ b, .api (.dropRx b) ∉ tr) : (∃ pan, LastDrop tr pan) ∧ nDeq (coreOf tr) = nRes (coreOf tr) := by
  obtain ⟨x, y, hxy⟩ := List.append_of_mem hr
  have hinv : Event.invoke a .pop ∈ x := by
    obtain ⟨⟨op, h1⟩, _⟩ := hf.evOk hxy
    cases hf.invoke_unique (a := a) (op := op) (by rw [hxy]; simp [h1]) hp
    exact h1
  obtain ⟨⟨b, hb⟩, h2⟩ := hf.drained_before_closed hxy hinv
  refine ⟨⟨false, (h.closed_by hf ⟨b, by rw [hxy]; simp [hb]⟩).resolve_left (hrx false)⟩, ?_⟩
  have h3 := (hf.bounds (List.prefix_refl _)).1
  have h4 : nDeq x ≤ nDeq (coreOf tr) := (deqOps_prefix ⟨_, hxy.symm⟩).length_le
  omega

/-- A pop operation that finds nothing after the last sender was dropped. -/
theorem Run.last_pop (h : Run c tr s) (hl : NoLoss tr) {p q : Trace V W} {pan : Bool} (htr : tr = p ++ q) (hd : LastDrop p pan) {a : OpId} {r : Ret}
    (h1 : .core (.invoke a .pop) ∈ q) (h2 : .core (.ret a r) ∈ q) (h3 : r ≠ .popped) (h4 : r ≠ .closed) :
    nDeq (coreOf tr) = nRes (coreOf tr) := by
  have hcom := fun a => h.exec.all_committed h.core.facts hl htr hd (a := a)
  have hpre : coreOf p <+: coreOf tr := ⟨coreOf q, by rw [htr, coreOf_append]⟩
  -- nothing was reserved since
  have hres : ∀ a ∈ resOps (coreOf tr), a ∈ resOps (coreOf p) := by
    intro a ha
    obtain ⟨i, v, hc⟩ := hcom a ha
    obtain ⟨x, y, hxy⟩ := List.append_of_mem hc
    obtain ⟨⟨j, _, hj⟩, _⟩ := h.core.evOk (pre := x) (e := .commit a i v) (post := y ++ coreOf q) (by rw [htr, coreOf_append, hxy]; simp)
    exact (resOps_prefix ⟨_, hxy.symm⟩).subset (List.mem_of_getElem? hj.res)
  have hn : nRes (coreOf tr) ≤ nRes (coreOf p) := by
    apply Nat.le_of_not_lt
    intro hlt
    have h5 := List.getElem?_eq_getElem (l := resOps (coreOf tr)) (i := nRes (coreOf p)) hlt
    obtain ⟨j, h6⟩ := List.mem_iff_getElem?.1 (hres _ (List.mem_of_getElem? h5))
    have h7 := getElem?_prefix (resOps_prefix hpre) h6
    have h8 : j < nRes (coreOf p) := (List.getElem?_eq_some_iff.1 h6).1
    have := (List.getElem?_inj (List.getElem?_eq_some_iff.1 h7).1 h.core.nodup_res).1 (h7.trans h5.symm)
    omega
  obtain ⟨x, y, hxy, h5⟩ := h.none_then htr h1 h2 h3 h4
  have hpx : coreOf (p ++ x) <+: coreOf tr := ⟨coreOf y, by rw [htr, hxy]; simp⟩
  have h6 : nRes (coreOf p) ≤ nRes (coreOf (p ++ x)) := (resOps_prefix ⟨coreOf x, by simp⟩).length_le
  have h7 : nDeq (coreOf (p ++ x)) ≤ nDeq (coreOf tr) := (deqOps_prefix hpx).length_le
  have h8 := h.core.inv.le
  rcases h5 with h5 | ⟨b, h5, h9⟩
  · unfold IsEmpty at h5
    omega
  · obtain ⟨i, v, hc⟩ := hcom b ((resOps_prefix hpx).subset (List.mem_of_getElem? h5))
    exact absurd ⟨i, v, by rw [coreOf_append]; exact List.mem_append_left _ hc⟩ h9

/-- What is known when a poll returns `None` or `try_recv` says `Closed`. -/
theorem ExecM.told_closed {m : Bool} {mm : Prop} (h : ExecM m c tr s) {pre post : Trace V W} {e : Api W} (he : e = .retPoll .none ∨ e = .retTry .closed)
    (htr : tr = pre ++ .api e :: post) (hf : Facts mm w c.cap (coreOf pre)) (hw : ClosedTold pre)
    (hlp : NoLoss pre → ∀ p o q pan a r, pre = p ++ .cell (.retWait o .closed) :: q → LastDrop p pan → .core (.invoke a .pop) ∈ q → .core (.ret a r) ∈ q →
      r ≠ .popped → r ≠ .closed → nDeq (coreOf pre) = nRes (coreOf pre)) :
    ∃ s1 : State w V W, ExecM m c (pre ++ [.api e]) s1 ∧ (∃ pan, LastDrop pre pan) ∧
      ((e = .retTry .closed ∨ NoLoss pre) → nDeq (coreOf pre) = nRes (coreOf pre)) := by
  obtain ⟨tr0, l, s0, s1, h0, hl, h1, h2, h3⟩ := h.at_api htr (by rcases he with rfl | rfl <;> simp)
  refine ⟨s1, h2, ?_⟩
  have hlast : ∀ pan, LastDrop (pre ++ [.api e]) pan → LastDrop pre pan := fun pan hp =>
    hp.of_append (by rcases he with rfl | rfl <;> simp)
  have hcore : coreOf (pre ++ [.api e]) = coreOf pre := by simp
  cases h1 with
  | api hm => rcases he with rfl | rfl <;> cases hm
  | cell es1 es2 h1 hm hl hr hs =>
    generalize hes : es1 ++ e :: es2 = es at hm
    have : e ∈ es := by rw [← hes]; simp
    rcases he with rfl | rfl <;> cases hm <;> simp at this
  | queue es1 es2 h1 hm hl hr hs =>
    generalize hes : es1 ++ e :: es2 = es at hm
    have : e ∈ es := by rw [← hes]; simp
    rcases he with rfl | rfl <;> cases hm <;> simp at this
  | @core act c1 evs t es1 es2 h1 hm hl' hr hs =>
    generalize hes : es1 ++ e :: es2 = es at hm
    generalize hret : coreRet _ = ret at hm
    have hmem : e ∈ es := by rw [← hes]; simp
    have hev := core_evs h1
    have hnd : ∀ b, .dropRx b ∉ es := fun b hb => by cases hm <;> simp at hb
    have key : ∀ a spur, act = runAct a spur → ret = some .closed → rxCore s0.rx = some (a, .pop) →
        (∃ pan, LastDrop pre pan) ∧ nDeq (coreOf pre) = nRes (coreOf pre) := by
      rintro a spur rfl rfl hx
      have ha := hev.ret' _ hret
      rw [actOp_runAct] at ha
      have hinv := h0.rx_pop hx
      have := h2.closed_pop (by rw [hcore]; exact hf) (a := a) (by rw [hcore, hl, hl']; simp [ha]) (by rw [hcore, hl, coreOf_append]; exact List.mem_append_left _ hinv)
        (fun b hb => by
          have hn := h0.rx_alive hx b
          rw [hl, hl'] at hb
          simp [hn] at hb
          rcases hb with hb | hb
          · have hall : .dropRx b ∈ es := by rw [← hes]; simp [hb]
            exact hnd b hall
          · rcases he with rfl | rfl <;> cases hb)
      rw [hcore] at this
      exact ⟨this.1.imp hlast, this.2⟩
    rcases he with rfl | rfl <;> cases hm <;> simp at hmem
    case inl.popNone a v spur hp => have := key a spur rfl rfl (by rw [hp]; rfl); exact ⟨this.1, fun _ => this.2⟩
    case inl.pop2None a v spur hp => have := key a spur rfl rfl (by rw [hp]; rfl); exact ⟨this.1, fun _ => this.2⟩
    case inr.tryClosed a p spur hp => have := key a spur rfl rfl (by rw [hp]; rfl); exact ⟨this.1, fun _ => this.2⟩
    case inl.lastNone a spur r hp hr =>
      by_cases hc : r = .closed
      · subst hc
        have := key a spur rfl rfl (by rw [hp]; rfl)
        exact ⟨this.1, fun _ => this.2⟩
      have hh := h0.lastHist
      rw [hp] at hh
      obtain ⟨p, o, q, h5, h7⟩ := hh
      have ha := hev.ret' _ hret
      rw [actOp_runAct] at ha
      have h8 : pre = p ++ .cell (.retWait o .closed) :: (q ++ l) := by rw [hl, h5]; simp
      obtain ⟨pan, h6⟩ := h2.wait_closed (pre := p) (o := o) (post := (q ++ l) ++ [.api (.retPoll .none)]) (fun p' o' q' hp' => by
        rcases List.eq_nil_or_concat q' with rfl | ⟨q'', e', rfl⟩
        · have := congrArg List.getLast? hp'; simp at this
        · rw [List.concat_eq_append, ← List.cons_append, ← List.append_assoc] at hp'
          obtain ⟨h9, -⟩ := List.append_inj' hp' rfl
          exact hw p' o' q'' h9) (by rw [h8]; simp)
      refine ⟨⟨pan, by rw [h8]; exact h6.mono _⟩, fun hn => ?_⟩
      exact hlp (hn.resolve_left (by simp)) p o (q ++ l) pan a r h8 h6 (by simp [h7]) (by rw [hl']; simp [ha]) hr hc

/-- What is known when a poll returns `None` or `try_recv` says `Closed`. -/
theorem Run.told_closed (h : Run c tr s) {pre post : Trace V W} {e : Api W} (he : e = .retPoll .none ∨ e = .retTry .closed)
    (htr : tr = pre ++ .api e :: post) : ∃ s1 : State w V W, Run c (pre ++ [.api e]) s1 ∧ (∃ pan, LastDrop pre pan) ∧
      ((e = .retTry .closed ∨ NoLoss pre) → nDeq (coreOf pre) = nRes (coreOf pre)) := by
  obtain ⟨-, -, -, s1, -, -, -, h2, -⟩ := h.exec.at_api htr (by rcases he with rfl | rfl <;> simp)
  have hr2 : Run c (pre ++ [.api e]) s1 := Run.before (l := post) (by rw [htr] at h; simpa using h) h2
  have hcore : coreOf (pre ++ [.api e]) = coreOf pre := by simp
  obtain ⟨s2, -, h3⟩ := h.exec.told_closed he htr (by rw [← hcore]; exact hr2.core.facts)
    (ClosedTold.before (q := .api e :: post) (by rw [← htr]; exact h.exec.closedTold)) (by
      intro hn p o q pan a r h5 h6 h7 h8 h9 h10
      rw [← hcore]
      exact hr2.last_pop (a := a) (r := r) (fun k => by rcases he with rfl | rfl <;> simpa using hn k) (p := p) (q := .cell (.retWait o .closed) :: q ++ [.api e]) (by rw [h5]; simp) h6
        (by simp [h7]) (by simp [h8]) h9 h10)
  exact ⟨s1, hr2, h3⟩

/-! ### The signal of the last `Sender` -/

/-- The drop of the last `Sender` tells the wait cell. -/
theorem ExecM.last_notify {m : Bool} {mm : Prop} (h : ExecM m c tr s) (hf : Facts mm w c.cap (coreOf tr)) (hx : ∀ b, .api (.dropRx b) ∉ tr) (hd : .api .lastTxDropped ∈ tr)
    (hp : c.blocking = false ∨ LastDrop tr false) : ∃ o, .cell (.callNotify o true) ∈ tr := by
  have hdone := h.clInv.fin hd
  have hh := h.clInv.hist
  rw [hdone] at hh
  obtain ⟨pan, a, b, h1, h2, h3, h4, h5⟩ := hh
  have hb : b = true ∨ c.blocking = false := by
    refine hp.symm.imp (fun hp => ?_) id
    have := h1.2 _ hp
    subst this
    obtain ⟨x, y, hxy⟩ := List.append_of_mem (mem_coreOf.2 h4)
    obtain ⟨-, -, h6⟩ := hf.evOk hxy
    have h7 : Event.invoke a (.close true) ∉ x := fun hm => by
      have := hf.invoke_unique (a := a) (op := .close true) (op' := .close false) (by rw [hxy]; simp [hm]) (mem_coreOf.2 h3)
      cases this
    rcases h6 with ⟨h6, -⟩ | ⟨-, x0, rfl, h8⟩
    · exact absurd h6 h7
    obtain ⟨a', h8⟩ := hf.invY.closed ⟨a, by rw [hxy]; simp⟩
    obtain ⟨x', y', hxy'⟩ := List.append_of_mem h8
    obtain ⟨-, -, h9⟩ := hf.evOk hxy'
    have h10 : Event.invoke a' (.close false) ∈ coreOf tr := by
      rcases h9 with ⟨-, h9⟩ | ⟨h9, -⟩
      · cases h9
      · rw [hxy']; simp [h9]
    rcases h2 _ _ (mem_coreOf.1 h10) with h11 | h11
    · cases h11
      have := hf.ret_unique h8 (mem_coreOf.2 h4)
      cases this; rfl
    · exact absurd h11 (hx _)
  exact h5 hb

/-- The drop of the last `Sender` tells the wait cell. -/
theorem Run.last_signal (h : Run c tr s) (hx : ∀ b, .api (.dropRx b) ∉ tr) (hd : .api .lastTxDropped ∈ tr)
    (hp : c.blocking = false ∨ LastDrop tr false) : ∃ o, .signal o true ∈ cellOf tr := by
  obtain ⟨o, ho⟩ := h.exec.last_notify h.core.facts hx hd hp
  have hdone := h.exec.clInv.fin hd
  obtain ⟨pan, hlast⟩ := h.exec.clInv.call o ho
  refine ⟨o, ?_⟩
  have hop := h.exec.cell.opOk o
  have hm : Cell.Event.callNotify o true ∈ Cell.mine (cellOf tr) o := Cell.mem_mine.2 ⟨mem_cellOf.2 ho, rfl⟩
  have mem : ∀ {e : Cell.Event W}, e ∈ Cell.mine (cellOf tr) o → e ∈ cellOf tr := fun h => (Cell.mem_mine.1 h).1
  have hown := h.exec.cellOwns
  have hno := h.exec.lastDrop_handles hlast
  cases hpc : s.cell.pc o <;> simp only [hpc, Cell.OpOk] at hop
  case idle => rw [hop] at hm; cases hm
  case notifyStart cl =>
    obtain ⟨x, hx'⟩ := hown.cov o .notify (by rw [hpc]; rfl)
    cases x <;> simp only [cellClaim, claimOf] at hx'
    case snd j =>
      exact absurd hno (h.exec.active_handles (k := j) (by revert hx'; cases s.snd j <;> simp [sndCell, SPC.active]))
    case rx => revert hx'; cases s.rx <;> simp [rxCell]
    case closer => rw [hdone] at hx'; cases hx'
    case ref => cases hx'
  case notifyTake | notifyTaking | notifyClear | notifyWake =>
    obtain ⟨⟨x, -, h6, h7⟩, -⟩ := hop
    have := h7 _ hm
    subst this
    exact mem h6
  case done =>
    rcases hop.1 with h6 | ⟨-, x, -, h6, h7⟩
    · exact absurd hm (h6.2 _)
    · have := h7 _ hm
      subst this
      exact mem h6
  all_goals exact absurd hm (hop.2.2.1 _)

/-- A receiver whose last poll returned `Pending` is woken by the drop of the last `Sender`. -/
theorem Run.rx_woken_last (h : Run c tr s) {v : W} {post : Trace V W} (hs : Since tr v post) (hp : .api (.retPoll .pending) ∈ post)
    (hx : ∀ b, .api (.dropRx b) ∉ tr) (hd : .api .lastTxDropped ∈ tr) (hb : c.blocking = false ∨ LastDrop tr false) :
    ∃ d, .cell (.wake d v) ∈ post := by
  obtain ⟨hrx, m2, a, r, hr, -⟩ := h.exec.pending hs hp hx
  obtain ⟨o, ho⟩ := h.last_signal hx hd hb
  have hdone := h.exec.clInv.fin hd
  have hno : s.handles = [] := by
    apply Classical.byContradiction
    intro hn
    have := h.exec.hinv.closer.2 hn
    rw [hdone] at this; cases this
  have hq : Cell.Quiescent (cellOf tr) := by
    intro a ha
    apply Classical.byContradiction
    intro hn
    rcases h.exec.cell_owner ha hn with ⟨k, hk⟩ | ⟨v, hv⟩ | hc
    · exact absurd hno (h.exec.active_handles (k := k) (by rw [hk]; rfl))
    · exact hrx a v hv
    · rw [hdone] at hc; cases hc
  obtain ⟨m1, b, h5, h6, h7, h8, h9⟩ := hr
  obtain ⟨-, rfl⟩ := hs.uniq h5
  obtain ⟨⟨pre, h10⟩, _⟩ := h5
  have htr : cellOf tr = cellOf (pre ++ .api (.callPoll v) :: m1) ++ .retWait b .wait :: cellOf m2 := by
    rw [h10]
    simp only [cellOf_append, cellOf_api1]
    rw [show cellOf (.cell (.retWait b .wait) :: m2) = .retWait b .wait :: cellOf m2 from rfl]
    simp
  have hsig : .signal o true ∈ cellOf m2 := by
    rw [htr] at ho
    rcases List.mem_append.1 ho with ho | ho
    · exact absurd ho (h.exec.cell.wait_open htr o)
    · simpa using ho
  obtain ⟨u, h11⟩ : ∃ u, .mk b u ∈ cellOf (pre ++ .api (.callPoll v) :: m1) := by
    obtain ⟨u, hu, -⟩ := Cell.C20_wait_is_registered rfl h.exec.cell_std h.exec.oneRx htr
    exact ⟨u, hu⟩
  have : u = v := h7 u (mem_cellOf.1 (by rw [htr]; exact List.mem_append_left _ h11))
  subst this
  obtain ⟨d, h12⟩ := Cell.quiescent_signal rfl h.exec.cell_std h.exec.oneRx h.exec.no_assert hq htr h11
    (fun a' => by rw [mem_cellOf]; exact h8 a') hsig
  exact ⟨d, by simp [mem_cellOf.1 h12]⟩

/-- After the drop of the last `Sender` no slot is reserved. -/
theorem ExecM.no_reserve {m : Bool} (h : ExecM m c tr s) {p q : Trace V W} {pan : Bool} (htr : tr = p ++ q) (hd : LastDrop p pan) (a : OpId) (i : Nat) :
    .core (.reserve a i) ∉ q := by
  intro hm
  obtain ⟨x, y, rfl⟩ := List.append_of_mem hm
  obtain ⟨tr0, s0, s1, l, r, rest, h1, h2, h3, h4, h5⟩ := h.at (pre := p ++ x) (post := y) (e := .core (.reserve a i)) (by rw [htr]; simp)
  generalize hg : l ++ Ev.core (.reserve a i) :: r = evs at h2
  cases h2 with
  | api hm => cases l <;> simp at hg
  | @core act s1 evs t es hs hm =>
    obtain ⟨e1, e2, rfl, rfl, rfl⟩ := core_split hg
    obtain ⟨hk, rfl, -⟩ := (core_evs hs).res a i (by simp)
    have hl : LastDrop tr0 pan := by
      have := hd.mono x
      rw [h4] at this
      exact this.of_append (by simp)
    have hno := h1.lastDrop_handles hl
    obtain ⟨z, hz⟩ := h1.coreOwns.cov _ _ hk
    cases z <;> simp only [coreClaim, claimOf] at hz
    case snd j =>
      exact absurd hno (h1.active_handles (k := j) (by revert hz; cases s0.snd j <;> simp [sndCore, SPC.active]))
    case rx => revert hz; cases s0.rx <;> simp [rxCore]
    case closer => revert hz; cases s0.closer <;> simp [closerCore]
    case ref j => revert hz; cases s0.ref j <;> simp [refCore]
  | @cell act s1 evs t es hs hm =>
    have : (Ev.core (.reserve a i) : Ev V W) ∈ List.map Ev.cell evs ++ List.map Ev.api es := by rw [← hg]; simp
    simp at this
  | @queue act s1 evs t es hs hm =>
    have : (Ev.core (.reserve a i) : Ev V W) ∈ List.map Ev.queue evs ++ List.map Ev.api es := by rw [← hg]; simp
    simp at this

theorem ExecM.last_unique {m : Bool} (h : ExecM m c tr s) {p p' : Bool} (h1 : LastDrop tr p) (h2 : LastDrop tr p') : p = p' := by
  have hh := h.clInv.hist
  cases hc : s.closer <;> rw [hc] at hh
  case none => exact absurd h1 (hh.1 _)
  case toClose => rw [hh.1.2 _ h1, hh.1.2 _ h2]
  case closing => obtain ⟨_, h3, _⟩ := hh; rw [h3.2 _ h1, h3.2 _ h2]
  all_goals obtain ⟨_, _, _, h3, _⟩ := hh; rw [h3.2 _ h1, h3.2 _ h2]

/-- While a poll is in progress the `Receiver` is not dropped. -/
theorem ExecM.poll_alive {m : Bool} (h : ExecM m c tr s) {pre post : Trace V W} {r : PollRes} (htr : tr = pre ++ .api (.retPoll r) :: post) (b : Bool) :
    .api (.dropRx b) ∉ pre := by
  obtain ⟨tr0, l, s0, s1, h0, hl, h1, h2, h3⟩ := h.at_api htr (by simp)
  have hx : ∃ p, s1.rx = .idle p := by
    cases h1 with
    | api hm hl hr hs => cases hm
    | core es1 es2 h1 hm hl hr hs =>
      generalize hes : es1 ++ Api.retPoll r :: es2 = es at hm
      generalize hret : coreRet _ = ret at hm
      have : Api.retPoll r ∈ es := by rw [← hes]; simp
      cases hm <;> simp at this <;> exact ⟨_, by rw [hs]; rfl⟩
    | cell es1 es2 h1 hm hl hr hs =>
      generalize hes : es1 ++ Api.retPoll r :: es2 = es at hm
      have : Api.retPoll r ∈ es := by rw [← hes]; simp
      cases hm <;> simp at this
    | queue es1 es2 h1 hm hl hr hs =>
      generalize hes : es1 ++ Api.retPoll r :: es2 = es at hm
      have : Api.retPoll r ∈ es := by rw [← hes]; simp
      cases hm <;> simp at this
  obtain ⟨p, hx⟩ := hx
  have hh := h2.rxInv.hist
  rw [hx] at hh
  exact fun hb => hh b (by simp [hb])

/-- A poll that begins after the drop of the last `Sender` does not return `Pending`. -/
theorem Run.not_pending (h : Run c tr s) {pre mid post : Trace V W} {v : W} (htr : tr = pre ++ .api (.callPoll v) :: mid ++ .api (.retPoll .pending) :: post)
    (hm : ∀ u, .api (.callPoll u) ∉ mid) (hd : .api .lastTxDropped ∈ pre) (hb : c.blocking = false ∨ LastDrop tr false) : False := by
  have hal := h.exec.poll_alive htr
  obtain ⟨tr0, l, s0, s1, h0, hl, h1, h2, h3⟩ := h.exec.at_api htr (by simp)
  have hs : Since (pre ++ .api (.callPoll v) :: mid ++ [.api (.retPoll .pending)]) v (mid ++ [.api (.retPoll .pending)]) :=
    ⟨⟨pre, by simp⟩, by simpa using hm⟩
  obtain ⟨-, m2, a, r, hr, -⟩ := h2.pending hs (by simp) (fun b hb => hal b (by simpa using hb))
  obtain ⟨m1, b, h5, -⟩ := hr
  obtain ⟨-, h6⟩ := hs.uniq h5
  -- the signal
  obtain ⟨x, y, rfl⟩ := List.append_of_mem hd
  obtain ⟨tr0', l', s0', s1', -, -, -, h7, -⟩ := h.exec.at_api (pre := x) (e := .lastTxDropped) (post := y ++ .api (.callPoll v) :: mid ++ .api (.retPoll .pending) :: post)
    (by rw [htr]; simp) (by simp)
  have hr7 : Run c (x ++ [.api .lastTxDropped]) s1' := Run.before (l := y ++ .api (.callPoll v) :: mid ++ .api (.retPoll .pending) :: post) (by rw [htr] at h; simpa using h) h7
  obtain ⟨o, ho⟩ := hr7.last_signal (fun b hb => hal b (by simp at hb; simp [hb])) (by simp) (by
    refine hb.imp id fun hb => ?_
    have hh := h7.clInv.hist
    rw [h7.clInv.fin (by simp)] at hh
    obtain ⟨pan, _, _, h8, _⟩ := hh
    have : LastDrop tr pan := by rw [htr]; simpa using h8.1.mono (y ++ .api (.callPoll v) :: mid ++ .api (.retPoll .pending) :: post)
    rw [h.exec.last_unique hb this]
    exact h8.1)
  refine h2.cell.wait_open (p := cellOf (x ++ .api .lastTxDropped :: y ++ .api (.callPoll v) :: m1)) (a := b) (q := cellOf m2) ?_ o ?_
  · rw [show x ++ Ev.api .lastTxDropped :: y ++ .api (.callPoll v) :: mid ++ [.api (.retPoll .pending)] =
      (x ++ .api .lastTxDropped :: y ++ [.api (.callPoll v)]) ++ (mid ++ [.api (.retPoll .pending)]) by simp, h6]
    simp only [cellOf_append, cellOf_api1]
    rw [show cellOf (.cell (.retWait b .wait) :: m2) = .retWait b .wait :: cellOf m2 from rfl]
    simp
  · rw [show x ++ Ev.api .lastTxDropped :: y ++ .api (.callPoll v) :: m1 = (x ++ [.api .lastTxDropped]) ++ (y ++ .api (.callPoll v) :: m1) by simp,
      cellOf_append]
    exact List.mem_append_left _ ho

end Thingbuf.Chan
