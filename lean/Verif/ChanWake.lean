import Verif.ChanPoll

/-!
# Waking the receiver
-/

namespace Thingbuf.Chan

variable {w : Nat} {V W : Type} {c : Config W} {tr : Trace V W} {s : State w V W}

theorem ExecM.no_mkPanic {m : Bool} (h : ExecM m c tr s) (a : OpId) : .cell (.mkPanic a) ∉ tr := by
  refine ExecM.ind (P := fun tr _ => .cell (.mkPanic a) ∉ tr) ?_ (fun _ _ _ _ _ ih _ => ih) (fun _ _ _ _ _ ih _ _ => ih) ?_ ?_ ?_ ?_ tr s h
  · simp
  · intro tr s t e he ih hm; simp [ih]
  · intro tr s act s1 evs r t es he ih h1 hr hm; simp [ih]
  · intro tr s act s1 evs t es he ih h1 hm; simp [ih, (cell_evs h1 hm.not_panic).panic]
  · intro tr s act s1 evs t es he ih h1 hm; simp [ih]

theorem ExecM.cell_std (h : Exec c tr s) : Cell.Exec { c.cell with std := true } (cellOf tr) s.cell :=
  h.cell.std_irrelevant fun a => by rw [mem_cellOf]; exact h.no_mkPanic a

theorem ExecM.no_assert (h : Exec c tr s) (a : OpId) : .assertFailed a ∉ cellOf tr := fun ha =>
  h.no_mkPanic a (mem_cellOf.1 (Cell.C23_assertions rfl h.cell_std ha))

/-- An operation of the wait cell that has not returned belongs to someone. -/
theorem ExecM.cell_owner {m : Bool} (h : ExecM m c tr s) {a : OpId} (hc : Cell.Called (cellOf tr) a) (hr : ¬ Cell.Returned (cellOf tr) a) :
    (∃ k, s.snd k = .notifying a) ∨ (∃ v, s.rx = .wait a v) ∨ s.closer = .closeTx a := by
  have h1 : s.cell.pc a ≠ .idle := fun h2 => (h.cellOpOk a).idle_iff.1 h2 hc
  have h2 : s.cell.pc a ≠ .done := fun h2 => hr ((h.cellOpOk a).done_iff.1 h2)
  obtain ⟨k, hk⟩ : ∃ k, cellKind (s.cell.pc a) = some k := by
    cases hp : s.cell.pc a <;> simp [hp, cellKind] at h1 h2 ⊢
  obtain ⟨x, hx⟩ := h.cellOwns.cov a k hk
  cases x <;> simp only [cellClaim, claimOf] at hx
  case snd j =>
    refine .inl ⟨j, ?_⟩
    revert hx; cases s.snd j <;> simp [sndCell]
    exact fun e _ => e
  case rx =>
    refine .inr (.inl ?_)
    revert hx; cases s.rx <;> simp [rxCell]
    exact fun e _ => e
  case closer =>
    refine .inr (.inr ?_)
    revert hx; cases s.closer <;> simp [closerCell]
    exact fun e _ => e
  case ref => cases hx

/-- The receiver calls `wait_with` once at a time. -/
theorem ExecM.oneRx {m : Bool} (h : ExecM m c tr s) : Cell.OneRx (cellOf tr) := by
  refine ExecM.ind (P := fun tr _ => Cell.OneRx (cellOf tr)) ?_ (fun _ _ _ _ _ ih _ => ih) (fun _ _ _ _ _ ih _ _ => ih) ?_ ?_ ?_ ?_ tr s h
  · intro pre a post h; simp at h
  · intro tr s t e he ih hm; simpa using ih
  · intro tr s act s1 evs r t es he ih h1 hr hm; simpa using ih
  · intro tr s act s1 evs t es he ih h1 hm pre a post h b hb
    simp only [cellOf_append, cellOf_cell, cellOf_api, List.append_nil] at h
    rcases append_split h with ⟨post', h2, h3⟩ | ⟨e1, h2, h3⟩
    · exact ih _ _ _ h3 b hb
    · have hev := cell_evs h1 hm.not_panic
      have h4 := (hev.wait a).1 (by rw [h2]; simp)
      subst h4
      have h5 : e1 = [] := by
        simp only [Cell.step] at h1
        split at h1 <;> cases h1
        cases e1 <;> simp at h2 ⊢
      subst h5
      simp at h3
      subst h3
      apply Classical.byContradiction
      intro hr
      have ho := he.cellOwns
      have h6 : cellKind (s.cell.pc b) = some .wait := by
        have := he.cellOpOk b
        have hn : s.cell.pc b ≠ .done := fun h2 => hr ((he.cellOpOk b).done_iff.1 h2)
        have hi : s.cell.pc b ≠ .idle := fun h2 => (he.cellOpOk b).idle_iff.1 h2 (.inl hb)
        have hm' : Cell.Event.callWait b ∈ Cell.mine (cellOf tr) b := Cell.mem_mine.2 ⟨hb, rfl⟩
        cases hp : s.cell.pc b <;> simp [hp, cellKind] at hn hi ⊢
        all_goals simp only [hp, Cell.OpOk] at this
        case notifyStart => exact this.2.2.1 hm'
        all_goals exact this.2.2.1 hm'
      obtain ⟨x, hx⟩ := ho.cov b .wait h6
      have h7 : ∃ v, s.rx = .toWait v := by
        generalize hact : Cell.Act.callWait a = act at hm
        cases hm <;> first | (cases hact; done) | (exact absurd hact.symm (waitAct_callWait _ _ _ _)) | exact ⟨_, ‹_›⟩
      obtain ⟨v, h7⟩ := h7
      cases x <;> simp only [cellClaim, claimOf] at hx
      case snd j => revert hx; cases s.snd j <;> simp [sndCell]
      case rx => rw [h7] at hx; cases hx
      case closer => revert hx; cases s.closer <;> simp [closerCell]
      case ref => cases hx
  · intro tr s act s1 evs t es he ih h1 hm; simpa using ih

/-- A dropped `SendRef` notifies the receiver. -/
theorem ExecM.drop_notifies (h : Exec c tr s) {pre post : Trace V W} {k : Nat} (htr : tr = pre ++ .api (.dropSend k) :: post) :
    s.snd k = .toNotify ∨ ∃ o, .cell (.callNotify o false) ∈ post := by
  obtain ⟨tr0, l, s0, s1, h0, hl, h1, h2, h3⟩ := h.at_api htr (by simp)
  have h4 : s1.snd k = .toNotify := by
    cases h1 with
    | api hm hl hr hs => cases hm
    | core es1 es2 h1 hm hl hr hs =>
      generalize hes : es1 ++ Api.dropSend k :: es2 = es at hm
      generalize hret : coreRet _ = ret at hm
      have : Api.dropSend k ∈ es := by rw [← hes]; simp
      cases hm <;> simp at this <;> subst this hs <;> simp
    | cell es1 es2 h1 hm hl hr hs =>
      generalize hes : es1 ++ Api.dropSend k :: es2 = es at hm
      have : Api.dropSend k ∈ es := by rw [← hes]; simp
      cases hm <;> simp at this
    | queue es1 es2 h1 hm hl hr hs =>
      generalize hes : es1 ++ Api.dropSend k :: es2 = es at hm
      have : Api.dropSend k ∈ es := by rw [← hes]; simp
      cases hm <;> simp at this
  refine Steps.ind h2 (P := fun tr s => s.snd k = .toNotify ∨ ∃ o, .cell (.callNotify o false) ∈ tr) (.inl h4) ?_ ?_ ?_ ?_ _ _ h3
  · intro tr s t e he ih hm he'
    rcases ih with ih | ⟨o, ih⟩
    · left
      cases hm
      case forgetSend j a hj =>
        have : k ≠ j := by rintro rfl; rw [ih] at hj; cases hj
        simp [State.sendEnd, State.sgoto, upd_apply, this, ih]
      all_goals exact ih
    · exact .inr ⟨o, by simp [ih]⟩
  · intro tr s act s1 evs r t es he ih h1 hr hm he'
    rcases ih with ih | ⟨o, ih⟩
    · left
      cases hm
      all_goals first
        | exact ih
        | (refine (upd_ne _ _ ?_).trans ih; rintro rfl; simp_all; done)
    · exact .inr ⟨o, by simp [ih]⟩
  · intro tr s act s1 evs t es he ih h1 hm he'
    rcases ih with ih | ⟨o, ih⟩
    · have hev := cell_evs h1 hm.not_panic
      cases hm
      case notify j o hj =>
        by_cases e : k = j
        · exact .inr ⟨o, by simp [(hev.notify o false).2 rfl]⟩
        · left; simp [State.sgoto, upd_apply, e, ih]
      case notifyEnd j o hj _ =>
        have : k ≠ j := by rintro rfl; rw [ih] at hj; cases hj
        left; simp [State.sendEnd, State.sgoto, upd_apply, this, ih]
      all_goals exact .inl ih
    · exact .inr ⟨o, by simp [ih]⟩
  · intro tr s act s1 evs t es he ih h1 hm he'
    rcases ih with ih | ⟨o, ih⟩
    · left
      cases hm
      all_goals first
        | exact ih
        | (refine (upd_ne _ _ ?_).trans ih; rintro rfl; simp_all; done)
    · exact .inr ⟨o, by simp [ih]⟩

theorem LifeOk.ending {k : Nat} {p : SPC} {l : List (Api W)} (h : LifeOk k p l) (hp : p = .toNotify ∨ ∃ o, p = .notifying o) :
    .dropSend k ∈ l ∧ .dropSendEnd k ∉ l := by
  rcases hp with rfl | ⟨o, rfl⟩ <;> obtain ⟨_, _, _, rfl⟩ := h <;> simp

/-- The drop of a `SendRef` in progress. -/
theorem ExecM.sendEnding {m : Bool} (h : ExecM m c tr s) {k : Nat} (hp : s.snd k = .toNotify ∨ ∃ o, s.snd k = .notifying o) : SendEnding tr k := by
  have := (h.life k).ending hp
  rw [mem_life rfl, mem_life rfl] at this
  exact this

/-- The drop of the last `Sender` in progress. -/
theorem ExecM.lastTxEnding {m : Bool} (h : ExecM m c tr s) (hp : s.closer ≠ .none) (hp' : s.closer ≠ .done) : LastTxEnding tr := by
  refine ⟨?_, fun hd => hp' (h.clInv.fin hd)⟩
  rw [h.senders]
  apply Classical.byContradiction
  intro hn
  exact hp (h.hinv.closer.2 hn)

/-- When nothing is half way through, no operation of the wait cell is in progress. -/
theorem ExecM.quiescent {m : Bool} (h : ExecM m c tr s) (hq : ∀ k, ¬ SendEnding tr k) (hq' : ¬ LastTxEnding tr) (hr : ∀ o v, s.rx ≠ .wait o v) :
    Cell.Quiescent (cellOf tr) := by
  intro a ha
  apply Classical.byContradiction
  intro hn
  rcases h.cell_owner ha hn with ⟨k, hk⟩ | ⟨v, hv⟩ | hc
  · exact hq k (h.sendEnding (.inr ⟨a, hk⟩))
  · exact hr a v hv
  · exact hq' (h.lastTxEnding (by simp [hc]) (by simp [hc]))

/-- The last poll, which returned `Pending`. -/
theorem ExecM.pending {m : Bool} (h : ExecM m c tr s) {v : W} {post : Trace V W} (hs : Since tr v post) (hp : .api (.retPoll .pending) ∈ post)
    (hd : ∀ b, .api (.dropRx b) ∉ tr) : (∀ o u, s.rx ≠ .wait o u) ∧ ∃ m2 a r, Reg tr v m2 ∧ .core (.invoke a .pop) ∈ m2 ∧ .core (.ret a r) ∈ m2 ∧ r ≠ .popped ∧ r ≠ .closed := by
  have hh := h.pollHist
  have hx := h.rxInv.hist
  have hno : ∀ {u l}, Since tr u l → .api (.retPoll .pending) ∉ l → False := fun h1 h2 => by
    obtain ⟨-, rfl⟩ := hs.uniq h1
    exact h2 hp
  have hreg : ∀ {u l}, Reg tr u l → Reg tr v l := fun h1 => by
    obtain ⟨m1, o, h2, h3⟩ := h1
    obtain ⟨rfl, -⟩ := hs.uniq h2
    exact ⟨m1, o, h2, h3⟩
  cases hrx : s.rx <;> rw [hrx] at hh hx
  case toPop | pop | toWait => obtain ⟨_, h1, h2⟩ := hh; exact (hno h1 h2).elim
  case wait => obtain ⟨_, h1, h2, _⟩ := hh; exact (hno h1 h2).elim
  case toPop2 => obtain ⟨_, h1, h2⟩ := hh; obtain ⟨_, h3, h4⟩ := h1.since h2; exact (hno h3 h4).elim
  case pop2 => obtain ⟨_, h1, h2, _⟩ := hh; obtain ⟨_, h3, h4⟩ := h1.since h2; exact (hno h3 h4).elim
  case toLast | last => exact absurd hp (hh _ _ hs)
  case idle p =>
    refine ⟨by simp, ?_⟩
    cases p with
    | none => exact absurd hp (hh _ _ hs)
    | some u => obtain ⟨m2, a, r, h1, h2⟩ := hh; exact ⟨m2, a, r, hreg h1, h2⟩
  case tryPop a p =>
    refine ⟨by simp, ?_⟩
    cases p with
    | none => exact absurd hp (hh _ _ hs)
    | some u => obtain ⟨m2, a, r, h1, h2⟩ := hh; exact ⟨m2, a, r, hreg h1, h2⟩
  case toClose => exact absurd hx.1 (hd _)
  case closing => obtain ⟨_, h1, _⟩ := hx; exact absurd h1.1 (hd _)
  case toQClose => obtain ⟨_, _, h1, _⟩ := hx; exact absurd h1.1 (hd _)
  case qclose => obtain ⟨_, _, h1, _⟩ := hx; exact absurd h1.1 (hd _)
  case gone => obtain ⟨_, _, _, h1, _⟩ := hx; exact absurd h1.1 (hd _)

/-- A registered waker is woken by a `notify` or `close_tx` that begins later. -/
theorem ExecM.woken (h : Exec c tr s) {v : W} {m2 : Trace V W} (hr : Reg tr v m2) (hq : Cell.Quiescent (cellOf tr)) {o : OpId} {b : Bool}
    (hn : .cell (.callNotify o b) ∈ m2) : ∃ d, .cell (.wake d v) ∈ m2 := by
  obtain ⟨m1, a, ⟨⟨pre, h1⟩, _⟩, h3, h4, h5, h6⟩ := hr
  have htr : cellOf tr = cellOf (pre ++ .api (.callPoll v) :: m1) ++ .retWait a .wait :: cellOf m2 := by
    rw [h1]
    simp only [cellOf_append, cellOf_api1]
    rw [show cellOf (.cell (.retWait a .wait) :: m2) = .retWait a .wait :: cellOf m2 from rfl]
    simp
  obtain ⟨u, h7, d, h8⟩ := Cell.C20_quiescent rfl h.cell_std h.oneRx h.no_assert hq htr (fun a' => by rw [mem_cellOf]; exact h5 a') (mem_cellOf.2 hn)
  have : u = v := h4 u (mem_cellOf.1 (by rw [htr]; exact List.mem_append_left _ h7))
  subst this
  exact ⟨d, mem_cellOf.1 h8⟩

theorem coreOf_prefix {l : Trace V W} {m : Thingbuf.Trace V} (h : m <+: coreOf l) : ∃ l1 l2, l = l1 ++ l2 ∧ coreOf l1 = m := by
  induction l generalizing m with
  | nil => simp at h; exact ⟨[], [], rfl, h.symm⟩
  | cons e l ih =>
    cases m with
    | nil => exact ⟨[], e :: l, rfl, rfl⟩
    | cons x m =>
      cases e with
      | core e =>
        rw [show coreOf (.core e :: l) = e :: coreOf l from rfl] at h
        obtain ⟨h1, h2⟩ := List.cons_prefix_cons.1 h
        obtain ⟨l1, l2, rfl, h4⟩ := ih h2
        exact ⟨.core e :: l1, l2, rfl, by rw [show coreOf (.core e :: l1) = e :: coreOf l1 from rfl, h4, h1]⟩
      | cell e => obtain ⟨l1, l2, rfl, h4⟩ := ih (m := x :: m) h; exact ⟨.cell e :: l1, l2, rfl, h4⟩
      | queue e => obtain ⟨l1, l2, rfl, h4⟩ := ih (m := x :: m) h; exact ⟨.queue e :: l1, l2, rfl, h4⟩
      | api e => obtain ⟨l1, l2, rfl, h4⟩ := ih (m := x :: m) h; exact ⟨.api e :: l1, l2, rfl, h4⟩

/-- The pop operation after the registration found no message. -/
theorem Run.none_then (h : Run c tr s) {p m : Trace V W} (htr : tr = p ++ m) {a : OpId} {r : Ret} (h1 : .core (.invoke a .pop) ∈ m)
    (h2 : .core (.ret a r) ∈ m) (h3 : r ≠ .popped) (h4 : r ≠ .closed) :
    ∃ q l, m = q ++ l ∧ (IsEmpty (coreOf (p ++ q)) ∨ OldestUncommitted (coreOf (p ++ q))) := by
  obtain ⟨x, y, hxy⟩ := List.append_of_mem h2
  have hc : coreOf tr = coreOf (p ++ x) ++ .ret a r :: coreOf y := by
    rw [htr, hxy, ← List.append_assoc, coreOf_append]; rfl
  have hi : ∀ op, Event.invoke a op ∈ coreOf (p ++ x) → op = .pop := fun op ho =>
    h.core.invoke_unique (by rw [hc]; exact List.mem_append_left _ ho) (mem_coreOf.2 (by rw [htr]; exact List.mem_append_right _ h1))
  have he := h.core.evOk hc
  have hemp : r = .empty := by
    obtain ⟨_, _, h6⟩ := he
    cases r with
    | empty => rfl
    | popped => exact absurd rfl h3
    | closed => exact absurd rfl h4
    | pushed | panicked => cases hi _ h6.2
    | full => cases hi _ h6.2.2.1
    | len n => cases hi _ h6.2.2.1
    | closeRet b => rcases h6 with h6 | h6 <;> cases hi _ h6.1
    | crash => exact h6.2.2.elim
  subst hemp
  obtain ⟨_, _, _, _, _, hmid⟩ := he
  obtain ⟨mid, h5, h6, h7⟩ := hmid trivial
  obtain ⟨l1, l2, h8, h9⟩ := coreOf_prefix h5
  have hnp : ∀ op, Event.invoke a op ∉ coreOf p := by
    intro op hop
    obtain ⟨u, v, huv⟩ := List.append_of_mem h1
    have := h.core.evOk (pre := coreOf (p ++ u)) (e := .invoke a .pop) (post := coreOf v) (by
      rw [htr, huv, ← List.append_assoc, coreOf_append]; rfl)
    exact this.1 ⟨op, by rw [coreOf_append]; exact List.mem_append_left _ hop⟩
  rcases List.append_eq_append_iff.1 h8 with ⟨q, h10, h11⟩ | ⟨q, h10, h11⟩
  · exact ⟨q, l2 ++ .core (.ret a .empty) :: y, by rw [hxy, h11]; simp, by rw [← h10, h9]; exact h7.imp_left And.left⟩
  · obtain ⟨op, hop⟩ := h6
    rw [← h9] at hop
    exact absurd (by rw [h10, coreOf_append]; exact List.mem_append_left _ hop) (hnp op)

/-- A message that was not there and is there now was sent in between. -/
theorem Run.sent_between (h : Run c tr s) {p m : Trace V W} (htr : tr = p ++ m) (he : IsEmpty (coreOf p) ∨ OldestUncommitted (coreOf p))
    (ho : OldestSent tr) : ∃ a i v, .core (.commit a i v) ∈ m := by
  obtain ⟨a, ha, hac⟩ := ho
  have hpre : coreOf tr = coreOf p ++ coreOf m := by rw [htr, coreOf_append]
  have hle : nDeq (coreOf p) ≤ nDeq (coreOf tr) := by
    rw [hpre]; simp only [nDeq, deqOps_append, List.length_append]; omega
  obtain ⟨b, hb, hbc⟩ : ∃ b, (resOps (coreOf tr))[nDeq (coreOf p)]? = some b ∧ Committed (coreOf tr) b := by
    rcases Nat.lt_or_eq_of_le hle with hlt | heq
    · have hn : nDeq (coreOf tr) < (resOps (coreOf tr)).length := (List.getElem?_eq_some_iff.1 ha).1
      have hb := List.getElem?_eq_getElem (l := resOps (coreOf tr)) (i := nDeq (coreOf p)) (by omega)
      exact ⟨_, hb, h.core.dequeued_committed (List.prefix_refl _) hb hlt⟩
    · exact ⟨a, by rw [heq]; exact ha, hac⟩
  have hnc : ¬ Committed (coreOf p) b := by
    rcases he with he | ⟨b', hb', hn⟩
    · rintro ⟨i, v, hbp⟩
      obtain ⟨x, y, hxy⟩ := List.append_of_mem hbp
      obtain ⟨⟨j, _, hj⟩, _⟩ := h.core.evOk (pre := x) (e := .commit b i v) (post := y ++ coreOf m) (by rw [hpre, hxy]; simp)
      have h1 : (resOps (coreOf p))[j]? = some b := getElem?_prefix (resOps_prefix ⟨_, hxy.symm⟩) hj.res
      have h2 : (resOps (coreOf tr))[j]? = some b := getElem?_prefix (resOps_prefix ⟨_, hpre.symm⟩) h1
      have h3 : j < nDeq (coreOf p) := by rw [← he]; exact (List.getElem?_eq_some_iff.1 h1).1
      have h4 := (List.getElem?_inj (List.getElem?_eq_some_iff.1 h2).1 h.core.nodup_res).1 (h2.trans hb.symm)
      omega
    · have := getElem?_prefix (resOps_prefix ⟨_, hpre.symm⟩) hb'
      rw [this] at hb; cases hb; exact hn
  obtain ⟨i, v, hx⟩ := hbc
  refine ⟨b, i, v, ?_⟩
  rw [htr] at hx
  have := mem_coreOf.1 hx
  rcases List.mem_append.1 this with h1 | h1
  · exact absurd ⟨i, v, mem_coreOf.2 h1⟩ hnc
  · exact h1

/-- A receiver whose last poll returned `Pending` has been woken if the oldest message has been sent. -/
theorem Run.rx_woken (h : Run c tr s) {v : W} {post : Trace V W} (hs : Since tr v post) (hp : .api (.retPoll .pending) ∈ post)
    (hd : ∀ b, .api (.dropRx b) ∉ tr) (hq : ∀ k, ¬ SendEnding tr k) (hq' : ¬ LastTxEnding tr) (ho : OldestSent tr) :
    ∃ d, .cell (.wake d v) ∈ post := by
  obtain ⟨hrx, m2, a, r, hr, h1, h2, h3, h4⟩ := h.exec.pending hs hp hd
  have hr' := hr
  obtain ⟨m1, o, h5, _⟩ := hr'
  obtain ⟨-, rfl⟩ := hs.uniq h5
  obtain ⟨⟨pre, h6⟩, _⟩ := h5
  obtain ⟨q, l, h7, h8⟩ := h.none_then (p := pre ++ .api (.callPoll v) :: m1 ++ [.cell (.retWait o .wait)]) (m := m2)
    (by rw [h6]; simp) h1 h2 h3 h4
  obtain ⟨b, i, x, h9⟩ := h.sent_between (m := l) (by rw [h6, h7]; simp) h8 ho
  obtain ⟨y, z, hyz⟩ := List.append_of_mem h9
  obtain ⟨k, s0, post', h10, h11, rfl⟩ := h.exec.commit_at (post := z)
    (show tr = (pre ++ .api (.callPoll v) :: m1 ++ [.cell (.retWait o .wait)] ++ q ++ y) ++ .core (.commit b i x) :: z by
      rw [h6, h7, hyz]; simp)
  rcases h.exec.drop_notifies (post := post') (k := k)
    (show tr = (pre ++ .api (.callPoll v) :: m1 ++ [.cell (.retWait o .wait)] ++ q ++ y ++ [.core (.commit b i x)]) ++ .api (.dropSend k) :: post' by
      rw [h6, h7, hyz]; simp) with h12 | ⟨o', h12⟩
  · exact absurd (h.exec.sendEnding (.inl h12)) (hq k)
  · obtain ⟨d, hd⟩ := h.exec.woken hr (h.exec.quiescent hq hq' hrx) (o := o') (b := false) (by rw [h7, hyz]; simp [h12])
    exact ⟨d, by simp [hd]⟩

end Thingbuf.Chan
