import Verif.ChanRun

/-!
# Closing the channel: history

What the events so far say about the drop of the `Receiver` and of the last `Sender`.
-/

namespace Thingbuf.Chan

variable {w : Nat} {V W : Type} {c : Config W} {tr : Trace V W} {s : State w V W}

/-- The `Receiver`'s drop has begun; `pan`: while its thread was panicking. -/
def RxDrop (tr : Trace V W) (pan : Bool) : Prop := .api (.dropRx pan) ∈ tr ∧ ∀ p, .api (.dropRx p) ∈ tr → p = pan

/-- The events of the drop of the `Receiver`, by its control state. -/
def RxHist (tr : Trace V W) : RPC W → Prop
  | .toClose pan => RxDrop tr pan
  | .closing a => ∃ pan, RxDrop tr pan ∧ .core (.invoke a (.close pan)) ∈ tr
  | .toQClose => ∃ pan a, RxDrop tr pan ∧ .core (.invoke a (.close pan)) ∈ tr ∧ .core (.ret a (.closeRet true)) ∈ tr
  | .qclose o => ∃ pan a, RxDrop tr pan ∧ .core (.invoke a (.close pan)) ∈ tr ∧ .core (.ret a (.closeRet true)) ∈ tr ∧
      .queue (.callClose o) ∈ tr
  | .gone => ∃ pan a b, RxDrop tr pan ∧ .core (.invoke a (.close pan)) ∈ tr ∧ .core (.ret a (.closeRet b)) ∈ tr ∧
      (b = true → ∃ o, .queue (.callClose o) ∈ tr)
  | _ => ∀ p, .api (.dropRx p) ∉ tr

theorem RxDrop.mono {evs : Trace V W} {pan : Bool} (h : RxDrop tr pan) (hn : ∀ p, .api (.dropRx p) ∉ evs) : RxDrop (tr ++ evs) pan :=
  ⟨List.mem_append_left _ h.1, fun p hp => h.2 p ((List.mem_append.1 hp).resolve_right (hn p))⟩

theorem RxHist.mono {evs : Trace V W} {p : RPC W} (h : RxHist tr p) (hn : ∀ p, .api (.dropRx p) ∉ evs) : RxHist (tr ++ evs) p := by
  cases p <;> simp only [RxHist] at h ⊢
  case toClose => exact h.mono hn
  case closing => obtain ⟨pan, h1, h2⟩ := h; exact ⟨pan, h1.mono hn, by simp [h2]⟩
  case toQClose => obtain ⟨pan, a, h1, h2, h3⟩ := h; exact ⟨pan, a, h1.mono hn, by simp [h2], by simp [h3]⟩
  case qclose => obtain ⟨pan, a, h1, h2, h3, h4⟩ := h; exact ⟨pan, a, h1.mono hn, by simp [h2], by simp [h3], by simp [h4]⟩
  case gone =>
    obtain ⟨pan, a, b, h1, h2, h3, h4⟩ := h
    refine ⟨pan, a, b, h1.mono hn, by simp [h2], by simp [h3], fun hb => ?_⟩
    obtain ⟨o, ho⟩ := h4 hb
    exact ⟨o, by simp [ho]⟩
  all_goals exact fun p hp => (List.mem_append.1 hp).elim (h p) (hn p)

structure RxInv (s : State w V W) (tr : Trace V W) : Prop where
  hist : RxHist tr s.rx
  call : ∀ o, .queue (.callClose o) ∈ tr → ∃ pan, .api (.dropRx pan) ∈ tr
  gone : .api .rxDropped ∈ tr → s.rx = .gone

theorem RxInv.next {t : State w V W} {evs : Trace V W} (h : RxInv s tr) (hh : RxHist (tr ++ evs) t.rx)
    (hc : (∀ o, .queue (.callClose o) ∉ evs) ∨ ∃ pan, .api (.dropRx pan) ∈ tr)
    (hg : t.rx = .gone ∨ (.api .rxDropped ∉ evs ∧ (s.rx = .gone → t.rx = .gone))) : RxInv t (tr ++ evs) where
  hist := hh
  call o ho := by
    rcases List.mem_append.1 ho with ho | ho
    · obtain ⟨pan, hp⟩ := h.call o ho; exact ⟨pan, by simp [hp]⟩
    · rcases hc with hc | ⟨pan, hp⟩
      · exact absurd ho (hc o)
      · exact ⟨pan, by simp [hp]⟩
  gone ho := by
    rcases hg with hg | hg
    · exact hg
    · exact hg.2 (h.gone ((List.mem_append.1 ho).resolve_right hg.1))

theorem ExecM.rxInv {m : Bool} (h : ExecM m c tr s) : RxInv s tr := by
  refine ExecM.ind (P := fun tr s => RxInv s tr) ?_ (fun _ _ _ _ _ ih _ => ⟨ih.hist, ih.call, ih.gone⟩) (fun _ _ _ _ _ ih _ _ => ⟨ih.hist, ih.call, ih.gone⟩) ?_ ?_ ?_ ?_ tr s h
  · exact ⟨by simp [State.init, RxHist], by simp, by simp⟩
  · intro tr s t e he ih hm
    have h0 := ih.hist
    cases hm
    case poll p v hp =>
      rw [hp] at h0
      exact ih.next (RxHist.mono (p := .toPop v) h0 (by simp)) (.inl (by simp)) (.inr ⟨by simp, by simp [hp]⟩)
    case dropRx p pan hp hr =>
      rw [hp] at h0
      refine ih.next (show RxDrop _ _ from ⟨by simp, ?_⟩) (.inl (by simp)) (.inr ⟨by simp, by simp [hp]⟩)
      intro q hq
      simpa using (List.mem_append.1 hq).resolve_left (h0 q)
    all_goals exact ih.next (h0.mono (by simp)) (.inl (by simp)) (.inr ⟨by simp, fun h => h⟩)
  · intro tr s act s1 evs r t es he ih h1 hr hm
    have h0 := ih.hist
    have hev := core_evs h1
    have ho := he.coreOwns
    cases hm
    case rxClose pan o hp =>
      rw [hp] at h0
      have : .invoke o (.close pan) ∈ evs := (hev.inv _ _).2 rfl
      exact ih.next (show ∃ _, _ from ⟨pan, RxDrop.mono h0 (by simp), by simp [this]⟩) (.inl (by simp)) (.inr ⟨by simp, by simp [hp]⟩)
    case rxClosed a hp =>
      rw [hp] at h0
      obtain ⟨pan, h2, h3⟩ := h0
      have : .ret a (.closeRet true) ∈ evs := hev.ret' _ hr
      exact ih.next (show ∃ _, _ from ⟨pan, a, h2.mono (by simp), by simp [h3], by simp [this]⟩) (.inl (by simp)) (.inr ⟨by simp, by simp [hp]⟩)
    case rxSkip a r hp hn =>
      obtain ⟨b, hb⟩ := ret_close h1 (ho.sat .rx a .close (by simp [coreClaim, claimOf, hp, rxCore]))
      rw [hp] at h0
      obtain ⟨pan, h2, h3⟩ := h0
      have : .ret a (.closeRet b) ∈ evs := hev.ret' _ hb
      rw [hr] at hb; cases hb
      refine ih.next (show ∃ _, _ from ⟨pan, a, b, h2.mono (by simp), by simp [h3], by simp [this], ?_⟩) (.inl (by simp)) (.inl rfl)
      rintro rfl
      exact absurd rfl hn
    all_goals first
      | exact ih.next (h0.mono (by simp)) (.inl (by simp)) (.inr ⟨by simp, fun h => h⟩)
      | (rename_i hp; rw [hp] at h0
         exact ih.next (RxHist.mono (p := .tryPop _ _) h0 (by simp)) (.inl (by simp)) (.inr ⟨by simp, by simp [hp]⟩))
      | (rename_i hp; rw [hp] at h0
         exact ih.next (RxHist.mono (p := .idle _) h0 (by simp)) (.inl (by simp)) (.inr ⟨by simp, by simp [hp]⟩))
      | (rename_i hp; rw [hp] at h0
         exact ih.next (RxHist.mono (p := .pop _ _) h0 (by simp)) (.inl (by simp)) (.inr ⟨by simp, by simp [hp]⟩))
      | (rename_i hp; rw [hp] at h0
         exact ih.next (RxHist.mono (p := .pop2 _ _) h0 (by simp)) (.inl (by simp)) (.inr ⟨by simp, by simp [hp]⟩))
      | (rename_i hp; rw [hp] at h0
         exact ih.next (RxHist.mono (p := .last _) h0 (by simp)) (.inl (by simp)) (.inr ⟨by simp, by simp [hp]⟩))
      | (rename_i hp _ _; rw [hp] at h0
         exact ih.next (RxHist.mono (p := .idle _) h0 (by simp)) (.inl (by simp)) (.inr ⟨by simp, by simp [hp]⟩))
      | (rename_i hp _; rw [hp] at h0
         exact ih.next (RxHist.mono (p := .idle _) h0 (by simp)) (.inl (by simp)) (.inr ⟨by simp, by simp [hp]⟩))
      | (rename_i hp _ _; rw [hp] at h0
         exact ih.next (RxHist.mono (p := .toWait _) h0 (by simp)) (.inl (by simp)) (.inr ⟨by simp, by simp [hp]⟩))
  · intro tr s act s1 evs t es he ih h1 hm
    have h0 := ih.hist
    cases hm
    case wait v o hp =>
      rw [hp] at h0
      exact ih.next (RxHist.mono (p := .wait o v) h0 (by simp)) (.inl (by simp)) (.inr ⟨by simp, by simp [hp]⟩)
    case waitWait o v hp _ =>
      rw [hp] at h0
      exact ih.next (RxHist.mono (p := .toPop2 v) h0 (by simp)) (.inl (by simp)) (.inr ⟨by simp, by simp [hp]⟩)
    case waitClosed o v hp _ =>
      rw [hp] at h0
      exact ih.next (RxHist.mono (p := .toLast) h0 (by simp)) (.inl (by simp)) (.inr ⟨by simp, by simp [hp]⟩)
    case waitNotified o v hp _ =>
      rw [hp] at h0
      exact ih.next (RxHist.mono (p := .toPop v) h0 (by simp)) (.inl (by simp)) (.inr ⟨by simp, by simp [hp]⟩)
    case waitPanic o v hp _ =>
      rw [hp] at h0
      exact ih.next (RxHist.mono (p := .idle none) h0 (by simp)) (.inl (by simp)) (.inr ⟨by simp, by simp [hp]⟩)
    all_goals exact ih.next (h0.mono (by simp)) (.inl (by simp)) (.inr ⟨by simp, fun h => h⟩)
  · intro tr s act s1 evs t es he ih h1 hm
    have h0 := ih.hist
    have hev := queue_evs h1
    cases hm
    case close o hp =>
      rw [hp] at h0
      obtain ⟨pan, a, h2, h3, h4⟩ := h0
      have : .callClose o ∈ evs := (hev.close o).2 rfl
      exact ih.next (show ∃ _, _ from ⟨pan, a, h2.mono (by simp), by simp [h3], by simp [h4], by simp [this]⟩) (.inr ⟨pan, h2.1⟩)
        (.inr ⟨by simp, by simp [hp]⟩)
    case closeEnd o spur hp _ =>
      rw [hp] at h0
      obtain ⟨pan, a, h2, h3, h4, h5⟩ := h0
      exact ih.next (show ∃ _, _ from ⟨pan, a, true, h2.mono (by simp), by simp [h3], by simp [h4], fun _ => ⟨o, by simp [h5]⟩⟩)
        (.inr ⟨pan, h2.1⟩) (.inl rfl)
    all_goals exact ih.next (h0.mono (by simp)) (.inl (by simp [hev.close])) (.inr ⟨by simp, fun h => h⟩)

/-! ### The last `Sender` -/

theorem LastDrop.mono {pan : Bool} (h : LastDrop tr pan) (evs : Trace V W) : LastDrop (tr ++ evs) pan := by
  obtain ⟨pre, x, post, rfl, h1⟩ := h
  exact ⟨pre, x, post ++ evs, by simp, h1⟩

theorem LastDrop.of_append {evs : Trace V W} {pan : Bool} (h : LastDrop (tr ++ evs) pan) (hn : ∀ x p, .api (.dropTx x p) ∉ evs) :
    LastDrop tr pan := by
  obtain ⟨pre, x, post, h0, h1⟩ := h
  rcases List.append_eq_append_iff.1 h0 with ⟨l, h2, h3⟩ | ⟨l, h2, h3⟩
  · exact absurd (by rw [h3]; simp) (hn x pan)
  · cases l with
    | nil => simp only [List.nil_append] at h3; exact absurd (by rw [← h3]; simp) (hn x pan)
    | cons e l =>
      simp only [List.cons_append, List.cons.injEq] at h3
      exact ⟨pre, x, l, by rw [h2, h3.1], h1⟩

/-- The drop of the last `Sender` has begun, `pan`: while its thread was panicking. -/
def TxDrop (tr : Trace V W) (pan : Bool) : Prop := LastDrop tr pan ∧ ∀ p, LastDrop tr p → p = pan

theorem TxDrop.mono {evs : Trace V W} {pan : Bool} (h : TxDrop tr pan) (hn : ∀ x p, .api (.dropTx x p) ∉ evs) : TxDrop (tr ++ evs) pan :=
  ⟨h.1.mono _, fun p hp => h.2 p (hp.of_append hn)⟩

/-- The calls of `core.close()` are those of the receiver, and `a`. -/
def CloseOnly (tr : Trace V W) (a : Option OpId) : Prop :=
  ∀ a' p, .core (.invoke a' (.close p)) ∈ tr → some a' = a ∨ .api (.dropRx p) ∈ tr

/-- The events of the drop of the last `Sender`, by its control state. -/
def ClHist (blocking : Bool) (tr : Trace V W) : CPC → Prop
  | .none => (∀ p, ¬ LastDrop tr p) ∧ CloseOnly tr none
  | .toClose pan => TxDrop tr pan ∧ CloseOnly tr none
  | .closing a => ∃ pan, TxDrop tr pan ∧ CloseOnly tr (some a) ∧ .core (.invoke a (.close pan)) ∈ tr
  | .toCloseTx => ∃ pan a b, TxDrop tr pan ∧ CloseOnly tr (some a) ∧ .core (.invoke a (.close pan)) ∈ tr ∧
      .core (.ret a (.closeRet b)) ∈ tr ∧ (b = true ∨ blocking = false)
  | .closeTx o => ∃ pan a b, TxDrop tr pan ∧ CloseOnly tr (some a) ∧ .core (.invoke a (.close pan)) ∈ tr ∧
      .core (.ret a (.closeRet b)) ∈ tr ∧ (b = true ∨ blocking = false) ∧ .cell (.callNotify o true) ∈ tr
  | .done => ∃ pan a b, TxDrop tr pan ∧ CloseOnly tr (some a) ∧ .core (.invoke a (.close pan)) ∈ tr ∧
      .core (.ret a (.closeRet b)) ∈ tr ∧ ((b = true ∨ blocking = false) → ∃ o, .cell (.callNotify o true) ∈ tr)

theorem CloseOnly.mono {evs : Trace V W} {a : Option OpId} (h : CloseOnly tr a)
    (hc : ∀ a p, .core (.invoke a (.close p)) ∈ evs → .api (.dropRx p) ∈ tr) : CloseOnly (tr ++ evs) a := by
  intro a' p hp
  rcases List.mem_append.1 hp with hp | hp
  · exact (h a' p hp).imp id (List.mem_append_left _)
  · exact .inr (List.mem_append_left _ (hc a' p hp))

theorem ClHist.mono {b : Bool} {evs : Trace V W} {p : CPC} (h : ClHist b tr p) (hn : ∀ x p, .api (.dropTx x p) ∉ evs)
    (hc : ∀ a p, .core (.invoke a (.close p)) ∈ evs → .api (.dropRx p) ∈ tr) : ClHist b (tr ++ evs) p := by
  cases p <;> simp only [ClHist] at h ⊢
  case none => exact ⟨fun p hp => h.1 p (hp.of_append hn), h.2.mono hc⟩
  case toClose => exact ⟨h.1.mono hn, h.2.mono hc⟩
  case closing => obtain ⟨pan, h1, h2, h3⟩ := h; exact ⟨pan, h1.mono hn, h2.mono hc, by simp [h3]⟩
  case toCloseTx =>
    obtain ⟨pan, a, b, h1, h2, h3, h4, h5⟩ := h
    exact ⟨pan, a, b, h1.mono hn, h2.mono hc, by simp [h3], by simp [h4], h5⟩
  case closeTx =>
    obtain ⟨pan, a, b, h1, h2, h3, h4, h5, h6⟩ := h
    exact ⟨pan, a, b, h1.mono hn, h2.mono hc, by simp [h3], by simp [h4], h5, by simp [h6]⟩
  case done =>
    obtain ⟨pan, a, b, h1, h2, h3, h4, h5⟩ := h
    refine ⟨pan, a, b, h1.mono hn, h2.mono hc, by simp [h3], by simp [h4], fun hb => ?_⟩
    obtain ⟨o, ho⟩ := h5 hb
    exact ⟨o, by simp [ho]⟩

structure ClInv (b : Bool) (s : State w V W) (tr : Trace V W) : Prop where
  hist : ClHist b tr s.closer
  call : ∀ o, .cell (.callNotify o true) ∈ tr → ∃ pan, LastDrop tr pan
  fin : .api .lastTxDropped ∈ tr → s.closer = .done

theorem ClInv.next {b : Bool} {t : State w V W} {evs : Trace V W} (h : ClInv b s tr) (hh : ClHist b (tr ++ evs) t.closer)
    (hc : (∀ o, .cell (.callNotify o true) ∉ evs) ∨ ∃ pan, LastDrop tr pan)
    (hg : t.closer = .done ∨ (.api .lastTxDropped ∉ evs ∧ (s.closer = .done → t.closer = .done))) : ClInv b t (tr ++ evs) where
  hist := hh
  call o ho := by
    rcases List.mem_append.1 ho with ho | ho
    · obtain ⟨pan, hp⟩ := h.call o ho; exact ⟨pan, hp.mono _⟩
    · rcases hc with hc | ⟨pan, hp⟩
      · exact absurd ho (hc o)
      · exact ⟨pan, hp.mono _⟩
  fin ho := by
    rcases hg with hg | hg
    · exact hg
    · exact hg.2 (h.fin ((List.mem_append.1 ho).resolve_right hg.1))

theorem senders_append (tr evs : Trace V W) : senders (tr ++ evs) = evs.foldl sendersStep (senders tr) := by
  simp [senders]

theorem ExecM.clInv {m : Bool} (h : ExecM m c tr s) : ClInv c.blocking s tr := by
  refine ExecM.ind (P := fun tr s => ClInv c.blocking s tr) ?_ (fun _ _ _ _ _ ih _ => ⟨ih.hist, ih.call, ih.fin⟩) (fun _ _ _ _ _ ih _ _ => ⟨ih.hist, ih.call, ih.fin⟩) ?_ ?_ ?_ ?_ tr s h
  · exact ⟨⟨by simp [LastDrop], by simp [CloseOnly]⟩, by simp, by simp⟩
  · intro tr s t e he ih hm
    have h0 := ih.hist
    have hi := he.hinv
    have hs := he.senders
    cases hm
    case dropTx x pan h1 h2 h3 =>
      have hp : s.closer = .none := hi.closer.2 (by rintro e; rw [e] at h1; simp at h1)
      rw [hp] at h0
      suffices ∀ p, ¬ LastDrop (tr ++ [.api (.dropTx x pan)]) p from
        ih.next (by show ClHist _ _ s.closer; rw [hp]; exact ⟨this, h0.2.mono (by simp)⟩) (.inl (by simp)) (.inr ⟨by simp, fun h => h⟩)
      rintro p ⟨pre, y, post, h4, h5⟩
      rcases List.eq_nil_or_concat post with rfl | ⟨l, e, rfl⟩
      · obtain ⟨rfl, h7⟩ := List.append_inj' h4 rfl
        cases h7
        rw [senders_append, hs] at h5
        simp only [List.foldl, sendersStep] at h5
        have h6 := hi.count
        have := congrArg List.length h5
        rw [List.length_erase_of_mem h1] at this
        simp at this
        omega
      · rw [show pre ++ Ev.api (.dropTx y p) :: (l.concat e) = (pre ++ Ev.api (.dropTx y p) :: l) ++ [e] by simp] at h4
        obtain ⟨rfl, -⟩ := List.append_inj' h4 rfl
        exact h0.1 p ⟨pre, y, l, rfl, h5⟩
    case dropLast x pan h1 h2 h3 =>
      have hp : s.closer = .none := hi.closer.2 (by rintro e; rw [e] at h1; simp at h1)
      rw [hp] at h0
      have hl : LastDrop (tr ++ [.api (.dropTx x pan)]) pan := by
        refine ⟨tr, x, [], rfl, ?_⟩
        rw [senders_append, hs]
        simp only [List.foldl, sendersStep]
        refine List.eq_nil_of_length_eq_zero ?_
        rw [List.length_erase_of_mem h1]
        have h6 := hi.count
        omega
      refine ih.next (show TxDrop _ _ ∧ _ from ⟨⟨hl, ?_⟩, h0.2.mono (by simp)⟩) (.inl (by simp)) (.inr ⟨by simp, by simp [hp]⟩)
      rintro p ⟨pre, y, post, h4, h5⟩
      rcases List.eq_nil_or_concat post with rfl | ⟨l, e, rfl⟩
      · obtain ⟨rfl, h7⟩ := List.append_inj' h4 rfl
        cases h7; rfl
      · rw [show pre ++ Ev.api (.dropTx y p) :: (l.concat e) = (pre ++ Ev.api (.dropTx y p) :: l) ++ [e] by simp] at h4
        obtain ⟨rfl, -⟩ := List.append_inj' h4 rfl
        exact absurd ⟨pre, y, l, rfl, h5⟩ (h0.1 p)
    all_goals exact ih.next (h0.mono (by simp) (by simp)) (.inl (by simp)) (.inr ⟨by simp, fun h => h⟩)
  · intro tr s act s1 evs r t es he ih h1 hr hm
    have h0 := ih.hist
    have hev := core_evs h1
    have ho := he.coreOwns
    have hrx := he.rxInv.hist
    cases hm
    case cCall pan o hp =>
      rw [hp] at h0
      have : .invoke o (.close pan) ∈ evs := (hev.inv _ _).2 rfl
      refine ih.next (show ∃ _, _ from ⟨pan, h0.1.mono (by simp), ?_, by simp [this]⟩) (.inl (by simp)) (.inr ⟨by simp, by simp [hp]⟩)
      intro a p ha
      rcases List.mem_append.1 ha with ha | ha
      · rcases h0.2 a p ha with hx | hx
        · cases hx
        · exact .inr (by simp [hx])
      · simp [hev.inv] at ha
        exact .inl (by rw [ha.1])
    case cNext a r hp hb =>
      obtain ⟨b, hb'⟩ := ret_close h1 (ho.sat .closer a .close (by simp [coreClaim, claimOf, hp, closerCore]))
      rw [hp] at h0
      obtain ⟨pan, h2, h3, h4⟩ := h0
      have : .ret a (.closeRet b) ∈ evs := hev.ret' _ hb'
      rw [hr] at hb'; cases hb'
      exact ih.next (show ∃ _, _ from ⟨pan, a, b, h2.mono (by simp), h3.mono (by simp [hev.inv]), by simp [h4], by simp [this], by simpa using hb⟩)
        (.inl (by simp)) (.inr ⟨by simp, by simp [hp]⟩)
    case cSkip a r hp hn hb =>
      obtain ⟨b, hb'⟩ := ret_close h1 (ho.sat .closer a .close (by simp [coreClaim, claimOf, hp, closerCore]))
      rw [hp] at h0
      obtain ⟨pan, h2, h3, h4⟩ := h0
      have : .ret a (.closeRet b) ∈ evs := hev.ret' _ hb'
      rw [hr] at hb'; cases hb'
      refine ih.next (show ∃ _, _ from ⟨pan, a, b, h2.mono (by simp), h3.mono (by simp [hev.inv]), by simp [h4], by simp [this], ?_⟩)
        (.inl (by simp)) (.inl rfl)
      rintro (rfl | h)
      · exact absurd rfl hn
      · rw [hb] at h; cases h
    case rxClose pan o hp =>
      rw [hp] at hrx
      refine ih.next (h0.mono (by simp) ?_) (.inl (by simp)) (.inr ⟨by simp, fun h => h⟩)
      intro a p ha
      simp [hev.inv] at ha
      rw [← ha.2]; exact hrx.1
    all_goals exact ih.next (h0.mono (by simp) (by simp [hev.inv])) (.inl (by simp)) (.inr ⟨by simp, fun h => h⟩)
  · intro tr s act s1 evs t es he ih h1 hm
    have h0 := ih.hist
    have hev := cell_evs h1 hm.not_panic
    cases hm
    case cCall o hp =>
      rw [hp] at h0
      obtain ⟨pan, a, b, h2, h3, h4, h5, h6⟩ := h0
      have : .callNotify o true ∈ evs := (hev.notify o true).2 rfl
      exact ih.next (show ∃ _, _ from ⟨pan, a, b, h2.mono (by simp), h3.mono (by simp), by simp [h4], by simp [h5], h6, by simp [this]⟩)
        (.inr ⟨pan, h2.1⟩) (.inr ⟨by simp, by simp [hp]⟩)
    case cEnd o hp _ =>
      rw [hp] at h0
      obtain ⟨pan, a, b, h2, h3, h4, h5, h6, h7⟩ := h0
      exact ih.next (show ∃ _, _ from ⟨pan, a, b, h2.mono (by simp), h3.mono (by simp), by simp [h4], by simp [h5], fun _ => ⟨o, by simp [h7]⟩⟩)
        (.inr ⟨pan, h2.1⟩) (.inl rfl)
    all_goals exact ih.next (h0.mono (by simp) (by simp)) (.inl (by simp [hev.notify])) (.inr ⟨by simp, fun h => h⟩)
  · intro tr s act s1 evs t es he ih h1 hm
    have h0 := ih.hist
    cases hm
    all_goals exact ih.next (h0.mono (by simp) (by simp)) (.inl (by simp)) (.inr ⟨by simp, fun h => h⟩)

end Thingbuf.Chan
