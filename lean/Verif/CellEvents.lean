import Verif.CellHist

/-!
# Facts about each event of a wait cell
-/

namespace Thingbuf.Cell

variable {W : Type} {c : Config} {m : Prop}

/-! ### The closed bit -/

structure ClosedInv (m : Prop) (tr : Trace W) (s : State W) : Prop where
  bit : contains s.lock TX_CLOSED = true ↔ ∃ b, .signal b true ∈ tr
  waking : ∀ a prev q t, s.pc a = .waitWake prev q t true → ∃ b, .signal b true ∈ tr
  late : m → ∀ a b, Before tr (.signal b true) (.callWait a) → s.pc a = .waitStart ∨ s.pc a = .done

theorem contains_or_signal (l : Bits) (x : Bool) :
    contains (l ||| (NOTIFYING ||| (if x then TX_CLOSED else WAITING))) TX_CLOSED = (contains l TX_CLOSED || x) := by
  revert l x; decide

theorem contains_and_closed (l : Bits) : contains (l &&& TX_CLOSED) TX_CLOSED = contains l TX_CLOSED := by
  revert l; decide

theorem contains_clear (l : Bits) : contains (l &&& ~~~NOTIFYING) TX_CLOSED = contains l TX_CLOSED := by
  revert l; decide

theorem ClosedInv.tr {tr : Trace W} {s : State W} {a : OpId} {p : PC W} {l : Bits} {w : Option W}
    {evs : Trace W} (hcalled : ∀ d, s.pc d ≠ .idle ↔ Called tr d)
    (h : ClosedInv m tr s) (ht : Tr m c s a p l w evs) : ClosedInv m (tr ++ evs) (s.after a p l w) := by
  have hbit : contains l TX_CLOSED = true ↔ ∃ b, .signal b true ∈ tr ++ evs := by
    have hb := h.bit
    cases ht
    case signalOwn x hp hl =>
      rw [contains_or_signal, Bool.or_eq_true, hb]
      cases x <;> simp
    case signalOther x hp hl =>
      rw [contains_or_signal, Bool.or_eq_true, hb]
      cases x <;> simp
    case reset hp => rw [contains_and_closed, hb]; simp
    case resetAssert hp _ _ => rw [contains_and_closed, hb]; simp
    case nClear hp => rw [contains_clear, hb]; simp
    case lock hp hl => rw [hl] at hb; simpa [contains, WAITING, PARKING, TX_CLOSED] using hb
    case unlockPanicked hp hl => rw [hl] at hb; simpa [contains, WAITING, PARKING, TX_CLOSED] using hb
    case unlockReg hp hl hw => rw [hl] at hb; simpa [contains, WAITING, PARKING, TX_CLOSED] using hb
    case unlockNone hp hl hw => rw [hl] at hb; simpa [contains, WAITING, PARKING, TX_CLOSED] using hb
    all_goals simpa using hb
  refine ⟨hbit, ?_, ?_⟩
  · intro b prev q t hb
    simp only [State.after] at hb
    split at hb
    · cases ht <;> simp only [reduceCtorEq, PC.waitWake.injEq] at hb
      case reset _ _ _ _ hp =>
        obtain ⟨_, _, _, h4⟩ := hb
        obtain ⟨d, hd⟩ := h.bit.1 h4
        exact ⟨d, by simp [hd]⟩
      case wakePrev u q t cl hp =>
        obtain ⟨rfl, rfl, rfl, rfl⟩ := hb
        obtain ⟨d, hd⟩ := h.waking _ _ _ _ hp
        exact ⟨d, by simp [hd]⟩
      case wakeTaken q v cl hp hd =>
        obtain ⟨rfl, rfl, rfl, rfl⟩ := hb
        obtain ⟨d, hd⟩ := h.waking _ _ _ _ hp
        exact ⟨d, by simp [hd]⟩
    · obtain ⟨d, hd⟩ := h.waking _ _ _ _ hb
      exact ⟨d, by simp [hd]⟩
  · intro hm b d hbef
    rcases before_append.1 hbef with hold | ⟨hm, hcall⟩ | hnew
    · simp only [State.after]
      split
      · rename_i hba
        subst hba
        rcases h.late hm _ _ hold with hp | hp
        · have hc := h.bit.2 ⟨d, hold.left⟩
          cases ht <;> simp_all
          rename_i hl; simp [contains, WAITING, TX_CLOSED] at hc
        · cases ht <;> simp_all
      · exact h.late hm _ _ hold
    · cases ht <;> simp at hcall
      subst hcall
      simp [State.after]
    · have h1 := hnew.left
      have h2 := hnew.right
      cases ht <;> simp at h1 h2

theorem WExec.closedInv {tr : Trace W} {s : State W} (h : WExec m c tr s) : ClosedInv m tr s := by
  induction h with
  | init =>
    refine ⟨by simp [State.init, contains, WAITING, TX_CLOSED], by simp [State.init], ?_⟩
    rintro - a b ⟨l1, l2, l3, h⟩
    simp at h
  | @step tr s a p l w evs h ht ih =>
    refine ih.tr (fun d => ?_) ht
    rw [ne_eq, h.idle_iff d, Classical.not_not]

/-! ### The waker taken by a notification -/

/-- A notification called after a registration takes the waker of this or of a later registration. -/
def TakenInv (tr : Trace W) (s : State W) : Prop :=
  ∀ d u, (s.pc d = .notifyClear (some u) ∨ s.pc d = .notifyWake (some u)) →
    ∀ pre a v post, tr = pre ++ .register a v :: post → (∃ x, .callNotify d x ∈ post) →
      u = v ∨ ∃ a', .register a' u ∈ post

theorem TakenInv.tr {tr : Trace W} {s : State W} {o : Option OpId} {a : OpId} {p : PC W} {l : Bits} {w : Option W}
    {evs : Trace W} (hl : LockInv s o) (hwk : WakerInv tr s)
    (h : TakenInv tr s) (ht : Tr m c s a p l w evs) : TakenInv (tr ++ evs) (s.after a p l w) := by
  intro d u hd pre b v post htr hcall
  rcases append_split htr with ⟨post', rfl, htr'⟩ | ⟨e1, he, hpre⟩
  · obtain ⟨x, hx⟩ := hcall
    -- the call was made before this step
    have hold : (s.pc d = .notifyClear (some u) ∨ s.pc d = .notifyWake (some u) ∨
        (s.pc d = .notifyTaking ∧ s.waiter = some u)) ∧ .callNotify d x ∈ post' := by
      by_cases hda : d = a
      · subst hda
        simp only [State.after, if_true] at hd
        cases ht <;> simp_all
      · simp only [State.after, hda, if_false] at hd
        refine ⟨by rcases hd with h | h <;> simp [h], ?_⟩
        rcases List.mem_append.1 hx with h | h
        · exact h
        · exact absurd (ht.op _ h) hda
    obtain ⟨hp, hx'⟩ := hold
    have : u = v ∨ ∃ a', .register a' u ∈ post' := by
      rcases hp with hp | hp | ⟨hp, hw⟩
      · exact h d u (.inl hp) pre b v post' htr' ⟨x, hx'⟩
      · exact h d u (.inr hp) pre b v post' htr' ⟨x, hx'⟩
      · have hns : ∀ e, storing (s.pc e) = false := by
          intro e
          cases hh : storing (s.pc e)
          · rfl
          · have h1 := hl.uniq e (storing_owns hh)
            have h2 := hl.uniq d (by simp [hp, owns])
            rw [h1] at h2; cases h2
            simp [hp, storing] at hh
        obtain ⟨pre2, a2, post2, h2, h3⟩ := hwk.last hns u hw
        rw [htr'] at h2
        rcases List.append_eq_append_iff.1 h2 with ⟨m, h4, h5⟩ | ⟨m, h4, h5⟩
        · cases m with
          | nil => simp at h5; exact .inl h5.1.2.symm
          | cons y m =>
            simp only [List.cons_append, List.cons.injEq] at h5
            exact .inr ⟨a2, by simp [h5.2]⟩
        · cases m with
          | nil => simp at h5; exact .inl h5.1.2
          | cons y m =>
            simp only [List.cons_append, List.cons.injEq] at h5
            exact absurd (by simp [h5.2]) (h3 b v)
    rcases this with h | ⟨a', h⟩
    · exact .inl h
    · exact .inr ⟨a', by simp [h]⟩
  · obtain ⟨x, hx⟩ := hcall
    cases ht <;> simp [List.cons_eq_append_iff] at he
    obtain ⟨_, _, rfl⟩ := he
    simp at hx

theorem WExec.takenInv {tr : Trace W} {s : State W} (hstd : c.std = true) (h : WExec m c tr s) : TakenInv tr s := by
  induction h with
  | init => intro d u hd; simp [State.init] at hd
  | @step tr s a p l w evs h ht ih =>
    obtain ⟨o, ho⟩ := h.lockInv hstd
    exact ih.tr ho (h.wakerInv hstd) ht

/-! ### Events -/

/-- What is known when an event happens. -/
def EvOk (pre : Trace W) : Event W → Prop
  | .callWait a => ¬ Called pre a
  | .callNotify a _ => ¬ Called pre a
  | .register a v => .mk a v ∈ pre ∧ .callWait a ∈ pre ∧ ∀ u, .mk a u ∈ pre → u = v
  | .signal a x => .callNotify a x ∈ pre ∧ ∀ x', .callNotify a x' ∈ pre → x' = x
  | .retWait a r => .callWait a ∈ pre ∧ ¬ Returned pre a ∧
      (r = .wait → (∃ pre' v, pre = pre' ++ [.register a v]) ∨ ∃ b, b ≠ a ∧ .callWait b ∈ pre ∧ ¬ Returned pre b) ∧
      (r = .closed → ∃ b, .signal b true ∈ pre) ∧
      (∀ b, Before pre (.signal b true) (.callWait a) → r = .closed)
  | .retNotify a y => (∃ x, .signal a x ∈ pre) ∧ ¬ Returned pre a ∧ (y = true ↔ ∃ v, .wake a v ∈ pre)
  | .assertFailed a => .mkPanic a ∈ pre
  | .wake d u => (∃ x, .callNotify d x ∈ pre) → ∀ l1 a v l2, pre = l1 ++ .register a v :: l2 →
      (∃ x, .callNotify d x ∈ l2) → u = v ∨ ∃ a', .register a' u ∈ l2
  | _ => True

/-- The same when compare-and-swaps that fail may find outdated values, unless `m`. -/
def EvOkW (m : Prop) (pre : Trace W) : Event W → Prop
  | .callWait a => ¬ Called pre a
  | .callNotify a _ => ¬ Called pre a
  | .register a v => .mk a v ∈ pre ∧ .callWait a ∈ pre ∧ ∀ u, .mk a u ∈ pre → u = v
  | .signal a x => .callNotify a x ∈ pre ∧ ∀ x', .callNotify a x' ∈ pre → x' = x
  | .retWait a r => .callWait a ∈ pre ∧ ¬ Returned pre a ∧
      (m → r = .wait → (∃ pre' v, pre = pre' ++ [.register a v]) ∨ ∃ b, b ≠ a ∧ .callWait b ∈ pre ∧ ¬ Returned pre b) ∧
      (r = .closed → ∃ b, .signal b true ∈ pre) ∧
      (m → ∀ b, Before pre (.signal b true) (.callWait a) → r = .closed)
  | .retNotify a y => (∃ x, .signal a x ∈ pre) ∧ ¬ Returned pre a ∧ (y = true ↔ ∃ v, .wake a v ∈ pre)
  | .assertFailed a => .mkPanic a ∈ pre
  | .wake d u => (∃ x, .callNotify d x ∈ pre) → ∀ l1 a v l2, pre = l1 ++ .register a v :: l2 →
      (∃ x, .callNotify d x ∈ l2) → u = v ∨ ∃ a', .register a' u ∈ l2
  | _ => True

theorem WExec.evOk {tr : Trace W} {s : State W} (hstd : c.std = true) (h : WExec m c tr s) : AllOk (EvOkW m) tr := by
  induction h with
  | init => exact .nil
  | @step tr s a p l w evs h ht ih =>
    obtain ⟨o, ho⟩ := h.lockInv hstd
    have hop := h.opOk a
    have hcl := h.closedInv
    have hidle : s.pc a = .idle → ¬ Called tr a := (h.idle_iff a).1
    have mem : ∀ {e : Event W}, e ∈ mine tr a → e ∈ tr := fun hm => (mem_mine.1 hm).1
    have nmem : ∀ {e : Event W}, e.op = a → e ∉ mine tr a → e ∉ tr := fun h1 h2 h3 => h2 (mem_mine.2 ⟨h3, h1⟩)
    have late : m → ∀ b, Before tr (.signal b true) (.callWait a) → s.pc a = .waitStart ∨ s.pc a = .done :=
      fun hm b hb => hcl.late hm a b hb
    have nret : s.pc a ≠ .done → ¬ Returned tr a := fun h1 h2 => h1 ((h.done_iff a).2 h2)
    -- a call that is neither at its start nor done does not follow a close
    have nlate : m → s.pc a ≠ .waitStart → s.pc a ≠ .done → ∀ b, ¬ Before tr (.signal b true) (.callWait a) := by
      intro hm h1 h2 b hb
      rcases late hm b hb with h3 | h3
      · exact h1 h3
      · exact h2 h3
    -- appending an event of the call itself other than a call or a signal
    have nlate' : ∀ {evs : Trace W}, (∀ b x, .callWait b ∉ evs ∧ .signal b x ∉ evs) → m →
        s.pc a ≠ .waitStart → s.pc a ≠ .done → ∀ b, ¬ Before (tr ++ evs) (.signal b true) (.callWait a) := by
      intro evs h0 hm h1 h2 b hb
      rcases before_append.1 hb with h3 | ⟨_, h3⟩ | h3
      · exact nlate hm h1 h2 b h3
      · exact (h0 a true).1 h3
      · exact (h0 a true).1 h3.right
    cases ht with
    | callWait hp => exact ih.snoc (hidle hp)
    | callNotify x hp => exact ih.snoc (hidle hp)
    | lock hp hl => simpa using ih
    | startClosed x hp hl hc hm =>
      simp only [hp, OpOk] at hop
      exact ih.snoc ⟨mem hop.1, nret (by simp [hp]), by simp, fun _ => hcl.bit.1 hm, fun _ _ _ => rfl⟩
    | startSelf x hp hl hc hn hm => simpa using ih
    | startAssert x hp hl hc hn hd hne =>
      exfalso
      rcases bits_cases x with h1 | h1 | h1 | h1 | h1 | h1 | h1 | h1 <;>
        simp_all [contains, WAITING, PARKING, NOTIFYING, TX_CLOSED]
    | startWait x hp hl hc hn hm =>
      simp only [hp, OpOk] at hop
      refine ih.snoc ⟨mem hop.1, nret (by simp [hp]), fun hm' _ => .inr ?_, by simp, fun hm' => ?_⟩
      all_goals obtain rfl := hm hm'
      · cases ho' : o with
        | none => rcases ho.free ho' with h1 | h1 | h1 <;> simp_all [contains, WAITING, TX_CLOSED]
        | some d =>
          have hh := ho.held d ho'
          have hopd := h.opOk d
          have hda : d ≠ a := by rintro rfl; simp [hp, lockOk] at hh
          refine ⟨d, hda, ?_⟩
          have hnd : s.pc d ≠ .done := by intro h1; simp [h1, lockOk] at hh
          refine ⟨?_, fun hr => hnd ((h.done_iff d).2 hr)⟩
          cases hpd : s.pc d <;> simp only [hpd, lockOk, decide_eq_true_eq, Bool.false_eq_true] at hh <;>
            simp only [hpd, OpOk] at hopd
          case notifyTake => rcases hh with h1 | h1 <;> simp [h1, contains, TX_CLOSED, NOTIFYING] at hc hn
          case notifyTaking => rcases hh with h1 | h1 <;> simp [h1, contains, TX_CLOSED, NOTIFYING] at hc hn
          case notifyClear => rcases hh with h1 | h1 <;> simp [h1, contains, TX_CLOSED, NOTIFYING] at hc hn
          all_goals exact (mem_mine.1 hopd.1).1
      · intro b hb
        have := hcl.bit.2 ⟨b, hb.left⟩
        rw [hc] at this; cases this
    | mkLocked v hp => exact ih.snoc trivial
    | mkSelf v hp =>
      simp only [hp, OpOk] at hop
      refine ih.append3 trivial ?_ ⟨by simp [mem hop.1], ?_, by simp, by simp, ?_⟩
      · rintro ⟨x, hx⟩
        exact absurd (by simpa using hx) (nmem rfl (hop.2.2.1 x))
      · have := nret (by simp [hp])
        simpa [Returned] using this
      · intro hm b hb
        exact absurd hb (nlate' (by simp) hm (by simp [hp]) (by simp [hp]) b)
    | panicStd hp hs => exact ih.snoc trivial
    | panicNoStd hp hs1 => rw [hstd] at hs1; cases hs1
    | panicSelf hp =>
      simp only [hp, OpOk] at hop
      refine ih.append2 trivial ⟨by simp [mem hop.1], ?_, by simp, by simp, ?_⟩
      · have := nret (by simp [hp])
        simpa [Returned] using this
      · intro hm b hb
        exact absurd hb (nlate' (by simp) hm (by simp [hp]) (by simp [hp]) b)
    | storeBegin v hp => exact ih.snoc trivial
    | storeEnd v hp => exact ih.snoc trivial
    | unlockPanicked prev hp hl =>
      simp only [hp, OpOk] at hop
      exact ih.snoc ⟨mem hop.1, nret (by simp [hp]), by simp, by simp,
        fun hm b hb => absurd hb (nlate hm (by simp [hp]) (by simp [hp]) b)⟩
    | unlockReg prev v hp hl hw =>
      simp only [hp, OpOk] at hop
      obtain ⟨u, hu, hm, huniq⟩ := (h.wakerInv hstd).mine a (by simp [hp, storing])
      rw [hw] at hu; cases hu
      refine ih.append2 ⟨hm, mem hop.1, huniq⟩ ⟨by simp [mem hop.1], ?_, fun _ _ => .inl ⟨tr, v, rfl⟩, by simp, ?_⟩
      · have := nret (by simp [hp])
        simpa [Returned] using this
      · intro hm b hb
        exact absurd hb (nlate' (by simp) hm (by simp [hp]) (by simp [hp]) b)
    | unlockNone prev hp hl hw =>
      obtain ⟨u, hu, _⟩ := (h.wakerInv hstd).mine a (by simp [hp, storing])
      rw [hw] at hu; cases hu
    | unlockFail prev q x hp hl hx => simpa using ih
    | takeBegin prev q x hp => exact ih.snoc trivial
    | takeEnd prev q x hp => exact ih.snoc trivial
    | resetAssert prev q x t hp hd hne =>
      exfalso
      have := ho.held a (ho.uniq a (by simp [hp, owns]))
      simp only [hp, lockOk, decide_eq_true_eq] at this
      rcases this with ⟨h1, h2⟩ | ⟨h1, h2 | h2⟩ <;> simp [h1, h2, TX_CLOSED] at hne
    | reset prev q x t hp => simpa using ih
    | wakePrev u q t cl hp =>
      simp only [hp, OpOk] at hop
      refine ih.snoc ?_
      rintro ⟨x, hx⟩
      exact absurd hx (nmem rfl (hop.2.2.1 x))
    | wakeAssert v cl hp hd =>
      simp only [hp, OpOk] at hop
      exact ih.snoc (mem (hop.2.2.2.2 trivial))
    | wakeTaken q v cl hp hd =>
      simp only [hp, OpOk] at hop
      refine ih.snoc ?_
      rintro ⟨x, hx⟩
      exact absurd hx (nmem rfl (hop.2.2.1 x))
    | wakeRet q cl hp =>
      simp only [hp, OpOk] at hop
      refine ih.snoc ⟨mem hop.1, nret (by simp [hp]), fun _ => ?_, ?_, fun hm b hb => absurd hb (nlate hm (by simp [hp]) (by simp [hp]) b)⟩
      · intro hr; cases q <;> cases cl <;> simp at hr
      · intro hr
        cases q <;> cases cl <;> simp at hr
        exact hcl.waking _ _ _ _ hp
    | signalOwn x hp hl =>
      simp only [hp, OpOk] at hop
      exact ih.snoc ⟨mem hop.1, fun x' hx' => hop.2.2.2.2.2 x' (mem_mine.2 ⟨hx', rfl⟩)⟩
    | signalOther x hp hl =>
      simp only [hp, OpOk] at hop
      refine ih.append2 ⟨mem hop.1, fun x' hx' => hop.2.2.2.2.2 x' (mem_mine.2 ⟨hx', rfl⟩)⟩ ⟨⟨x, by simp⟩, ?_, ?_⟩
      · have := nret (by simp [hp])
        simpa [Returned] using this
      · have := fun v => nmem (e := .wake a v) rfl (hop.2.2.2.2.1 v)
        simp [this]
    | nTakeBegin hp => exact ih.snoc trivial
    | nTakeEnd hp => exact ih.snoc trivial
    | nClear t hp => simpa using ih
    | nWake v hp =>
      simp only [hp, OpOk] at hop
      obtain ⟨⟨x, h1, h2, h3⟩, h4⟩ := hop
      refine ih.append2 ?_ ⟨⟨x, by simp [mem h2]⟩, ?_, ?_⟩
      · rintro _ l1 b u l2 htr hx
        exact h.takenInv hstd a v (.inr hp) l1 b u l2 htr hx
      · have := nret (by simp [hp])
        simpa [Returned] using this
      · simp only [true_iff]; exact ⟨v, by simp⟩
    | nWakeNone hp =>
      simp only [hp, OpOk] at hop
      obtain ⟨⟨x, h1, h2, h3⟩, h4, h5, h6⟩ := hop
      refine ih.snoc ⟨⟨x, mem h2⟩, nret (by simp [hp]), ?_⟩
      have := fun v => nmem (e := .wake a v) rfl (h6 v)
      simp [this]

/-! ### The same for the sequentially consistent cell -/

section
variable {tr : Trace W} {s : State W} (hstd : c.std = true) (h : Exec c tr s)
include h

theorem Exec.closedInv : ClosedInv True tr s := h.weak.closedInv

include hstd
theorem Exec.takenInv : TakenInv tr s := h.weak.takenInv hstd

theorem Exec.evOk : AllOk EvOk tr := by
  intro pre e post htr
  have := h.weak.evOk hstd pre e post htr
  cases e with
  | retWait a r => exact ⟨this.1, this.2.1, this.2.2.1 trivial, this.2.2.2.1, this.2.2.2.2 trivial⟩
  | _ => exact this

end

end Thingbuf.Cell
