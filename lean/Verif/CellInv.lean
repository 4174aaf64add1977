import Verif.Cell

/-!
# Invariants of the wait cell

Helper lemmas for `CellProps`.
-/

namespace Thingbuf.Cell

variable {W : Type} {c : Config} {m : Prop}

/-- The transitions of `step`, one constructor per path: operation `a` goes to the program counter, the
`lock` and `waiter` take the given values, and the given events happen.  A compare-and-swap that fails is only a
load: unless `m`, it may find an outdated value `x` (used in `Verif/RelAcqCell.lean`). -/
inductive Tr (m : Prop) (c : Config) (s : State W) (a : OpId) : PC W → Bits → Option W → Trace W → Prop where
  | callWait (h : s.pc a = .idle) : Tr m c s a .waitStart s.lock s.waiter [.callWait a]
  | callNotify (close) (h : s.pc a = .idle) :
      Tr m c s a (.notifyStart close) s.lock s.waiter [.callNotify a close]
  | lock (h : s.pc a = .waitStart) (hl : s.lock = WAITING) : Tr m c s a .waitLocked PARKING s.waiter []
  | startClosed (x) (h : s.pc a = .waitStart) (hl : x ≠ WAITING) (hc : contains x TX_CLOSED = true)
      (hm : contains s.lock TX_CLOSED = true) : Tr m c s a .done s.lock s.waiter [.retWait a .closed]
  | startSelf (x) (h : s.pc a = .waitStart) (hl : x ≠ WAITING) (hc : contains x TX_CLOSED = false)
      (hn : contains x NOTIFYING = true) (hm : m → x = s.lock) : Tr m c s a .waitSelf s.lock s.waiter []
  | startAssert (x) (h : s.pc a = .waitStart) (hl : x ≠ WAITING) (hc : contains x TX_CLOSED = false)
      (hn : contains x NOTIFYING = false) (hd : c.debug = true)
      (hne : ¬ (x = PARKING ∨ x = PARKING ||| NOTIFYING)) :
      Tr m c s a .done s.lock s.waiter [.assertFailed a]
  | startWait (x) (h : s.pc a = .waitStart) (hl : x ≠ WAITING) (hc : contains x TX_CLOSED = false)
      (hn : contains x NOTIFYING = false) (hm : m → x = s.lock) :
      Tr m c s a .done s.lock s.waiter [.retWait a .wait]
  | mkLocked (v) (h : s.pc a = .waitLocked) : Tr m c s a (.waitStore v) s.lock s.waiter [.mk a v]
  | mkSelf (v) (h : s.pc a = .waitSelf) :
      Tr m c s a .done s.lock s.waiter [.mk a v, .wake a v, .retWait a .notified]
  | panicStd (h : s.pc a = .waitLocked) (hs : c.std = true) :
      Tr m c s a (.waitUnlock none true) s.lock s.waiter [.mkPanic a]
  | panicNoStd (h : s.pc a = .waitLocked) (hs : c.std = false) :
      Tr m c s a .done s.lock s.waiter [.mkPanic a, .retWait a .panicked]
  | panicSelf (h : s.pc a = .waitSelf) : Tr m c s a .done s.lock s.waiter [.mkPanic a, .retWait a .panicked]
  | storeBegin (v) (h : s.pc a = .waitStore v) : Tr m c s a (.waitStoring v) s.lock s.waiter [.accBegin a]
  | storeEnd (v) (h : s.pc a = .waitStoring v) :
      Tr m c s a (.waitUnlock s.waiter false) s.lock (some v) [.accEnd a]
  | unlockPanicked (prev) (h : s.pc a = .waitUnlock prev true) (hl : s.lock = PARKING) :
      Tr m c s a .done WAITING s.waiter [.retWait a .panicked]
  | unlockReg (prev v) (h : s.pc a = .waitUnlock prev false) (hl : s.lock = PARKING) (hw : s.waiter = some v) :
      Tr m c s a .done WAITING s.waiter [.register a v, .retWait a .wait]
  | unlockNone (prev) (h : s.pc a = .waitUnlock prev false) (hl : s.lock = PARKING) (hw : s.waiter = none) :
      Tr m c s a .done WAITING s.waiter [.retWait a .wait]
  | unlockFail (prev p x) (h : s.pc a = .waitUnlock prev p) (hl : x ≠ PARKING)
      (hx : x = s.lock ∨ x = PARKING ||| NOTIFYING ∧ s.lock = PARKING ||| NOTIFYING ||| TX_CLOSED) :
      Tr m c s a (.waitTake prev p x) s.lock s.waiter []
  | takeBegin (prev p actual) (h : s.pc a = .waitTake prev p actual) :
      Tr m c s a (.waitTaking prev p actual) s.lock s.waiter [.accBegin a]
  | takeEnd (prev p actual) (h : s.pc a = .waitTaking prev p actual) :
      Tr m c s a (.waitReset prev p actual s.waiter) s.lock none [.accEnd a]
  | resetAssert (prev p actual taken) (h : s.pc a = .waitReset prev p actual taken) (hd : c.debug = true)
      (hne : ¬ (s.lock = actual ∨ s.lock = actual ||| TX_CLOSED)) :
      Tr m c s a .done (s.lock &&& TX_CLOSED) s.waiter [.assertFailed a]
  | reset (prev p actual taken) (h : s.pc a = .waitReset prev p actual taken) :
      Tr m c s a (.waitWake prev p taken (contains s.lock TX_CLOSED)) (s.lock &&& TX_CLOSED) s.waiter []
  | wakePrev (u p taken closed) (h : s.pc a = .waitWake (some u) p taken closed) :
      Tr m c s a (.waitWake none p taken closed) s.lock s.waiter [.wake a u]
  | wakeAssert (v closed) (h : s.pc a = .waitWake none true (some v) closed) (hd : c.debug = true) :
      Tr m c s a .done s.lock s.waiter [.assertFailed a]
  | wakeTaken (p v closed) (h : s.pc a = .waitWake none p (some v) closed) (hd : ¬ (c.debug = true ∧ p = true)) :
      Tr m c s a (.waitWake none p none closed) s.lock s.waiter [.wake a v]
  | wakeRet (p closed) (h : s.pc a = .waitWake none p none closed) :
      Tr m c s a .done s.lock s.waiter
        [.retWait a (if p then .panicked else if closed then .closed else .notified)]
  | signalOwn (close) (h : s.pc a = .notifyStart close) (hl : s.lock = WAITING) :
      Tr m c s a .notifyTake (s.lock ||| (NOTIFYING ||| (if close then TX_CLOSED else WAITING))) s.waiter
        [.signal a close]
  | signalOther (close) (h : s.pc a = .notifyStart close) (hl : s.lock ≠ WAITING) :
      Tr m c s a .done (s.lock ||| (NOTIFYING ||| (if close then TX_CLOSED else WAITING))) s.waiter
        [.signal a close, .retNotify a false]
  | nTakeBegin (h : s.pc a = .notifyTake) : Tr m c s a .notifyTaking s.lock s.waiter [.accBegin a]
  | nTakeEnd (h : s.pc a = .notifyTaking) : Tr m c s a (.notifyClear s.waiter) s.lock none [.accEnd a]
  | nClear (taken) (h : s.pc a = .notifyClear taken) :
      Tr m c s a (.notifyWake taken) (s.lock &&& ~~~NOTIFYING) s.waiter []
  | nWake (v) (h : s.pc a = .notifyWake (some v)) :
      Tr m c s a .done s.lock s.waiter [.wake a v, .retNotify a true]
  | nWakeNone (h : s.pc a = .notifyWake none) : Tr m c s a .done s.lock s.waiter [.retNotify a false]

/-- The state after a transition. -/
def State.after (s : State W) (a : OpId) (p : PC W) (l : Bits) (w : Option W) : State W :=
  { lock := l, waiter := w, pc := fun b => if b = a then p else s.pc b }

theorem step_tr {s s' : State W} {act : Act W} {evs : Trace W} (h : step c s act = some (s', evs)) :
    ∃ a p l w, s' = s.after a p l w ∧ Tr True c s a p l w evs := by
  cases act with
  | callWait a =>
    simp only [step] at h
    split at h <;> cases h
    exact ⟨a, _, _, _, rfl, .callWait (by assumption)⟩
  | callNotify a close =>
    simp only [step] at h
    split at h <;> cases h
    exact ⟨a, _, _, _, rfl, .callNotify close (by assumption)⟩
  | mk a v =>
    simp only [step] at h
    split at h <;> cases h
    · exact ⟨a, _, _, _, rfl, .mkLocked v (by assumption)⟩
    · exact ⟨a, _, _, _, rfl, .mkSelf v (by assumption)⟩
  | mkPanic a =>
    simp only [step] at h
    split at h
    · rename_i hpc
      split at h <;> cases h
      · exact ⟨a, _, _, _, rfl, .panicStd hpc (by assumption)⟩
      · exact ⟨a, _, _, _, rfl, .panicNoStd hpc (Bool.eq_false_iff.2 (by assumption))⟩
    · cases h; exact ⟨a, _, _, _, rfl, .panicSelf (by assumption)⟩
    · cases h
  | run a =>
    simp only [step, runStep] at h
    split at h <;> rename_i hpc
    · simp only [waitStart, Option.some.injEq] at h
      split at h
      · cases h; exact ⟨a, _, _, _, rfl, .lock hpc (by assumption)⟩
      rename_i hl
      split at h
      · cases h; exact ⟨a, _, _, _, rfl, .startClosed _ hpc hl (by assumption) (by assumption)⟩
      rename_i hc
      split at h
      · cases h; exact ⟨a, _, _, _, rfl, .startSelf _ hpc hl (by simpa using hc) (by assumption) (fun _ => rfl)⟩
      rename_i hn
      split at h
      · rename_i hd
        cases h; exact ⟨a, _, _, _, rfl, .startAssert _ hpc hl (by simpa using hc) (by simpa using hn) hd.1 hd.2⟩
      · cases h; exact ⟨a, _, _, _, rfl, .startWait _ hpc hl (by simpa using hc) (by simpa using hn) (fun _ => rfl)⟩
    · cases h; exact ⟨a, _, _, _, rfl, .storeBegin _ hpc⟩
    · cases h; exact ⟨a, _, _, _, rfl, .storeEnd _ hpc⟩
    · rename_i prev p
      simp only [waitUnlock, Option.some.injEq] at h
      split at h
      · rename_i hl
        cases p with
        | true => simp only [if_true] at h; cases h; exact ⟨a, _, _, _, rfl, .unlockPanicked _ hpc hl⟩
        | false =>
          simp only [Bool.false_eq_true, if_false] at h
          split at h
          · rename_i v hv; cases h; exact ⟨a, _, _, _, rfl, .unlockReg _ v hpc hl hv⟩
          · rename_i hv; cases h; exact ⟨a, _, _, _, rfl, .unlockNone _ hpc hl hv⟩
      · rename_i hl; cases h; exact ⟨a, _, _, _, rfl, .unlockFail _ _ _ hpc hl (.inl rfl)⟩
    · cases h; exact ⟨a, _, _, _, rfl, .takeBegin _ _ _ hpc⟩
    · cases h; exact ⟨a, _, _, _, rfl, .takeEnd _ _ _ hpc⟩
    · simp only [waitReset, Option.some.injEq] at h
      split at h
      · rename_i hd; cases h; exact ⟨a, _, _, _, rfl, .resetAssert _ _ _ _ hpc hd.1 hd.2⟩
      · cases h; exact ⟨a, _, _, _, rfl, .reset _ _ _ _ hpc⟩
    · rename_i prev p taken closed
      simp only [Option.some.injEq] at h
      cases prev with
      | some u => simp only [waitWake] at h; cases h; exact ⟨a, _, _, _, rfl, .wakePrev _ _ _ _ hpc⟩
      | none =>
        cases taken with
        | some v =>
          simp only [waitWake] at h
          split at h
          · rename_i hd
            obtain ⟨hd, rfl⟩ := hd
            cases h; exact ⟨a, _, _, _, rfl, .wakeAssert _ _ hpc hd⟩
          · rename_i hd; cases h; exact ⟨a, _, _, _, rfl, .wakeTaken _ _ _ hpc hd⟩
        | none => simp only [waitWake] at h; cases h; exact ⟨a, _, _, _, rfl, .wakeRet _ _ hpc⟩
    · simp only [notifyStart, Option.some.injEq] at h
      split at h
      · rename_i hl; cases h; exact ⟨a, _, _, _, rfl, .signalOwn _ hpc hl⟩
      · rename_i hl; cases h; exact ⟨a, _, _, _, rfl, .signalOther _ hpc hl⟩
    · cases h; exact ⟨a, _, _, _, rfl, .nTakeBegin hpc⟩
    · cases h; exact ⟨a, _, _, _, rfl, .nTakeEnd hpc⟩
    · cases h; exact ⟨a, _, _, _, rfl, .nClear _ hpc⟩
    · cases h; exact ⟨a, _, _, _, rfl, .nWake _ hpc⟩
    · cases h; exact ⟨a, _, _, _, rfl, .nWakeNone hpc⟩
    · cases h

/-! ### The lock -/

/-- Which values of `lock` go with the program counter of the holder of the lock; `none`: the operation does
not hold it. -/
def lockOk (l : Bits) : PC W → Bool
  | .waitLocked | .waitStore _ | .waitStoring _ | .waitUnlock _ _ => l = 1#3 ∨ l = 3#3 ∨ l = 7#3
  | .waitTake _ _ x | .waitTaking _ _ x | .waitReset _ _ x _ =>
    (l = 3#3 ∧ x = 3#3) ∨ (l = 7#3 ∧ (x = 3#3 ∨ x = 7#3))
  | .notifyTake | .notifyTaking | .notifyClear _ => l = 2#3 ∨ l = 6#3
  | _ => false

/-- The operation holds the lock. -/
def owns : PC W → Bool
  | .waitLocked | .waitStore _ | .waitStoring _ | .waitUnlock _ _ => true
  | .waitTake _ _ _ | .waitTaking _ _ _ | .waitReset _ _ _ _ => true
  | .notifyTake | .notifyTaking | .notifyClear _ => true
  | _ => false

/-- The operation is in the middle of an access to the waker. -/
def accessing : PC W → Bool
  | .waitStoring _ | .waitTaking _ _ _ | .notifyTaking => true
  | _ => false

/-- At most one operation holds the lock, and the lock word says what it is doing. -/
structure LockInv (s : State W) (o : Option OpId) : Prop where
  uniq : ∀ a, owns (s.pc a) = true → o = some a
  free : o = none → s.lock = 0#3 ∨ s.lock = 4#3 ∨ s.lock = 6#3
  held : ∀ a, o = some a → lockOk s.lock (s.pc a) = true

theorem bits_cases (x : Bits) : x = 0#3 ∨ x = 1#3 ∨ x = 2#3 ∨ x = 3#3 ∨ x = 4#3 ∨ x = 5#3 ∨ x = 6#3 ∨ x = 7#3 := by
  revert x; decide

theorem LockInv.tr {s : State W} {o : Option OpId} {a : OpId} {p : PC W} {l : Bits} {w : Option W}
    {evs : Trace W} (hstd : c.std = true) (h : LockInv s o) (ht : Tr m c s a p l w evs) :
    ∃ o', LockInv (s.after a p l w) o' := by
  -- the stepping operation does not hold the lock before and after, and `lock` may gain bits
  have other : owns (s.pc a) = false → owns p = false →
      (l = s.lock ∨ s.lock ≠ 0#3 ∧ (l = s.lock ||| 2#3 ∨ l = s.lock ||| 6#3)) → ∃ o', LockInv (s.after a p l w) o' := by
    intro h1 h2 h3
    refine ⟨o, ?_, ?_, ?_⟩
    · intro b hb
      simp only [State.after] at hb
      split at hb
      · rw [h2] at hb; cases hb
      · exact h.uniq b hb
    · intro ho
      have := h.free ho
      simp only [State.after]
      rcases h3 with rfl | ⟨h3, rfl | rfl⟩
      · exact this
      · rcases this with h | h | h <;> simp_all
      · rcases this with h | h | h <;> simp_all
    · intro b hb
      have hne : b ≠ a := by
        rintro rfl
        have := h.held b hb
        cases hp : s.pc b <;> simp_all [owns, lockOk]
      have := h.held b hb
      simp only [State.after, hne, if_false]
      rcases h3 with rfl | ⟨h3, rfl | rfl⟩
      · exact this
      · cases hp : s.pc b <;> simp only [hp, lockOk] at this ⊢ <;>
          rcases bits_cases s.lock with h | h | h | h | h | h | h | h <;> simp_all
      · cases hp : s.pc b <;> simp only [hp, lockOk] at this ⊢ <;>
          rcases bits_cases s.lock with h | h | h | h | h | h | h | h <;> simp_all
  -- the stepping operation holds the lock before and after
  have keep : owns (s.pc a) = true → lockOk l p = true → ∃ o', LockInv (s.after a p l w) o' := by
    intro h1 h2
    have ho := h.uniq a h1
    refine ⟨o, ?_, by simp [ho], ?_⟩
    · intro b hb
      simp only [State.after] at hb
      split at hb
      · rw [ho]; simp_all
      · exact h.uniq b hb
    · intro b hb
      rw [ho] at hb; cases hb
      simpa [State.after] using h2
  -- it releases the lock
  have release : owns (s.pc a) = true → owns p = false → (l = 0#3 ∨ l = 4#3) → ∃ o', LockInv (s.after a p l w) o' := by
    intro h1 h2 h3
    have ho := h.uniq a h1
    refine ⟨none, ?_, by simp only [State.after]; intro _; rcases h3 with h | h <;> simp [h], by simp⟩
    intro b hb
    simp only [State.after] at hb
    split at hb
    · rw [h2] at hb; cases hb
    · have := h.uniq b hb; rw [ho] at this; cases this; contradiction
  -- it acquires the lock
  have acquire : s.lock = 0#3 → lockOk l p = true → ∃ o', LockInv (s.after a p l w) o' := by
    intro h1 h2
    have hnone : ∀ b, owns (s.pc b) = true → False := by
      intro b hb
      have := h.held b (h.uniq b hb)
      cases hp : s.pc b <;> simp_all [lockOk, owns]
    refine ⟨some a, ?_, by simp, ?_⟩
    · intro b hb
      simp only [State.after] at hb
      split at hb
      · simp_all
      · exact absurd hb (fun hb => hnone b hb)
    · intro b hb; cases hb; simpa [State.after] using h2
  cases ht with
  | callWait hp => exact other (by simp [hp, owns]) rfl (.inl rfl)
  | callNotify close hp => exact other (by simp [hp, owns]) rfl (.inl rfl)
  | lock hp hl => exact acquire hl rfl
  | startClosed x hp hl hc hm => exact other (by simp [hp, owns]) rfl (.inl rfl)
  | startSelf x hp hl hc hn hm => exact other (by simp [hp, owns]) rfl (.inl rfl)
  | startAssert x hp hl hc hn hd hne => exact other (by simp [hp, owns]) rfl (.inl rfl)
  | startWait x hp hl hc hn hm => exact other (by simp [hp, owns]) rfl (.inl rfl)
  | mkLocked v hp => exact keep (by simp [hp, owns]) (by simpa [hp, lockOk] using h.held a (h.uniq a (by simp [hp, owns])))
  | mkSelf v hp => exact other (by simp [hp, owns]) rfl (.inl rfl)
  | panicStd hp hs => exact keep (by simp [hp, owns]) (by simpa [hp, lockOk] using h.held a (h.uniq a (by simp [hp, owns])))
  | panicNoStd hp hs => rw [hstd] at hs; cases hs
  | panicSelf hp => exact other (by simp [hp, owns]) rfl (.inl rfl)
  | storeBegin v hp => exact keep (by simp [hp, owns]) (by simpa [hp, lockOk] using h.held a (h.uniq a (by simp [hp, owns])))
  | storeEnd v hp => exact keep (by simp [hp, owns]) (by simpa [hp, lockOk] using h.held a (h.uniq a (by simp [hp, owns])))
  | unlockPanicked prev hp hl => exact release (by simp [hp, owns]) rfl (.inl rfl)
  | unlockReg prev v hp hl hw => exact release (by simp [hp, owns]) rfl (.inl rfl)
  | unlockNone prev hp hl hw => exact release (by simp [hp, owns]) rfl (.inl rfl)
  | unlockFail prev q x hp hl hx =>
    refine keep (by simp [hp, owns]) ?_
    have := h.held a (h.uniq a (by simp [hp, owns]))
    simp only [hp, lockOk, decide_eq_true_eq] at this
    rcases hx with rfl | ⟨rfl, hx⟩
    · rcases this with h1 | h1 | h1
      · exact absurd h1 hl
      · simp [lockOk, h1]
      · simp [lockOk, h1]
    · simp [hx, lockOk, PARKING, NOTIFYING, TX_CLOSED]
  | takeBegin prev q x hp => exact keep (by simp [hp, owns]) (by simpa [hp, lockOk] using h.held a (h.uniq a (by simp [hp, owns])))
  | takeEnd prev q x hp => exact keep (by simp [hp, owns]) (by simpa [hp, lockOk] using h.held a (h.uniq a (by simp [hp, owns])))
  | resetAssert prev q x t hp hd hne =>
    refine release (by simp [hp, owns]) rfl ?_
    have := h.held a (h.uniq a (by simp [hp, owns]))
    simp only [hp, lockOk, decide_eq_true_eq] at this
    rcases this with h1 | h1 <;> simp [h1.1, TX_CLOSED]
  | reset prev q x t hp =>
    refine release (by simp [hp, owns]) rfl ?_
    have := h.held a (h.uniq a (by simp [hp, owns]))
    simp only [hp, lockOk, decide_eq_true_eq] at this
    rcases this with h1 | h1 <;> simp [h1.1, TX_CLOSED]
  | wakePrev u q t cl hp => exact other (by simp [hp, owns]) rfl (.inl rfl)
  | wakeAssert v cl hp hd => exact other (by simp [hp, owns]) rfl (.inl rfl)
  | wakeTaken q v cl hp hd => exact other (by simp [hp, owns]) rfl (.inl rfl)
  | wakeRet q cl hp => exact other (by simp [hp, owns]) rfl (.inl rfl)
  | signalOwn close hp hl =>
    refine acquire hl ?_
    cases close <;> simp [hl, lockOk, NOTIFYING, WAITING, TX_CLOSED]
  | signalOther close hp hl =>
    refine other (by simp [hp, owns]) rfl (.inr ⟨hl, ?_⟩)
    cases close
    · exact .inl rfl
    · exact .inr rfl
  | nTakeBegin hp => exact keep (by simp [hp, owns]) (by simpa [hp, lockOk] using h.held a (h.uniq a (by simp [hp, owns])))
  | nTakeEnd hp => exact keep (by simp [hp, owns]) (by simpa [hp, lockOk] using h.held a (h.uniq a (by simp [hp, owns])))
  | nClear t hp =>
    refine release (by simp [hp, owns]) rfl ?_
    have := h.held a (h.uniq a (by simp [hp, owns]))
    simp only [hp, lockOk, decide_eq_true_eq] at this
    rcases this with h1 | h1 <;> simp [h1, NOTIFYING]
  | nWake v hp => exact other (by simp [hp, owns]) rfl (.inl rfl)
  | nWakeNone hp => exact other (by simp [hp, owns]) rfl (.inl rfl)

/-- Executions of the transitions. -/
inductive WExec (m : Prop) (c : Config) : Trace W → State W → Prop where
  | init : WExec m c [] (State.init W)
  | step {tr : Trace W} {s : State W} {a : OpId} {p : PC W} {l : Bits} {w : Option W} {evs : Trace W} :
      WExec m c tr s → Tr m c s a p l w evs → WExec m c (tr ++ evs) (s.after a p l w)

theorem Exec.weak {tr : Trace W} {s : State W} (h : Exec c tr s) : WExec True c tr s := by
  induction h with
  | init => exact .init
  | step _ hs ih =>
    obtain ⟨a, p, l, w, rfl, ht⟩ := step_tr hs
    exact ih.step ht

theorem WExec.lockInv {tr : Trace W} {s : State W} (hstd : c.std = true) (h : WExec m c tr s) : ∃ o, LockInv s o := by
  induction h with
  | init => exact ⟨none, by simp [State.init, owns], fun _ => .inl rfl, by simp⟩
  | step _ ht ih =>
    obtain ⟨o, ho⟩ := ih
    exact ho.tr hstd ht

theorem Exec.lockInv {tr : Trace W} {s : State W} (hstd : c.std = true) (h : Exec c tr s) : ∃ o, LockInv s o :=
  h.weak.lockInv hstd

end Thingbuf.Cell
