import Verif.RelAcqCellBase
import Verif.CellEvents
/-
The steps of the wait cell on the release/acquire machine, seen as transitions of the newest values: the
invariant that makes this possible, and the shapes of the steps.
-/
namespace Thingbuf.RA

variable {w cap : Nat} {V : Type} {o : Orders} {co : CellOrders} {c : Cell.Config} {tr : List (REv V)}

/-- The newest value of `lock`. -/
def XState.lastVal (s : XState w V) : Cell.Bits := (s.lock.getLast?.map LMsg.val).getD Cell.WAITING

/-- The cell with the newest values. -/
def XState.cell (s : XState w V) : Cell.State Nat := ⟨s.lastVal, s.latest, s.cpc⟩

/-- The event at position `n` is an access to the stored waker. -/
def WakerAt (tr : List (REv V)) (n : Nat) : Prop := ∃ e, AtX tr n (.cell e) ∧ wakerEv e = true

/-- The event at position `n` is the `fetch_or` of a notification or close. -/
def SigAt (tr : List (REv V)) (n : Nat) : Prop := ∃ b x, AtX tr n (.cell (.signal b x))

/-- `wait_with` has set `PARKING` and not yet tried to unlock. -/
def parked : Cell.PC Nat → Bool
  | .waitLocked | .waitStore _ | .waitStoring _ | .waitUnlock _ _ => true
  | _ => false

/-- What is needed to see that the steps are transitions of the newest values. -/
structure CInv (c : Cell.Config) (tr : List (REv V)) (s : XState w V) : Prop where
  exec : Cell.WExec False c (cellOf tr) s.cell
  ne : s.lock ≠ []
  mono : ∀ (j k : Nat) m m', j ≤ k → s.lock[j]? = some m → s.lock[k]? = some m' →
    Cell.contains m.val Cell.TX_CLOSED = true → Cell.contains m'.val Cell.TX_CLOSED = true
  hold : ∀ a, parked (s.cpc a) = true → ∀ (j : Nat) m, (s.core.view a).ts .lock ≤ j → s.lock[j]? = some m →
    (m.val = 1#3 ∨ m.val = 3#3 ∨ m.val = 7#3) ∧ ∀ (k : Nat) m', j ≤ k → s.lock[k]? = some m' → m.val ||| m'.val = m'.val
  accOwn : ∀ a, Cell.owns (s.cpc a) = true → ∀ n, WakerAt tr n → n ∈ (s.core.view a).hb
  accFree : ∀ m, s.lock.getLast? = some m → m.val = Cell.WAITING → ∀ n, WakerAt tr n → n ∈ m.view.hb
  pos : ∀ e ∈ s.waiter, WakerAt tr e.1

/-- A step that does not write `lock`. -/
structure Calm (s : XState w V) (a : OpId) (p : Cell.PC Nat) (evs : List (Cell.Event Nat)) : Prop where
  owns : Cell.owns p = Cell.owns (s.cpc a)
  parked : parked p = true → parked (s.cpc a) = true
  nosig : ∀ b x, Cell.Event.signal b x ∉ evs
  noreg : ∀ b v, Cell.Event.register b v ∉ evs
  acc : ∀ e ∈ evs, wakerEv e = true → Cell.owns (s.cpc a) = true
  ret : ∀ b r, Cell.Event.retWait b r ∈ evs → Cell.owns (s.cpc a) = false

/-- The read-modify-writes of the cell, with their orderings. -/
inductive RTr (co : CellOrders) (s : Cell.State Nat) (a : OpId) : MOrd → Cell.PC Nat → Cell.Bits → List (Cell.Event Nat) → Prop where
  | lock (h : s.pc a = .waitStart) (hl : s.lock = Cell.WAITING) : RTr co s a co.startOk .waitLocked Cell.PARKING []
  | unlock (prev q) (evs : List (Cell.Event Nat)) (h : s.pc a = .waitUnlock prev q) (hl : s.lock = Cell.PARKING)
      (he : evs = [.retWait a .panicked] ∨ evs = [.retWait a .wait] ∧ q = false ∧ s.waiter = none ∨
        ∃ v, evs = [.register a v, .retWait a .wait]) :
      RTr co s a co.unlockOk .done Cell.WAITING evs
  | reset (prev q x t) (p : Cell.PC Nat) (evs : List (Cell.Event Nat)) (h : s.pc a = .waitReset prev q x t)
      (hp : p = .done ∧ evs = [.assertFailed a] ∨ evs = [] ∧ ∃ prev q t cl, p = .waitWake prev q t cl) :
      RTr co s a co.reset p (s.lock &&& Cell.TX_CLOSED) evs
  | signal (close) (p : Cell.PC Nat) (evs : List (Cell.Event Nat)) (h : s.pc a = .notifyStart close)
      (hp : s.lock = Cell.WAITING ∧ p = .notifyTake ∧ evs = [.signal a close] ∨
        s.lock ≠ Cell.WAITING ∧ p = .done ∧ evs = [.signal a close, .retNotify a false]) :
      RTr co s a co.signal p (s.lock ||| (Cell.NOTIFYING ||| (if close then Cell.TX_CLOSED else Cell.WAITING))) evs
  | clear (t) (h : s.pc a = .notifyClear t) : RTr co s a co.clear (.notifyWake t) (s.lock &&& ~~~Cell.NOTIFYING) []

/-- The shapes of the steps; `k` is the result of the code, `l` and `x` are the newest values afterwards. -/
inductive Move (co : CellOrders) (s : XState w V) (a : OpId) (k : Cell.State Nat × List (Cell.Event Nat)) :
    Cell.Bits → Option Nat → XState w V × List (REv V) → Prop where
  | quiet (hc : Calm s a (k.1.pc a) k.2) (hw : ∀ b, Cell.Event.retWait b .wait ∉ k.2)
      (hs : s.cpc a ≠ .waitStart) : Move co s a k s.lastVal s.latest (s.doNone a k)
  | waker (hc : Calm s a (k.1.pc a) k.2) (he : k.2 = [.accEnd a]) (ho : Cell.owns (s.cpc a) = true) :
      Move co s a k s.lastVal k.1.waiter (s.doWaker a k)
  | load (n : Nat) (m : LMsg) (od : MOrd) (hr : s.readLock a n = some m) (hc : Calm s a (k.1.pc a) k.2)
      (hw : ∀ b, Cell.Event.retWait b .wait ∈ k.2 → b = a ∧ s.cpc a = .waitStart ∧ m.val = Cell.PARKING)
      (hcl : s.cpc a = .waitStart → Cell.contains m.val Cell.TX_CLOSED = true → k.1.pc a = .done ∧ k.2 = [.retWait a .closed])
      (hod : s.cpc a = .waitStart → od = co.startFail)
      (hcr : ∀ b, Cell.Event.retWait b .closed ∈ k.2 → s.cpc a = .waitStart ∧ Cell.contains m.val Cell.TX_CLOSED = true) :
      Move co s a k s.lastVal s.latest (s.doLoad a n m od k)
  | rmw (n : Nat) (m : LMsg) (od : MOrd) (hr : s.readLock a n = some m) (hn : n + 1 = s.lock.length)
      (ht : RTr co s.cell a od (k.1.pc a) k.1.lock k.2) : Move co s a k k.1.lock s.latest (s.doRmw a n m od k)

theorem readLock_spec {s : XState w V} {a : OpId} {n : Nat} {m : LMsg} (h : s.readLock a n = some m) :
    s.lock[n]? = some m ∧ (s.core.view a).ts .lock ≤ n := by
  unfold XState.readLock at h
  split at h
  · exact ⟨h, by assumption⟩
  · cases h

theorem last_of_read {s : XState w V} {n : Nat} {m : LMsg} (h : s.lock[n]? = some m) (hn : n + 1 = s.lock.length) :
    s.lock.getLast? = some m := by
  rw [List.getLast?_eq_getElem?, ← hn]
  exact h

theorem lastVal_of {s : XState w V} {m : LMsg} (h : s.lock.getLast? = some m) : s.lastVal = m.val := by
  unfold XState.lastVal
  rw [h]; rfl

theorem CInv.last {s : XState w V} (h : CInv c tr s) : ∃ m, s.lock.getLast? = some m ∧ s.lastVal = m.val := by
  have := h.ne
  rw [← List.getLast?_isSome] at this
  obtain ⟨m, hm⟩ := Option.isSome_iff_exists.1 this
  exact ⟨m, hm, lastVal_of hm⟩

theorem seen_latest {s : XState w V} (h : CInv c tr s) {a : OpId} (ho : Cell.owns (s.cpc a) = true) {n : Nat} {x : Option Nat}
    (hs : s.seen a n = some x) : x = s.latest := by
  unfold XState.seen at hs
  split at hs
  · rename_i hh
    obtain ⟨h1, h2⟩ := hh
    have hn : s.waiter.length ≤ n := by
      rcases Nat.lt_or_ge n s.waiter.length with hlt | hge
      · exfalso
        have hm : s.waiter[n] ∈ s.waiter.drop n := by
          rw [List.drop_eq_getElem_cons hlt]; exact List.mem_cons_self
        exact h2 _ hm (h.accOwn a ho _ (h.pos _ (List.getElem_mem hlt)))
      · exact hge
    have hn : n = s.waiter.length := by omega
    subst hn
    have hs := (Option.some.inj hs).symm
    subst hs
    unfold XState.latest
    rw [List.getLast?_eq_getElem?]
    split
    · rename_i h0
      rw [h0]
      have : s.waiter = [] := List.length_eq_zero_iff.1 h0
      rw [this]
      rfl
    · rfl
  · cases hs

section
open Cell

theorem cellStep_move (hstd : c.std = true) {s : XState w V} (h : CInv c tr s) {act : Cell.Act Nat} {n : Nat}
    {r : XState w V × List (REv V)} (hs : s.cellStep co c act n = some r) :
    ∃ k l x, Tr False c s.cell (cellActOp act) (k.1.pc (cellActOp act)) l x k.2 ∧ Move co s (cellActOp act) k l x r := by
  unfold XState.cellStep at hs
  cases act with
  | callWait a =>
    simp only [cellActOp, CellOrders.actAcc] at hs ⊢
    obtain ⟨k, hk, rfl⟩ := Option.map_eq_some_iff.1 hs
    simp only [Cell.step] at hk
    split at hk <;> cases hk
    rename_i hpc
    have hpc : s.cpc a = .idle := hpc
    refine ⟨_, _, _, ?_, .quiet ?_ (by simp) (by rw [hpc]; simp)⟩
    · simp only [Cell.State.goto, if_true]; exact .callWait hpc
    · constructor <;> simp [Cell.State.goto, hpc, Cell.owns, parked, wakerEv]
  | callNotify a close =>
    simp only [cellActOp, CellOrders.actAcc] at hs ⊢
    obtain ⟨k, hk, rfl⟩ := Option.map_eq_some_iff.1 hs
    simp only [Cell.step] at hk
    split at hk <;> cases hk
    rename_i hpc
    have hpc : s.cpc a = .idle := hpc
    refine ⟨_, _, _, ?_, .quiet ?_ (by simp) (by rw [hpc]; simp)⟩
    · simp only [Cell.State.goto, if_true]; exact .callNotify close hpc
    · constructor <;> simp [Cell.State.goto, hpc, Cell.owns, parked, wakerEv]
  | mk a v =>
    simp only [cellActOp, CellOrders.actAcc] at hs ⊢
    obtain ⟨k, hk, rfl⟩ := Option.map_eq_some_iff.1 hs
    simp only [Cell.step] at hk
    split at hk <;> cases hk
    · rename_i hpc
      have hpc : s.cpc a = .waitLocked := hpc
      refine ⟨_, _, _, ?_, .quiet ?_ (by simp) (by rw [hpc]; simp)⟩
      · simp only [Cell.State.goto, if_true]; exact .mkLocked v hpc
      · constructor <;> simp [Cell.State.goto, hpc, Cell.owns, parked, wakerEv]
    · rename_i hpc
      have hpc : s.cpc a = .waitSelf := hpc
      refine ⟨_, _, _, ?_, .quiet ?_ (by simp) (by rw [hpc]; simp)⟩
      · simp only [Cell.State.goto, if_true]; exact .mkSelf v hpc
      · constructor <;> simp [Cell.State.goto, hpc, Cell.owns, parked, wakerEv]
  | mkPanic a =>
    simp only [cellActOp, CellOrders.actAcc] at hs ⊢
    obtain ⟨k, hk, rfl⟩ := Option.map_eq_some_iff.1 hs
    simp only [Cell.step, hstd, if_true] at hk
    split at hk <;> cases hk
    · rename_i hpc
      have hpc : s.cpc a = .waitLocked := hpc
      refine ⟨_, _, _, ?_, .quiet ?_ (by simp) (by rw [hpc]; simp)⟩
      · simp only [Cell.State.goto, if_true]; exact .panicStd hpc hstd
      · constructor <;> simp [Cell.State.goto, hpc, Cell.owns, parked, wakerEv]
    · rename_i hpc
      have hpc : s.cpc a = .waitSelf := hpc
      refine ⟨_, _, _, ?_, .quiet ?_ (by simp) (by rw [hpc]; simp)⟩
      · simp only [Cell.State.goto, if_true]; exact .panicSelf hpc
      · constructor <;> simp [Cell.State.goto, hpc, Cell.owns, parked, wakerEv]
  | run a =>
    simp only [cellActOp, CellOrders.actAcc] at hs ⊢
    cases hpc : s.cpc a with
    | waitStart =>
      simp only [hpc, CellOrders.acc] at hs
      split at hs
      · cases hs
      rename_i m hr
      split at hs
      · rename_i hm
        split at hs
        case isFalse => cases hs
        rename_i hn
        obtain ⟨k, hk, rfl⟩ := Option.map_eq_some_iff.1 hs
        have hl : m.val = s.cell.lock := (lastVal_of (last_of_read (readLock_spec hr).1 hn)).symm
        simp only [Cell.step, Cell.runStep, XState.snap, hpc, Option.some.injEq, waitStart, hm, if_true] at hk
        subst hk
        refine ⟨_, _, _, ?_, .rmw n m _ hr hn ?_⟩
        · simp only [Cell.State.goto, if_true]; exact .lock hpc (hl.symm.trans hm)
        · simp only [Cell.State.goto, if_true]; exact .lock hpc (hl.symm.trans hm)
      · rename_i hm
        obtain ⟨k, hk, rfl⟩ := Option.map_eq_some_iff.1 hs
        replace hk : Cell.step c ⟨m.val, s.latest, s.cpc⟩ (.run a) = some k := hk
        simp only [Cell.step, Cell.runStep, hpc, Option.some.injEq, waitStart, hm, if_false] at hk
        obtain ⟨ml, hml, hmv⟩ := h.last
        by_cases hc : contains m.val TX_CLOSED = true
        · rw [if_pos hc] at hk
          subst hk
          refine ⟨_, _, _, ?_, .load n m _ hr ?_ (by simp) (by simp [Cell.State.goto]) (fun _ => rfl) (fun _ _ => ⟨hpc, hc⟩)⟩
          · simp only [Cell.State.goto, if_true]
            refine .startClosed m.val hpc hm hc ?_
            show contains s.lastVal TX_CLOSED = true
            rw [hmv]
            have hr := (readLock_spec hr).1
            have hlt := (List.getElem?_eq_some_iff.1 hr).1
            exact h.mono n (s.lock.length - 1) m ml (by omega) hr (by rw [← List.getLast?_eq_getElem?]; exact hml) hc
          · constructor <;> simp [Cell.State.goto, hpc, Cell.owns, parked, wakerEv]
        rw [if_neg hc] at hk
        have hc : contains m.val TX_CLOSED = false := by simpa using hc
        by_cases hn : contains m.val NOTIFYING = true
        · rw [if_pos hn] at hk
          subst hk
          refine ⟨_, _, _, ?_, .load n m _ hr ?_ (by simp) (by simp [hc]) (fun _ => rfl) (by simp)⟩
          · simp only [Cell.State.goto, if_true]
            exact .startSelf m.val hpc hm hc hn (fun h => h.elim)
          · constructor <;> simp [Cell.State.goto, hpc, Cell.owns, parked, wakerEv]
        rw [if_neg hn] at hk
        have hn : contains m.val NOTIFYING = false := by simpa using hn
        have hp : m.val = PARKING := by
          rcases bits_cases m.val with h | h | h | h | h | h | h | h <;> rw [h] at hm hc hn ⊢ <;>
            first | rfl | (exfalso; revert hm hc hn; decide)
        rw [if_neg (fun hd => hd.2 (Or.inl hp))] at hk
        · subst hk
          refine ⟨_, _, _, ?_, .load n m _ hr ?_ (by simp [hp, hpc]) (by simp [hc]) (fun _ => rfl) (by simp)⟩
          · simp only [Cell.State.goto, if_true]
            exact .startWait m.val hpc hm hc hn (fun h => h.elim)
          · constructor <;> simp [Cell.State.goto, hpc, Cell.owns, parked, wakerEv]
    | waitUnlock prev q =>
      simp only [hpc, CellOrders.acc] at hs
      split at hs
      · cases hs
      rename_i m hr
      split at hs
      · rename_i hm
        split at hs
        case isFalse => cases hs
        rename_i hn
        obtain ⟨k, hk, rfl⟩ := Option.map_eq_some_iff.1 hs
        have hl : m.val = s.cell.lock := (lastVal_of (last_of_read (readLock_spec hr).1 hn)).symm
        simp only [Cell.step, Cell.runStep, XState.snap, hpc, Option.some.injEq, waitUnlock, hm, if_true] at hk
        cases q with
        | true =>
          simp only [if_true] at hk
          subst hk
          refine ⟨_, _, _, ?_, .rmw n m _ hr hn ?_⟩
          · simp only [Cell.State.goto, if_true]; exact .unlockPanicked _ hpc (hl.symm.trans hm)
          · simp only [Cell.State.goto, if_true]; exact .unlock _ _ _ hpc (hl.symm.trans hm) (.inl rfl)
        | false =>
          simp only [Bool.false_eq_true, if_false] at hk
          cases hv : s.latest with
          | none =>
            simp only [hv] at hk
            subst hk
            rw [← hv]
            refine ⟨_, _, _, ?_, .rmw n m _ hr hn ?_⟩
            · simp only [Cell.State.goto, if_true]; exact .unlockNone _ hpc (hl.symm.trans hm) hv
            · simp only [Cell.State.goto, if_true]
              exact .unlock _ _ _ hpc (hl.symm.trans hm) (.inr (.inl ⟨rfl, rfl, hv⟩))
          | some v =>
            simp only [hv] at hk
            subst hk
            refine ⟨_, _, _, ?_, .rmw n m _ hr hn ?_⟩
            · simp only [Cell.State.goto, if_true]; exact .unlockReg _ v hpc (hl.symm.trans hm) hv
            · simp only [Cell.State.goto, if_true]
              exact .unlock _ _ _ hpc (hl.symm.trans hm) (.inr (.inr ⟨v, rfl⟩))
      · rename_i hm
        obtain ⟨k, hk, rfl⟩ := Option.map_eq_some_iff.1 hs
        simp only [Cell.step, Cell.runStep, XState.snap, hpc, Option.some.injEq, waitUnlock, hm, if_false] at hk
        subst hk
        obtain ⟨ml, hml, hmv⟩ := h.last
        refine ⟨_, _, _, ?_, .load n m _ hr ?_ (by simp) (by simp [hpc]) (by simp [hpc]) (by simp)⟩
        · simp only [Cell.State.goto, if_true]
          refine .unlockFail _ _ _ hpc hm ?_
          obtain ⟨hr, hge⟩ := readLock_spec hr
          have hlt := (List.getElem?_eq_some_iff.1 hr).1
          have hml' : s.lock[s.lock.length - 1]? = some ml := by rw [← List.getLast?_eq_getElem?]; exact hml
          have h1 := h.hold a (by rw [hpc]; rfl) n m hge hr
          have h2 := (h.hold a (by rw [hpc]; rfl) (s.lock.length - 1) ml (by omega) hml').1
          have h3 := h1.2 _ ml (by omega) hml'
          have h1 := h1.1
          show m.val = s.lastVal ∨ _ ∧ s.lastVal = _
          rw [hmv]
          generalize m.val = x at *
          generalize ml.val = y at *
          rcases h1 with rfl | rfl | rfl <;> rcases h2 with rfl | rfl | rfl <;> revert h3 hm <;> decide
        · constructor <;> simp [Cell.State.goto, hpc, Cell.owns, parked, wakerEv]
    | waitReset prev q x t =>
      simp only [hpc, CellOrders.acc] at hs
      split at hs
      · cases hs
      rename_i m hr
      split at hs
      case isFalse => cases hs
      rename_i hn
      obtain ⟨k, hk, rfl⟩ := Option.map_eq_some_iff.1 hs
      have hl : m.val = s.cell.lock := (lastVal_of (last_of_read (readLock_spec hr).1 hn)).symm
      simp only [Cell.step, Cell.runStep, XState.snap, hpc, Option.some.injEq, waitReset, hl] at hk
      split at hk
      · rename_i hd
        subst hk
        refine ⟨_, _, _, ?_, .rmw n m _ hr hn ?_⟩
        · simp only [Cell.State.goto, if_true]; exact .resetAssert _ _ _ _ hpc hd.1 hd.2
        · simp only [Cell.State.goto, if_true]; exact .reset _ _ _ _ _ _ hpc (.inl ⟨rfl, rfl⟩)
      · subst hk
        refine ⟨_, _, _, ?_, .rmw n m _ hr hn ?_⟩
        · simp only [Cell.State.goto, if_true]; exact .reset _ _ _ _ hpc
        · simp only [Cell.State.goto, if_true]; exact .reset _ _ _ _ _ _ hpc (.inr ⟨rfl, _, _, _, _, rfl⟩)
    | notifyStart close =>
      simp only [hpc, CellOrders.acc] at hs
      split at hs
      · cases hs
      rename_i m hr
      split at hs
      case isFalse => cases hs
      rename_i hn
      obtain ⟨k, hk, rfl⟩ := Option.map_eq_some_iff.1 hs
      have hl : m.val = s.cell.lock := (lastVal_of (last_of_read (readLock_spec hr).1 hn)).symm
      simp only [Cell.step, Cell.runStep, XState.snap, hpc, Option.some.injEq, notifyStart, hl] at hk
      split at hk
      · rename_i hd
        subst hk
        refine ⟨_, _, _, ?_, .rmw n m _ hr hn ?_⟩
        · simp only [Cell.State.goto, if_true]; exact .signalOwn _ hpc hd
        · simp only [Cell.State.goto, if_true]; exact .signal _ _ _ hpc (.inl ⟨hd, rfl, rfl⟩)
      · rename_i hd
        subst hk
        refine ⟨_, _, _, ?_, .rmw n m _ hr hn ?_⟩
        · simp only [Cell.State.goto, if_true]; exact .signalOther _ hpc hd
        · simp only [Cell.State.goto, if_true]; exact .signal _ _ _ hpc (.inr ⟨hd, rfl, rfl⟩)
    | notifyClear t =>
      simp only [hpc, CellOrders.acc] at hs
      split at hs
      · cases hs
      rename_i m hr
      split at hs
      case isFalse => cases hs
      rename_i hn
      obtain ⟨k, hk, rfl⟩ := Option.map_eq_some_iff.1 hs
      have hl : m.val = s.cell.lock := (lastVal_of (last_of_read (readLock_spec hr).1 hn)).symm
      simp only [Cell.step, Cell.runStep, XState.snap, hpc, Option.some.injEq, hl] at hk
      subst hk
      refine ⟨_, _, _, ?_, .rmw n m _ hr hn ?_⟩
      · simp only [Cell.State.goto, if_true]; exact .nClear _ hpc
      · simp only [Cell.State.goto, if_true]; exact .clear _ hpc
    | waitStoring v =>
      simp only [hpc, CellOrders.acc] at hs
      split at hs
      · cases hs
      rename_i x hx
      obtain ⟨k, hk, rfl⟩ := Option.map_eq_some_iff.1 hs
      simp only [Cell.step, Cell.runStep, XState.snap, hpc, Option.some.injEq] at hk
      subst hk
      have hx := seen_latest h (by rw [hpc]; rfl) hx
      subst hx
      refine ⟨_, _, _, ?_, .waker ?_ rfl (by rw [hpc]; rfl)⟩
      · simp only [Cell.State.goto, if_true]; exact .storeEnd v hpc
      · constructor <;> simp [Cell.State.goto, hpc, Cell.owns, parked, wakerEv]
    | waitTaking prev q x =>
      simp only [hpc, CellOrders.acc] at hs
      split at hs
      · cases hs
      rename_i x hx
      obtain ⟨k, hk, rfl⟩ := Option.map_eq_some_iff.1 hs
      simp only [Cell.step, Cell.runStep, XState.snap, hpc, Option.some.injEq] at hk
      subst hk
      have hx := seen_latest h (by rw [hpc]; rfl) hx
      subst hx
      refine ⟨_, _, _, ?_, .waker ?_ rfl (by rw [hpc]; rfl)⟩
      · simp only [Cell.State.goto, if_true]; exact .takeEnd _ _ _ hpc
      · constructor <;> simp [Cell.State.goto, hpc, Cell.owns, parked, wakerEv]
    | notifyTaking =>
      simp only [hpc, CellOrders.acc] at hs
      split at hs
      · cases hs
      rename_i x hx
      obtain ⟨k, hk, rfl⟩ := Option.map_eq_some_iff.1 hs
      simp only [Cell.step, Cell.runStep, XState.snap, hpc, Option.some.injEq] at hk
      subst hk
      have hx := seen_latest h (by rw [hpc]; rfl) hx
      subst hx
      refine ⟨_, _, _, ?_, .waker ?_ rfl (by rw [hpc]; rfl)⟩
      · simp only [Cell.State.goto, if_true]; exact .nTakeEnd hpc
      · constructor <;> simp [Cell.State.goto, hpc, Cell.owns, parked, wakerEv]
    | waitStore v =>
      simp only [hpc, CellOrders.acc] at hs
      obtain ⟨k, hk, rfl⟩ := Option.map_eq_some_iff.1 hs
      simp only [Cell.step, Cell.runStep, XState.snap, hpc, Option.some.injEq] at hk
      subst hk
      refine ⟨_, _, _, ?_, .quiet ?_ (by simp) (by rw [hpc]; simp)⟩
      · simp only [Cell.State.goto, if_true]; exact .storeBegin v hpc
      · constructor <;> simp [Cell.State.goto, hpc, Cell.owns, parked, wakerEv]
    | waitTake prev q x =>
      simp only [hpc, CellOrders.acc] at hs
      obtain ⟨k, hk, rfl⟩ := Option.map_eq_some_iff.1 hs
      simp only [Cell.step, Cell.runStep, XState.snap, hpc, Option.some.injEq] at hk
      subst hk
      refine ⟨_, _, _, ?_, .quiet ?_ (by simp) (by rw [hpc]; simp)⟩
      · simp only [Cell.State.goto, if_true]; exact .takeBegin _ _ _ hpc
      · constructor <;> simp [Cell.State.goto, hpc, Cell.owns, parked, wakerEv]
    | notifyTake =>
      simp only [hpc, CellOrders.acc] at hs
      obtain ⟨k, hk, rfl⟩ := Option.map_eq_some_iff.1 hs
      simp only [Cell.step, Cell.runStep, XState.snap, hpc, Option.some.injEq] at hk
      subst hk
      refine ⟨_, _, _, ?_, .quiet ?_ (by simp) (by rw [hpc]; simp)⟩
      · simp only [Cell.State.goto, if_true]; exact .nTakeBegin hpc
      · constructor <;> simp [Cell.State.goto, hpc, Cell.owns, parked, wakerEv]
    | waitWake prev q t cl =>
      simp only [hpc, CellOrders.acc] at hs
      obtain ⟨k, hk, rfl⟩ := Option.map_eq_some_iff.1 hs
      simp only [Cell.step, Cell.runStep, XState.snap, hpc, Option.some.injEq] at hk
      cases prev with
      | some u =>
        simp only [waitWake] at hk
        subst hk
        refine ⟨_, _, _, ?_, .quiet ?_ (by simp) (by rw [hpc]; simp)⟩
        · simp only [Cell.State.goto, if_true]; exact .wakePrev _ _ _ _ hpc
        · constructor <;> simp [Cell.State.goto, hpc, Cell.owns, parked, wakerEv]
      | none =>
        cases t with
        | some v =>
          simp only [waitWake] at hk
          split at hk
          · rename_i hd
            obtain ⟨hd, rfl⟩ := hd
            subst hk
            refine ⟨_, _, _, ?_, .quiet ?_ (by simp) (by rw [hpc]; simp)⟩
            · simp only [Cell.State.goto, if_true]; exact .wakeAssert _ _ hpc hd
            · constructor <;> simp [Cell.State.goto, hpc, Cell.owns, parked, wakerEv]
          · rename_i hd
            subst hk
            refine ⟨_, _, _, ?_, .quiet ?_ (by simp) (by rw [hpc]; simp)⟩
            · simp only [Cell.State.goto, if_true]; exact .wakeTaken _ _ _ hpc hd
            · constructor <;> simp [Cell.State.goto, hpc, Cell.owns, parked, wakerEv]
        | none =>
          simp only [waitWake] at hk
          subst hk
          refine ⟨_, _, _, ?_, .quiet ?_ ?_ (by rw [hpc]; simp)⟩
          · simp only [Cell.State.goto, if_true]; exact .wakeRet _ _ hpc
          · constructor <;> simp [Cell.State.goto, hpc, Cell.owns, parked, wakerEv]
          · intro b hb
            cases q <;> cases cl <;> simp at hb
    | notifyWake t =>
      simp only [hpc, CellOrders.acc] at hs
      obtain ⟨k, hk, rfl⟩ := Option.map_eq_some_iff.1 hs
      cases t with
      | some v =>
        simp only [Cell.step, Cell.runStep, XState.snap, hpc, Option.some.injEq] at hk
        subst hk
        refine ⟨_, _, _, ?_, .quiet ?_ (by simp) (by rw [hpc]; simp)⟩
        · simp only [Cell.State.goto, if_true]; exact .nWake _ hpc
        · constructor <;> simp [Cell.State.goto, hpc, Cell.owns, parked, wakerEv]
      | none =>
        simp only [Cell.step, Cell.runStep, XState.snap, hpc, Option.some.injEq] at hk
        subst hk
        refine ⟨_, _, _, ?_, .quiet ?_ (by simp) (by rw [hpc]; simp)⟩
        · simp only [Cell.State.goto, if_true]; exact .nWakeNone hpc
        · constructor <;> simp [Cell.State.goto, hpc, Cell.owns, parked, wakerEv]
    | idle =>
      simp only [hpc, CellOrders.acc] at hs
      obtain ⟨k, hk, rfl⟩ := Option.map_eq_some_iff.1 hs
      simp [Cell.step, Cell.runStep, XState.snap, hpc] at hk
    | waitSelf =>
      simp only [hpc, CellOrders.acc] at hs
      obtain ⟨k, hk, rfl⟩ := Option.map_eq_some_iff.1 hs
      simp [Cell.step, Cell.runStep, XState.snap, hpc] at hk
    | waitLocked =>
      simp only [hpc, CellOrders.acc] at hs
      obtain ⟨k, hk, rfl⟩ := Option.map_eq_some_iff.1 hs
      simp [Cell.step, Cell.runStep, XState.snap, hpc] at hk
    | done =>
      simp only [hpc, CellOrders.acc] at hs
      obtain ⟨k, hk, rfl⟩ := Option.map_eq_some_iff.1 hs
      simp [Cell.step, Cell.runStep, XState.snap, hpc] at hk
end
end Thingbuf.RA
