import Verif.WeakOrder
import Verif.WeakChanSim

/-!
# What the threads of the channel know

Helper lemmas for `WeakRxProps`.
-/

namespace Thingbuf.RA

variable {w cap : Nat} {V : Type} {o : Orders} {co : CellOrders} {cc : Cell.Config}

theorem rstep_mono {s s' : RState w V} {act : RAct V} {revs : List (REv V)} (h : rstep o cap s act = some (s', revs)) (x : OpId) :
    ∀ p ∈ (s.view x).hb, p ∈ (s'.view x).hb := by
  have hl : ∀ (s : RState w V) a l m acq, ∀ p ∈ (s.view x).hb, p ∈ ((s.load a l m acq).view x).hb := by
    intro s a l m acq p hp
    by_cases hx : x = a
    · subst hx
      simp only [RState.load, upd_self]
      split
      · exact List.mem_append_left _ hp
      · exact hp
    · simp only [RState.load, upd_ne _ _ hx]; exact hp
  have he : ∀ (s : RState w V) a pc evs, ∀ p ∈ (s.view x).hb, p ∈ ((s.emit a pc evs).1.view x).hb := by
    intro s a pc evs p hp
    by_cases hx : x = a
    · subst hx
      simp only [RState.emit, upd_self]
      exact List.mem_append_right _ hp
    · simp only [RState.emit, upd_ne _ _ hx]; exact hp
  have hu : ∀ (s : RState w V) a l f t v rel base, ∀ p ∈ (s.view x).hb, p ∈ ((s.put a l f t v rel base).view x).hb := by
    intro s a l f t v rel base p hp
    by_cases hx : x = a
    · subst hx
      simp only [RState.put, upd_self]
      exact hp
    · simp only [RState.put, upd_ne _ _ hx]; exact hp
  have hsome : ∀ {r : RState w V × List (REv V)}, r = (s', revs) → (∀ p ∈ (s.view x).hb, p ∈ (r.1.view x).hb) → ∀ p ∈ (s.view x).hb, p ∈ (s'.view x).hb := by
    rintro r rfl h; exact h
  cases act <;> simp only [rstep, RState.run] at h <;> (repeat' split at h) <;> first
    | cases h; done
    | obtain ⟨k, hk, hr⟩ := Option.map_eq_some_iff.1 h
      refine hsome hr ?_
      intro p hp
      first
      | exact he _ _ _ _ p hp
      | exact he _ _ _ _ p (hl _ _ _ _ _ p hp)
      | exact hu _ _ _ _ _ _ _ _ p (he _ _ _ _ p (hl _ _ _ _ _ p hp))
      | exact hu _ _ _ _ _ _ _ _ p (he _ _ _ _ p hp)
      | (split <;> exact he _ _ _ _ p hp)
    | skip
  rename_i a b
  cases h
  intro p hp
  by_cases hx : x = b
  · subst hx; simp only [upd_self]; exact List.mem_append_left _ hp
  · simp only [upd_ne _ _ hx]; exact hp

theorem cellStep_mono {s s' : XState w V} {a : Cell.Act Nat} {n : Nat} {revs : List (REv V)} (h : s.cellStep co cc a n = some (s', revs)) (x : OpId) :
    ∀ p ∈ (s.core.view x).hb, p ∈ (s'.core.view x).hb := by
  have hl : ∀ (s : XState w V) a n m acq, ∀ p ∈ (s.core.view x).hb, p ∈ ((s.load a n m acq).core.view x).hb := by
    intro s a n m acq p hp
    by_cases hx : x = a
    · subst hx
      simp only [XState.load, XState.setView, upd_self]
      split
      · exact List.mem_append_left _ hp
      · exact hp
    · simp only [XState.load, XState.setView, upd_ne _ _ hx]; exact hp
  have he : ∀ (s : XState w V) a evs, ∀ p ∈ (s.core.view x).hb, p ∈ ((s.emit a evs).1.core.view x).hb := by
    intro s a evs p hp
    by_cases hx : x = a
    · subst hx
      simp only [XState.emit, upd_self]
      exact List.mem_append_right _ hp
    · simp only [XState.emit, upd_ne _ _ hx]; exact hp
  have hu : ∀ (s : XState w V) a n v rel base h', ∀ p ∈ (s.core.view x).hb, p ∈ ((s.put a n v rel base h').core.view x).hb := by
    intro s a n v rel base h' p hp
    by_cases hx : x = a
    · subst hx
      simp only [XState.put, XState.setView, upd_self]
      exact hp
    · simp only [XState.put, XState.setView, upd_ne _ _ hx]; exact hp
  have h1 : ∀ a k, ∀ p ∈ (s.core.view x).hb, p ∈ ((s.doNone a k).1.core.view x).hb := fun a k => he (s.goto a (k.1.pc a)) a k.2
  have h2 : ∀ a k, ∀ p ∈ (s.core.view x).hb, p ∈ ((s.doWaker a k).1.core.view x).hb := fun a k => he { s.goto a (k.1.pc a) with waiter := _ } a k.2
  have h3 : ∀ a n m od k, ∀ p ∈ (s.core.view x).hb, p ∈ ((s.doLoad a n m od k).1.core.view x).hb := fun a n m od k p hp =>
    he ((s.load a n m od.acq).goto a (k.1.pc a)) a k.2 p (hl s a n m od.acq p hp)
  have h4 : ∀ a n m od k, ∀ p ∈ (s.core.view x).hb, p ∈ ((s.doRmw a n m od k).1.core.view x).hb := fun a n m od k p hp => by
    simp only [XState.doRmw]
    exact he _ _ _ p (hu _ _ _ _ _ _ _ p (he ((s.load a n m od.acq).goto a (k.1.pc a)) _ _ p (hl s a n m od.acq p hp)))
  have fin : ∀ {r : Option (Cell.State Nat × List (Cell.Event Nat))} {f : Cell.State Nat × List (Cell.Event Nat) → XState w V × List (REv V)},
      r.map f = some (s', revs) → (∀ k, ∀ p ∈ (s.core.view x).hb, p ∈ ((f k).1.core.view x).hb) → ∀ p ∈ (s.core.view x).hb, p ∈ (s'.core.view x).hb := by
    intro r f h hf
    obtain ⟨k, _, hr⟩ := Option.map_eq_some_iff.1 h
    rw [show s' = (f k).1 by rw [hr]]
    exact hf k
  simp only [XState.cellStep] at h
  (repeat' split at h) <;> first
    | cases h; done
    | exact fin (f := s.doNone _) h (h1 _)
    | exact fin (f := s.doWaker _) h (h2 _)
    | exact fin (f := s.doLoad _ _ _ _) h (h3 _ _ _ _)
    | exact fin (f := s.doRmw _ _ _ _) h (h4 _ _ _ _)

theorem rstep_invoke {s s' : RState w V} {a : OpId} {op : Op} {revs : List (REv V)} (h : rstep o cap s (.invoke a op) = some (s', revs)) :
    revs = [(.core (.invoke a op), (s.view a).hb)] := by
  simp only [rstep] at h
  obtain ⟨k, hk, hr⟩ := Option.map_eq_some_iff.1 h
  simp only [step] at hk
  split at hk <;> cases hk
  cases hr
  rfl

theorem cellStep_callWait {s s' : XState w V} {a : OpId} {n : Nat} {revs : List (REv V)} (h : s.cellStep co cc (.callWait a) n = some (s', revs)) :
    revs = [(.cell (.callWait a), (s.core.view a).hb)] := by
  simp only [XState.cellStep, CellOrders.actAcc, cellActOp] at h
  obtain ⟨k, hk, hr⟩ := Option.map_eq_some_iff.1 h
  simp only [Cell.step] at hk
  split at hk <;> cases hk
  cases hr
  rfl

theorem cellStep_callNotify {s s' : XState w V} {a : OpId} {b : Bool} {n : Nat} {revs : List (REv V)} (h : s.cellStep co cc (.callNotify a b) n = some (s', revs)) :
    revs = [(.cell (.callNotify a b), (s.core.view a).hb)] := by
  simp only [XState.cellStep, CellOrders.actAcc, cellActOp] at h
  obtain ⟨k, hk, hr⟩ := Option.map_eq_some_iff.1 h
  simp only [Cell.step] at hk
  split at hk <;> cases hk
  cases hr
  rfl

end Thingbuf.RA

namespace Thingbuf.Chan

variable {w : Nat} {V W : Type} {c : Config W} {s : State w V W} {act : Act V W}

/-- The operation of a step of the ring buffer is that of its thread, or it is a `RecvRef`. -/
theorem who_core {a : Thingbuf.Act V} {k} (h : plan c s act = .core a k) :
    (∃ t, who s act = some (t, actOp a)) ∨ (s.ref (actOp a) = .held ∧ who s act = none) := by
  cases act <;> simp only [plan, rxPlan, closerPlan] at h <;> (repeat' split at h) <;> first
    | cases h; done
    | cases h; simp_all [who]

theorem who_invoke {d : OpId} {k} (h : plan c s act = .core (.invoke d .pop) k) : who s act = some (.rx, d) := by
  cases act <;> simp only [plan, rxPlan, closerPlan] at h <;> (repeat' split at h) <;> first
    | cases h; done
    | (cases h; simp_all [who]; done)
    | (simp only [Plan.core.injEq] at h; exact absurd h.1 (by simp))

theorem who_pop {a : Thingbuf.Act V} {k} (h : plan c s act = .core a k) (ho : CoreOwns s) (hk : coreKind (s.core.pc (actOp a)) = some .pop)
    (ha : ∀ b op, a ≠ .invoke b op) : who s act = some (.rx, actOp a) := by
  have h1 : ∀ k b att, s.snd k = .push b att → coreKind (s.core.pc b) = some .push := fun k b att hb => ho.sat (.snd k) b .push (by simp [coreClaim, claimOf, hb, sndCore])
  have h2 : ∀ k b, s.snd k = .held b → coreKind (s.core.pc b) = some .pushHeld := fun k b hb => ho.sat (.snd k) b .pushHeld (by simp [coreClaim, claimOf, hb, sndCore])
  have h3 : ∀ b, s.closer = .closing b → coreKind (s.core.pc b) = some .close := fun b hb => ho.sat .closer b .close (by simp [coreClaim, claimOf, hb, closerCore])
  have h4 : ∀ b, s.rx = .closing b → coreKind (s.core.pc b) = some .close := fun b hb => ho.sat .rx b .close (by simp [coreClaim, claimOf, hb, rxCore])
  have h5 : ∀ b, s.ref b = .held → coreKind (s.core.pc b) = some .popHeld := fun b hb => ho.sat (.ref b) b .popHeld (by simp [coreClaim, claimOf, hb, refCore])
  cases act <;> simp only [plan, rxPlan, closerPlan] at h <;> (repeat' split at h) <;> first
    | cases h; done
    | (cases h; exact absurd rfl (ha _ _))
    | skip
  all_goals cases h
  all_goals simp only [actOp_runAct, actOp_push, actOp_run, actOp_read, actOp_write, actOp_drop] at hk ⊢
  all_goals first
    | (rw [h1 _ _ _ ‹_›] at hk; cases hk; done)
    | (rw [h2 _ _ ‹_›] at hk; cases hk; done)
    | (rw [h3 _ ‹_›] at hk; cases hk; done)
    | (rw [h4 _ ‹_›] at hk; cases hk; done)
    | (rw [h5 _ ‹_›] at hk; cases hk; done)
    | simp_all [who]

theorem who_drop {b : OpId} {k} (h : plan c s act = .core (.dropRef b) k) (ho : CoreOwns s) (hk : coreKind (s.core.pc b) = some .pushHeld) :
    ∃ j, who s act = some (.snd j, b) ∧ ∀ u r, (k u r).1.snd j = .toNotify := by
  have h5 : ∀ b, s.ref b = .held → coreKind (s.core.pc b) = some .popHeld := fun b hb => ho.sat (.ref b) b .popHeld (by simp [coreClaim, claimOf, hb, refCore])
  cases act <;> simp only [plan, rxPlan, closerPlan] at h <;> (repeat' split at h) <;> first
    | cases h; done
    | (cases h; rename_i j _ _; exact ⟨j, by simp_all [who], fun u r => by simp⟩)
    | (cases h; rw [h5 _ ‹_›] at hk; cases hk; done)
    | (simp only [Plan.core.injEq] at h; exact absurd h.1 (by simp))

/-- The steps of the wait cell. -/
theorem who_cell {a : Cell.Act W} {k} (h : plan c s act = .cell a k) :
    (who s act = some (.rx, cellOp a) ∧ ((∃ o, a = .callWait o) ∨ ∃ o v, s.rx = .wait o v ∧ a = waitAct s o v)) ∨
    (∃ j, who s act = some (.snd j, cellOp a) ∧ ((∃ o, a = .callNotify o false ∧ act = .sendNotify j o) ∨ ∃ o, s.snd j = .notifying o ∧ a = .run o)) ∨
    who s act = some (.tx, cellOp a) ∧ ((∃ o, a = .callNotify o true) ∨ ∃ o, s.closer = .closeTx o ∧ a = .run o) := by
  cases act <;> simp only [plan, rxPlan, closerPlan] at h <;> (repeat' split at h) <;> first
    | cases h; done
    | (cases h; simp_all [who, cellOp]; done)
    | (cases h; simp_all [who]; exact ⟨_, _, ⟨rfl, rfl⟩, rfl⟩)

/-- Only the step `sendNotify` begins the notification of a receiver. -/
theorem notify_api {r : Out w V W} (h : plan c s act = .api r) {j : Nat} (hj : s.snd j = .toNotify) : r.1.snd j = .toNotify := by
  cases act <;> simp only [plan, rxPlan, closerPlan] at h <;> (repeat' split at h) <;> first
    | cases h; done
    | (cases h; first | exact hj | (refine (upd_ne _ _ ?_).trans hj; rintro rfl; simp_all; done))

theorem notify_core {a : Thingbuf.Act V} {k} (h : plan c s act = .core a k) {j : Nat} (hj : s.snd j = .toNotify) (core : Thingbuf.State w V) (r : Option Ret) :
    (k { s with core := core } r).1.snd j = .toNotify := by
  cases act <;> simp only [plan, rxPlan, closerPlan] at h <;> (repeat' split at h) <;> first
    | cases h; done
    | cases h
      first
      | exact hj
      | (refine (upd_ne _ _ ?_).trans hj; rintro rfl; simp_all; done)
      | simp only [afterPop, afterPop2, afterLast, afterTry, afterRxClose, afterTxClose, afterPush, gotMessage]
        (repeat' split) <;> first | exact hj | (refine (upd_ne _ _ ?_).trans hj; rintro rfl; simp_all; done)

theorem notify_cell {a : Cell.Act W} {k} (h : plan c s act = .cell a k) {j : Nat} (hj : s.snd j = .toNotify) (ha : ∀ o, act ≠ .sendNotify j o)
    (cell : Cell.State W) (r : List (Cell.Event W)) : (k { s with cell := cell } r).1.snd j = .toNotify := by
  cases act <;> simp only [plan, rxPlan, closerPlan] at h <;> (repeat' split at h) <;> first
    | cases h; done
    | cases h
      first
      | exact hj
      | (refine (upd_ne _ _ ?_).trans hj; rintro rfl; exact ha _ rfl)
      | simp only [afterWait, afterSendNotify]
        (repeat' split) <;> first | exact hj | (refine (upd_ne _ _ ?_).trans hj; rintro rfl; simp_all; done)

theorem notify_queue {a : Queue.Act W} {k} (h : plan c s act = .queue a k) {j : Nat} (hj : s.snd j = .toNotify) (q : Queue.State W)
    (r : List (Queue.Event W)) : (k { s with queue := q } r).1.snd j = .toNotify := by
  cases act <;> simp only [plan, rxPlan, closerPlan] at h <;> (repeat' split at h) <;> first
    | cases h; done
    | cases h
      first
      | exact hj
      | (refine (upd_ne _ _ ?_).trans hj; rintro rfl; simp_all; done)
      | simp only [afterStart, afterCont, afterDrop, afterRecvNotify]
        (repeat' split) <;> first | exact hj | (refine (upd_ne _ _ ?_).trans hj; rintro rfl; simp_all; done)

end Thingbuf.Chan

namespace Thingbuf.Chan

variable {w : Nat} {V : Type} {o : RA.Orders} {co : RA.CellOrders} {c : Config Nat} {th : Thread → OpId} {tr : Trace V Nat} {xtr revs : List (RA.REv V)}
  {s s1 s2 : WState w V}

open RA (XEv AtX HB)

/-- What the receiver does, and knows of. -/
def rxEv : XEv V → Bool
  | .core (.invoke _ .pop) | .core (.dequeue ..) | .cell (.retWait ..) => true
  | _ => false

/-- The calls of the receiver. -/
def rxCall : XEv V → Bool
  | .core (.invoke _ .pop) | .cell (.callWait _) => true
  | _ => false

/-- What a thread knows. -/
def WState.knows (s : WState w V) (b : OpId) (q : Nat) : Prop := q ∈ (s.mem.core.view b).hb

/-- What the threads of the channel know. -/
structure Known (th : Thread → OpId) (xtr : List (RA.REv V)) (s : WState w V) : Prop where
  rx : ∀ q e, AtX xtr q e → rxEv e = true → s.knows (th .rx) q
  rxThen : ∀ p q e f, p < q → AtX xtr p e → rxEv e = true → AtX xtr q f → rxCall f = true → HB xtr p q
  tx : ∀ q b l y, RA.At xtr q (.commit b l y) → s.knows (th .tx) q
  txThen : ∀ p q b l y d, p < q → RA.At xtr p (.commit b l y) → AtX xtr q (.cell (.callNotify d true)) → HB xtr p q
  snd : ∀ q b l y, RA.At xtr q (.commit b l y) → (∃ k, s.ctl.snd k = .toNotify ∧ s.knows (th (.snd k)) q) ∨
    ∃ n d, AtX xtr n (.cell (.callNotify d false)) ∧ HB xtr q n

theorem _root_.Thingbuf.RA.AtX.old_or {q : Nat} {e : XEv V} (h : AtX (xtr ++ revs) q e) :
    (q < xtr.length ∧ AtX xtr q e) ∨ (xtr.length ≤ q ∧ AtX revs (q - xtr.length) e) := by
  unfold AtX at h ⊢
  rw [List.map_append] at h
  by_cases hq : q < xtr.length
  · rw [List.getElem?_append_left (by simpa using hq)] at h; exact .inl ⟨hq, h⟩
  · rw [List.getElem?_append_right (by simpa using hq), List.length_map] at h; exact .inr ⟨by omega, h⟩

theorem _root_.Thingbuf.RA.AtX.append' {q : Nat} {e : XEv V} (h : AtX xtr q e) : AtX (xtr ++ revs) q e := by
  unfold AtX at h ⊢
  rw [List.map_append, List.getElem?_append_left (List.getElem?_eq_some_iff.1 h).1]; exact h

/-- The step is a call, by a thread that knows what `b` knows. -/
def CallBy (s : WState w V) (b : OpId) (revs : List (RA.REv V)) : Prop := ∃ e, revs = [e] ∧ ∀ p, s.knows b p → p ∈ e.2

theorem CallBy.hb {b : OpId} (h : CallBy s b revs) {p q : Nat} (hq : xtr.length ≤ q) {f : XEv V} (hf : AtX revs (q - xtr.length) f) (hp : s.knows b p) :
    HB (xtr ++ revs) p q := by
  obtain ⟨e, rfl, h1⟩ := h
  have : q - xtr.length = 0 := by
    have := (List.getElem?_eq_some_iff.1 hf).1
    simp at this; omega
  refine ⟨e, ?_, h1 p hp⟩
  rw [List.getElem?_append_right hq, this]; rfl

theorem CallBy.lt {b : OpId} (h : CallBy s b revs) {p q : Nat} (hq : xtr.length ≤ q) {f : XEv V} (hf : AtX revs (q - xtr.length) f) (hpq : p < q) : p < xtr.length := by
  obtain ⟨e, rfl, h1⟩ := h
  have := (List.getElem?_eq_some_iff.1 hf).1
  simp at this; omega

theorem Known.next (h : Known th xtr s) (mono : ∀ b p, s.knows b p → s2.knows b p)
    (hrx : ∀ q e, xtr.length ≤ q → AtX revs (q - xtr.length) e → rxEv e = true → s2.knows (th .rx) q)
    (hrxC : ∀ q e, AtX revs q e → rxCall e = true → CallBy s (th .rx) revs)
    (htx : ∀ q b l y, xtr.length ≤ q → RA.At revs (q - xtr.length) (.commit b l y) →
      s2.knows (th .tx) q ∧ ∃ k, s2.ctl.snd k = .toNotify ∧ s2.knows (th (.snd k)) q)
    (htxC : ∀ q d, AtX revs q (.cell (.callNotify d true)) → CallBy s (th .tx) revs)
    (hk : ∀ k, s.ctl.snd k = .toNotify → s2.ctl.snd k = .toNotify ∨ ∃ d, AtX revs 0 (.cell (.callNotify d false)) ∧ CallBy s (th (.snd k)) revs) :
    Known th (xtr ++ revs) s2 := by
  constructor
  · intro q e hq he
    rcases hq.old_or with ⟨_, h1⟩ | ⟨h1, h2⟩
    · exact mono _ _ (h.rx q e h1 he)
    · exact hrx q e h1 h2 he
  · intro p q e f hpq hp he hq hf
    rcases hq.old_or with ⟨h0, h1⟩ | ⟨h1, h2⟩
    · rcases hp.old_or with ⟨_, h3⟩ | ⟨h3, _⟩
      · exact (h.rxThen p q e f hpq h3 he h1 hf).append
      · omega
    · have hc := hrxC _ f h2 hf
      have hl := hc.lt h1 h2 hpq
      rcases hp.old_or with ⟨_, h3⟩ | ⟨h3, _⟩
      · exact hc.hb h1 h2 (h.rx p e h3 he)
      · omega
  · intro q b l y hq
    rcases hq.old_or with ⟨_, h1⟩ | ⟨h1, h2⟩
    · exact mono _ _ (h.tx q b l y h1)
    · exact (htx q b l y h1 h2).1
  · intro p q b l y d hpq hp hq
    rcases hq.old_or with ⟨h0, h1⟩ | ⟨h1, h2⟩
    · rcases hp.old_or with ⟨_, h3⟩ | ⟨h3, _⟩
      · exact (h.txThen p q b l y d hpq h3 h1).append
      · omega
    · have hc := htxC _ d h2
      have hl := hc.lt h1 h2 hpq
      rcases hp.old_or with ⟨_, h3⟩ | ⟨h3, _⟩
      · exact hc.hb h1 h2 (h.tx p b l y h3)
      · omega
  · intro q b l y hq
    rcases hq.old_or with ⟨_, h1⟩ | ⟨h1, h2⟩
    · rcases h.snd q b l y h1 with ⟨k, h2, h3⟩ | ⟨n, d, h2, h3⟩
      · rcases hk k h2 with h4 | ⟨d, h4, h5⟩
        · exact .inl ⟨k, h4, mono _ _ h3⟩
        · have hl : AtX revs (xtr.length - xtr.length) (.cell (.callNotify d false)) := by rw [Nat.sub_self]; exact h4
          refine .inr ⟨xtr.length, d, ?_, h5.hb (Nat.le_refl _) hl h3⟩
          unfold AtX at h4 ⊢
          rw [List.map_append, List.getElem?_append_right (by simp), List.length_map, Nat.sub_self]; exact h4
      · exact .inr ⟨n, d, h2.append', h3.append⟩
    · exact .inl (htx q b l y h1 h2).2

theorem sync_mono {a d b : OpId} {p : Nat} (h : s.knows b p) : (s.sync a d).knows b p := by
  unfold WState.knows WState.sync at *
  by_cases hb : b = d
  · subst hb; simp only [upd_self]; exact List.mem_append_left _ h
  · simp only [upd_ne _ _ hb]; exact h

theorem sync_new {a b : OpId} {p : Nat} (h : s.knows a p) : (s.sync a b).knows b p := by
  unfold WState.knows WState.sync at *
  simp only [upd_self]; exact List.mem_append_right _ h

theorem enter_mono {x : Option (Thread × OpId)} {b : OpId} {p : Nat} (h : s.knows b p) : (s.enter th x).knows b p := by
  unfold WState.enter; split
  · exact h
  · exact sync_mono h

theorem enter_new {t : Thread} {b : OpId} {p : Nat} (h : s.knows (th t) p) : (s.enter th (some (t, b))).knows b p := sync_new h

theorem leave_mono {x : Option (Thread × OpId)} {b : OpId} {p : Nat} (h : s.knows b p) : (s.leave th x).knows b p := by
  unfold WState.leave; split
  · exact h
  · exact sync_mono (sync_mono h)
  · exact sync_mono h

theorem leave_new {t : Thread} {b : OpId} {p : Nat} (h : s.knows b p) : (s.leave th (some (t, b))).knows (th t) p := by
  unfold WState.leave; split
  · rename_i h1; cases h1
  · rename_i h1; cases h1; exact sync_mono (sync_new h)
  · rename_i h1; cases h1; exact sync_new h

theorem leave_tx {k : Nat} {b : OpId} {p : Nat} (h : s.knows b p) : (s.leave th (some (.snd k, b))).knows (th .tx) p := sync_new (sync_mono h)

@[simp] theorem enter_ctl (x : Option (Thread × OpId)) : (s.enter th x).ctl = s.ctl := by
  unfold WState.enter; split <;> rfl

@[simp] theorem leave_ctl (x : Option (Thread × OpId)) : (s.leave th x).ctl = s.ctl := by
  unfold WState.leave; split <;> rfl

theorem wstep_mono {act : Act V Nat} {ch : Choice} {evs : Trace V Nat} (h : wstep o co c s act ch = some (s1, evs, revs)) {b : OpId} {p : Nat} (hp : s.knows b p) :
    s1.knows b p := by
  unfold wstep at h
  split at h
  · cases h
  · cases h; exact hp
  · split at h <;> cases h
    exact RA.rstep_mono ‹_› b p hp
  · split at h <;> cases h
    exact RA.cellStep_mono ‹_› b p hp
  · split at h <;> cases h
    exact hp

theorem WExec.enter (h : WExec o co c w tr xtr s) (x : Option (Thread × OpId)) : WExec o co c w tr xtr (s.enter th x) := by
  unfold WState.enter; split
  · exact h
  · exact h.sync _ _

theorem WExec.leave (h : WExec o co c w tr xtr s) (x : Option (Thread × OpId)) : WExec o co c w tr xtr (s.leave th x) := by
  unfold WState.leave; split
  · exact h
  · exact (h.sync _ _).sync _ _
  · exact h.sync _ _

/-- Such an execution is one of `WeakChan`. -/
theorem PExec.wexec (h : PExec o co c w th tr xtr s) : WExec o co c w tr xtr s := by
  induction h with
  | init => exact .init
  | sync a b _ ih => exact ih.sync a b
  | step h hs ht ih => exact ((ih.enter _).step hs ht).leave _

theorem at_evsOf {q : Nat} {e : Event V} (h : RA.At xtr q e) : e ∈ RA.evsOf xtr := by
  unfold RA.At AtX at h
  rw [List.getElem?_map] at h
  obtain ⟨x, h1, h2⟩ := Option.map_eq_some_iff.1 h
  exact List.mem_filterMap.2 ⟨x, List.mem_of_getElem? h1, by rw [h2]; rfl⟩

/-- The step that takes the oldest element. -/
theorem core_deq {cap : Nat} {s s' : Thingbuf.State w V} {act : Thingbuf.Act V} {evs : List (Event V)} (h : Thingbuf.step cap s act = some (s', evs))
    {b : OpId} {i : Nat} {x : Option V} (hd : .dequeue b i x ∈ evs) : b = actOp act ∧ coreKind (s.pc (actOp act)) = some .pop ∧ ∀ b op, act ≠ .invoke b op := by
  cases act <;> simp only [Thingbuf.step, runStep] at h
  all_goals
    repeat' split at h
    all_goals try simp only [pushLoop, pushCas, pushHead, popLoop, popCas, popTail, closeStep, pushElem, pushElemPanic, Option.some.injEq] at h
    all_goals
      repeat' split at h
      all_goals first
        | (cases h; done)
        | (cases h; simp at hd; done)
        | (cases h; simp at hd; simp_all [actOp, coreKind]; done)

/-- An event is known to its operation. -/
theorem WExec.po (hw : WellSized w c.cap) (ho : RA.Synchronised o) (h : WExec o co c w tr (xtr ++ revs) s) {q : Nat} {e : XEv V} (hq : xtr.length ≤ q)
    (he : AtX revs (q - xtr.length) e) : s.knows e.op q := by
  have hb := (h.mem.binv hw ho).hb
  unfold AtX at he
  rw [List.getElem?_map] at he
  obtain ⟨x, h1, rfl⟩ := Option.map_eq_some_iff.1 he
  exact hb.po q x (by rw [List.getElem?_append_right hq]; exact h1)

theorem PExec.known (hw : WellSized w c.cap) (ho : RA.Synchronised o) (h : PExec o co c w th tr xtr s) : Known th xtr s := by
  induction h with
  | init =>
    constructor <;> intros <;> rename_i h <;> simp [AtX] at *
  | sync a b _ ih =>
    exact ⟨fun q e hq he => sync_mono (ih.rx q e hq he), ih.rxThen, fun q b l y hq => sync_mono (ih.tx q b l y hq), ih.txThen,
      fun q b l y hq => (ih.snd q b l y hq).imp (fun ⟨k, h1, h2⟩ => ⟨k, h1, sync_mono h2⟩) id⟩
  | @step tr xtr s s' act ch evs revs h hs ht ih =>
    have hx0 := h.wexec.enter (th := th) (who s.ctl act)
    have hx1 := hx0.step hs ht
    have hpo := fun q e => hx1.po (q := q) (e := e) hw ho
    have mono : ∀ b p, s.knows b p → (s'.leave th (who s.ctl act)).knows b p := fun b p hp => leave_mono (wstep_mono hs (enter_mono hp))
    obtain ⟨hctl, hc1, hc2, -⟩ := h.wexec.ctl
    clear hx1 ht
    unfold wstep at hs
    simp only [enter_ctl] at hs
    split at hs
    · cases hs
    · rename_i r hp
      cases hs
      refine ih.next mono ?_ ?_ ?_ ?_ fun k hk => .inl (by rw [leave_ctl]; exact notify_api hp hk) <;>
        intros <;> simp [AtX] at *
    · rename_i a k hp
      split at hs
      · cases hs
      rename_i m revs hr
      cases hs
      obtain ⟨st, st', e1, e2, e3⟩ := RA.rstep_code hr
      have hpc : st.pc = s.ctl.core.pc := by rw [e1, hc1]; unfold WState.enter; split <;> rfl
      have hev := core_evs e3
      rw [hpc] at hev
      have hcell := RA.cellOf_rstep hr
      refine ih.next mono ?_ ?_ ?_ ?_ fun k hk => .inl (by rw [leave_ctl]; exact notify_core hp hk _ _)
      · intro q e hq he hrx
        cases e with
        | cell e => have := he.cellOf; rw [hcell] at this; cases this
        | core e =>
          cases e <;> simp [rxEv] at hrx
          case invoke d op =>
            have : op = .pop := by cases op <;> simp at hrx ⊢
            subst this
            have h1 := (hev.inv d .pop).1 (at_evsOf he)
            subst h1
            rw [who_invoke hp]
            exact leave_new (hpo q _ hq he)
          case dequeue b i x =>
            obtain ⟨rfl, h1, h2⟩ := core_deq e3 (at_evsOf he)
            rw [hpc] at h1
            rw [who_pop hp hctl.coreOwns h1 h2]
            refine leave_new ?_
            exact hpo q _ hq he
      · intro q e he hrx
        cases e with
        | cell e => have := he.cellOf; rw [hcell] at this; cases this
        | core e =>
          cases e <;> simp [rxCall] at hrx
          rename_i d op
          have : op = .pop := by cases op <;> simp at hrx ⊢
          subst this
          have h1 := (hev.inv d .pop).1 (at_evsOf he)
          subst h1
          have hw := who_invoke hp
          rw [hw] at hr
          exact ⟨_, RA.rstep_invoke hr, fun p hp => enter_new hp⟩
      · intro q b l y hq he
        obtain ⟨h1, h2, -⟩ := hev.commit b l y (at_evsOf he)
        subst h1
        obtain ⟨j, h3, h4⟩ := who_drop hp hctl.coreOwns h2
        rw [h3]
        have h5 := hpo q _ hq he
        exact ⟨leave_tx h5, j, by rw [leave_ctl]; exact h4 _ _, leave_new h5⟩
      · intro q d he
        have := he.cellOf; rw [hcell] at this; cases this
    · rename_i a k hp
      split at hs
      · cases hs
      rename_i x revs hr
      cases hs
      obtain ⟨-, hcore, st, st', e1, e2, e3⟩ := RA.cellStep_code hr
      have hpc : st.pc = s.ctl.cell.pc := by rw [e1, hc2]; unfold WState.enter; split <;> rfl
      have hwc := who_cell hp
      have hev := cell_evs e3 (by
        rintro o' rfl
        rcases hwc with ⟨-, ⟨o, h⟩ | ⟨o, v, -, h⟩⟩ | ⟨j, -, ⟨o, h, -⟩ | ⟨o, -, h⟩⟩ | ⟨-, ⟨o, h⟩ | ⟨o, -, h⟩⟩ <;> first | cases h | exact waitAct_mkPanic _ _ _ _ h.symm)
      rw [hpc] at hev
      have hno : ∀ {q e}, RA.At revs q e → False := fun he => by
        have := at_evsOf he
        rw [hcore] at this; cases this
      refine ih.next mono ?_ ?_ (fun q b l y _ he => (hno he).elim) ?_ ?_
      · intro q e hq he hrx
        cases e with
        | core e => exact (hno he).elim
        | cell e =>
          cases e <;> simp [rxEv] at hrx
          rename_i b r
          obtain ⟨h1, -, h2⟩ := hev.ret b r he.cellOf
          have hw : who s.ctl act = some (.rx, b) := by
            rcases hwc with ⟨h3, -⟩ | ⟨j, h3, ⟨o, rfl, -⟩ | ⟨o, h4, rfl⟩⟩ | ⟨h3, ⟨o, rfl⟩ | ⟨o, h4, rfl⟩⟩
            · rw [h3, h1]
            · have := he.cellOf
              rw [RA.cellStep_callNotify hr] at this
              simp [RA.cellOf, XEv.cell?] at this
            · have := hctl.cellOwns.sat (.snd j) o .notify (by simp [cellClaim, claimOf, h4, sndCell])
              rw [show cellOp (Cell.Act.run o : Cell.Act Nat) = o from rfl, this] at h2; cases h2
            · have := he.cellOf
              rw [RA.cellStep_callNotify hr] at this
              simp [RA.cellOf, XEv.cell?] at this
            · have := hctl.cellOwns.sat .closer o .notify (by simp [cellClaim, claimOf, h4, closerCell])
              rw [show cellOp (Cell.Act.run o : Cell.Act Nat) = o from rfl, this] at h2; cases h2
          rw [hw]
          exact leave_new (hpo q _ hq he)
      · intro q e he hrx
        cases e with
        | core e => exact (hno he).elim
        | cell e =>
          cases e <;> simp [rxCall] at hrx
          rename_i d
          have h1 := (hev.wait d).1 he.cellOf
          subst h1
          have hw : who s.ctl act = some (.rx, d) := by
            rcases hwc with ⟨h3, -⟩ | ⟨j, h3, ⟨o, h, -⟩ | ⟨o, h4, h⟩⟩ | ⟨h3, ⟨o, h⟩ | ⟨o, h4, h⟩⟩ <;> first | cases h; done | exact h3
          rw [hw] at hr
          exact ⟨_, RA.cellStep_callWait hr, fun p hp => enter_new hp⟩
      · intro q d he
        have h1 := (hev.notify d true).1 he.cellOf
        subst h1
        have hw : who s.ctl act = some (.tx, d) := by
          rcases hwc with ⟨h3, ⟨o, h⟩ | ⟨o, v, -, h⟩⟩ | ⟨j, h3, ⟨o, h, -⟩ | ⟨o, h4, h⟩⟩ | ⟨h3, -⟩ <;> first | cases h; done | exact h3 | exact absurd h.symm (waitAct_callNotify _ _ _ _ _)
        rw [hw] at hr
        exact ⟨_, RA.cellStep_callNotify hr, fun p hp => enter_new hp⟩
      · intro j hj
        by_cases ha : ∃ d, act = .sendNotify j d
        · obtain ⟨d, rfl⟩ := ha
          simp only [plan, hj] at hp
          cases hp
          simp only [who] at hr
          have h1 := RA.cellStep_callNotify hr
          exact .inr ⟨d, by rw [h1]; rfl, _, h1, fun p hp => enter_new hp⟩
        · exact .inl (by rw [leave_ctl]; exact notify_cell hp hj (fun o ho => ha ⟨o, ho⟩) _ _)
    · rename_i a k hp
      split at hs
      · cases hs
      cases hs
      refine ih.next mono ?_ ?_ ?_ ?_ fun k hk => .inl (by rw [leave_ctl]; exact notify_queue hp hk _ _) <;>
        intros <;> simp [AtX] at *

end Thingbuf.Chan
