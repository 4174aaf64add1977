import Verif.CellInv
import Verif.CellSpec

/-!
# History invariants of the wait cell
-/

namespace Thingbuf.Cell

variable {W : Type} {c : Config} {m : Prop}

theorem Tr.op {s : State W} {a : OpId} {p : PC W} {l : Bits} {w : Option W} {evs : Trace W}
    (h : Tr m c s a p l w evs) : ∀ e ∈ evs, e.op = a := by
  cases h <;> simp [Event.op]

theorem mine_append (tr evs : Trace W) (a : OpId) : mine (tr ++ evs) a = mine tr a ++ mine evs a := by
  simp [mine]

theorem mem_mine {tr : Trace W} {a : OpId} {e : Event W} : e ∈ mine tr a ↔ e ∈ tr ∧ e.op = a := by
  simp [mine]

theorem mine_other {evs : Trace W} {a b : OpId} (h : ∀ e ∈ evs, e.op = a) (hb : b ≠ a) : mine evs b = [] := by
  simp only [mine, List.filter_eq_nil_iff, beq_iff_eq]
  intro e he hb'
  exact hb (hb'.symm.trans (h e he))

theorem mine_self {evs : Trace W} {a : OpId} (h : ∀ e ∈ evs, e.op = a) : mine evs a = evs := by
  simp only [mine, List.filter_eq_self, beq_iff_eq]
  exact h

/-- What the events of an operation look like at each program counter. -/
def OpOk (a : OpId) (l : Trace W) : PC W → Prop
  | .idle => l = []
  | .waitStart | .waitSelf | .waitLocked =>
    .callWait a ∈ l ∧ ¬ Returned l a ∧ (∀ c, .callNotify a c ∉ l) ∧ (∀ v, .register a v ∉ l) ∧
      (∀ v, .mk a v ∉ l)
  | .waitStore v | .waitStoring v =>
    .callWait a ∈ l ∧ ¬ Returned l a ∧ (∀ c, .callNotify a c ∉ l) ∧ (∀ v, .register a v ∉ l) ∧ .mk a v ∈ l ∧
      ∀ u, .mk a u ∈ l → u = v
  | .waitUnlock _ p | .waitTake _ p _ | .waitTaking _ p _ | .waitReset _ p _ _ | .waitWake _ p _ _ =>
    .callWait a ∈ l ∧ ¬ Returned l a ∧ (∀ c, .callNotify a c ∉ l) ∧ (∀ v, .register a v ∉ l) ∧
      (p = true → .mkPanic a ∈ l)
  | .notifyStart c => .callNotify a c ∈ l ∧ ¬ Returned l a ∧ .callWait a ∉ l ∧ (∀ c, .signal a c ∉ l) ∧
      (∀ v, .wake a v ∉ l) ∧ ∀ c', .callNotify a c' ∈ l → c' = c
  | .notifyTake | .notifyTaking | .notifyClear _ | .notifyWake _ =>
    (∃ c, .callNotify a c ∈ l ∧ .signal a c ∈ l ∧ ∀ c', .callNotify a c' ∈ l → c' = c) ∧ ¬ Returned l a ∧
      .callWait a ∉ l ∧ (∀ v, .wake a v ∉ l)
  | .done => (.callWait a ∈ l ∧ (∀ c, .callNotify a c ∉ l) ∨
      .callWait a ∉ l ∧ ∃ c, .callNotify a c ∈ l ∧ .signal a c ∈ l ∧ ∀ c', .callNotify a c' ∈ l → c' = c) ∧
      Returned l a

theorem OpOk.step {s : State W} {a : OpId} {p : PC W} {l : Bits} {w : Option W} {evs t : Trace W}
    (ht : Tr m c s a p l w evs) (h : OpOk a t (s.pc a)) : OpOk a (t ++ evs) p := by
  cases ht
  case signalOwn close hp hl => cases close <;> simp_all [OpOk, Returned]
  case signalOther close hp hl => cases close <;> simp_all [OpOk, Returned]
  all_goals simp_all [OpOk, Returned]

theorem WExec.opOk {tr : Trace W} {s : State W} (h : WExec m c tr s) (b : OpId) : OpOk b (mine tr b) (s.pc b) := by
  induction h generalizing b with
  | init => simp [State.init, OpOk, mine]
  | @step tr s a p l w evs _ ht ih =>
    rw [mine_append]
    by_cases hb : b = a
    · subst hb
      rw [mine_self ht.op]
      simpa [State.after] using OpOk.step ht (ih b)
    · rw [mine_other ht.op hb]
      simpa [State.after, hb] using ih b

theorem called_mine {tr : Trace W} {a : OpId} : Called (mine tr a) a ↔ Called tr a := by
  simp [Called, mem_mine, Event.op]

theorem returned_mine {tr : Trace W} {a : OpId} : Returned (mine tr a) a ↔ Returned tr a := by
  simp [Returned, mem_mine, Event.op]

theorem Called.append {tr evs : Trace W} {a : OpId} (h : Called tr a) : Called (tr ++ evs) a := by
  rcases h with h | ⟨c, h⟩
  · exact .inl (by simp [h])
  · exact .inr ⟨c, by simp [h]⟩

theorem OpOk.idle_iff {tr : Trace W} {s : State W} {a : OpId} (this : OpOk a (mine tr a) (s.pc a)) :
    s.pc a = .idle ↔ ¬ Called tr a := by
  rw [← called_mine]
  cases hp : s.pc a <;> simp only [hp, OpOk] at this <;> simp only [reduceCtorEq, false_iff, true_iff, Classical.not_not]
  case idle => simp [this, Called]
  case done =>
    rcases this.1 with h1 | ⟨_, c, h1, _⟩
    · exact .inl h1.1
    · exact .inr ⟨c, h1⟩
  case notifyStart x => exact .inr ⟨x, this.1⟩
  case notifyTake => obtain ⟨⟨x, h1, _⟩, _⟩ := this; exact .inr ⟨x, h1⟩
  case notifyTaking => obtain ⟨⟨x, h1, _⟩, _⟩ := this; exact .inr ⟨x, h1⟩
  case notifyClear => obtain ⟨⟨x, h1, _⟩, _⟩ := this; exact .inr ⟨x, h1⟩
  case notifyWake => obtain ⟨⟨x, h1, _⟩, _⟩ := this; exact .inr ⟨x, h1⟩
  all_goals exact .inl this.1

theorem OpOk.done_iff {tr : Trace W} {s : State W} {a : OpId} (this : OpOk a (mine tr a) (s.pc a)) :
    s.pc a = .done ↔ Returned tr a := by
  rw [← returned_mine]
  cases hp : s.pc a <;> simp only [hp, OpOk] at this <;> simp [this]
  simp [Returned]

theorem WExec.idle_iff {tr : Trace W} {s : State W} (h : WExec m c tr s) (a : OpId) :
    s.pc a = .idle ↔ ¬ Called tr a := (h.opOk a).idle_iff

theorem WExec.done_iff {tr : Trace W} {s : State W} (h : WExec m c tr s) (a : OpId) :
    s.pc a = .done ↔ Returned tr a := (h.opOk a).done_iff

/-! ### Accesses to the waker -/

def AccInv (tr : Trace W) (s : State W) : Prop :=
  (∃ a, accessing (s.pc a) = true) ∧ accBegun tr = accEnded tr + 1 ∨
  (∀ a, accessing (s.pc a) = false) ∧ accBegun tr = accEnded tr

theorem accessing_owns {p : PC W} (h : accessing p = true) : owns p = true := by
  cases p <;> simp_all [accessing, owns]

theorem AccInv.tr {tr : Trace W} {s : State W} {o : Option OpId} {a : OpId} {p : PC W} {l : Bits} {w : Option W}
    {evs : Trace W} (hl : LockInv s o) (h : AccInv tr s) (ht : Tr m c s a p l w evs) :
    AccInv (tr ++ evs) (s.after a p l w) := by
  -- neither before nor after
  have same : accessing (s.pc a) = false → accessing p = false → accBegun evs = 0 → accEnded evs = 0 →
      AccInv (tr ++ evs) (s.after a p l w) := by
    intro h1 h2 h3 h4
    have e1 : accBegun (tr ++ evs) = accBegun tr := by simp only [accBegun, List.countP_append] at *; omega
    have e2 : accEnded (tr ++ evs) = accEnded tr := by simp only [accEnded, List.countP_append] at *; omega
    rcases h with ⟨⟨b, hb⟩, h⟩ | ⟨hn, h⟩
    · left
      have hne : b ≠ a := by rintro rfl; rw [h1] at hb; cases hb
      exact ⟨⟨b, by simp [State.after, hne, hb]⟩, by omega⟩
    · right
      refine ⟨fun b => ?_, by omega⟩
      simp only [State.after]
      split
      · exact h2
      · exact hn b
  have start : owns (s.pc a) = true → accessing (s.pc a) = false → accessing p = true → accBegun evs = 1 →
      accEnded evs = 0 → AccInv (tr ++ evs) (s.after a p l w) := by
    intro h0 h1 h2 h3 h4
    have e1 : accBegun (tr ++ evs) = accBegun tr + 1 := by simp only [accBegun, List.countP_append] at *; omega
    have e2 : accEnded (tr ++ evs) = accEnded tr := by simp only [accEnded, List.countP_append] at *; omega
    rcases h with ⟨⟨b, hb⟩, h⟩ | ⟨hn, h⟩
    · have := hl.uniq b (accessing_owns hb)
      rw [hl.uniq a h0] at this
      cases this
      rw [h1] at hb; cases hb
    · exact .inl ⟨⟨a, by simp [State.after, h2]⟩, by omega⟩
  have stop : accessing (s.pc a) = true → accessing p = false → accBegun evs = 0 →
      accEnded evs = 1 → AccInv (tr ++ evs) (s.after a p l w) := by
    intro h1 h2 h3 h4
    have e1 : accBegun (tr ++ evs) = accBegun tr := by simp only [accBegun, List.countP_append] at *; omega
    have e2 : accEnded (tr ++ evs) = accEnded tr + 1 := by simp only [accEnded, List.countP_append] at *; omega
    rcases h with ⟨⟨b, hb⟩, h⟩ | ⟨hn, h⟩
    · refine .inr ⟨fun b => ?_, by omega⟩
      simp only [State.after]
      split
      · exact h2
      · rename_i hne
        cases hacc : accessing (s.pc b)
        · rfl
        · have := hl.uniq b (accessing_owns hacc)
          rw [hl.uniq a (accessing_owns h1)] at this
          cases this; contradiction
    · rw [hn a] at h1; cases h1
  cases ht
  case storeBegin v hp => exact start (by simp [hp, owns]) (by simp [hp, accessing]) rfl rfl rfl
  case takeBegin _ _ _ hp => exact start (by simp [hp, owns]) (by simp [hp, accessing]) rfl rfl rfl
  case nTakeBegin hp => exact start (by simp [hp, owns]) (by simp [hp, accessing]) rfl rfl rfl
  case storeEnd v hp => exact stop (by simp [hp, accessing]) rfl rfl rfl
  case takeEnd _ _ _ hp => exact stop (by simp [hp, accessing]) rfl rfl rfl
  case nTakeEnd hp => exact stop (by simp [hp, accessing]) rfl rfl rfl
  all_goals exact same (by simp [*, accessing]) rfl rfl rfl

theorem WExec.accInv {tr : Trace W} {s : State W} (hstd : c.std = true) (h : WExec m c tr s) : AccInv tr s := by
  induction h with
  | init => exact .inr ⟨fun _ => rfl, rfl⟩
  | @step tr s a p l w evs h ht ih =>
    obtain ⟨o, ho⟩ := h.lockInv hstd
    exact ih.tr ho ht

/-! ### The stored waker -/

/-- `v` is the waker of the last registration. -/
def LastReg (tr : Trace W) (v : W) : Prop :=
  ∃ pre a post, tr = pre ++ .register a v :: post ∧ ∀ a' v', .register a' v' ∉ post

/-- A call has put its own waker into the cell and not yet registered it or taken it back. -/
def storing : PC W → Bool
  | .waitUnlock _ false | .waitTake _ false _ | .waitTaking _ false _ => true
  | _ => false

structure WakerInv (tr : Trace W) (s : State W) : Prop where
  last : (∀ a, storing (s.pc a) = false) → ∀ u, s.waiter = some u → LastReg tr u
  mine : ∀ a, storing (s.pc a) = true → ∃ v, s.waiter = some v ∧ .mk a v ∈ tr ∧ ∀ u, .mk a u ∈ tr → u = v

theorem storing_owns {p : PC W} (h : storing p = true) : owns p = true := by
  cases p <;> simp_all [storing, owns]

theorem LastReg.append {tr evs : Trace W} {v : W} (h : LastReg tr v) (he : ∀ a u, .register a u ∉ evs) :
    LastReg (tr ++ evs) v := by
  obtain ⟨pre, a, post, rfl, h2⟩ := h
  refine ⟨pre, a, post ++ evs, by simp, fun a' v' hm => ?_⟩
  rcases List.mem_append.1 hm with hm | hm
  · exact h2 _ _ hm
  · exact he _ _ hm

theorem WakerInv.tr {tr : Trace W} {s : State W} {o : Option OpId} {a : OpId} {p : PC W} {l : Bits} {w : Option W}
    {evs : Trace W} (hl : LockInv s o) (hop : OpOk a (Cell.mine tr a) (s.pc a)) (h : WakerInv tr s)
    (ht : Tr m c s a p l w evs) : WakerInv (tr ++ evs) (s.after a p l w) := by
  have same : storing (s.pc a) = storing p → w = s.waiter → (∀ a u, .register a u ∉ evs) →
      (storing (s.pc a) = true → ∀ u, .mk a u ∉ evs) → WakerInv (tr ++ evs) (s.after a p l w) := by
    intro h1 h2 h3 h4
    subst h2
    have hb : ∀ b, storing ((s.after a p l s.waiter).pc b) = storing (s.pc b) := by
      intro b
      simp only [State.after]
      split
      · rename_i hb; rw [hb, h1]
      · rfl
    constructor
    · intro hs u hu
      exact (h.last (fun b => by rw [← hb b]; exact hs b) u hu).append h3
    · intro b hs
      rw [hb b] at hs
      obtain ⟨v, hv, hm, hu⟩ := h.mine b hs
      refine ⟨v, hv, by simp [hm], fun u hmu => ?_⟩
      rcases List.mem_append.1 hmu with hmu | hmu
      · exact hu u hmu
      · have hba : b = a := ht.op _ hmu
        exact absurd hmu (hba ▸ h4 (hba ▸ hs) u)
  have cleared : owns (s.pc a) = true → storing p = false → w = none → WakerInv (tr ++ evs) (s.after a p l w) := by
    intro h1 h2 h3
    subst h3
    refine ⟨fun _ u hu => by simp [State.after] at hu, fun b hb => ?_⟩
    simp only [State.after] at hb
    split at hb
    · rw [h2] at hb; cases hb
    · have := hl.uniq b (storing_owns hb)
      rw [hl.uniq a h1] at this
      cases this; contradiction
  cases ht
  case storeEnd v hp =>
    refine ⟨fun hn => ?_, fun b hb => ?_⟩
    · have := hn a; simp [State.after, storing] at this
    · have hba : b = a := by
        simp only [State.after] at hb
        split at hb
        · assumption
        · have := hl.uniq b (storing_owns hb)
          rw [hl.uniq a (by simp [hp, owns])] at this
          cases this; rfl
      subst hba
      simp only [hp, OpOk] at hop
      have := (mem_mine.1 hop.2.2.2.2.1).1
      refine ⟨v, rfl, by simp [this], fun u hu => hop.2.2.2.2.2 u (mem_mine.2 ⟨by simpa using hu, rfl⟩)⟩
  case takeEnd _ _ _ hp => exact cleared (by simp [hp, owns]) rfl rfl
  case nTakeEnd hp => exact cleared (by simp [hp, owns]) rfl rfl
  case unlockReg prev v hp hlk hw =>
    refine ⟨fun _ u hu => ?_, fun b hb => ?_⟩
    · simp only [State.after, hw, Option.some.injEq] at hu
      subst hu
      exact ⟨tr, a, [.retWait a .wait], rfl, by simp⟩
    · simp only [State.after] at hb
      split at hb
      · cases hb
      · have := hl.uniq b (storing_owns hb)
        rw [hl.uniq a (by simp [hp, owns])] at this
        cases this; contradiction
  case unlockNone prev hp hlk hw =>
    obtain ⟨v, hv, _⟩ := h.mine a (by simp [hp, storing])
    rw [hw] at hv; cases hv
  case unlockFail prev q x hp hlk hx =>
    refine same ?_ rfl (by simp) (by simp)
    cases q <;> simp [hp, storing]
  case takeBegin prev q x hp =>
    refine same ?_ rfl (by simp) (by simp)
    cases q <;> simp [hp, storing]
  all_goals exact same (by simp [*, storing]) rfl (by simp) (by simp [*, storing])

theorem WExec.wakerInv {tr : Trace W} {s : State W} (hstd : c.std = true) (h : WExec m c tr s) : WakerInv tr s := by
  induction h with
  | init => exact ⟨fun _ u hu => by simp [State.init] at hu, fun a ha => by simp [State.init, storing] at ha⟩
  | @step tr s a p l w evs h ht ih =>
    obtain ⟨o, ho⟩ := h.lockInv hstd
    exact ih.tr ho (h.opOk a) ht

/-! ### Responsibility for waking a registered waker -/

/-- An operation at this program counter is going to wake `v`. -/
def Resp (s : State W) (v : W) : PC W → Prop
  | .notifyTake | .notifyTaking => s.waiter = some v
  | .notifyClear t | .notifyWake t => t = some v
  | .waitLocked | .waitStore _ | .waitStoring _ => s.waiter = some v ∧ (s.lock = 3#3 ∨ s.lock = 7#3)
  | .waitUnlock prev _ => (s.waiter = some v ∨ prev = some v) ∧ (s.lock = 3#3 ∨ s.lock = 7#3)
  | .waitTake prev _ _ | .waitTaking prev _ _ => s.waiter = some v ∨ prev = some v
  | .waitReset prev _ _ t | .waitWake prev _ t _ => prev = some v ∨ t = some v
  | _ => False

/-- No signal since the registration of `v`. -/
def Armed (s : State W) (v : W) : Prop :=
  (s.lock = 0#3 ∨ s.lock = 1#3) ∧ (s.waiter = some v ∨ ∃ d, s.pc d = .waitUnlock (some v) false)

/-- What holds of the last registration until its waker is woken. -/
def RegInv (tr : Trace W) (s : State W) : Prop :=
  ∀ pre a v post, tr = pre ++ .register a v :: post → (∀ a' v', .register a' v' ∉ post) →
    (∀ d, .wake d v ∉ post) → (∀ d, .assertFailed d ∉ post) →
    (∀ b x, .signal b x ∉ post) ∧ Armed s v ∨
    ∃ d, Resp s v (s.pc d) ∧
      ∀ l1 b x l2, post = l1 ++ .signal b x :: l2 → Called (pre ++ .register a v :: l1) d

theorem Resp.owns_or {s : State W} {v : W} {p : PC W} (h : Resp s v p) :
    owns p = true ∨ (p = .notifyWake (some v)) ∨ ∃ prev q t cl, p = .waitWake prev q t cl ∧ (prev = some v ∨ t = some v) := by
  cases p
  case waitWake prev q t cl => exact .inr (.inr ⟨prev, q, t, cl, rfl, h⟩)
  all_goals simp_all [Resp, owns]

theorem Resp.not_idle {s : State W} {v : W} {p : PC W} (h : Resp s v p) : p ≠ .idle ∧ p ≠ .done := by
  cases p <;> simp_all [Resp]

/-- Only the holder of the lock changes the stored waker. -/
theorem Tr.waiter_of_not_owns {s : State W} {a : OpId} {p : PC W} {l : Bits} {w : Option W} {evs : Trace W}
    (ht : Tr m c s a p l w evs) (h : owns (s.pc a) = false) : w = s.waiter := by
  cases ht <;> simp_all [owns]

/-- An operation that does not hold the lock can only lock it, or add bits. -/
theorem Tr.lock_of_not_owns {s : State W} {a : OpId} {p : PC W} {l : Bits} {w : Option W} {evs : Trace W}
    (ht : Tr m c s a p l w evs) (h : owns (s.pc a) = false) :
    l = s.lock ∨ s.lock = 0#3 ∨ l = s.lock ||| 2#3 ∨ l = s.lock ||| 6#3 := by
  cases ht
  case signalOther close hp hl => cases close <;> simp [NOTIFYING, TX_CLOSED, WAITING]
  case signalOwn close hp hl => simp [hl, WAITING]
  case lock hp hl => simp [hl, WAITING]
  all_goals simp_all [owns]

theorem Resp.other {s : State W} {o : Option OpId} {v : W} {a d : OpId} {p : PC W} {l : Bits} {w : Option W}
    {evs : Trace W} (hl : LockInv s o) (h : Resp s v (s.pc d)) (hne : d ≠ a) (ht : Tr m c s a p l w evs) :
    Resp (s.after a p l w) v ((s.after a p l w).pc d) := by
  have hpc : (s.after a p l w).pc d = s.pc d := by simp [State.after, hne]
  rw [hpc]
  rcases h.owns_or with ho | ho | ⟨prev, q, t, cl, ho, h2⟩
  · have hod := hl.uniq d ho
    have hna : owns (s.pc a) = false := by
      cases hh : owns (s.pc a)
      · rfl
      · have := hl.uniq a hh; rw [hod] at this; cases this; contradiction
    have hw := ht.waiter_of_not_owns hna
    have hlk := ht.lock_of_not_owns hna
    have hheld := hl.held d hod
    subst hw
    cases hp : s.pc d <;> simp only [hp, owns, Bool.false_eq_true] at ho <;>
      simp only [hp, Resp, State.after] at h ⊢ <;> (try exact h)
    all_goals
      refine ⟨h.1, ?_⟩
      rcases h.2 with h2 | h2 <;> rw [h2] at hlk <;> simp at hlk <;> simp [hlk]
      try exact Or.comm.1 (by simpa using hlk)
  · rw [ho] at h ⊢; exact h
  · rw [ho]; exact h2

theorem Resp.self {s : State W} (hstd : c.std = true) {v : W} {a : OpId} {p : PC W} {l : Bits} {w : Option W}
    {evs : Trace W} (h : Resp s v (s.pc a)) (ht : Tr m c s a p l w evs) (h1 : ∀ d, .wake d v ∉ evs)
    (h2 : ∀ d, .assertFailed d ∉ evs) : Resp (s.after a p l w) v ((s.after a p l w).pc a) := by
  have hpc : (s.after a p l w).pc a = p := by simp [State.after]
  rw [hpc]
  cases ht
  case takeEnd => simp_all [Resp, State.after, or_comm]
  case wakePrev u q t cl hp =>
    simp only [hp, Resp, Option.some.injEq] at h ⊢
    rcases h with rfl | h
    · exact absurd (by simp) (h1 a)
    · exact .inr h
  all_goals simp_all [Resp, State.after, PARKING]

theorem Armed.not_takes {s : State W} {o : Option OpId} {v : W} {a : OpId} (hl : LockInv s o) (h : Armed s v)
    (ho : owns (s.pc a) = true) : s.lock = 1#3 ∧ (s.pc a = .waitLocked ∨ (∃ v, s.pc a = .waitStore v) ∨
      (∃ v, s.pc a = .waitStoring v) ∨ ∃ prev q, s.pc a = .waitUnlock prev q) := by
  have hh := hl.held a (hl.uniq a ho)
  rcases h.1 with h1 | h1 <;> cases hp : s.pc a <;> simp_all [lockOk]

theorem RegInv.tr {tr : Trace W} {s : State W} {o : Option OpId} {a : OpId} {p : PC W} {l : Bits} {w : Option W}
    {evs : Trace W} (hstd : c.std = true) (hl : LockInv s o) (hwk : WakerInv tr s) (hcalled : ∀ d, s.pc d ≠ .idle → Called tr d)
    (h : RegInv tr s) (ht : Tr m c s a p l w evs) : RegInv (tr ++ evs) (s.after a p l w) := by
  intro pre a0 v post htr hreg hwake hass
  rcases append_split htr with ⟨post', rfl, htr'⟩ | ⟨e1, he, hpre⟩
  · -- an earlier registration
    have hreg' : ∀ a' v', .register a' v' ∉ evs := fun a' v' hm => hreg a' v' (List.mem_append_right _ hm)
    have hwake' : ∀ d, .wake d v ∉ evs := fun d hm => hwake d (List.mem_append_right _ hm)
    have hass' : ∀ d, .assertFailed d ∉ evs := fun d hm => hass d (List.mem_append_right _ hm)
    -- bookkeeping for the second alternative
    have second : ∀ d, Called tr d → Resp (s.after a p l w) v ((s.after a p l w).pc d) →
        (∀ l1 b x l2, post' = l1 ++ .signal b x :: l2 → Called (pre ++ .register a0 v :: l1) d) →
        ∃ d, Resp (s.after a p l w) v ((s.after a p l w).pc d) ∧
          ∀ l1 b x l2, post' ++ evs = l1 ++ .signal b x :: l2 → Called (pre ++ .register a0 v :: l1) d := by
      intro d hd hr hold
      refine ⟨d, hr, fun l1 b x l2 hp => ?_⟩
      rcases append_split hp with ⟨q, _, h2⟩ | ⟨e, _, h2⟩
      · exact hold _ _ _ _ h2
      · rw [h2, ← List.cons_append, ← List.append_assoc, ← htr']
        exact hd.append
    rcases h pre a0 v post' htr' (fun a' v' hm => hreg a' v' (List.mem_append_left _ hm))
      (fun d hm => hwake d (List.mem_append_left _ hm)) (fun d hm => hass d (List.mem_append_left _ hm)) with
      ⟨hsig, harm⟩ | ⟨d, hr, hc⟩
    · -- armed
      have nosig : ∀ d, ∀ l1 b x l2, post' = l1 ++ .signal b x :: l2 → Called (pre ++ .register a0 v :: l1) d :=
        fun d l1 b x l2 hp => absurd (by simp [hp]) (hsig b x)
      have keep : (∀ b x, .signal b x ∉ evs) → Armed (s.after a p l w) v →
          (∀ b x, .signal b x ∉ post' ++ evs) ∧ Armed (s.after a p l w) v := by
        intro h1 h2
        refine ⟨fun b x hm => ?_, h2⟩
        rcases List.mem_append.1 hm with hm | hm
        · exact hsig _ _ hm
        · exact h1 _ _ hm
      -- a step that touches neither the lock nor the waker, by an operation not at `waitUnlock`
      have easy : (∀ b x, .signal b x ∉ evs) → (l = 0#3 ∨ l = 1#3) → w = s.waiter →
          (∀ prev q, s.pc a ≠ .waitUnlock prev q) → (∀ b x, .signal b x ∉ post' ++ evs) ∧ Armed (s.after a p l w) v := by
        intro h1 h2 h3 h4
        refine keep h1 ⟨h2, ?_⟩
        subst h3
        rcases harm.2 with h5 | ⟨d, h5⟩
        · exact .inl h5
        · refine .inr ⟨d, ?_⟩
          have : d ≠ a := by rintro rfl; exact h4 _ _ h5
          simpa [State.after, this] using h5
      cases ht
      case signalOwn close hp hlk =>
        right
        refine second a (hcalled a (by simp [hp])) ?_ (nosig a)
        rcases harm.2 with h5 | ⟨d, h5⟩
        · simpa [State.after, Resp] using h5
        · have := hl.held d (hl.uniq d (by simp [h5, owns]))
          simp [h5, lockOk, hlk, WAITING] at this
      case signalOther close hp hlk =>
        right
        have h1 : s.lock = 1#3 := by
          rcases harm.1 with h | h
          · exact absurd h hlk
          · exact h
        have ho : ∃ d, o = some d := by
          cases o with
          | none => have := hl.free rfl; simp [h1] at this
          | some d => exact ⟨d, rfl⟩
        obtain ⟨d, rfl⟩ := ho
        have hheld := hl.held d rfl
        have hda : d ≠ a := by rintro rfl; simp [hp, lockOk] at hheld
        have hlk3 : s.lock ||| (NOTIFYING ||| (if close = true then TX_CLOSED else WAITING)) = 3#3 ∨
            s.lock ||| (NOTIFYING ||| (if close = true then TX_CLOSED else WAITING)) = 7#3 := by
          cases close <;> simp [h1, NOTIFYING, TX_CLOSED, WAITING]
        have hpd : (s.after a .done (s.lock ||| (NOTIFYING ||| (if close = true then TX_CLOSED else WAITING)))
            s.waiter).pc d = s.pc d := by simp [State.after, hda]
        refine second d (hcalled d (by intro hi; simp [hi, lockOk] at hheld)) ?_ (nosig d)
        rw [hpd]
        rcases harm.2 with h5 | ⟨d', h5⟩
        · cases hpc : s.pc d <;> simp [hpc, lockOk, h1] at hheld <;> simp only [Resp, State.after] <;>
            first | exact ⟨h5, hlk3⟩ | exact ⟨.inl h5, hlk3⟩
        · have := hl.uniq d' (by simp [h5, owns])
          simp only [Option.some.injEq] at this
          subst this
          rw [h5]
          exact ⟨.inr rfl, hlk3⟩
      case lock hp hlk => exact .inl (easy (by simp) (.inr rfl) rfl (by simp [hp]))
      case storeEnd x hp =>
        left
        refine keep (by simp) ⟨harm.1, .inr ⟨a, ?_⟩⟩
        rcases harm.2 with h5 | ⟨d, h5⟩
        · simp [State.after, h5]
        · have := hl.uniq d (by simp [h5, owns])
          rw [hl.uniq a (by simp [hp, owns])] at this
          cases this
          rw [hp] at h5; cases h5
      case unlockPanicked prev hp hlk =>
        left
        refine keep (by simp) ⟨.inl rfl, ?_⟩
        rcases harm.2 with h5 | ⟨d, h5⟩
        · exact .inl h5
        · have := hl.uniq d (by simp [h5, owns])
          rw [hl.uniq a (by simp [hp, owns])] at this
          cases this
          rw [hp] at h5; cases h5
      case unlockReg prev x hp hlk hw => exact absurd (by simp) (hreg' a x)
      case unlockNone prev hp hlk hw =>
        obtain ⟨x, hx, _⟩ := hwk.mine a (by simp [hp, storing])
        rw [hw] at hx; cases hx
      case unlockFail prev q x hp hlk hx =>
        have h1 := (harm.not_takes hl (a := a) (by simp [hp, owns])).1
        rcases hx with rfl | ⟨-, hx⟩
        · exact absurd h1 hlk
        · rw [h1] at hx; exact absurd hx (by decide)
      case takeBegin _ _ _ hp => have := harm.not_takes hl (a := a) (by simp [hp, owns]); simp [hp] at this
      case takeEnd _ _ _ hp => have := harm.not_takes hl (a := a) (by simp [hp, owns]); simp [hp] at this
      case resetAssert _ _ _ _ hp _ _ => have := harm.not_takes hl (a := a) (by simp [hp, owns]); simp [hp] at this
      case reset _ _ _ _ hp => have := harm.not_takes hl (a := a) (by simp [hp, owns]); simp [hp] at this
      case nTakeBegin hp => have := harm.not_takes hl (a := a) (by simp [hp, owns]); simp [hp] at this
      case nTakeEnd hp => have := harm.not_takes hl (a := a) (by simp [hp, owns]); simp [hp] at this
      case nClear _ hp => have := harm.not_takes hl (a := a) (by simp [hp, owns]); simp [hp] at this
      all_goals exact .inl (easy (by simp) harm.1 rfl (by simp [*]))
    · -- some operation is responsible
      right
      refine second d (hcalled d hr.not_idle.1) ?_ hc
      by_cases hda : d = a
      · subst hda; exact hr.self hstd ht hwake' hass'
      · exact hr.other hl hda ht
  · -- this step registers
    left
    have : ∃ prev, s.pc a = .waitUnlock prev false ∧ s.waiter = some v ∧ l = 0#3 ∧ w = s.waiter ∧
        post = [.retWait a .wait] := by
      cases ht <;> (try (simp [List.cons_eq_append_iff] at he; done))
      case unlockReg prev u hp hlk hw =>
        simp [List.cons_eq_append_iff] at he
        obtain ⟨rfl, ⟨rfl, rfl⟩, rfl⟩ := he
        exact ⟨prev, hp, hw, rfl, rfl, rfl⟩
    obtain ⟨prev, hp, hw, rfl, rfl, rfl⟩ := this
    exact ⟨by simp, .inl rfl, .inl hw⟩

theorem WExec.regInv {tr : Trace W} {s : State W} (hstd : c.std = true) (h : WExec m c tr s) : RegInv tr s := by
  induction h with
  | init => intro pre a v post hp; simp at hp
  | @step tr s a p l w evs h ht ih =>
    obtain ⟨o, ho⟩ := h.lockInv hstd
    refine ih.tr hstd ho (h.wakerInv hstd) (fun d hd => ?_) ht
    exact Classical.byContradiction fun hn => hd ((h.idle_iff d).2 hn)

/-! ### The same for the sequentially consistent cell -/

section
variable {tr : Trace W} {s : State W} (hstd : c.std = true) (h : Exec c tr s)
include h

theorem Exec.opOk (b : OpId) : OpOk b (mine tr b) (s.pc b) := h.weak.opOk b
theorem Exec.idle_iff (a : OpId) : s.pc a = .idle ↔ ¬ Called tr a := h.weak.idle_iff a
theorem Exec.done_iff (a : OpId) : s.pc a = .done ↔ Returned tr a := h.weak.done_iff a

include hstd
theorem Exec.accInv : AccInv tr s := h.weak.accInv hstd
theorem Exec.wakerInv : WakerInv tr s := h.weak.wakerInv hstd
theorem Exec.regInv : RegInv tr s := h.weak.regInv hstd

end

end Thingbuf.Cell
