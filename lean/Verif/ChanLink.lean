import Verif.ChanTr
import Verif.ChanSpec
import Verif.CoreProps
import Verif.CellProps
import Verif.QueueProps

/-!
# The users of the channel and the three machines

The projection of an execution of the channel to one of its parts is an execution of that part, and every operation
in progress belongs to exactly one user.
-/

namespace Thingbuf.Chan

variable {w : Nat} {V W : Type} {c : Config W} {tr : Trace V W} {s : State w V W}

@[simp] theorem coreOf_append (a b : Trace V W) : coreOf (a ++ b) = coreOf a ++ coreOf b := List.filterMap_append ..
@[simp] theorem cellOf_append (a b : Trace V W) : cellOf (a ++ b) = cellOf a ++ cellOf b := List.filterMap_append ..
@[simp] theorem queueOf_append (a b : Trace V W) : queueOf (a ++ b) = queueOf a ++ queueOf b := List.filterMap_append ..
@[simp] theorem apiOf_append (a b : Trace V W) : apiOf (a ++ b) = apiOf a ++ apiOf b := List.filterMap_append ..
@[simp] theorem coreOf_nil : coreOf ([] : Trace V W) = [] := rfl
@[simp] theorem cellOf_nil : cellOf ([] : Trace V W) = [] := rfl
@[simp] theorem queueOf_nil : queueOf ([] : Trace V W) = [] := rfl
@[simp] theorem apiOf_nil : apiOf ([] : Trace V W) = [] := rfl

@[simp] theorem coreOf_core (l : List (Event V)) : coreOf (l.map (.core : _ → Ev V W)) = l := by
  induction l <;> simp_all [coreOf]
@[simp] theorem coreOf_cell (l : List (Cell.Event W)) : coreOf (l.map (.cell : _ → Ev V W)) = [] := by
  induction l <;> simp_all [coreOf]
@[simp] theorem coreOf_queue (l : List (Queue.Event W)) : coreOf (l.map (.queue : _ → Ev V W)) = [] := by
  induction l <;> simp_all [coreOf]
@[simp] theorem coreOf_api (l : List (Api W)) : coreOf (l.map (.api : _ → Ev V W)) = [] := by
  induction l <;> simp_all [coreOf]
@[simp] theorem cellOf_core (l : List (Event V)) : cellOf (l.map (.core : _ → Ev V W)) = [] := by
  induction l <;> simp_all [cellOf]
@[simp] theorem cellOf_cell (l : List (Cell.Event W)) : cellOf (l.map (.cell : _ → Ev V W)) = l := by
  induction l <;> simp_all [cellOf]
@[simp] theorem cellOf_queue (l : List (Queue.Event W)) : cellOf (l.map (.queue : _ → Ev V W)) = [] := by
  induction l <;> simp_all [cellOf]
@[simp] theorem cellOf_api (l : List (Api W)) : cellOf (l.map (.api : _ → Ev V W)) = [] := by
  induction l <;> simp_all [cellOf]
@[simp] theorem queueOf_core (l : List (Event V)) : queueOf (l.map (.core : _ → Ev V W)) = [] := by
  induction l <;> simp_all [queueOf]
@[simp] theorem queueOf_cell (l : List (Cell.Event W)) : queueOf (l.map (.cell : _ → Ev V W)) = [] := by
  induction l <;> simp_all [queueOf]
@[simp] theorem queueOf_queue (l : List (Queue.Event W)) : queueOf (l.map (.queue : _ → Ev V W)) = l := by
  induction l <;> simp_all [queueOf]
@[simp] theorem queueOf_api (l : List (Api W)) : queueOf (l.map (.api : _ → Ev V W)) = [] := by
  induction l <;> simp_all [queueOf]
@[simp] theorem apiOf_core (l : List (Event V)) : apiOf (l.map (.core : _ → Ev V W)) = [] := by
  induction l <;> simp_all [apiOf]
@[simp] theorem apiOf_cell (l : List (Cell.Event W)) : apiOf (l.map (.cell : _ → Ev V W)) = [] := by
  induction l <;> simp_all [apiOf]
@[simp] theorem apiOf_queue (l : List (Queue.Event W)) : apiOf (l.map (.queue : _ → Ev V W)) = [] := by
  induction l <;> simp_all [apiOf]
@[simp] theorem apiOf_api (l : List (Api W)) : apiOf (l.map (.api : _ → Ev V W)) = l := by
  induction l <;> simp_all [apiOf]
@[simp] theorem coreOf_api1 (e : Api W) (l : Trace V W) : coreOf (.api e :: l) = coreOf l := rfl
@[simp] theorem cellOf_api1 (e : Api W) (l : Trace V W) : cellOf (.api e :: l) = cellOf l := rfl
@[simp] theorem queueOf_api1 (e : Api W) (l : Trace V W) : queueOf (.api e :: l) = queueOf l := rfl
@[simp] theorem apiOf_api1 (e : Api W) (l : Trace V W) : apiOf (.api e :: l) = e :: apiOf l := rfl

theorem mem_coreOf {e : Event V} : e ∈ coreOf tr ↔ Ev.core e ∈ tr := by
  simp only [coreOf, List.mem_filterMap]
  constructor
  · rintro ⟨x, hx, h⟩; cases x <;> simp at h; subst h; exact hx
  · exact fun h => ⟨_, h, rfl⟩
theorem mem_cellOf {e : Cell.Event W} : e ∈ cellOf tr ↔ Ev.cell e ∈ tr := by
  simp only [cellOf, List.mem_filterMap]
  constructor
  · rintro ⟨x, hx, h⟩; cases x <;> simp at h; subst h; exact hx
  · exact fun h => ⟨_, h, rfl⟩
theorem mem_queueOf {e : Queue.Event W} : e ∈ queueOf tr ↔ Ev.queue e ∈ tr := by
  simp only [queueOf, List.mem_filterMap]
  constructor
  · rintro ⟨x, hx, h⟩; cases x <;> simp at h; subst h; exact hx
  · exact fun h => ⟨_, h, rfl⟩
theorem mem_apiOf {e : Api W} : e ∈ apiOf tr ↔ Ev.api e ∈ tr := by
  simp only [apiOf, List.mem_filterMap]
  constructor
  · rintro ⟨x, hx, h⟩; cases x <;> simp at h; subst h; exact hx
  · exact fun h => ⟨_, h, rfl⟩

/-! ### Moves do not touch the machines -/

theorem ApiMove.frame {t : State w V W} {e : Api W} (h : ApiMove c s t e) :
    t.core = s.core ∧ t.cell = s.cell ∧ t.queue = s.queue := by cases h <;> exact ⟨rfl, rfl, rfl⟩
theorem CoreMove.frame {t : State w V W} {act} {r} {es : List (Api W)} (h : CoreMove c s act r t es) :
    t.cell = s.cell ∧ t.queue = s.queue := by cases h <;> exact ⟨rfl, rfl⟩
theorem CellMove.frame {t : State w V W} {act} {r} {es : List (Api W)} (h : CellMove c s act r t es) :
    t.core = s.core ∧ t.queue = s.queue := by cases h <;> exact ⟨rfl, rfl⟩
theorem QueueMove.frame {t : State w V W} {act} {r} {es : List (Api W)} (h : QueueMove c s act r t es) :
    t.core = s.core ∧ t.cell = s.cell := by cases h <;> exact ⟨rfl, rfl⟩

theorem Tr.core_exec {s' : State w V W} {evs : Trace V W} (ht : Tr c s s' evs)
    (h : Thingbuf.Exec w c.cap (coreOf tr) s.core) : Thingbuf.Exec w c.cap (coreOf (tr ++ evs)) s'.core := by
  cases ht with
  | api hm => simpa [hm.frame.1] using h
  | core h1 hm => simpa using h.step h1
  | cell h1 hm => simpa [hm.frame.1] using h
  | queue h1 hm => simpa [hm.frame.1] using h

theorem Tr.cell_exec {s' : State w V W} {evs : Trace V W} (ht : Tr c s s' evs)
    (h : Cell.Exec c.cell (cellOf tr) s.cell) : Cell.Exec c.cell (cellOf (tr ++ evs)) s'.cell := by
  cases ht with
  | api hm => simpa [hm.frame.2.1] using h
  | core h1 hm => simpa [hm.frame.1] using h
  | cell h1 hm => simpa using h.step h1
  | queue h1 hm => simpa [hm.frame.2] using h

theorem Tr.queue_exec {m : Bool} {s' : State w V W} {evs : Trace V W} (ht : Tr c s s' evs)
    (h : Queue.ExecM m c.queue (queueOf tr) s.queue) : Queue.ExecM m c.queue (queueOf (tr ++ evs)) s'.queue := by
  cases ht with
  | api hm => simpa [hm.frame.2.2] using h
  | core h1 hm => simpa [hm.frame.2] using h
  | cell h1 hm => simpa [hm.frame.2] using h
  | queue h1 hm => simpa using h.step h1

/-- The ring buffer of a channel behaves as the ring buffer machine. -/
theorem ExecM.core (h : Exec c tr s) : Thingbuf.Exec w c.cap (coreOf tr) s.core := by
  induction h with
  | init => exact .init
  | step _ hs ih => exact (step_tr hs).core_exec ih
  | stale hm => cases hm
  | mem _ _ hm => cases hm

/-- The wait cell of a channel behaves as the wait cell machine. -/
theorem ExecM.cell (h : Exec c tr s) : Cell.Exec c.cell (cellOf tr) s.cell := by
  induction h with
  | init => exact .init
  | step _ hs ih => exact (step_tr hs).cell_exec ih
  | stale hm => cases hm
  | mem _ _ hm => cases hm

/-- The wait queue of a channel behaves as the wait queue machine. -/
theorem ExecM.queue {m : Bool} (h : ExecM m c tr s) : Queue.ExecM m c.queue (queueOf tr) s.queue := by
  induction h with
  | init => exact .init
  | step _ hs ih => exact (step_tr hs).queue_exec ih
  | stale hm _ hs ih => exact ih.stale hm hs
  | mem _ _ _ _ _ _ ih => exact ih

/-! ### Ownership of operations -/

/-- The users of the channel. -/
inductive Agent where
  | snd (k : Nat)
  | rx
  | closer
  | ref (a : OpId)
  deriving DecidableEq

/-- Each operation in progress, of kind `kind`, is claimed by exactly one agent, which knows its kind. -/
structure Owns {K : Type} (claim : Agent → Option (Nat × K)) (kind : Nat → Option K) : Prop where
  sat : ∀ x a k, claim x = some (a, k) → kind a = some k
  inj : ∀ x y a k k', claim x = some (a, k) → claim y = some (a, k') → x = y
  cov : ∀ a k, kind a = some k → ∃ x, claim x = some (a, k)

theorem Owns.move {K : Type} {claim claim' : Agent → Option (Nat × K)} {kind kind' : Nat → Option K}
    (h : Owns claim kind) (x : Agent) (a : Nat) (hx : claim x = (kind a).map (a, ·))
    (hk : ∀ b, b ≠ a → kind' b = kind b) (hc : ∀ y, y ≠ x → claim' y = claim y)
    (hx' : claim' x = (kind' a).map (a, ·)) : Owns claim' kind' := by
  have key : ∀ y b k, y ≠ x → claim' y = some (b, k) → b ≠ a ∧ claim y = some (b, k) := by
    intro y b k hy hc'
    rw [hc y hy] at hc'
    refine ⟨?_, hc'⟩
    rintro rfl
    have := h.sat _ _ _ hc'
    rw [this] at hx
    exact hy (h.inj _ _ _ _ _ hc' hx)
  constructor
  · intro y b k hy
    by_cases hyx : y = x
    · subst hyx
      rw [hx'] at hy
      cases hka : kind' a <;> simp [hka] at hy
      obtain ⟨rfl, rfl⟩ := hy
      exact hka
    · obtain ⟨h1, h2⟩ := key y b k hyx hy
      rw [hk b h1]
      exact h.sat _ _ _ h2
  · intro y z b k k' hy hz
    by_cases hyx : y = x <;> by_cases hzx : z = x
    · rw [hyx, hzx]
    · exfalso
      obtain ⟨h1, _⟩ := key z b k' hzx hz
      subst hyx
      rw [hx'] at hy
      cases hka : kind' a <;> simp [hka] at hy
      exact h1 hy.1.symm
    · exfalso
      obtain ⟨h1, _⟩ := key y b k hyx hy
      subst hzx
      rw [hx'] at hz
      cases hka : kind' a <;> simp [hka] at hz
      exact h1 hz.1.symm
    · exact h.inj _ _ _ _ _ (key y b k hyx hy).2 (key z b k' hzx hz).2
  · intro b k hb
    by_cases hba : b = a
    · subst hba
      exact ⟨x, by rw [hx', hb]; rfl⟩
    · rw [hk b hba] at hb
      obtain ⟨y, hy⟩ := h.cov b k hb
      by_cases hyx : y = x
      · subst hyx
        rw [hx] at hy
        cases hka : kind a <;> simp [hka] at hy
        exact absurd hy.1.symm hba
      · exact ⟨y, by rw [hc y hyx]; exact hy⟩

/-- The operation `a` of `x` is handed over to `z`. -/
theorem Owns.transfer {K : Type} {claim claim' : Agent → Option (Nat × K)} {kind kind' : Nat → Option K}
    (h : Owns claim kind) (x z : Agent) (a : Nat) (k k' : K) (hxz : x ≠ z) (hx : claim x = some (a, k)) (hz : claim z = none)
    (hk : ∀ b, b ≠ a → kind' b = kind b) (hc : ∀ y, y ≠ x → y ≠ z → claim' y = claim y)
    (hx' : claim' x = none) (hka : kind' a = some k') (hz' : claim' z = some (a, k')) : Owns claim' kind' := by
  have key : ∀ y b k', y ≠ z → claim' y = some (b, k') → b ≠ a ∧ claim y = some (b, k') := by
    intro y b k' hy hc'
    have hyx : y ≠ x := by rintro rfl; rw [hx'] at hc'; cases hc'
    rw [hc y hyx hy] at hc'
    refine ⟨?_, hc'⟩
    rintro rfl
    exact hyx (h.inj _ _ _ _ _ hc' hx)
  constructor
  · intro y b k1 hy
    by_cases hyz : y = z
    · subst hyz
      rw [hz'] at hy
      cases hy
      exact hka
    · obtain ⟨h1, h2⟩ := key y b k1 hyz hy
      rw [hk b h1]
      exact h.sat _ _ _ h2
  · intro y y' b k1 k2 hy hy'
    by_cases hyz : y = z <;> by_cases hyz' : y' = z
    · rw [hyz, hyz']
    · exfalso
      subst hyz
      rw [hz'] at hy
      cases hy
      exact (key y' _ k2 hyz' hy').1 rfl
    · exfalso
      subst hyz'
      rw [hz'] at hy'
      cases hy'
      exact (key y _ k1 hyz hy).1 rfl
    · exact h.inj _ _ _ _ _ (key y b k1 hyz hy).2 (key y' b k2 hyz' hy').2
  · intro b k1 hb
    by_cases hba : b = a
    · subst hba
      rw [hka] at hb
      cases hb
      exact ⟨z, hz'⟩
    · rw [hk b hba] at hb
      obtain ⟨y, hy⟩ := h.cov b k1 hb
      have hyx : y ≠ x := by rintro rfl; rw [hx] at hy; cases hy; exact hba rfl
      have hyz : y ≠ z := by rintro rfl; rw [hz] at hy; cases hy
      exact ⟨y, by rw [hc y hyx hyz]; exact hy⟩

theorem Owns.congr {K : Type} {claim claim' : Agent → Option (Nat × K)} {kind kind' : Nat → Option K}
    (h : Owns claim kind) (hc : ∀ x, claim' x = claim x) (hk : ∀ a, kind' a = kind a) : Owns claim' kind' := by
  rw [show claim' = claim from funext hc, show kind' = kind from funext hk]
  exact h

/-- What the users claim, given what each control state claims. -/
def claimOf {K : Type} (fs : SPC → Option (Nat × K)) (fr : RPC W → Option (Nat × K)) (fc : CPC → Option (Nat × K))
    (ff : OpId → RefPC → Option (Nat × K)) (s : State w V W) : Agent → Option (Nat × K)
  | .snd k => fs (s.snd k)
  | .rx => fr s.rx
  | .closer => fc s.closer
  | .ref a => ff a (s.ref a)

/-- The control states of all agents but `x` are the same. -/
structure Same (x : Agent) (s t : State w V W) : Prop where
  snd : ∀ k, .snd k ≠ x → t.snd k = s.snd k
  rx : .rx ≠ x → t.rx = s.rx
  closer : .closer ≠ x → t.closer = s.closer
  ref : ∀ a, .ref a ≠ x → t.ref a = s.ref a

theorem Same.refl (x : Agent) (s : State w V W) : Same x s s := ⟨fun _ _ => rfl, fun _ => rfl, fun _ => rfl, fun _ _ => rfl⟩

theorem Same.claim {K : Type} {fs : SPC → Option (Nat × K)} {fr : RPC W → Option (Nat × K)} {fc : CPC → Option (Nat × K)}
    {ff : OpId → RefPC → Option (Nat × K)} {x : Agent} {s t : State w V W} (h : Same x s t) (y : Agent) (hy : y ≠ x) :
    claimOf fs fr fc ff t y = claimOf fs fr fc ff s y := by
  cases y with
  | snd k => simp only [claimOf, h.snd k hy]
  | rx => simp only [claimOf, h.rx hy]
  | closer => simp only [claimOf, h.closer hy]
  | ref a => simp only [claimOf, h.ref a hy]

theorem same_sgoto (s : State w V W) (k : Nat) (p : SPC) : Same (.snd k) s (s.sgoto k p) :=
  ⟨fun j hj => upd_ne _ _ fun e => hj (e ▸ rfl), fun _ => rfl, fun _ => rfl, fun _ _ => rfl⟩
theorem same_send (s : State w V W) (k : Nat) (p : SPC) (l) : Same (.snd k) s { s.sgoto k p with calls := l } :=
  ⟨fun j hj => upd_ne _ _ fun e => hj (e ▸ rfl), fun _ => rfl, fun _ => rfl, fun _ _ => rfl⟩
theorem same_sendEnd (s : State w V W) (k : Nat) (p : SPC) : Same (.snd k) s (s.sendEnd k p) :=
  ⟨fun j hj => upd_ne _ _ fun e => hj (e ▸ rfl), fun _ => rfl, fun _ => rfl, fun _ _ => rfl⟩
theorem same_rgoto (s : State w V W) (p : RPC W) : Same .rx s (s.rgoto p) :=
  ⟨fun _ _ => rfl, fun h => absurd rfl h, fun _ => rfl, fun _ _ => rfl⟩
theorem same_closer (s : State w V W) (p : CPC) : Same .closer s { s with closer := p } :=
  ⟨fun _ _ => rfl, fun _ => rfl, fun h => absurd rfl h, fun _ _ => rfl⟩
theorem same_refgoto (s : State w V W) (a : OpId) (p : RefPC) : Same (.ref a) s (s.refgoto a p) :=
  ⟨fun _ _ => rfl, fun _ => rfl, fun _ => rfl, fun j hj => upd_ne _ _ fun e => hj (e ▸ rfl)⟩
theorem same_refEnd (s : State w V W) (a : OpId) (p : RefPC) : Same (.ref a) s (s.refEnd a p) :=
  ⟨fun _ _ => rfl, fun _ => rfl, fun _ => rfl, fun j hj => upd_ne _ _ fun e => hj (e ▸ rfl)⟩

@[simp] theorem sgoto_snd (s : State w V W) (k : Nat) (p : SPC) : (s.sgoto k p).snd k = p := upd_self ..
@[simp] theorem sendEnd_snd (s : State w V W) (k : Nat) (p : SPC) : (s.sendEnd k p).snd k = p := upd_self ..
@[simp] theorem refgoto_ref (s : State w V W) (k : Nat) (p : RefPC) : (s.refgoto k p).ref k = p := upd_self ..
@[simp] theorem refEnd_ref (s : State w V W) (k : Nat) (p : RefPC) : (s.refEnd k p).ref k = p := upd_self ..

/-! #### The ring buffer -/

/-- Kinds of operations of the ring buffer in progress. -/
inductive CK where
  | push | pushHeld | pop | popHeld | close
  deriving DecidableEq

def coreKind : PC w → Option CK
  | .pushStart | .pushLoop _ _ | .pushCas _ _ | .pushInit _ | .pushHead _ _ | .pushReload _ => some .push
  | .pushHeld _ _ => some .pushHeld
  | .popStart | .popLoop _ _ | .popCas _ _ | .popTail _ _ | .popReload _ => some .pop
  | .popHeld _ _ => some .popHeld
  | .closeStart _ => some .close
  | _ => none

def sndCore : SPC → Option (Nat × CK)
  | .push a _ => some (a, .push)
  | .held a | .forgotten a => some (a, .pushHeld)
  | _ => none

def rxCore : RPC W → Option (Nat × CK)
  | .pop a _ | .pop2 a _ | .last a | .tryPop a _ => some (a, .pop)
  | .closing a => some (a, .close)
  | _ => none

def closerCore : CPC → Option (Nat × CK)
  | .closing a => some (a, .close)
  | _ => none

def refCore (a : OpId) : RefPC → Option (Nat × CK)
  | .held | .forgotten => some (a, .popHeld)
  | _ => none

def coreClaim (s : State w V W) : Agent → Option (Nat × CK) := claimOf sndCore rxCore closerCore refCore s

/-- What a step of an operation of the ring buffer in progress does to its kind. -/
def RunNext (k : Option CK) (r : Option Ret) (k' : Option CK) : Prop :=
    (k = some .push → (r = none → k' = some .push) ∧ (r = some .pushed → k' = some .pushHeld) ∧
      (r ≠ none → r ≠ some .pushed → k' = none) ∧ r ≠ some .popped) ∧
    (k = some .pop → (r = none → k' = some .pop) ∧ (r = some .popped → k' = some .popHeld) ∧
      (r ≠ none → r ≠ some .popped → k' = none) ∧ r ≠ some .pushed) ∧
    (k = some .close → k' = none ∧ ∃ b, r = some (.closeRet b))

/-- What a step of the ring buffer does to the kind of its operation. -/
def NextKind (act : Thingbuf.Act V) (k : Option CK) (r : Option Ret) (k' : Option CK) : Prop :=
  match act with
  | .invoke _ op => k = none ∧ r = none ∧ (∀ pan, op = .close pan → k' = some .close) ∧ (op = .push → k' = some .push) ∧
      (op = .pop → k' = some .pop)
  | .run _ | .spurious _ | .elem _ _ | .elemPanic _ _ => RunNext k r k'
  | .read _ | .write _ _ => r = none ∧ k' = k
  | .dropRef _ => r = none ∧ k' = none ∧ (k = some .pushHeld ∨ k = some .popHeld)

def actOp : Thingbuf.Act V → OpId
  | .invoke a _ | .run a | .spurious a | .elem a _ | .elemPanic a _ | .read a | .write a _ | .dropRef a => a

theorem core_next {cap : Nat} {s s' : Thingbuf.State w V} {act : Thingbuf.Act V} {evs : List (Event V)}
    (h : Thingbuf.step cap s act = some (s', evs)) :
    (∀ b, b ≠ actOp act → s'.pc b = s.pc b) ∧
    NextKind act (coreKind (s.pc (actOp act))) (coreRet evs) (coreKind (s'.pc (actOp act))) := by
  cases act with
  | invoke a op =>
    simp only [Thingbuf.step] at h
    split at h <;> cases h
    rename_i hp
    refine ⟨fun b hb => upd_ne _ _ hb, ?_⟩
    simp [NextKind, RunNext, actOp, hp, coreKind, coreRet, State.goto]
    cases op <;> simp [startPC]
  | run a =>
    simp only [Thingbuf.step, runStep] at h
    split at h <;> try (cases h; done)
    all_goals rename_i hp
    all_goals try simp only [pushLoop, pushCas, pushHead, popLoop, popCas, popTail, closeStep, Option.some.injEq] at h
    all_goals
      repeat' split at h
      all_goals first
        | (cases h; refine ⟨fun b hb => upd_ne _ _ hb, ?_⟩; simp [NextKind, RunNext, actOp, hp, coreKind, coreRet, State.goto]; done)
  | spurious a =>
    simp only [Thingbuf.step] at h
    split at h <;> try (cases h; done)
    all_goals rename_i hp
    all_goals simp only [pushCas, popCas, Option.some.injEq] at h
    all_goals
      repeat' split at h
      all_goals first
        | (cases h; refine ⟨fun b hb => upd_ne _ _ hb, ?_⟩; simp [NextKind, RunNext, actOp, hp, coreKind, coreRet, State.goto]; done)
  | elem a v =>
    simp only [Thingbuf.step] at h
    split at h <;> try (cases h; done)
    all_goals rename_i hp
    all_goals simp only [pushElem, Option.some.injEq] at h
    all_goals
      repeat' split at h
      all_goals first
        | (cases h; refine ⟨fun b hb => upd_ne _ _ hb, ?_⟩; simp [NextKind, RunNext, actOp, hp, coreKind, coreRet, State.goto]; done)
  | elemPanic a v =>
    simp only [Thingbuf.step] at h
    split at h <;> try (cases h; done)
    all_goals rename_i hp
    all_goals simp only [pushElemPanic, Option.some.injEq] at h
    all_goals
      repeat' split at h
      all_goals first
        | (cases h; refine ⟨fun b hb => upd_ne _ _ hb, ?_⟩; simp [NextKind, RunNext, actOp, hp, coreKind, coreRet, State.goto]; done)
  | read a =>
    simp only [Thingbuf.step] at h
    split at h <;> cases h <;> simp [NextKind, actOp, coreRet]
  | write a v =>
    simp only [Thingbuf.step] at h
    split at h <;> cases h <;> simp [NextKind, actOp, coreRet]
  | dropRef a =>
    simp only [Thingbuf.step] at h
    split at h <;> cases h
    all_goals rename_i hp
    all_goals refine ⟨fun b hb => upd_ne _ _ hb, ?_⟩
    all_goals simp [NextKind, RunNext, actOp, hp, coreKind, coreRet, State.goto]

@[simp] theorem actOp_invoke (a : OpId) (o : Op) : actOp (.invoke a o : Thingbuf.Act V) = a := rfl
@[simp] theorem actOp_run (a : OpId) : actOp (.run a : Thingbuf.Act V) = a := rfl
@[simp] theorem actOp_read (a : OpId) : actOp (.read a : Thingbuf.Act V) = a := rfl
@[simp] theorem actOp_write (a : OpId) (v : V) : actOp (.write a v) = a := rfl
@[simp] theorem actOp_drop (a : OpId) : actOp (.dropRef a : Thingbuf.Act V) = a := rfl
@[simp] theorem actOp_runAct (a : OpId) (spur : Bool) : actOp (runAct (V := V) a spur) = a := by cases spur <;> rfl
@[simp] theorem actOp_push (a : OpId) (i : PushIn V) : actOp (i.act a) = a := by
  cases i with
  | run spur => exact actOp_runAct a spur
  | elem v => rfl
  | elemPanic v => rfl
theorem next_runAct {a : OpId} {spur : Bool} {k k'} {r} (h : NextKind (runAct (V := V) a spur) k r k') : RunNext k r k' := by
  cases spur <;> exact h
theorem next_run {a : OpId} {k k'} {r} (h : NextKind (V := V) (.run a) k r k') : RunNext k r k' := h
theorem next_push {a : OpId} {i : PushIn V} {k k'} {r} (h : NextKind (i.act a) k r k') : RunNext k r k' := by
  cases i with
  | run spur => exact next_runAct h
  | elem v => exact h
  | elemPanic v => exact h

/-- Every operation of the ring buffer in progress belongs to one agent. -/
def CoreOwns (s : State w V W) : Prop := Owns (coreClaim s) fun a => coreKind (s.core.pc a)

theorem CoreOwns.move {s1 : Thingbuf.State w V} {act : Thingbuf.Act V} {evs : List (Event V)} {t : State w V W}
    (h : CoreOwns s) (h1 : Thingbuf.step c.cap s.core act = some (s1, evs)) (x : Agent)
    (hx : coreClaim s x = (coreKind (s.core.pc (actOp act))).map (actOp act, ·)) (hs : Same x s t)
    (hx' : coreClaim t x = (coreKind (s1.pc (actOp act))).map (actOp act, ·)) : CoreOwns { t with core := s1 } :=
  Owns.move h x (actOp act) hx (fun b hb => by simp only [(core_next h1).1 b hb]) (fun y hy => hs.claim y hy) hx'

/-- The receiver's pop operation returned a `Ref`. -/
theorem CoreOwns.got {s1 : Thingbuf.State w V} {act : Thingbuf.Act V} {evs : List (Event V)} {t : State w V W} {a : OpId} {p : Option W}
    (h : CoreOwns s) (h1 : Thingbuf.step c.cap s.core act = some (s1, evs)) (ha : actOp act = a)
    (hx : coreClaim s .rx = some (a, .pop)) (hk : coreKind (s.core.pc a) = some .pop)
    (hk' : coreKind (s1.pc a) = some .popHeld) (ht : t = (s.newRef a).rgoto (.idle p)) : CoreOwns { t with core := s1 } := by
  subst ha ht
  refine Owns.transfer h .rx (.ref (actOp act)) (actOp act) .pop .popHeld (by simp) hx ?_
    (fun b hb => by simp only [(core_next h1).1 b hb]) ?_ rfl hk' ?_
  · cases hr : coreClaim s (.ref (actOp act)) with
    | none => rfl
    | some y =>
      have : y = (actOp act, .popHeld) := by
        simp only [coreClaim, claimOf] at hr
        cases hq : s.ref (actOp act) <;> simp [hq, refCore] at hr <;> exact hr.symm
      rw [this] at hr
      have := h.sat _ _ _ hr
      rw [hk] at this
      cases this
  · intro y hy hy2
    cases y with
    | snd k => rfl
    | rx => exact absurd rfl hy
    | closer => rfl
    | ref b =>
      have hb : b ≠ actOp act := fun e => hy2 (e ▸ rfl)
      simp [coreClaim, claimOf, State.rgoto, State.newRef, State.refgoto, upd_ne _ _ hb]
  · simp [coreClaim, claimOf, State.rgoto, State.newRef, State.refgoto, refCore]

theorem CoreOwns.core {s1 : Thingbuf.State w V} {act : Thingbuf.Act V} {evs : List (Event V)} {t : State w V W} {es : List (Api W)}
    (h : CoreOwns s) (h1 : Thingbuf.step c.cap s.core act = some (s1, evs)) (hm : CoreMove c s act (coreRet evs) t es) :
    CoreOwns { t with core := s1 } := by
  have hn := (core_next h1).2
  generalize coreRet evs = r at hm hn
  cases hm with
  | cCall pan o r hp =>
    obtain ⟨hn1, -, hn2, hn3, hn4⟩ := hn
    refine h.move h1 .closer ?_ (same_closer s _) ?_
    · simp only [actOp_invoke] at hn1; simp only [actOp_invoke, hn1, coreClaim, claimOf, hp, sndCore, rxCore, closerCore, Option.map]
    · have hn := hn2 pan rfl
      simp only [actOp_invoke] at hn ⊢
      rw [hn]
      simp [coreClaim, claimOf, State.rgoto, sndCore, rxCore, closerCore]
  | cStay a hp =>
    have hk : coreKind (s.core.pc a) = some .close := h.sat .closer a .close (by simp [coreClaim, claimOf, hp, closerCore])
    obtain ⟨_, b, hb⟩ := (next_run hn).2.2 hk
    cases hb
  | cNext a r hp h1' =>
    have hk : coreKind (s.core.pc a) = some .close := h.sat .closer a .close (by simp [coreClaim, claimOf, hp, sndCore, rxCore, closerCore])
    have hn := next_run hn
    simp only [actOp_push, actOp_runAct, actOp_run, hk] at hn
    refine h.move h1 .closer ?_ (same_closer s _) ?_
    · simp only [actOp_push, actOp_runAct, actOp_run, hk, coreClaim, claimOf, hp, sndCore, rxCore, closerCore, Option.map]
    · simp only [actOp_push, actOp_runAct, actOp_run]
      rw [(hn.2.2 rfl).1]
      simp [coreClaim, claimOf, State.rgoto, hp, sndCore, rxCore, closerCore]
  | cSkip a r hp h1' h2' =>
    have hk : coreKind (s.core.pc a) = some .close := h.sat .closer a .close (by simp [coreClaim, claimOf, hp, sndCore, rxCore, closerCore])
    have hn := next_run hn
    simp only [actOp_push, actOp_runAct, actOp_run, hk] at hn
    refine h.move h1 .closer ?_ (same_closer s _) ?_
    · simp only [actOp_push, actOp_runAct, actOp_run, hk, coreClaim, claimOf, hp, sndCore, rxCore, closerCore, Option.map]
    · simp only [actOp_push, actOp_runAct, actOp_run]
      rw [(hn.2.2 rfl).1]
      simp [coreClaim, claimOf, State.rgoto, hp, sndCore, rxCore, closerCore]
  | send k h' wait a r hp h2' =>
    obtain ⟨hn1, -, hn2, hn3, hn4⟩ := hn
    refine h.move h1 (.snd k) ?_ (same_send s k _ _) ?_
    · simp only [actOp_invoke] at hn1; simp only [actOp_invoke, hn1, coreClaim, claimOf, hp, sndCore, rxCore, closerCore, Option.map]
    · have hn := hn3 rfl
      simp only [actOp_invoke] at hn ⊢
      rw [hn]
      simp [coreClaim, claimOf, State.rgoto, sndCore, rxCore, closerCore]
  | pushStay k a att i hp =>
    have hk : coreKind (s.core.pc a) = some .push := h.sat (.snd k) a .push (by simp [coreClaim, claimOf, hp, sndCore, rxCore, closerCore])
    have hn := next_push hn
    simp only [actOp_push, actOp_runAct, actOp_run, hk] at hn
    refine h.move h1 (.snd k) ?_ (.refl _ _) ?_
    · simp only [actOp_push, actOp_runAct, actOp_run, hk, coreClaim, claimOf, hp, sndCore, rxCore, closerCore, Option.map]
    · simp only [actOp_push, actOp_runAct, actOp_run]
      rw [(hn.1 rfl).1 rfl]
      simp [coreClaim, claimOf, State.rgoto, hp, sndCore, rxCore, closerCore]
  | pushOk k a att i hp =>
    have hk : coreKind (s.core.pc a) = some .push := h.sat (.snd k) a .push (by simp [coreClaim, claimOf, hp, sndCore, rxCore, closerCore])
    have hn := next_push hn
    simp only [actOp_push, actOp_runAct, actOp_run, hk] at hn
    refine h.move h1 (.snd k) ?_ (same_sgoto s k _) ?_
    · simp only [actOp_push, actOp_runAct, actOp_run, hk, coreClaim, claimOf, hp, sndCore, rxCore, closerCore, Option.map]
    · simp only [actOp_push, actOp_runAct, actOp_run]
      rw [(hn.1 rfl).2.1 rfl]
      simp [coreClaim, claimOf, State.rgoto, hp, sndCore, rxCore, closerCore]
  | pushClosed k a att i hp =>
    have hk : coreKind (s.core.pc a) = some .push := h.sat (.snd k) a .push (by simp [coreClaim, claimOf, hp, sndCore, rxCore, closerCore])
    have hn := next_push hn
    simp only [actOp_push, actOp_runAct, actOp_run, hk] at hn
    refine h.move h1 (.snd k) ?_ (same_sendEnd s k _) ?_
    · simp only [actOp_push, actOp_runAct, actOp_run, hk, coreClaim, claimOf, hp, sndCore, rxCore, closerCore, Option.map]
    · simp only [actOp_push, actOp_runAct, actOp_run]
      rw [(hn.1 rfl).2.2.1 (by simp) (by simp)]
      simp [coreClaim, claimOf, State.rgoto, hp, sndCore, rxCore, closerCore]
  | fullOnly k a i hp =>
    have hk : coreKind (s.core.pc a) = some .push := h.sat (.snd k) a .push (by simp [coreClaim, claimOf, hp, sndCore, rxCore, closerCore])
    have hn := next_push hn
    simp only [actOp_push, actOp_runAct, actOp_run, hk] at hn
    refine h.move h1 (.snd k) ?_ (same_sendEnd s k _) ?_
    · simp only [actOp_push, actOp_runAct, actOp_run, hk, coreClaim, claimOf, hp, sndCore, rxCore, closerCore, Option.map]
    · simp only [actOp_push, actOp_runAct, actOp_run]
      rw [(hn.1 rfl).2.2.1 (by simp) (by simp)]
      simp [coreClaim, claimOf, State.rgoto, hp, sndCore, rxCore, closerCore]
  | fullStart k a i hp =>
    have hk : coreKind (s.core.pc a) = some .push := h.sat (.snd k) a .push (by simp [coreClaim, claimOf, hp, sndCore, rxCore, closerCore])
    have hn := next_push hn
    simp only [actOp_push, actOp_runAct, actOp_run, hk] at hn
    refine h.move h1 (.snd k) ?_ (same_sgoto s k _) ?_
    · simp only [actOp_push, actOp_runAct, actOp_run, hk, coreClaim, claimOf, hp, sndCore, rxCore, closerCore, Option.map]
    · simp only [actOp_push, actOp_runAct, actOp_run]
      rw [(hn.1 rfl).2.2.1 (by simp) (by simp)]
      simp [coreClaim, claimOf, State.rgoto, hp, sndCore, rxCore, closerCore]
  | fullBlocking k a i hp hb =>
    have hk : coreKind (s.core.pc a) = some .push := h.sat (.snd k) a .push (by simp [coreClaim, claimOf, hp, sndCore, rxCore, closerCore])
    have hn := next_push hn
    simp only [actOp_push, actOp_runAct, actOp_run, hk] at hn
    refine h.move h1 (.snd k) ?_ (same_sgoto s k _) ?_
    · simp only [actOp_push, actOp_runAct, actOp_run, hk, coreClaim, claimOf, hp, sndCore, rxCore, closerCore, Option.map]
    · simp only [actOp_push, actOp_runAct, actOp_run]
      rw [(hn.1 rfl).2.2.1 (by simp) (by simp)]
      simp [coreClaim, claimOf, State.rgoto, hp, sndCore, rxCore, closerCore]
  | fullAsync k a i hp hb =>
    have hk : coreKind (s.core.pc a) = some .push := h.sat (.snd k) a .push (by simp [coreClaim, claimOf, hp, sndCore, rxCore, closerCore])
    have hn := next_push hn
    simp only [actOp_push, actOp_runAct, actOp_run, hk] at hn
    refine h.move h1 (.snd k) ?_ (same_sgoto s k _) ?_
    · simp only [actOp_push, actOp_runAct, actOp_run, hk, coreClaim, claimOf, hp, sndCore, rxCore, closerCore, Option.map]
    · simp only [actOp_push, actOp_runAct, actOp_run]
      rw [(hn.1 rfl).2.2.1 (by simp) (by simp)]
      simp [coreClaim, claimOf, State.rgoto, hp, sndCore, rxCore, closerCore]
  | pushPanic k a att i r hp h1' h2' h3' =>
    have hk : coreKind (s.core.pc a) = some .push := h.sat (.snd k) a .push (by simp [coreClaim, claimOf, hp, sndCore, rxCore, closerCore])
    have hn := next_push hn
    simp only [actOp_push, actOp_runAct, actOp_run, hk] at hn
    refine h.move h1 (.snd k) ?_ (same_sendEnd s k _) ?_
    · simp only [actOp_push, actOp_runAct, actOp_run, hk, coreClaim, claimOf, hp, sndCore, rxCore, closerCore, Option.map]
    · simp only [actOp_push, actOp_runAct, actOp_run]
      rw [(hn.1 rfl).2.2.1 (by simp) (by simpa using h1')]
      simp [coreClaim, claimOf, State.rgoto, hp, sndCore, rxCore, closerCore]
  | retry k att a r hp =>
    obtain ⟨hn1, -, hn2, hn3, hn4⟩ := hn
    refine h.move h1 (.snd k) ?_ (same_sgoto s k _) ?_
    · simp only [actOp_invoke] at hn1; simp only [actOp_invoke, hn1, coreClaim, claimOf, hp, sndCore, rxCore, closerCore, Option.map]
    · have hn := hn3 rfl
      simp only [actOp_invoke] at hn ⊢
      rw [hn]
      simp [coreClaim, claimOf, State.rgoto, sndCore, rxCore, closerCore]
  | sendRead k a r hp =>
    obtain ⟨-, hn⟩ := hn
    have hk : coreKind (s.core.pc a) = some .pushHeld := h.sat (.snd k) a .pushHeld (by simp [coreClaim, claimOf, hp, sndCore, refCore])
    simp only [actOp_read, actOp_write, actOp_drop] at hn
    refine h.move h1 (.snd k) ?_ (.refl _ _) ?_
    · simp only [actOp_read, actOp_write, actOp_drop, hk, coreClaim, claimOf, hp, sndCore, refCore, Option.map]
    · simp only [actOp_read, actOp_write, actOp_drop, hn, hk, coreClaim, claimOf, hp, sndCore, refCore, Option.map]
  | sendWrite k a v r hp =>
    obtain ⟨-, hn⟩ := hn
    have hk : coreKind (s.core.pc a) = some .pushHeld := h.sat (.snd k) a .pushHeld (by simp [coreClaim, claimOf, hp, sndCore, refCore])
    simp only [actOp_read, actOp_write, actOp_drop] at hn
    refine h.move h1 (.snd k) ?_ (.refl _ _) ?_
    · simp only [actOp_read, actOp_write, actOp_drop, hk, coreClaim, claimOf, hp, sndCore, refCore, Option.map]
    · simp only [actOp_read, actOp_write, actOp_drop, hn, hk, coreClaim, claimOf, hp, sndCore, refCore, Option.map]
  | dropSend k a r hp =>
    obtain ⟨-, hn, -⟩ := hn
    have hk : coreKind (s.core.pc a) = some .pushHeld := h.sat (.snd k) a .pushHeld (by simp [coreClaim, claimOf, hp, sndCore, refCore])
    simp only [actOp_read, actOp_write, actOp_drop] at hn
    refine h.move h1 (.snd k) ?_ (same_sgoto s k _) ?_
    · simp only [actOp_read, actOp_write, actOp_drop, hk, coreClaim, claimOf, hp, sndCore, refCore, Option.map]
    · simp only [actOp_read, actOp_write, actOp_drop, hn]; simp [coreClaim, claimOf, sndCore, refCore]
  | tryRecv p a r hp =>
    obtain ⟨hn1, -, hn2, hn3, hn4⟩ := hn
    refine h.move h1 .rx ?_ (same_rgoto s _) ?_
    · simp only [actOp_invoke] at hn1; simp only [actOp_invoke, hn1, coreClaim, claimOf, hp, sndCore, rxCore, closerCore, Option.map]
    · have hn := hn4 rfl
      simp only [actOp_invoke] at hn ⊢
      rw [hn]
      simp [coreClaim, claimOf, State.rgoto, sndCore, rxCore, closerCore]
  | tryStay a p spur hp =>
    have hk : coreKind (s.core.pc a) = some .pop := h.sat .rx a .pop (by simp [coreClaim, claimOf, hp, sndCore, rxCore, closerCore])
    have hn := next_runAct hn
    simp only [actOp_push, actOp_runAct, actOp_run, hk] at hn
    refine h.move h1 .rx ?_ (.refl _ _) ?_
    · simp only [actOp_push, actOp_runAct, actOp_run, hk, coreClaim, claimOf, hp, sndCore, rxCore, closerCore, Option.map]
    · simp only [actOp_push, actOp_runAct, actOp_run]
      rw [(hn.2.1 rfl).1 rfl]
      simp [coreClaim, claimOf, State.rgoto, hp, sndCore, rxCore, closerCore]
  | tryOk a p spur hp =>
    have hk : coreKind (s.core.pc a) = some .pop := h.sat .rx a .pop (by simp [coreClaim, claimOf, hp, rxCore])
    have hn := next_runAct hn
    simp only [actOp_runAct, hk] at hn
    exact h.got h1 (actOp_runAct _ _) (by simp [coreClaim, claimOf, hp, rxCore]) hk ((hn.2.1 rfl).2.1 rfl) rfl
  | tryClosed a p spur hp =>
    have hk : coreKind (s.core.pc a) = some .pop := h.sat .rx a .pop (by simp [coreClaim, claimOf, hp, sndCore, rxCore, closerCore])
    have hn := next_runAct hn
    simp only [actOp_push, actOp_runAct, actOp_run, hk] at hn
    refine h.move h1 .rx ?_ (same_rgoto s _) ?_
    · simp only [actOp_push, actOp_runAct, actOp_run, hk, coreClaim, claimOf, hp, sndCore, rxCore, closerCore, Option.map]
    · simp only [actOp_push, actOp_runAct, actOp_run]
      rw [(hn.2.1 rfl).2.2.1 (by simp) (by simp)]
      simp [coreClaim, claimOf, State.rgoto, hp, sndCore, rxCore, closerCore]
  | tryEmpty a p spur r hp h1' h2' =>
    have hk : coreKind (s.core.pc a) = some .pop := h.sat .rx a .pop (by simp [coreClaim, claimOf, hp, sndCore, rxCore, closerCore])
    have hn := next_runAct hn
    simp only [actOp_push, actOp_runAct, actOp_run, hk] at hn
    refine h.move h1 .rx ?_ (same_rgoto s _) ?_
    · simp only [actOp_push, actOp_runAct, actOp_run, hk, coreClaim, claimOf, hp, sndCore, rxCore, closerCore, Option.map]
    · simp only [actOp_push, actOp_runAct, actOp_run]
      rw [(hn.2.1 rfl).2.2.1 (by simp) (by simpa using h1')]
      simp [coreClaim, claimOf, State.rgoto, hp, sndCore, rxCore, closerCore]
  | toPop v a r hp =>
    obtain ⟨hn1, -, hn2, hn3, hn4⟩ := hn
    refine h.move h1 .rx ?_ (same_rgoto s _) ?_
    · simp only [actOp_invoke] at hn1; simp only [actOp_invoke, hn1, coreClaim, claimOf, hp, sndCore, rxCore, closerCore, Option.map]
    · have hn := hn4 rfl
      simp only [actOp_invoke] at hn ⊢
      rw [hn]
      simp [coreClaim, claimOf, State.rgoto, sndCore, rxCore, closerCore]
  | popStay a v spur hp =>
    have hk : coreKind (s.core.pc a) = some .pop := h.sat .rx a .pop (by simp [coreClaim, claimOf, hp, sndCore, rxCore, closerCore])
    have hn := next_runAct hn
    simp only [actOp_push, actOp_runAct, actOp_run, hk] at hn
    refine h.move h1 .rx ?_ (.refl _ _) ?_
    · simp only [actOp_push, actOp_runAct, actOp_run, hk, coreClaim, claimOf, hp, sndCore, rxCore, closerCore, Option.map]
    · simp only [actOp_push, actOp_runAct, actOp_run]
      rw [(hn.2.1 rfl).1 rfl]
      simp [coreClaim, claimOf, State.rgoto, hp, sndCore, rxCore, closerCore]
  | popSome a v spur hp =>
    have hk : coreKind (s.core.pc a) = some .pop := h.sat .rx a .pop (by simp [coreClaim, claimOf, hp, rxCore])
    have hn := next_runAct hn
    simp only [actOp_runAct, hk] at hn
    exact h.got h1 (actOp_runAct _ _) (by simp [coreClaim, claimOf, hp, rxCore]) hk ((hn.2.1 rfl).2.1 rfl) rfl
  | popNone a v spur hp =>
    have hk : coreKind (s.core.pc a) = some .pop := h.sat .rx a .pop (by simp [coreClaim, claimOf, hp, sndCore, rxCore, closerCore])
    have hn := next_runAct hn
    simp only [actOp_push, actOp_runAct, actOp_run, hk] at hn
    refine h.move h1 .rx ?_ (same_rgoto s _) ?_
    · simp only [actOp_push, actOp_runAct, actOp_run, hk, coreClaim, claimOf, hp, sndCore, rxCore, closerCore, Option.map]
    · simp only [actOp_push, actOp_runAct, actOp_run]
      rw [(hn.2.1 rfl).2.2.1 (by simp) (by simp)]
      simp [coreClaim, claimOf, State.rgoto, hp, sndCore, rxCore, closerCore]
  | popEmpty a v spur r hp h1' h2' =>
    have hk : coreKind (s.core.pc a) = some .pop := h.sat .rx a .pop (by simp [coreClaim, claimOf, hp, sndCore, rxCore, closerCore])
    have hn := next_runAct hn
    simp only [actOp_push, actOp_runAct, actOp_run, hk] at hn
    refine h.move h1 .rx ?_ (same_rgoto s _) ?_
    · simp only [actOp_push, actOp_runAct, actOp_run, hk, coreClaim, claimOf, hp, sndCore, rxCore, closerCore, Option.map]
    · simp only [actOp_push, actOp_runAct, actOp_run]
      rw [(hn.2.1 rfl).2.2.1 (by simp) (by simpa using h1')]
      simp [coreClaim, claimOf, State.rgoto, hp, sndCore, rxCore, closerCore]
  | toPop2 v a r hp =>
    obtain ⟨hn1, -, hn2, hn3, hn4⟩ := hn
    refine h.move h1 .rx ?_ (same_rgoto s _) ?_
    · simp only [actOp_invoke] at hn1; simp only [actOp_invoke, hn1, coreClaim, claimOf, hp, sndCore, rxCore, closerCore, Option.map]
    · have hn := hn4 rfl
      simp only [actOp_invoke] at hn ⊢
      rw [hn]
      simp [coreClaim, claimOf, State.rgoto, sndCore, rxCore, closerCore]
  | pop2Stay a v spur hp =>
    have hk : coreKind (s.core.pc a) = some .pop := h.sat .rx a .pop (by simp [coreClaim, claimOf, hp, sndCore, rxCore, closerCore])
    have hn := next_runAct hn
    simp only [actOp_push, actOp_runAct, actOp_run, hk] at hn
    refine h.move h1 .rx ?_ (.refl _ _) ?_
    · simp only [actOp_push, actOp_runAct, actOp_run, hk, coreClaim, claimOf, hp, sndCore, rxCore, closerCore, Option.map]
    · simp only [actOp_push, actOp_runAct, actOp_run]
      rw [(hn.2.1 rfl).1 rfl]
      simp [coreClaim, claimOf, State.rgoto, hp, sndCore, rxCore, closerCore]
  | pop2Some a v spur hp =>
    have hk : coreKind (s.core.pc a) = some .pop := h.sat .rx a .pop (by simp [coreClaim, claimOf, hp, rxCore])
    have hn := next_runAct hn
    simp only [actOp_runAct, hk] at hn
    exact h.got h1 (actOp_runAct _ _) (by simp [coreClaim, claimOf, hp, rxCore]) hk ((hn.2.1 rfl).2.1 rfl) rfl
  | pop2None a v spur hp =>
    have hk : coreKind (s.core.pc a) = some .pop := h.sat .rx a .pop (by simp [coreClaim, claimOf, hp, sndCore, rxCore, closerCore])
    have hn := next_runAct hn
    simp only [actOp_push, actOp_runAct, actOp_run, hk] at hn
    refine h.move h1 .rx ?_ (same_rgoto s _) ?_
    · simp only [actOp_push, actOp_runAct, actOp_run, hk, coreClaim, claimOf, hp, sndCore, rxCore, closerCore, Option.map]
    · simp only [actOp_push, actOp_runAct, actOp_run]
      rw [(hn.2.1 rfl).2.2.1 (by simp) (by simp)]
      simp [coreClaim, claimOf, State.rgoto, hp, sndCore, rxCore, closerCore]
  | pop2Pending a v spur r hp h1' h2' =>
    have hk : coreKind (s.core.pc a) = some .pop := h.sat .rx a .pop (by simp [coreClaim, claimOf, hp, sndCore, rxCore, closerCore])
    have hn := next_runAct hn
    simp only [actOp_push, actOp_runAct, actOp_run, hk] at hn
    refine h.move h1 .rx ?_ (same_rgoto s _) ?_
    · simp only [actOp_push, actOp_runAct, actOp_run, hk, coreClaim, claimOf, hp, sndCore, rxCore, closerCore, Option.map]
    · simp only [actOp_push, actOp_runAct, actOp_run]
      rw [(hn.2.1 rfl).2.2.1 (by simp) (by simpa using h1')]
      simp [coreClaim, claimOf, State.rgoto, hp, sndCore, rxCore, closerCore]
  | toLast a r hp =>
    obtain ⟨hn1, -, hn2, hn3, hn4⟩ := hn
    refine h.move h1 .rx ?_ (same_rgoto s _) ?_
    · simp only [actOp_invoke] at hn1; simp only [actOp_invoke, hn1, coreClaim, claimOf, hp, sndCore, rxCore, closerCore, Option.map]
    · have hn := hn4 rfl
      simp only [actOp_invoke] at hn ⊢
      rw [hn]
      simp [coreClaim, claimOf, State.rgoto, sndCore, rxCore, closerCore]
  | lastStay a spur hp =>
    have hk : coreKind (s.core.pc a) = some .pop := h.sat .rx a .pop (by simp [coreClaim, claimOf, hp, sndCore, rxCore, closerCore])
    have hn := next_runAct hn
    simp only [actOp_push, actOp_runAct, actOp_run, hk] at hn
    refine h.move h1 .rx ?_ (.refl _ _) ?_
    · simp only [actOp_push, actOp_runAct, actOp_run, hk, coreClaim, claimOf, hp, sndCore, rxCore, closerCore, Option.map]
    · simp only [actOp_push, actOp_runAct, actOp_run]
      rw [(hn.2.1 rfl).1 rfl]
      simp [coreClaim, claimOf, State.rgoto, hp, sndCore, rxCore, closerCore]
  | lastSome a spur hp =>
    have hk : coreKind (s.core.pc a) = some .pop := h.sat .rx a .pop (by simp [coreClaim, claimOf, hp, rxCore])
    have hn := next_runAct hn
    simp only [actOp_runAct, hk] at hn
    exact h.got h1 (actOp_runAct _ _) (by simp [coreClaim, claimOf, hp, rxCore]) hk ((hn.2.1 rfl).2.1 rfl) rfl
  | lastNone a spur r hp h1' =>
    have hk : coreKind (s.core.pc a) = some .pop := h.sat .rx a .pop (by simp [coreClaim, claimOf, hp, sndCore, rxCore, closerCore])
    have hn := next_runAct hn
    simp only [actOp_push, actOp_runAct, actOp_run, hk] at hn
    refine h.move h1 .rx ?_ (same_rgoto s _) ?_
    · simp only [actOp_push, actOp_runAct, actOp_run, hk, coreClaim, claimOf, hp, sndCore, rxCore, closerCore, Option.map]
    · simp only [actOp_push, actOp_runAct, actOp_run]
      rw [(hn.2.1 rfl).2.2.1 (by simp) (by simpa using h1')]
      simp [coreClaim, claimOf, State.rgoto, hp, sndCore, rxCore, closerCore]
  | rxClose pan o r hp =>
    obtain ⟨hn1, -, hn2, hn3, hn4⟩ := hn
    refine h.move h1 .rx ?_ (same_rgoto s _) ?_
    · simp only [actOp_invoke] at hn1; simp only [actOp_invoke, hn1, coreClaim, claimOf, hp, sndCore, rxCore, closerCore, Option.map]
    · have hn := hn2 pan rfl
      simp only [actOp_invoke] at hn ⊢
      rw [hn]
      simp [coreClaim, claimOf, State.rgoto, sndCore, rxCore, closerCore]
  | rxStay a hp =>
    have hk : coreKind (s.core.pc a) = some .close := h.sat .rx a .close (by simp [coreClaim, claimOf, hp, rxCore])
    obtain ⟨_, b, hb⟩ := (next_run hn).2.2 hk
    cases hb
  | rxClosed a hp =>
    have hk : coreKind (s.core.pc a) = some .close := h.sat .rx a .close (by simp [coreClaim, claimOf, hp, sndCore, rxCore, closerCore])
    have hn := next_run hn
    simp only [actOp_push, actOp_runAct, actOp_run, hk] at hn
    refine h.move h1 .rx ?_ (same_rgoto s _) ?_
    · simp only [actOp_push, actOp_runAct, actOp_run, hk, coreClaim, claimOf, hp, sndCore, rxCore, closerCore, Option.map]
    · simp only [actOp_push, actOp_runAct, actOp_run]
      rw [(hn.2.2 rfl).1]
      simp [coreClaim, claimOf, State.rgoto, hp, sndCore, rxCore, closerCore]
  | rxSkip a r hp h1' =>
    have hk : coreKind (s.core.pc a) = some .close := h.sat .rx a .close (by simp [coreClaim, claimOf, hp, sndCore, rxCore, closerCore])
    have hn := next_run hn
    simp only [actOp_push, actOp_runAct, actOp_run, hk] at hn
    refine h.move h1 .rx ?_ (same_rgoto s _) ?_
    · simp only [actOp_push, actOp_runAct, actOp_run, hk, coreClaim, claimOf, hp, sndCore, rxCore, closerCore, Option.map]
    · simp only [actOp_push, actOp_runAct, actOp_run]
      rw [(hn.2.2 rfl).1]
      simp [coreClaim, claimOf, State.rgoto, hp, sndCore, rxCore, closerCore]
  | recvRead a r hp =>
    obtain ⟨-, hn⟩ := hn
    have hk : coreKind (s.core.pc a) = some .popHeld := h.sat (.ref a) a .popHeld (by simp [coreClaim, claimOf, hp, sndCore, refCore])
    simp only [actOp_read, actOp_write, actOp_drop] at hn
    refine h.move h1 (.ref a) ?_ (.refl _ _) ?_
    · simp only [actOp_read, actOp_write, actOp_drop, hk, coreClaim, claimOf, hp, sndCore, refCore, Option.map]
    · simp only [actOp_read, actOp_write, actOp_drop, hn, hk, coreClaim, claimOf, hp, sndCore, refCore, Option.map]
  | recvWrite a v r hp =>
    obtain ⟨-, hn⟩ := hn
    have hk : coreKind (s.core.pc a) = some .popHeld := h.sat (.ref a) a .popHeld (by simp [coreClaim, claimOf, hp, sndCore, refCore])
    simp only [actOp_read, actOp_write, actOp_drop] at hn
    refine h.move h1 (.ref a) ?_ (.refl _ _) ?_
    · simp only [actOp_read, actOp_write, actOp_drop, hk, coreClaim, claimOf, hp, sndCore, refCore, Option.map]
    · simp only [actOp_read, actOp_write, actOp_drop, hn, hk, coreClaim, claimOf, hp, sndCore, refCore, Option.map]
  | dropRecv a r hp =>
    obtain ⟨-, hn, -⟩ := hn
    have hk : coreKind (s.core.pc a) = some .popHeld := h.sat (.ref a) a .popHeld (by simp [coreClaim, claimOf, hp, sndCore, refCore])
    simp only [actOp_read, actOp_write, actOp_drop] at hn
    refine h.move h1 (.ref a) ?_ (same_refgoto s a _) ?_
    · simp only [actOp_read, actOp_write, actOp_drop, hk, coreClaim, claimOf, hp, sndCore, refCore, Option.map]
    · simp only [actOp_read, actOp_write, actOp_drop, hn]; simp [coreClaim, claimOf, sndCore, refCore]

end Thingbuf.Chan
